# Formal model of Rexagon/opg in Lean 4

## Layout

| directory | content |
|---|---|
| `lean/Verif/Base` | `BTreeMap` as a key-sorted association list |
| `lean/Verif/Model` | the model: one definition per Rust function or macro arm, each citing file and lines in `/repo` |
| `lean/Verif/Spec` | small specifications, written without the model's helpers where the property has an independent meaning |
| `lean/Verif/Proof` | helper lemmas |
| `lean/Verif/Props` | the property theorems `cNN_...`, next to `example`s that show that their hypotheses can be met |
| `lean/Verif/Check` | the project's own tests run on the model: `Expected` is extracted from `/repo/test_suite/tests` by `tools/suite.py`, `Suite` compares (checks of the model, not claims) |
| `properties.jsonl` | the properties in English |
| `MANIFEST.json` | which theorems establish which property (generated by `tools/manifest.py` from `tools/claims.py`) |
| `seeded/LOG.jsonl` | wrong versions of the model and the theorems that reject them |
| `tools/imports.sh` | regenerates `lean/Verif.lean`; `tools/axioms.py` regenerates the axiom table below |

## What is modelled and how

| code | model | how |
|---|---|---|
| `BTreeMap` | `Base/BMap` | association list kept strictly sorted by `compare`; `insert`, `get`, `contains_key`, iteration; its laws are proved |
| `opg/src/models.rs` schema types, `apply_params`, `add_property`, `merge`, `try_merge`, `verify_schemas`, `add_model`, `mention_security_scheme` | `Model/Schema` | mutual inductive types; `&mut self` functions return the value after the call, also in the error case |
| `models.rs` document types | `Model/Doc` | structures |
| `models.rs` `Serialize` impls and derive attributes | `Model/Ser` | a function to a tree of values with ordered entries; `rename`, `skip_serializing_if`, `flatten`, `tag`, `untagged` transcribed per struct |
| `models.rs` `mention_schema`, `select_reference`, `get_schema_with_params`; evaluation of generated code | `Model/Eval` | state-passing on `Components`; a bound `fuel` on the nesting of `get_schema`; `none` = did not return within the bound; properties quantify over all bounds |
| bodies quoted by the derive macro and in `macros.rs` | `Model/Expr` | deep embedding of the expressions that occur in the quoted code |
| `opg/src/lib.rs`, `impl_opg_model!` | `Model/Types` | deep embedding `Ty` of the Rust types with an impl; table of primitive schemas; `type_name`; which impls are always inline |
| `opg_derive/src/case.rs` | `Model/Case` | functions on character lists; the panicking slice `[..1]` is `none` |
| `opg_derive/src/attr.rs`, `symbol.rs`, `parsing_context.rs`, `dummy.rs` (`unraw`) | `Model/Attr`, texts of errors in `Model/Messages` | fold over meta items; each arm of the three `match`es is an action on the attribute variables; errors are recorded in order |
| `opg_derive/src/ast.rs` | `Model/Ast` | derive input to parsed container, with renaming; panics are `none` |
| `opg_derive/src/opg.rs` | `Model/Codegen` | container to generated expression; each `unreachable!`, `unimplemented!` and out-of-range index is its own error value |
| `opg_derive/src/bound.rs` | `Model/Bound` | type syntax, the visitor, the where clause that is added |
| `opg_derive/src/opg.rs` `implement_type` (the generic impl) | `Model/Generic` | generic items and instances; instantiation of parsed items and generated code |
| `opg/src/macros.rs` `describe_type!`, `describe_api!` | `Model/Macros` | interpreters of the parsed macro input |
| `opg/src/macros.rs` the matching rules of both | `Model/Syntax` | readers of token trees, arm by arm; what an arm's expansion needs from the types of expressions is part of them |
| `opg/src/macros.rs` `impl_opg_model!` and its uses in `lib.rs` | `Model/Impls` | function from the tokens of an invocation to the impl it expands to |
| `opg_derive/src/dummy.rs` `wrap_in_const` | `Model/Dummy` | the name of the const item |
| impls of `OpgModel` written by hand (`models.rs` 524-612: what they can call) | `Model/Custom` | code as a tree of calls, run with fuel; public fields of `Components` are not accessed directly |
| `describe_api!` over such impls | `Model/Mixed` | the interpreter of `Model/Macros` is generic in what answers a mention (`Mentioner`); here the impls answer |

* **Strings** are Lean `String`s (sequences of Unicode scalar values).  Rust's order on `str` (bytes) and Lean's (code
  points) agree on valid UTF-8.  Byte slicing `s[..1]` is modelled with its panic.
* **Agreement with the code's tests**: every `#[test]` of `/repo/test_suite/tests`, the example of `README.md` and the tables of `case.rs` are run through the model from attribute
  syntax to serialized document and give the expected document (`Check/Suite`, `Check/Readme`, `Check/Cases`).
* **Types** of a program are monomorphic: two instances of a generic type are two entries of the environment with one
  identifier.  `Model/Generic` has generic items and their instances; by C82 an instance is such an entry.
* **OpenAPI 3.0.3** (`Spec/OpenApi`, for C67-C69) is transcribed from the text of the specification; fields that opg never
  writes are left out.  Status codes are written as numbers in YAML (unquoted); the specification asks for quotes, which is
  a matter of the YAML writer and not expressed.  That path templates match parameters is C23/C56.
* **Specifications that are not part of opg**: what serde writes for a value (`Ser` in `Spec/Conform`) and which values
  a schema accepts (`Valid`, `Invalid` there), both from the documentation of serde and OpenAPI 3.0.  Taken there:
  `format` and `example` do not constrain values; `nullable` adds `null` even where `enum` is given; properties that are
  not listed are constrained by `additionalProperties` only; lengths of arrays and ranges of integers are not restricted
  on the serde side (so conformance is proved for a superset of the values).  What serde reads is `Reads` in
  `Spec/Reads`, over a `Reader` that gives the ranges of scalars and the attributes only serde looks at.

## Per property: what is modelled and how it is proved

| id | plan |
|---|---|
| C01 | invariant (deep links of registry and of results are keys) by induction on fuel, lifted to call lists |
| C02 | extension order on registries, preserved by every call; induction |
| C03 | a run that returned, repeated on any extension of its final registry, returns the same and changes nothing |
| C04 | from the definition of mention plus C02 |
| C05 | relational induction over two runs |
| C06 | negation with two witnesses; the final registry is characterised as the schemas of the types mentioned by reference (`registry_spec`), hence order independence for programs in which a name is used for one type |
| C07 | negation (a recursive type, all fuels); returns iff the expansion is finite (`Expands`) |
| C08 | direct, plus a recursive type with pre-registration |
| C09, C10 | map lemmas, lifted to call sequences |
| C11 | refinement of the traversal to `find?` over the independent list of direct links |
| C12 | negation by witness; partial: no links below inline models; exact criterion |
| C13 | C01 + C11; for documents, also of programs with hand written impls, with the invariant of C104 |
| C14, C15 | case analysis on models and parameters |
| C16-C19 | map lemmas; C18 negation + partial |
| C20 | recursive predicate on values; iff over distinctness of rendered paths |
| C21 | injectivity by mutual structural induction, even up to the order of entries |
| C22, C23 | closed form of the rendering; injectivity under a predicate on path segments; negations; exact criterion through the reader of C80 |
| C24 | collects the `$ref`s of the value tree, relates them to links, uses C01 for `describe_api!` |
| C25 | extensionality of sorted maps, permutation lemma, ascending keys of every written map |
| C26 | lookups in serialized maps, and no `false`, `null`, empty map or sequence in optional position |
| C27, C29-C33, C37, C38, C66 | characterisation of the schema of each shape of declaration against the declaration |
| C28 | deep invariant of every generated model; documents through the calls that a description makes; with hand written impls, induction over the runs of their code |
| C34, C35 | equations between runs for all registries |
| C36, C39 | partial + negation; exact behaviour of the other shapes |
| C40 | induction on the serialization derivation for the types that avoid the witnesses; eleven negative witnesses |
| C41 | sufficient and necessary conditions on components, exact for scalars; negation |
| C42, C48-C51, C53, C65 | fold invariants of the attribute parser over arbitrary attribute lists, through the whole derive |
| C43-C47 | word-list specification, exact panic sets, injectivity with witnesses |
| C52 | exact characterisation of panicking inputs + witnesses |
| C54, C55 | occurrence relation on type syntax; C55 negation + partial |
| C67, C68 | OpenAPI 3.0.3 as inductive predicates on written values (`Spec/OpenApi`); both directions of legality of the serialization; static legality of generated code; lifted to `describe_api!`; with hand written impls, code that makes legal schemas (`Spec/Lawful`); negations |
| C69 | every registered name is the type name of a type mentioned by reference (invariant); negation; documents through the calls that a description makes |
| C70 | formats as ranges and texts (`Spec/Formats`), values of Rust's machine types as Lean's; case analysis, induction on wrappings; negations |
| C71 | every scalar of generated code is checked statically, carried through evaluation, lifted to calls; negations |
| C72 | from the characterisation of structs (C27) and of `apply_params` (C14); negation |
| C73 | the rules of `describe_api!` on token trees (`Model/Syntax`), equivalent to a grammar (`Spec/Syntax`): well-founded induction on the tokens one way, structural induction on the syntax tree the other way |
| C74 | induction on the syntax tree: the grammar is closed under leaving out trailing commas; negation |
| C75 | as C73 for `describe_type!` |
| C76 | a simulation between schemas that ignores documentation and resolves links; validity and invalidity are preserved (mutual induction on their derivations); the code generated for the two programs is related case by case |
| C77 | the rules of `impl_opg_model!` as a function on tokens; an inversion lemma per rule; the list of uses in lib.rs is matched with the model's table of built-in types, each type with its Rust spelling |
| C78 | names of the emitted items as strings; cancellation of the common prefix |
| C79 | the converse of C40: mutual induction on the validity derivation against the expansion of a type; a type-directed relation for further entries; negations |
| C80 | a strict reader written from the OpenAPI specification (`Spec/Read`); induction on the nesting of the written value |
| C81 | Specification: navigation in the written value by OpenAPI keys (`Spec/Published`), schemas and components read by the reader of C80, accepted values by `Valid`. Proof: written items and operations correspond to `ItemIn`/`OpIn`; what is mentioned there is a call of the registry run; then C40, C79 and C80. |
| C82 | naturality of the macro: mapping types in the input maps the outcome, by induction over items and generated code |
| C83 | negation by witness; general mechanism from C04 and C08; partial from C34 and C76 |
| C84 | impl resolution as an inductive relation over arbitrary rules; weakening of the assumed bounds to those written, using C54 and C55; two negations by witness |
| C85 | converse of the lemma behind C55 over all shapes of generated code; two negations by witness |
| C86 | what serde reads as an inductive relation (Spec/Reads); induction over the expansion of types, inverting validation through the shapes of generated code; negations by witness |
| C87 | induction over what serde reads, with the lemmas of C40 for arbitrary entries; negations by witness; with C86 an equivalence |
| C88 | C86 and C87 at the places of C81; negation by witness |
| C89 | the texts as a function of the recorded mistakes (Model/Messages); the kind of a mistake is read off its text, names are recovered by cancellation |
| C90 | a separate relation between items (Spec/Refactor); the generated code is shown to factor through a form of the container without identifiers, then programs with the same code are run side by side |
| C91 | two runs side by side in programs that agree on a set of types closed under mentioning; induction on fuel and on the API; likewise on code with hand written impls (`Spec/LocalMixed`) |
| C92 | two runs of one declaration side by side from unrelated registries (Proof/Same); splitting of call sequences; a fuel that suffices from every registry for the existence of the joined document |
| C93 | the proof of C40 carried out for both readings of `oneOf` at once, with the alternatives a schema offers itself (`Spec/Choice`); rejection of values by tags or missing keys; exact for scalars |
| C94 | URLs of a description and matching of OpenAPI templates as two relations on texts (`Spec/Routes`); parsing lemmas; the criterion by filling every parameter with `x` |
| C95 | versions of a program related field by field and variant by variant (`Spec/Evolve`); induction on what is written; then C40, C81 and C88 of the new version, or C119 and C120 if it has hand written impls |
| C96 | a preorder on programs (`Spec/Narrow`), a simulation `Sub` between schemas of two registries that preserves validity, and induction on the expansion of types |
| C97 | sizes of written values and of declarations (`Spec/Size`); a cost of generated code, bounded by induction on code and on the depth of calls; summation over the names of the registry; sizes of descriptions (`Spec/SizeDoc`), bounded step by step along the expansion of `describe_api!`; two families of programs with exponential schemas |
| C98 | a relation giving the calls of a run in order (`Spec/Trace`); runs have exactly one; induction on the number of calls with invariants on the registered names; two families of programs with exponentially many calls |
| C99 | `UsedFrom` and `Value.Uses` (`Spec/Used`); links asked for are not lost by generated code that overwrites no property; induction on reached types; links of schemas are found in their serialization |
| C100 | `Interchangeable`, `Env.Swapped` (`Spec/Swap`); items over pairs of types; generated code evaluated on both sides, by induction on the depth of recursion and on the relation of types; with hand written impls, code is related too (`Spec/SwapMixed`) |
| C101 | `ItemWithout` (`Spec/Skip`): items without some skipped parts; parsing and generating code commute with leaving them out; programs with the same code have the same documents, also next to hand written impls |
| C102 | `Container.Shuffled`, `SameModel` (`Spec/Shuffle`): declarations and schemas up to order; generated code up to order by cases, schemas by induction on the expansion, registries by `registry_spec`; documents by running both expansions side by side (`RunsTo`, `Opg.Along` in `Spec/Together`); validity by mutual induction |
| C103 | `Prog`, `Impl` (`Model/Custom`): code as a tree of calls, run with fuel; invariants by induction on fuel and on the tree; `Prog.Only` (`Spec/Custom`): which names code knows; derived impls are translated to such code and shown to run the same |
| C104 | `describe_api!` is modelled over anything that answers mentions (`Mentioner`, `Model/Macros`); `MixedCtx` (`Model/Mixed`) answers by running impls. `Went` (`Proof/Mixed`): the trace of a description; invariants by induction on it; two runs are compared by `RunsTo` |
| C105 | `Requires` (`Spec/Requires`) lists the cases in which an item depends on a type; `asked` of the generated code has exactly these members, by cases on the shapes, with the shapes of parsed items (`Shaped`) from `c73` |
| C106 | `wordless` (`Spec/Texts`) takes the texts away from declarations and from schemas; evaluation of both programs in lockstep at equal fuel (`getSchema_words`, `mentionSchema_words`); `tryMerge` commutes with `wordless`; validity by induction on derivations |
| C107 | `relinked` (`Spec/Relink`) changes the names in links; evaluation of both programs in lockstep at equal fuel, registries related by `Moved` (image of the renaming); `tryMerge` commutes with `relinked`; validity by induction on derivations, the converse with a left inverse of the renaming |
| C108 | the simulation of C76 made generic in a relation on types (`Spec/Recast`: the least relation closed under newtypes and pointers on either side); induction on the expansion of the first type and on the relation; acceptance by `sim_valid` both ways |
| C109 | `Spec/Arrange`: when operations, callbacks, paths, items and descriptions say the same (mutual inductive predicates, by last declaration per key); uniqueness of what the relations of C57–C61 make of both, by structural recursion on these predicates; sections by C110 and determinism of the calls |
| C110 | `Spec/Compiles`: what has to be right about each declaration; progress (if the calls of the remaining parts return, so does the code) composed along the mutual recursion of the macro's expansion, with enough fuel by monotonicity; the converse from each step that succeeded |
| C111 | `Spec/Places`: which parameters an operation has by OpenAPI's rule, and which ones the author declared; the last declaration of a name against the last one of a name in a place, over the exact content of both lists (C58) |
| C112 | Specification of who may call an operation, on the written document and on the description; the former is computed from C57, C58 and the reading of schemes (C80) for all descriptions, the latter agrees if names are used for one scheme. |
| C113 | Specification of requests that are in order, on the written document and on the description; composed from C57, C58, C81, C88, C94, C111 and C112. |
| C114 | Specification of responses that are in order, on the written document and on the description; by C58 for the declarations, C81 for the places, C40 and C88 for the values. |
| C115 | Relation between versions of descriptions; by C113 and C114 for both versions, with C96 and C95 for the types. |
| C116 | Places in documents and descriptions by recursion over callbacks; by C57, C58, C61 and the written form of paths. Templates by induction over segments. |
| C117 | Every description that yields a document yields one in the program of structs without fields (C110), and the two differ in schemas only (C104); so C57, C58 and C116 carry over along the relation of documents, by recursion over callbacks. The mixed versions of C56, C59, C61 and C94 follow from its path items and operations (`Props/RoutesMixed.lean`). |
| C118 | Documents are put together the same way whatever answers mentions give, so the proofs of C81, C112, C113 and C114 go through for both kinds of programs; that impls leave names of schemes alone and keep maps sorted is shown by induction over the code of impls. |
| C119 | Values are proved to conform for any way of documenting types that satisfies a few laws (what schemas consist of, what links lead to); runs of mixed programs satisfy them, by an invariant of the registry: what stands under the name of a type is a schema of it, and all that generated schemas refer to is registered. |
| C120 | The proofs of C86 and C87 rest on the same few laws about documented types as C119, with reading of hand written types as a parameter; generated schemas form finite trees down to types documented by hand, by the invariant of C119. |
| C121 | What the earlier document takes is read by the earlier service (C120), hence by the later one, hence taken by the later document (C120); monotonicity of reading and writing in the code written by hand by induction on how values are read and written. |
| C122 | The induction of C79 over the types that derived schemas lead to, down to those documented by hand; the registry holds the schemas that mentions lead to (C119). |
| C56-C64 | inductions over sections, paths, properties of the described API; negations C56, C60, C61, C62 |

## Disagreements found between properties and code

Each is a theorem `..._is_false` with a concrete witness.

* C06: `Option<Pet>` and `Pet` share a name but not a schema; so do two structs with one identifier.  The first one
  mentioned is registered.
* C07: schema generation of a recursive type does not return.
* C12: `verify_schemas` does not look inside inline models.
* C18: a failed `merge` keeps the properties inserted before the conflict.
* C20, C22, C23: a path described twice gives a map with a repeated key; `{x}` as literal renders like a parameter.
* C30: a `#[repr]` enum without explicit discriminants has an empty `oneOf`.
* C32: an internally tagged variant whose content is not an object, or has a field named as the tag, lacks the tag: the
  error of `try_merge` is discarded.
* C33: an adjacently tagged enum of unit variants is documented as strings.
* C36, C39: `Option` and `nullable` have no effect on `oneOf` schemas, and none on links.
* C40: `Option<T>` where `T` is registered first; `(T,)`; `NaN`; unit variants of externally tagged enums; tagged enums of
  unit variants; struct variants of adjacently tagged enums (documented as arrays); `flatten`; `transparent`; explicit
  types on the field of a newtype; `#[repr]` without `serde_repr`; `Option` of a data enum.
* C41: tuples whose components share a JSON value.
* C45, C52: the camel case conversion slices at byte 1; further panics of the macro.
* C46: case conversions are not injective.
* C55: skipped fields of tuple structs are documented but not bounded.
* C56: a parameter declared for the path can replace a template parameter.
* C60: literal security names need not be registered.
* C61: callbacks whose name is a string literal lose their paths.
* C62: generic type paths and names that start outside ASCII.
* C67: `enum: []` and `oneOf: []` for enums without serialized variants, empty tuple structs and repr enums without
  discriminants; `required` with a repeated name for two fields of one serialized name and for `tag` = `content`; also for
  internally tagged enums over a schema written by hand that requires the tag but has no such property (`c67_mixed_is_false`).
* C68: `describe_api!` accepts descriptions without paths (`paths` is then left out), operations without responses,
  any `u16` as status code, API keys in the path, any string as scheme name; a hand-built `RequestBody` without
  description is written with `description: null`.
* C69: raw identifiers give components named `r#type`; non-ASCII identifiers are kept.
* C70: `NaiveDateTime` and `DateTime` have format `date`, which their own examples violate; chrono writes years outside
  0-9999 with a sign.
* C71: the examples of integers and numbers are written as strings, also those of `#[repr]` enums.
* C72: the documentation of a field whose type is referenced is lost.
* C74: a comma after the last path of a callback is rejected, although one is accepted in the list of paths outside.
* C76: `nullable` on a field of a named type has an effect only if the field is inlined; and of two types with one name the
  first to be referred to is registered, which `inline` on a field can change.
* C77: `impl_opg_model!(string: Name)`, without `always_inline`, expands to an impl that refers to a type `T` it does not
  declare.
* C79: tuples accept the empty array, `()` accepts strings, enums with data and without `tag` accept any keys, those with
  `tag` and `content` accept the tag of one variant with the content of another.
* C83: all instances of a generic type share one component; the schema of the first one mentioned stands for all.
* C84: associated types below other types and the keys of maps lack the bound they need.
* C85: fields with an explicit type and keys of maps give bounds that are not needed.
* C86: ranges, lengths, optional fields without default, fields skipped on writing only, unknown fields, keys of externally tagged enums.
* C87: missing `Option` and `default` fields, arrays for structs, objects for unit variants, one-tuples.
* C88: a body of type `u8` is documented as any integer.
* C89: unknown words are not named; unknown attributes of structs and fields are called attributes of variants.
* C92: if types of different definition share a name, a path added in front can change a schema, and joining two descriptions can make generation diverge.
* C93: externally tagged and untagged enums whose variants share a JSON value, and number enums with two variants, if `oneOf` means exactly one.
* C94: a literal segment that contains `{` (exact criterion: `c94_exact`).
* C95: a struct that gets a further required field (`c95_required_rejects`).
* C96: an enum of unit variants that gets a variant with data; untagged enums under the exclusive reading.
* C97: nested `#[opg(inline)]` types and nested newtype variants of internally tagged enums: the document is exponentially larger than the program.
* C98: nested `#[opg(inline)]` types and nested newtype variants of internally tagged enums: `get_schema` of one type is called exponentially often. A type that needs itself is generated twice if another type registers a name on the way (`c98_is_false_names`).
* C99: two written fields of one key, two types of one identifier, and a response declared twice: a component remains that nothing refers to.
* C101: skipped fields of tuple structs, of struct variants in adjacently tagged enums, and skipped variants that alone have fields change what is documented.
* C102: which of two fields (or types) of one name is documented depends on the order in which fields are declared.
* C108: a newtype around the type of a field marked `nullable` makes the field reject `null`.
* C111: a header and a query parameter of one name, or a parameter named like a segment of its path, replace one another, since parameters are kept by name alone.
* C112: a scheme declared under the name of a variable replaces the scheme the variable holds, so the document asks for other credentials than the author.
* C113: the document takes a request without the header that the description requires, if a query parameter has the same name.
* C114: a service that answers with a one-tuple writes an array where the document promises the component.
* C115: after a scheme was declared under the name of a variable that holds another scheme, requests of earlier clients are not taken any more.
* C116: the segment `"{a}"` is written like a parameter, so that a document repeats a template that its description does not repeat.
* C118: an impl written by hand may register a security scheme under the name of one that an operation has in a variable; the operation then asks for the scheme of the impl (`c118_is_false`).
* C119: an impl written by hand may register a schema under the name of another type, which then stands in for the type's own (`c119_is_false`).
* C120: an impl written by hand may register a schema under the name of another type; requests that the service does not read are then taken (`c120_is_false`).
* C121: a scheme declared later under the name of a variable replaces it, in programs with hand written impls as well (`c121_is_false`).
* C122: an impl can register a schema under the name of another type, which then accepts other values (`c122_is_false`).

## Not modelled

The tokens inside type paths and compound expressions in macro inputs (one token each), spans, `syn`'s own error texts, `syn` parsing, serde's and serde_yaml's own code (their documented behaviour is assumed),
`http::StatusCode::canonical_reason` (a parameter), `char::is_uppercase` outside ASCII (a parameter), evaluation of
`example_with` expressions (a parameter, assumed deterministic), code that changes the public fields of `Components` directly, the attributes and the
`extern crate` in the wrapper of `dummy.rs`, stack overflow (a call that does not return has no value), the test suite.

## Trusted base

Lean 4.33 kernel; the reading of the Rust code in the model's comments; the specifications in `Verif/Spec`.  No axioms
are added.  The theorems listed in `MANIFEST.json` depend on these axioms of Lean:

<!-- axioms -->
* **Classical.choice, Quot.sound, propext** (517 theorems): `c01_links_resolve`, `c01_links_resolve_from_empty`, `c02_get_schema_keeps`, `c02_registered_is_kept`, `c03_mention_idempotent`, `c04_mention_registers`, `c05_context_independent`, `c06_any_order_partial`, `c06_exact`, `c06_is_false`, `c06_is_false_same_identifier`, `c06_order_independent_partial`, `c06_registry_is_determined`, `c07_finite_returns_partial`, `c07_is_false`, `c07_recursive_never_returns`, `c07_returns_iff_partial`, `c08_registered_mention_returns`, `c08_settled_returns`, `c08_struct_returns`, `c09_add_model`, `c09_add_model_first_wins`, `c100_calls`, `c100_documents`, `c100_heeded_needed`, `c100_macro`, `c100_mixed`, `c100_option`, `c100_programs`, `c100_types`, `c101_documents_partial`, `c101_is_false_adjacent`, `c101_is_false_tuple`, `c101_is_false_variant`, `c101_macro_partial`, `c101_mixed_partial`, `c101_positional`, `c102_calls_partial`, `c102_documents_partial`, `c102_is_false_fields`, `c102_is_false_types`, `c102_macro_partial`, `c102_programs_partial`, `c102_schema_partial`, `c102_values`, `c103_candid_needed`, `c103_derived`, `c103_deterministic`, `c103_kept`, `c103_links`, `c103_mention_exact`, `c103_mention_registers`, `c103_methods`, `c103_mixed`, `c103_pointer`, `c103_pointer_is_false`, `c104_by_hand`, `c104_candid_needed`, `c104_derived`, `c104_deterministic`, `c104_only_schemas`, `c104_refs`, `c104_schemas`, `c104_security`, `c105_asks_exactly`, `c105_nothing`, `c106_calls`, `c106_documents`, `c106_macro`, `c106_values`, `c107_calls`, `c107_documents`, `c107_macro`, `c107_values`, `c108_is_false`, `c108_is_false_names`, `c108_newtypes_partial`, `c108_published_partial`, `c109_document`, `c109_item`, `c109_mixed`, `c109_operation`, `c109_overridden`, `c109_sections`, `c109_whole`, `c10_first_wins`, `c10_mention_security_scheme`, `c110_any_order`, `c110_exact`, `c110_mixed`, `c110_types`, `c111_effective_partial`, `c111_is_false`, `c111_operation_exact`, `c111_path_exact`, `c112_access_partial`, `c112_exact`, `c112_is_false`, `c112_meaning`, `c112_open`, `c112_operation_partial`, `c113_is_false`, `c113_operations_partial`, `c113_read_partial`, `c113_requests_partial`, `c114_is_false`, `c114_read_partial`, `c114_received_partial`, `c114_sent_partial`, `c114_written_partial`, `c115_answers`, `c115_clients_partial`, `c115_is_false`, `c115_published_partial`, `c115_requests_partial`, `c116_ids`, `c116_is_false`, `c116_operations`, `c116_templates_partial`, `c117_ids`, `c117_items`, `c117_operations`, `c117_order`, `c117_places`, `c117_structure`, `c118_access_partial`, `c118_is_false`, `c118_meaning`, `c118_operations_partial`, `c118_placed`, `c118_received_partial`, `c118_requests_partial`, `c118_schemas`, `c118_sent_partial`, `c118_sorted`, `c119_accepts_partial`, `c119_exclusive_partial`, `c119_internal`, `c119_is_false`, `c119_registered`, `c119_structs`, `c11_verify_direct`, `c120_complete_partial`, `c120_is_false`, `c120_read_partial`, `c120_received_partial`, `c120_requests_partial`, `c120_sent_partial`, `c121_answers_partial`, `c121_is_false`, `c121_readers_partial`, `c121_requests_partial`, `c122_is_false`, `c122_only_partial`, `c122_responses_partial`, `c12_exact`, `c12_is_false`, `c12_verify_partial`, `c13_candid_needed`, `c13_document`, `c13_generated_verifies`, `c13_mixed`, `c16_add_property`, `c17_merge`, `c17_merge_symm_unit`, `c18_exact`, `c18_failed_merge_partial`, `c18_is_false`, `c19_try_merge`, `c20_distinct_keys_partial`, `c20_exact`, `c20_is_false`, `c21_reference_injective`, `c21_schema_injective`, `c22_document_injective_partial`, `c22_exact`, `c22_is_false`, `c23_read_exact`, `c23_render`, `c23_render_injective_partial`, `c24_needs_registered_expressions`, `c24_refs_resolve`, `c25_declaration_order`, `c25_document_ascending`, `c25_item_ascending`, `c25_object_ascending`, `c25_operation_ascending`, `c26_document`, `c26_no_false_or_null`, `c26_object_schema`, `c26_operation`, `c26_parameter`, `c26_path_item`, `c26_request_body`, `c26_response`, `c26_tag_server`, `c27_source`, `c27_struct`, `c28_document`, `c28_mixed`, `c28_registry`, `c28_required_declared`, `c28_whole_needed`, `c29_unit_enum`, `c30_exact`, `c30_is_false`, `c30_repr_exact`, `c30_repr_partial`, `c31_adjacent`, `c31_external`, `c31_internal`, `c31_untagged`, `c32_exact`, `c32_internal_tag_partial`, `c32_is_false`, `c33_adjacent_partial`, `c33_exact`, `c33_is_false`, `c34_by_reference_is_link`, `c34_inline`, `c35_wrappers_transparent`, `c36_exact`, `c36_is_false`, `c36_option_partial`, `c37_always_inlined`, `c37_maps`, `c37_sequences`, `c37_tuples`, `c38_chain`, `c38_newtype`, `c39_is_false`, `c39_nullable_partial`, `c39_other_shapes`, `c39_shapes`, `c40_adjacent_struct_is_false`, `c40_adjacent_structs_rejected`, `c40_conforms_partial`, `c40_flatten_is_false`, `c40_nan_is_false`, `c40_newtype_explicit_is_false`, `c40_option_is_false`, `c40_option_oneOf_is_false`, `c40_registered_partial`, `c40_repr_is_false`, `c40_struct_needs`, `c40_tagged_units_is_false`, `c40_transparent_is_false`, `c40_tuple1_is_false`, `c40_unit_variant_is_false`, `c40_unit_variants_rejected`, `c40_units_exact`, `c41_disjoint_partial`, `c41_exact`, `c41_is_false`, `c41_overlap_rejected`, `c41_scalars`, `c42_enum`, `c42_explicit_wins`, `c42_explicit_wins_variant`, `c42_raw_prefix`, `c42_struct_fields`, `c43_any_variant`, `c43_variant_words`, `c44_any_field`, `c44_field_words`, `c45_field_panics_iff`, `c45_no_panic_is_false`, `c45_no_panic_partial`, `c45_variant_panics_iff`, `c46_field_exact`, `c46_field_injective_partial`, `c46_injective_is_false`, `c46_variant_exact`, `c46_variant_injective_partial`, `c47_distinct`, `c47_rule_names`, `c47_unknown_ignored`, `c48_container`, `c48_duplicates_rejected`, `c48_field`, `c48_variant`, `c49_unknown_opg_rejected`, `c49_unknown_serde_ignored`, `c50_order_irrelevant`, `c51_shape`, `c51_tagging`, `c52_is_false`, `c52_no_panic_partial`, `c52_panics_iff`, `c53_errors`, `c53_mistakes`, `c53_no_code`, `c54_bounds`, `c55_exact`, `c55_is_false`, `c55_mentioned_are_bounded_partial`, `c56_exact`, `c56_is_false`, `c56_is_false_literal`, `c56_mixed_partial`, `c56_template_parameters_partial`, `c57_mixed`, `c57_operation_order`, `c57_order`, `c58_info`, `c58_mixed_operations`, `c58_mixed_schemes`, `c58_mixed_tags`, `c58_operation`, `c58_operations`, `c58_path_item`, `c58_security_schemes`, `c58_spares_needed`, `c58_tags`, `c59_body`, `c59_mixed_bodies`, `c59_mixed_parameters`, `c59_parameters`, `c59_response`, `c60_exact`, `c60_is_false`, `c60_mixed_exact`, `c60_schemes_registered_partial`, `c61_callbacks_partial`, `c61_exact`, `c61_is_false`, `c61_is_false_not_last`, `c61_literal`, `c61_mixed_exact`, `c62_bare_segment_partial`, `c62_exact`, `c62_is_false`, `c62_is_false_not_ascii`, `c62_name`, `c63_describe_type`, `c63_describe_type_unique`, `c63_object`, `c64_order_independent`, `c65_parsed`, `c66_explicit_newtype`, `c66_tuple_struct`, `c67_generated_partial`, `c67_is_false`, `c67_mixed_is_false`, `c67_mixed_partial`, `c67_necessary`, `c67_serialized`, `c68_body_is_false`, `c68_described_partial`, `c68_exact`, `c68_is_false`, `c68_mixed_exact`, `c68_mixed_partial`, `c68_serialization`, `c69_document_exact`, `c69_document_partial`, `c69_exact`, `c69_is_false`, `c69_names_partial`, `c70_accepts`, `c70_exact`, `c70_far_dates_is_false`, `c70_text_partial`, `c70_times_is_false`, `c71_examples_partial`, `c71_is_false`, `c71_numbers`, `c71_repr_is_false`, `c72_exact`, `c72_field_partial`, `c72_is_false`, `c72_other_fields`, `c73_reads`, `c73_unambiguous`, `c74_add_is_false`, `c74_omit`, `c74_same_partial`, `c75_reads`, `c75_unambiguous`, `c76_docs_neutral_partial`, `c76_is_false`, `c76_is_false_names`, `c76_link_is_schema`, `c77_accepts`, `c77_builtin`, `c77_is_false`, `c77_limits`, `c77_scoped_partial`, `c78_const_names`, `c79_adjacent_always`, `c79_adjacent_is_false`, `c79_external_always`, `c79_external_is_false`, `c79_null_always`, `c79_one_tuple_always`, `c79_precise_partial`, `c79_texts_always`, `c79_tuple_always`, `c79_tuple_is_false`, `c79_unit_is_false`, `c79_units_exact`, `c80_exact`, `c80_read`, `c80_read_paths`, `c80_read_schema`, `c80_read_scheme`, `c81_accepts_partial`, `c81_is_false_repeated`, `c81_only_partial`, `c81_placed`, `c82_instance`, `c82_same_schema`, `c82_written_out`, `c83_exact`, `c83_first_wins`, `c83_inline_partial`, `c83_is_false`, `c83_one_instance_partial`, `c84_bounds_suffice_partial`, `c84_is_false`, `c84_is_false_key`, `c85_bounded_are_asked_partial`, `c85_exact`, `c85_is_false`, `c85_is_false_key`, `c86_accepted_is_read_partial`, `c86_external_is_false`, `c86_length_always`, `c86_length_is_false`, `c86_missing_always`, `c86_optional_is_false`, `c86_range_is_false`, `c86_scalars_exact`, `c86_skipped_is_false`, `c86_unknown_always`, `c86_unknown_is_false`, `c87_array_is_false`, `c87_arrays_always`, `c87_default_is_false`, `c87_missing_always`, `c87_option_is_false`, `c87_read_is_accepted_partial`, `c87_scalars_exact`, `c87_tuple_is_false`, `c87_unit_variant_is_false`, `c88_complete_partial`, `c88_is_false_range`, `c88_requests_partial`, `c89_distinct_partial`, `c89_names`, `c89_place_is_false`, `c89_word_is_false`, `c90_accepted`, `c90_mixed`, `c90_renamed`, `c90_same_code`, `c90_same_document`, `c90_shorthand`, `c90_without`, `c91_impls`, `c91_local`, `c91_local_types`, `c91_mixed`, `c92_is_false`, `c92_is_false_joined`, `c92_join_partial`, `c92_mixed_kept_at_end`, `c92_same_item`, `c92_schemas_kept_at_end`, `c92_schemas_kept_partial`, `c92_together`, `c93_conforms_partial`, `c93_external`, `c93_internal`, `c93_is_false`, `c93_repr_rejects`, `c93_scalars_external`, `c93_scalars_untagged`, `c93_untagged`, `c94_ambiguous`, `c94_exact`, `c94_is_false`, `c94_mixed_exact`, `c94_mixed_parameters`, `c94_path_parameters`, `c94_typed`, `c94_values`, `c95_accepted_partial`, `c95_is_false`, `c95_mixed_partial`, `c95_old_clients_partial`, `c95_required_rejects`, `c96_is_false`, `c96_is_false_exclusive`, `c96_narrower_partial`, `c96_published_partial`, `c96_same_partial`, `c97_account`, `c97_account_type`, `c97_components_partial`, `c97_document_account`, `c97_document_partial`, `c97_is_false`, `c97_is_false_tagged`, `c97_total_partial`, `c98_calls`, `c98_is_false`, `c98_is_false_names`, `c98_is_false_tagged`, `c98_linear_partial`, `c98_once_partial`, `c98_unique_partial`, `c99_document_partial`, `c99_is_false_fields`, `c99_is_false_names`, `c99_is_false_replaced`, `c99_used_partial`
* **Quot.sound, propext** (4 theorems): `c25_insertion_order`, `c25_maps_sorted`, `c95_mixed_values`, `c95_old_values`
* **propext** (13 theorems): `c106_names`, `c107_one`, `c121_narrower`, `c121_wider`, `c14_apply_params`, `c15_apply_params_compose`, `c15_apply_params_empty`, `c15_apply_params_idem`, `c15_apply_params_links`, `c23_is_false`, `c71_exact`, `c82_arguments`, `c93_readings`
<!-- end axioms -->
