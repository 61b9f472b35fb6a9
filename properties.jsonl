{"id": "C01", "title": "Every reference to a generated schema resolves", "statement": "Starting from empty Components, after any sequence of mention_schema calls on built-in and derived types that all return, every link occurring at any depth (inside inline models, oneOf/allOf/anyOf members, array items, properties, additionalProperties) of any registered schema or returned ModelReference names a schema present in Components.schemas.", "quantifier": "all type environments, all types, all inline flags, all context parameters, all finite call sequences", "why_tests_cant": "The input space (type environments and call histories) is infinite and recursive; a test exercises a handful of members.", "anchors": ["opg/src/models.rs: Components::mention_schema, OpgModel::select_reference", "opg_derive/src/opg.rs: field_model_reference, implement_type", "opg/src/macros.rs: impl_opg_model!"]}
{"id": "C02", "title": "Registered schemas are never changed or dropped", "statement": "If a name has a schema in Components before a mention_schema/add_model/mention_security_scheme call or a get_schema run, it has exactly the same schema afterwards; security schemes likewise.", "quantifier": "all registry states, all types, all calls and call sequences", "why_tests_cant": "Must hold for every prior registry content and every nested call made while a schema is generated.", "anchors": ["opg/src/models.rs: Components::mention_schema, add_model, mention_security_scheme"]}
{"id": "C03", "title": "Mentioning a type twice changes nothing the second time", "statement": "If mention_schema::<T>(inline, params) returns r leaving registry cx', then mention_schema::<T>(inline, params) on cx' (or on any later registry) returns the same r and leaves the registry unchanged.", "quantifier": "all types, flags, parameters, registries", "why_tests_cant": "Idempotence over every type graph and every registry state.", "anchors": ["opg/src/models.rs: Components::mention_schema"]}
{"id": "C04", "title": "A by-reference mention registers the type under its name", "statement": "For a type with a type name, mention_schema::<T>(false, params) returns Link(name) for whatever params; afterwards name is registered, and if it was not registered before and is not registered by a nested mention, the registered schema is T's own get_schema result.", "quantifier": "all named types, params and registries", "why_tests_cant": "Relies on evaluation order between nested mentions and the final insert for every type graph.", "anchors": ["opg/src/models.rs: Components::mention_schema, OpgModel::select_reference"]}
{"id": "C05", "title": "The schema of a type does not depend on what was registered before", "statement": "Any two runs of get_schema::<T> that return, from any two registries, return the same Model; any two runs of mention_schema::<T> with equal arguments return the same ModelReference.", "quantifier": "all types and all pairs of registries", "why_tests_cant": "A relational property of two arbitrary histories.", "anchors": ["opg/src/models.rs: OpgModel::get_schema, Components::mention_schema", "opg_derive/src/opg.rs"]}
{"id": "C06", "title": "The set of registered schemas does not depend on the order types are mentioned in", "statement": "Mentioning a collection of types from empty Components gives the same Components.schemas for every order of the mentions.", "quantifier": "all type environments, all permutations of all finite mention lists", "why_tests_cant": "Confluence over permutations of unbounded lists; the failure needs a particular pair (Option<T> before T, or two types sharing an identifier).", "anchors": ["opg/src/models.rs: Components::mention_schema", "opg/src/macros.rs: impl_opg_model!(generic_simple(nullable))", "opg_derive/src/opg.rs: implement_type"]}
{"id": "C07", "title": "Schema generation terminates", "statement": "get_schema::<T> returns (does not recurse forever) for every T, including recursive types.", "quantifier": "all type environments and types", "why_tests_cant": "Termination for every type graph; a diverging test only overflows the stack.", "anchors": ["opg/src/models.rs: Components::mention_schema", "test_suite/tests/models.rs: recursive_field"]}
{"id": "C08", "title": "Pre-registering a name cuts recursion", "statement": "If the registry already has an entry for a type's name, a by-reference mention of that type returns at once with its link and an unchanged registry; hence get_schema of a type all of whose direct field types are already registered by name returns, even when the type is recursive.", "quantifier": "all type environments, recursive or not, all registries", "why_tests_cant": "Quantifies over all registries and cyclic type graphs.", "anchors": ["opg/src/models.rs: Components::mention_schema, add_model"]}
{"id": "C09", "title": "add_model keeps the first model", "statement": "add_model(name, model) registers model if name is free and otherwise changes nothing; every other entry is unchanged; after any sequence of add_model calls each name maps to the first model added for it.", "quantifier": "all registries and all finite call sequences", "why_tests_cant": "History property over arbitrary call sequences.", "anchors": ["opg/src/models.rs: Components::add_model"]}
{"id": "C10", "title": "mention_security_scheme keeps the first scheme and returns its name", "statement": "mention_security_scheme(name, s) always returns name, afterwards name is registered, with s if it was free and with its former value otherwise; schemas and all other schemes are unchanged.", "quantifier": "all registries and call sequences", "why_tests_cant": "History property over arbitrary call sequences.", "anchors": ["opg/src/models.rs: Components::mention_security_scheme"]}
{"id": "C11", "title": "verify_schemas decides resolution of direct references", "statement": "verify_schemas returns Ok exactly when every link that is directly a property, additionalProperties, items, oneOf/allOf/anyOf member of a registered schema is registered; when it returns Err(l), l is the first unregistered such link in key order and member order.", "quantifier": "all Components values", "why_tests_cant": "Must hold for every registry, every size.", "anchors": ["opg/src/models.rs: Components::verify_schemas, Model::traverse, TraverseContext::check"]}
{"id": "C12", "title": "verify_schemas finds every dangling reference", "statement": "If verify_schemas returns Ok then no link at any depth of a registered schema is dangling.", "quantifier": "all Components values", "why_tests_cant": "Universal over nesting depth; shallow tests pass although nested inline models are not searched.", "anchors": ["opg/src/models.rs: ModelReference::traverse"]}
{"id": "C13", "title": "Generated registries always verify", "statement": "After any sequence of mention_schema calls from empty Components, verify_schemas returns Ok.", "quantifier": "all type environments and mention sequences", "why_tests_cant": "The input space (histories) is infinite and recursive; a test exercises a handful of members.", "anchors": ["opg/src/models.rs: Components::verify_schemas, mention_schema"]}
{"id": "C14", "title": "apply_params overrides exactly the given parameters", "statement": "After apply_params(p): description is p.description if given else the old one; for a single-type model nullable is p.nullable if given else old; for string/number/integer format and example likewise; enum variants likewise for strings only; array/object/boolean contents and oneOf/allOf/anyOf members are untouched.", "quantifier": "all models and all parameter sets", "why_tests_cant": "All combinations of 2^5 parameter presence with every model.", "anchors": ["opg/src/models.rs: Model::apply_params, ModelType::apply_params, ModelString::apply_params, ModelSimple::apply_params"]}
{"id": "C15", "title": "apply_params composes", "statement": "Empty params are the identity; applying p twice is applying it once; applying p then q is applying the params that take q's value where given and p's otherwise; the set of links in the model never changes.", "quantifier": "all models and parameter sets", "why_tests_cant": "Algebraic law over all models.", "anchors": ["opg/src/models.rs: Model::apply_params"]}
{"id": "C16", "title": "add_property adds exactly one property or nothing", "statement": "add_property(k, r, req) succeeds iff k is not a property; on success k maps to r, other properties are unchanged and required gets k appended iff req; on failure the object is unchanged.", "quantifier": "all objects, names, references, flags", "why_tests_cant": "All objects and interleavings of adds.", "anchors": ["opg/src/models.rs: ModelObject::add_property"]}
{"id": "C17", "title": "merge is disjoint union", "statement": "merge succeeds iff the two property sets are disjoint; then the properties are the union, required is the concatenation, additional_properties is the receiver's; merging with an empty object is the identity and the merged properties do not depend on which side is the receiver.", "quantifier": "all pairs of objects", "why_tests_cant": "All pairs of objects.", "anchors": ["opg/src/models.rs: ModelObject::merge"]}
{"id": "C18", "title": "A failed merge leaves the receiver unchanged", "statement": "If merge returns Err the receiver is as before the call.", "quantifier": "all pairs of objects", "why_tests_cant": "Only pairs whose first conflicting key is preceded by a fresh key show the difference.", "anchors": ["opg/src/models.rs: ModelObject::merge"]}
{"id": "C19", "title": "try_merge succeeds only between objects and keeps receiver metadata", "statement": "try_merge succeeds iff both models are single object types with disjoint properties; description, nullable and additional_properties of the receiver are never changed, and on a non-object receiver or argument nothing changes.", "quantifier": "all pairs of models", "why_tests_cant": "All pairs of models.", "anchors": ["opg/src/models.rs: Model::try_merge"]}
{"id": "C20", "title": "No object in the serialized document has a repeated key", "statement": "In the serialized form of any Opg value no map has two equal keys.", "quantifier": "all Opg values", "why_tests_cant": "Flattened fields are merged into one map at several levels; every document must be checked.", "anchors": ["opg/src/models.rs: serde attributes, serialize_ordered_entries, CallbackObject, PathValue, Model"]}
{"id": "C21", "title": "Schema serialization loses nothing", "statement": "Two different Model (or ModelReference) values never serialize to the same value: a decoder recovers the model from its serialized form.", "quantifier": "all models, any depth", "why_tests_cant": "Injectivity over an infinite recursive type.", "anchors": ["opg/src/models.rs: Serialize for Model, ModelData, ModelType, ModelTypeDescription, ModelString, ModelSimple, ModelArray, ModelObject, ModelReference"]}
{"id": "C22", "title": "Document serialization loses nothing", "statement": "An Opg value can be recovered from its serialized form.", "quantifier": "all Opg values", "why_tests_cant": "Injectivity over an infinite recursive type; fails only for odd path literals.", "anchors": ["opg/src/models.rs: Opg, Path, PathValue, Operation, Response, RequestBody, OperationParameter, CallbackObject, Components"]}
{"id": "C23", "title": "Path templates render as /seg/{param} and determine their elements", "statement": "A path renders as the concatenation over its elements of '/' followed by the literal or by the parameter name in braces; distinct element lists render differently.", "quantifier": "all element lists", "why_tests_cant": "Injectivity over all lists of strings.", "anchors": ["opg/src/models.rs: serialize_path_elements"]}
{"id": "C24", "title": "Every $ref in a generated document points to an existing component", "statement": "For a document produced by describe_api! whose mentions return, every \"$ref\" string anywhere in the serialized document is \"#/components/schemas/\" followed by a name that is a key of the serialized components.schemas map, provided that the links inside schemas the user supplies as Rust expressions (`200: { expr }`) are registered; without that it fails.", "quantifier": "all API descriptions, type environments and their serialized documents", "why_tests_cant": "The input space (API descriptions) is infinite and recursive; a test exercises a handful of members.", "anchors": ["opg/src/models.rs: serialize_model_reference_link", "opg/src/macros.rs: describe_api!"]}
{"id": "C25", "title": "Document maps are sorted and insertion-order independent, sequences keep declaration order", "statement": "Iteration over schemas, properties, parameters, tags, responses, operations follows key order, and inserting the same bindings with distinct keys in any order yields the same map; paths, servers and required keep declaration order.", "quantifier": "all finite insertion sequences and their permutations", "why_tests_cant": "Permutation invariance over unbounded sequences.", "anchors": ["opg/src/models.rs: BTreeMap fields, serialize_tags, serialize_parameters, serialize_ordered_entries"]}
{"id": "C26", "title": "Mandatory keys are always emitted and empty optional ones never", "statement": "Every serialized document has openapi, info with title and version, and components; every operation has responses; every response has description; every parameter has name and in; every request body has content; and absent descriptions, false flags and empty collections are omitted (request body description excepted, which is null).", "quantifier": "all Opg values", "why_tests_cant": "All combinations of absent/present fields at all depths.", "anchors": ["opg/src/models.rs: skip_serializing_if attributes"]}
{"id": "C27", "title": "A derived struct documents exactly its serialized fields", "statement": "For a derived named-field struct, the property names are exactly the serialized names of the fields not skipped, each property holds that field's reference, and required lists exactly the serialized names of non-skipped non-optional fields in declaration order.", "quantifier": "all derived structs with pairwise distinct serialized names", "why_tests_cant": "All field lists and attribute combinations.", "anchors": ["opg_derive/src/opg.rs: serialize_struct, object_type_description", "opg_derive/src/attr.rs: Field::from_ast"]}
{"id": "C28", "title": "Required names are declared properties", "statement": "In every schema generated by derive or built-in impls, at every depth, each name in required is a key of properties of the same object.", "quantifier": "all type environments and types, all depths", "why_tests_cant": "Invariant over all generated schemas, including merged internally tagged ones.", "anchors": ["opg_derive/src/opg.rs: object_type_description, serialize_internal_tagged_enum, serialize_adjacent_tagged_enum", "opg/src/models.rs: ModelObject::merge"]}
{"id": "C29", "title": "A unit enum documents exactly its variants", "statement": "A derived enum whose variants are all units (without repr) has a string schema whose enum lists exactly the serialized names of non-skipped variants in declaration order, with the first as example.", "quantifier": "all unit enums", "why_tests_cant": "All variant lists and attribute combinations.", "anchors": ["opg_derive/src/opg.rs: serialize_newtype_enum"]}
{"id": "C30", "title": "A repr enum documents every value it can serialize to", "statement": "A derived unit enum with #[repr(..)] has a oneOf with one integer alternative per non-skipped variant in declaration order, whose example is the variant's discriminant.", "quantifier": "all repr unit enums", "why_tests_cant": "All variant lists; fails only when discriminants are implicit.", "anchors": ["opg_derive/src/opg.rs: serialize_newtype_enum", "opg_derive/src/ast.rs: enum_from_ast"]}
{"id": "C31", "title": "A data enum has one alternative per serializable variant", "statement": "For an untagged, internally, adjacently or externally tagged data enum the generated oneOf has exactly one member per non-skipped variant in declaration order.", "quantifier": "all data enums accepted by the macro", "why_tests_cant": "All variant lists and shapes.", "anchors": ["opg_derive/src/opg.rs: serialize_untagged_enum, serialize_internal_tagged_enum, serialize_adjacent_tagged_enum, serialize_external_tagged_enum"]}
{"id": "C32", "title": "Internally tagged alternatives carry their tag", "statement": "Each alternative of an internally tagged enum is an object that has the tag as a required property whose only allowed value is the serialized variant name.", "quantifier": "all internally tagged enums", "why_tests_cant": "All field types; the merge error is discarded, so failures are silent.", "anchors": ["opg_derive/src/opg.rs: serialize_internal_tagged_enum", "opg/src/models.rs: Model::try_merge"]}
{"id": "C33", "title": "Adjacently tagged schema has exactly tag and content", "statement": "An adjacently tagged enum's schema is an object whose properties are exactly tag and content, both required (tag first), where tag enumerates exactly the serialized names of non-skipped variants.", "quantifier": "all adjacently tagged enums with tag different from content", "why_tests_cant": "All variant lists and names.", "anchors": ["opg_derive/src/opg.rs: serialize_adjacent_tagged_enum"]}
{"id": "C34", "title": "inline types are never registered, by-reference types always linked", "statement": "A container marked inline has no type name and is always returned as an inline model whatever the inline flag; mentioning any type with inline = true returns an inline model and registers nothing for that type itself.", "quantifier": "all types, registries, parameters", "why_tests_cant": "All registries and nested uses.", "anchors": ["opg_derive/src/opg.rs: implement_type", "opg/src/models.rs: OpgModel::select_reference"]}
{"id": "C35", "title": "Pointers and one-tuples are transparent", "statement": "&T, &mut T, Box<T>, Rc<T>, Arc<T>, Cell<T>, RefCell<T> and (T,) have T's schema, T's type name, and mention exactly as T does (same reference, same registry effect).", "quantifier": "all T, registries, flags, params", "why_tests_cant": "All types and registries; nested wrappers of any depth.", "anchors": ["opg/src/lib.rs: impl_opg_model!(generic_simple)", "opg/src/macros.rs"]}
{"id": "C36", "title": "Option<T> documents null", "statement": "The schema of Option<T> (inlined or by reference) accepts null; i.e. it is marked nullable.", "quantifier": "all T", "why_tests_cant": "Holds for simple T, fails for linked and oneOf T: only a universal statement separates them.", "anchors": ["opg/src/macros.rs: impl_opg_model!(generic_simple(nullable))", "opg/src/models.rs: ModelData::apply_params, OpgModel::select_reference"]}
{"id": "C37", "title": "Collections document their element type", "statement": "Sequence types have an array schema whose items is the by-reference mention of T; maps an object schema with that mention as additionalProperties and no properties; tuples an array whose items is a oneOf listing the component mentions in order; all are unnamed and always inlined.", "quantifier": "all element types, registries", "why_tests_cant": "All element types and registries.", "anchors": ["opg/src/lib.rs", "opg/src/macros.rs: generic_array, generic_dictionary, generic_tuple"]}
{"id": "C38", "title": "Newtype metadata overrides inner metadata", "statement": "For a derived newtype struct without explicit type, description/format/example are taken from the field attribute, else the container attribute, else the inner schema; the rest of the schema is the inner schema's.", "quantifier": "all newtypes and inner types, any nesting depth", "why_tests_cant": "Chains of newtypes of any length.", "anchors": ["opg_derive/src/opg.rs: serialize_newtype_struct, ContextParams::or"]}
{"id": "C39", "title": "A nullable container attribute makes the schema nullable", "statement": "A derived container marked #[opg(nullable)] has a nullable schema.", "quantifier": "all derived containers", "why_tests_cant": "Depends on the container's shape; tests cover one shape.", "anchors": ["opg_derive/src/opg.rs: serialize_newtype_struct, serialize_enum, ContextParams::or"]}
{"id": "C40", "title": "Serialized values conform to the generated schema", "statement": "Every JSON value serde produces for a value of a derived or built-in type validates against the schema opg generates for that type, links being resolved in the final registry.", "quantifier": "all types in the supported fragment, all values, all registries containing the generated one", "why_tests_cant": "Quantifies over all types and all values; any test checks finitely many pairs.", "anchors": ["opg_derive/src/opg.rs", "opg/src/lib.rs", "opg/src/models.rs: Components::mention_schema"]}
{"id": "C41", "title": "Tuple schemas validate under exclusive oneOf", "statement": "Every serialized tuple validates against its schema when oneOf means exactly one.", "quantifier": "all tuple types and values", "why_tests_cant": "False for component types that overlap; true cases must hold for all values.", "anchors": ["opg/src/macros.rs: generic_tuple", "opg_derive/src/opg.rs: tuple_type_description"]}
{"id": "C42", "title": "Explicit rename wins over rename_all", "statement": "A field or variant with serde(rename = s) (or rename(serialize = s)) has serialized name s whatever rename_all says; otherwise the serialized name is the rename_all conversion of the identifier without its r# prefix; without either it is the identifier.", "quantifier": "all identifiers, rules and rename attributes", "why_tests_cant": "All identifiers and rule combinations.", "anchors": ["opg_derive/src/attr.rs: Name", "opg_derive/src/ast.rs: Container::from_ast"]}
{"id": "C43", "title": "Variant case conversion follows the word structure", "statement": "For a variant identifier that is a concatenation of capitalised ASCII words, snake/kebab/SCREAMING variants are the lower/upper-case words joined by _ or -, camelCase lowers the first letter, lowercase/UPPERCASE map every letter, PascalCase/None keep it.", "quantifier": "all word lists", "why_tests_cant": "All identifiers.", "anchors": ["opg_derive/src/case.rs: RenameRule::apply_to_variant"]}
{"id": "C44", "title": "Field case conversion follows the word structure", "statement": "For a field identifier that is lower-case ASCII words joined by _, PascalCase capitalises and concatenates the words, camelCase the same with the first word lower, SCREAMING/kebab variants upper-case and/or join with -, snake/lower/None keep it.", "quantifier": "all word lists", "why_tests_cant": "All identifiers.", "anchors": ["opg_derive/src/case.rs: RenameRule::apply_to_field"]}
{"id": "C45", "title": "Case conversion does not panic on valid identifiers", "statement": "Applying any rename rule to any Rust identifier returns a string.", "quantifier": "all identifiers, all rules", "why_tests_cant": "The panic needs a non-ASCII first letter or an all-underscore field name.", "anchors": ["opg_derive/src/case.rs"]}
{"id": "C46", "title": "Case conversion keeps distinct names distinct", "statement": "Two different variant (field) identifiers have different serialized names under the same rule.", "quantifier": "all pairs of identifiers and all rules", "why_tests_cant": "Injectivity over all pairs.", "anchors": ["opg_derive/src/case.rs"]}
{"id": "C47", "title": "rename_all accepts exactly the documented rule names", "statement": "RenameRule::from_str succeeds exactly on the eight documented spellings, each naming a different rule, and an unknown spelling leaves names unchanged.", "quantifier": "all strings", "why_tests_cant": "All strings.", "anchors": ["opg_derive/src/case.rs: FromStr", "opg_derive/src/attr.rs"]}
{"id": "C48", "title": "Duplicate opg-relevant attributes are rejected", "statement": "If an attribute recognised by the derive (rename, rename_all, skip, tag, description, format, example, inline, ...) is given twice on one item the derive reports a compile error.", "quantifier": "all attribute lists", "why_tests_cant": "All attribute lists in any grouping and order.", "anchors": ["opg_derive/src/attr.rs: Attr::set, OneOfFlagsAttr, VecAttr"]}
{"id": "C49", "title": "Unknown opg attributes are rejected, unknown serde attributes ignored", "statement": "Any opg(..) path or name-value not recognised for that item kind causes a compile error; adding a serde(..) item that is not recognised changes neither result nor errors.", "quantifier": "all attribute lists", "why_tests_cant": "All attribute lists.", "anchors": ["opg_derive/src/attr.rs: Container::from_ast, Variant::from_ast, Field::from_ast"]}
{"id": "C50", "title": "Attribute order and grouping do not matter", "statement": "If an item parses without error then any permutation and any regrouping of its attribute items parses without error to the same result.", "quantifier": "all attribute lists and permutations", "why_tests_cant": "Permutation invariance over unbounded lists.", "anchors": ["opg_derive/src/attr.rs"]}
{"id": "C51", "title": "Tagging is decided by untagged/tag/content as serde documents", "statement": "untagged alone gives untagged, tag alone internal, tag and content adjacent, none external; the model shape is then string for unit enums, oneOf, dictionary or object accordingly.", "quantifier": "all enums and tag attributes", "why_tests_cant": "All enums; combinational logic with the all-unit test over unbounded variant lists.", "anchors": ["opg_derive/src/attr.rs: decide_tag, decide_model_type"]}
{"id": "C52", "title": "The derive macro never panics", "statement": "impl_derive_opg_model returns either generated code or a non-empty list of compile errors for every input item; it never panics.", "quantifier": "all derive inputs", "why_tests_cant": "Universal over inputs; the panics need specific shapes.", "anchors": ["opg_derive/src/opg.rs: unreachable!/unimplemented!", "opg_derive/src/parsing_context.rs", "opg_derive/src/case.rs"]}
{"id": "C53", "title": "Errors are never lost and never invented", "statement": "If the macro does not panic, it returns generated code iff the item has no mistakes, and otherwise one error per mistake, in order: attributes that are not lists, unknown opg items, values of the wrong form, repeated attributes, items without a schema, mixed discriminants.", "quantifier": "all derive inputs", "why_tests_cant": "Universal over inputs.", "anchors": ["opg_derive/src/opg.rs: impl_derive_opg_model", "opg_derive/src/parsing_context.rs", "opg_derive/src/ast.rs: Container::from_ast"]}
{"id": "C54", "title": "Type parameters used by serialized fields are bounded", "statement": "The generated impl adds the OpgModel bound for exactly those type parameters that occur as a bare path in the type of a field that is neither skipped nor in a skipped variant, not under PhantomData, in declaration order without repetition; and adds associated-type bounds for fields of the form T::Assoc.", "quantifier": "all generic containers and field types", "why_tests_cant": "All type expressions of any depth.", "anchors": ["opg_derive/src/bound.rs: with_bound"]}
{"id": "C55", "title": "Every type the generated code mentions has its bound", "statement": "Each type parameter that occurs (outside PhantomData) in a field type that the generated get_schema mentions is bounded by OpgModel.", "quantifier": "all generic containers", "why_tests_cant": "Depends on two functions agreeing on which fields are skipped, for all containers.", "anchors": ["opg_derive/src/bound.rs", "opg_derive/src/opg.rs: tuple_type_description"]}
{"id": "C56", "title": "Every template parameter is declared as a required path parameter", "statement": "For each path of a described API, each {name} in the rendered path has an entry name with in: path and required: true in the path item's parameters.", "quantifier": "all API descriptions", "why_tests_cant": "All API descriptions; fails only on name clashes.", "anchors": ["opg/src/macros.rs: @opg_property_url, @opg_path_insert_url_param, @opg_path_value_parameters"]}
{"id": "C57", "title": "Paths, servers and alternatives keep declaration order and are all present", "statement": "The document's paths are exactly the described ones in declaration order (over all paths sections), servers likewise.", "quantifier": "all API descriptions", "why_tests_cant": "All descriptions.", "anchors": ["opg/src/macros.rs: @opg_property paths, servers"]}
{"id": "C58", "title": "Later declarations of the same key replace earlier ones", "statement": "For tags, operations of one path, responses of one operation, parameters and security schemes declared in the macro, the last declaration with a given key is the one in the document and the others are unaffected.", "quantifier": "all API descriptions", "why_tests_cant": "All declaration sequences.", "anchors": ["opg/src/macros.rs"]}
{"id": "C59", "title": "Macro defaults", "statement": "Header parameters default to required string, query parameters to not required, bodies to required with empty description, responses to the canonical reason of the status code or an empty string; explicit properties override.", "quantifier": "all API descriptions and property lists", "why_tests_cant": "All combinations of property lists in any order.", "anchors": ["opg/src/macros.rs: @opg_path_value_parameters, @opg_path_value_body_properties, responses"]}
{"id": "C60", "title": "Every security requirement names a registered scheme", "statement": "Each scheme name in an operation's security list is a key of components.securitySchemes.", "quantifier": "all API descriptions", "why_tests_cant": "All descriptions; true for identifier forms, unchecked for literals.", "anchors": ["opg/src/macros.rs: @opg_path_value_security_item", "opg/src/models.rs: mention_security_scheme"]}
{"id": "C61", "title": "Callbacks keep their operations", "statement": "Each callback described under an operation appears in the document with exactly its described paths and operations.", "quantifier": "all API descriptions", "why_tests_cant": "Universal; the literal-named rule forwards the wrong tokens.", "anchors": ["opg/src/macros.rs: @opg_path_value_callbacks"]}
{"id": "C62", "title": "A bare type segment names its parameter after the type", "statement": "In a path template, a segment given as a type path a::b::Name declares parameter 'name' spelled as the last path segment with its first letter lowered.", "quantifier": "all type paths", "why_tests_cant": "All path strings; fails for generic arguments.", "anchors": ["opg/src/macros.rs: @opg_path_url"]}
{"id": "C63", "title": "describe_type! builds the model it spells", "statement": "describe_type! yields a model with exactly the given description, format, example, variants, items; an object's properties are the last definition per name and required lists the names marked required in order.", "quantifier": "all descriptions of any nesting depth", "why_tests_cant": "Recursive macro, any depth.", "anchors": ["opg/src/macros.rs: describe_type!"]}
{"id": "C64", "title": "Generation order inside one document does not matter for references", "statement": "For a described API whose types are name-consistent, the final components.schemas depends only on the set of types mentioned, not on where or in which order they are mentioned.", "quantifier": "all API descriptions", "why_tests_cant": "All documents and permutations.", "anchors": ["opg/src/macros.rs: describe_api!", "opg/src/models.rs: mention_schema"]}
{"id": "C65", "title": "Parsed attributes are exactly what was written", "statement": "Whenever the derive accepts an item, every documentation and serialization setting it works with (serialized names, skip and optional flags, inline, nullable, description, format, example, explicit types, tagging, renaming rule, repr) is the one given by the attributes written on the container, its variants and its fields, and nothing else.", "quantifier": "all accepted derive inputs, any number of fields, variants and attributes", "why_tests_cant": "All attribute lists in all orders and splittings.", "anchors": ["opg_derive/src/attr.rs: Container::from_ast, Variant::from_ast, Field::from_ast", "opg_derive/src/ast.rs: Container::from_ast"]}
{"id": "C66", "title": "Explicit types and tuples are documented as such", "statement": "A newtype struct with an explicit string/number/integer/boolean/any type is documented by that type whatever its field is; a tuple struct is documented as an array whose items are one of the schemas of its fields, in order.", "quantifier": "all accepted newtype and tuple structs", "why_tests_cant": "All field lists and types.", "anchors": ["opg_derive/src/opg.rs: serialize_newtype_struct, serialize_tuple_struct"]}
{"id": "C67", "title": "Generated schemas are legal OpenAPI schemas", "statement": "Every schema generated for a type, returned or registered, is written as a legal Schema Object or Reference Object of OpenAPI 3.0.3: known fields of the right form, non-empty enum/oneOf/allOf/anyOf, non-empty required lists without repetitions, items for arrays, nullable only next to type, at any depth.", "quantifier": "all types, declarations and sequences of mentions that return", "why_tests_cant": "All shapes of declarations with all attributes, nested without bound; tests compare a few rendered schemas with expected text and do not validate them.", "anchors": ["opg_derive/src/opg.rs", "opg/src/models.rs: Serialize for Model, ModelReference", "opg/src/lib.rs"]}
{"id": "C68", "title": "Documents are legal OpenAPI documents", "statement": "The document produced by describe_api!, and every document assembled by hand, is written as a legal OpenAPI 3.0.3 document: required fields (openapi, info, paths, responses, schema of parameters, ..) are there, path parameters are required, parameter and tag names are unique, status codes are real ones, security schemes and component names have the required form.", "quantifier": "all API descriptions, all documents", "why_tests_cant": "All descriptions of any size with callbacks nested without bound; the tests never validate a document.", "anchors": ["opg/src/macros.rs: describe_api!", "opg/src/models.rs: Opg, PathValue, Operation, RequestBody, Response, SecurityScheme, Components"]}
{"id": "C69", "title": "Component names are legal", "statement": "Every schema that a program registers by mentioning types has a name that is a legal component name of OpenAPI (letters, digits, '.', '-', '_'), so that it can be written under components/schemas and referenced.", "quantifier": "all programs and sequences of mentions", "why_tests_cant": "All identifiers Rust allows for types.", "anchors": ["opg_derive/src/opg.rs: implement_type (type_name)", "opg/src/models.rs: mention_schema"]}
{"id": "C70", "title": "Formats describe the values of scalar types", "statement": "The schema of a scalar type, also behind references, smart pointers, cells and Option, has a type and format that accept every value of the type as it is serialized, and for integers of fixed size, chars, strings, booleans and UUIDs nothing else: no value is documented out of range and no range is wider than the type.", "quantifier": "all scalar types, all of their values, all wrappings of them", "why_tests_cant": "The values of the types are too many to enumerate and the wrappings unbounded.", "anchors": ["opg/src/lib.rs: impl_opg_model! for scalars", "opg/src/lib.rs: chrono and uuid impls"]}
{"id": "C71", "title": "Examples are instances of the schema they illustrate", "statement": "Every example in a returned or registered schema, at any depth, is a value that the schema it stands in accepts.", "quantifier": "all programs, all sequences of mentions, all depths", "why_tests_cant": "All placements of example attributes in all programs; the tests compare a few schemas with expected text.", "anchors": ["opg/src/models.rs: ModelString, ModelSimple (example), Model::apply_params", "opg_derive/src/opg.rs: object_type_description, field_model_reference, newtype_model"]}
{"id": "C72", "title": "Documentation of a field appears in its property", "statement": "The description, format, example and nullability given for a field by attributes appear in the schema of the property of that field.", "quantifier": "all derived structs, all fields and attribute values, all field types", "why_tests_cant": "All field types of unbounded size, all combinations of attributes.", "anchors": ["opg_derive/src/opg.rs: field_model_reference, object_type_description", "opg/src/models.rs: Components::mention_schema, Model::apply_params"]}
{"id": "C73", "title": "describe_api! accepts exactly the descriptions of its grammar", "statement": "describe_api! expands exactly if its input is a description written by the grammar shown in the README and tests (sections, security schemes, paths, operations, parameters, bodies, responses, callbacks), no input can be read in two ways, and the document is the one of the description read.", "quantifier": "all token sequences, all scopes", "why_tests_cant": "The inputs are token trees of unbounded size and depth; a test only tries one.", "anchors": ["opg/src/macros.rs: describe_api!"]}
{"id": "C74", "title": "Trailing commas do not matter", "statement": "Commas before closing delimiters of a description can be left out or added anywhere without changing the document.", "quantifier": "all token sequences, all scopes", "why_tests_cant": "Lists are nested without bound and each of them may or may not have a trailing comma.", "anchors": ["opg/src/macros.rs: describe_api!, $(,)? in the rules"]}
{"id": "C75", "title": "describe_type! accepts exactly the types of its grammar", "statement": "describe_type! expands exactly if its input is written by its grammar (kind => {parts in their order, without separators}), no input can be read in two ways, and the model is the one described.", "quantifier": "all token sequences, all scopes", "why_tests_cant": "Inputs of unbounded size and depth.", "anchors": ["opg/src/macros.rs: describe_type!"]}
{"id": "C76", "title": "Documentation attributes change no accepted value", "statement": "Descriptions, formats, examples and the choice between inline and by reference are presentation: two versions of a program that differ only in them document every type by schemas that accept the same JSON values.", "quantifier": "all pairs of programs differing in these attributes, all types mentioned in both, all JSON values, both readings of oneOf", "why_tests_cant": "It relates two whole documents over all values; inlining changes the shape of the document at unbounded depth.", "anchors": ["opg/src/models.rs: OpgModel::select_reference, Components::mention_schema, Model::apply_params", "opg_derive/src/opg.rs: object_type_description, field_model_reference"]}
{"id": "C77", "title": "impl_opg_model! implements what it is told, and the library's own uses", "statement": "impl_opg_model! accepts exactly the invocations of its forms (wrapper, nullable wrapper, tuple, array, dictionary, simple kind with or without format and always_inline); the impl it writes has the schema, name and inlining of its form and refers only to its own type parameters. Every built-in type has exactly one such impl in the library; tuples are covered from two to ten components and arrays from one to thirty-two elements.", "quantifier": "all token sequences; all built-in types over all arguments", "why_tests_cant": "macro_rules! tries its rules in order on arbitrary token trees; tests show the invocations that exist. A rule that cannot be used compiles until somebody uses it.", "anchors": ["opg/src/macros.rs: impl_opg_model!", "opg/src/lib.rs: lines 13-118"]}
{"id": "C78", "title": "Derives do not clash", "statement": "Deriving OpgModel for several types in one module never emits two items of the same name, also with raw identifiers.", "quantifier": "all pairs of Rust identifiers", "why_tests_cant": "All identifiers.", "anchors": ["opg_derive/src/dummy.rs: wrap_in_const, unraw", "opg_derive/src/opg.rs: impl_derive_opg_model"]}
{"id": "C79", "title": "Accepted values are values of the type", "statement": "Every JSON value that the generated documentation of a type accepts is a value that serde writes for the type, up to further entries of structs, the order of entries and integers written for floats.", "quantifier": "all programs, all mentioned types, all JSON values", "why_tests_cant": "The accepted values are infinitely many; a test tries a few rejected ones. Schemas that accept too much never fail a test of serialized samples.", "anchors": ["opg_derive/src/opg.rs: serialize_body and the functions it calls", "opg/src/macros.rs: describe_type!", "opg/src/lib.rs: built-in impls"]}
{"id": "C80", "title": "The written document can be read back", "statement": "A reader that looks up each field of OpenAPI under its key, and accepts no other keys, reads from the serialized document exactly the document that was built: every value is written under its own key, nothing is lost and nothing is added.", "quantifier": "all documents", "why_tests_cant": "Snapshot tests compare text that nobody reads back, for a few documents; a field written under another field's key goes unnoticed when both are absent or equal.", "anchors": ["opg/src/models.rs: all derive(Serialize) and serialize_with functions"]}
{"id": "C81", "title": "A published document is right about the values an API exchanges", "statement": "In the document written for a described API, go to a described path by its text, to an operation by its method, and to the schema of a response, of the request body or of a parameter that the description gives a type for (in callbacks at any depth as well). There is a schema there, and, looking references up in the document's own components, it accepts every JSON value that serde writes for that type, and only such values up to further entries and the order of entries.", "quantifier": "all programs of derived and built-in types, all API descriptions, all places in them that have a type, all JSON values", "why_tests_cant": "It composes macro evaluation, the derive macro, the registry, serialization and the meaning of schemas for unboundedly many programs, descriptions and values.", "anchors": ["opg/src/macros.rs: describe_api!", "opg/src/models.rs: Opg, Components::mention_schema, Serialize impls", "opg/src/lib.rs: impl_opg_model!", "opg_derive/src/opg.rs: impl_derive_opg_model"]}
{"id": "C82", "title": "Generic types are documented like their instances written out", "statement": "Deriving the trait for a generic type and using it with some type arguments gives what deriving it for the same type with the arguments written in place of the parameters gives: the macro accepts, rejects or panics alike, and the instance has the same schema, the same name, and the same effect on the registry.", "quantifier": "all generic items (structs and enums with any attributes and any field types, including nested instances), all lists of type arguments, all registries", "why_tests_cant": "a test derives a few items at a few types; this quantifies over all items and all instantiations", "anchors": ["opg_derive/src/opg.rs: impl_derive_opg_model, implement_type, serialize_body", "opg_derive/src/ast.rs: Container::from_ast"]}
{"id": "C83", "title": "Instances of a generic type are documented separately", "statement": "If an API uses two instances of a generic type, each mention of an instance resolves to the schema of that instance.", "quantifier": "all generic items, all pairs of argument lists, all sequences of mentions", "why_tests_cant": "depends on which other instances are mentioned before, at any distance", "anchors": ["opg_derive/src/opg.rs: implement_type (type_name)", "opg/src/models.rs: Components::mention_schema"]}
{"id": "C84", "title": "The bounds of a derived impl suffice", "statement": "If the types of the documented fields of a generic item implement the trait whenever the type parameters (and their associated types used in fields) do, then the generated impl compiles: each type it asks for implements the trait under the bounds the macro writes.", "quantifier": "all generic items, all sets of impls whose bounds are on parts of the type they are for, all bounds written by the user", "why_tests_cant": "ranges over all field types and all impls in scope; a failure is a compile error in user code", "anchors": ["opg_derive/src/bound.rs: with_bound", "opg_derive/src/opg.rs: build_generics", "opg/src/macros.rs: impl_opg_model! generic_dictionary"]}
{"id": "C85", "title": "The bounds of a derived impl are needed", "statement": "The macro adds a bound on a type parameter only if the generated code needs it.", "quantifier": "all generic items and type parameters", "why_tests_cant": "an unneeded bound shows only at some instance that a test would have to name", "anchors": ["opg_derive/src/bound.rs: with_bound, FindTyParams", "opg_derive/src/opg.rs: field_model_reference"]}
{"id": "C86", "title": "What the schema of a type accepts, the type reads", "statement": "A JSON value without repeated keys that the documented schema of a type accepts is read by serde as a value of that type, so a client that follows the document is not refused.", "quantifier": "all programs, sequences of mentions, types reached, JSON values, and readings of oneOf", "why_tests_cant": "ranges over all accepted values of all types at any depth of nesting", "anchors": ["opg_derive/src/opg.rs: serialize_body, object_type_description, field_model_reference", "opg/src/macros.rs: impl_opg_model!", "opg/src/models.rs: Components::mention_schema"]}
{"id": "C87", "title": "What a type reads, its schema accepts", "statement": "A JSON value that serde reads as a value of a type is accepted by the documented schema of the type.", "quantifier": "all programs, sequences of mentions, types reached and JSON values", "why_tests_cant": "ranges over all values that are read, of all types at any depth of nesting", "anchors": ["opg_derive/src/opg.rs: serialize_body, object_type_description", "opg_derive/src/attr.rs: Field::from_ast (optional)", "opg/src/macros.rs: impl_opg_model!"]}
{"id": "C88", "title": "Requests that follow the published document are read by the service", "statement": "Where an API description has a type (body, parameter, response, in callbacks as well), a JSON value without repeated keys that the schema written there in the published document accepts is read by serde as a value of the type, and a JSON value that serde reads as a value of the type is accepted by that schema.", "quantifier": "all programs, API descriptions, places in the written document and JSON values", "why_tests_cant": "ranges over all JSON values and all described APIs; a wrong reference in the document would only show for particular values", "anchors": ["opg/src/macros.rs: describe_api!", "opg/src/models.rs: Components::mention_schema", "opg_derive/src/opg.rs: serialize_body"]}
{"id": "C89", "title": "The messages of a refused derive tell mistakes apart", "statement": "When #[derive(OpgModel)] refuses an item, the message for each mistake says which mistake it is and names the attribute or shows the text concerned, so that two different mistakes have different messages, and it says where the attribute stands.", "quantifier": "all mistakes, all attribute names and texts", "why_tests_cant": "names and texts are arbitrary; that no two of the formats can coincide is a statement about all of them", "anchors": ["opg_derive/src/attr.rs: error_spanned_by calls", "opg_derive/src/ast.rs: error_spanned_by calls", "opg_derive/src/lib.rs: to_compile_errors"]}
{"id": "C90", "title": "Renaming Rust identifiers while keeping JSON names changes nothing", "statement": "The document sees identifiers of fields and variants only through the names they get in JSON: if two items agree in everything but identifiers, rename and rename_all, and the names that result are the same, #[derive(OpgModel)] generates the same code for both, so every API has the same document. In particular a field or variant can be given another identifier and #[serde(rename = \"..\")] with its old name.", "quantifier": "all derived items and all pairs of items that say the same, all programs and APIs, all renamings of any number of fields and variants", "why_tests_cant": "it relates all pairs of differently written items, over all renaming rules, and all documents that mention them", "anchors": ["opg_derive/src/attr.rs: Name, Container::from_ast, Variant::from_ast, Field::from_ast", "opg_derive/src/ast.rs: Container::from_ast, rename_by_rule", "opg_derive/src/opg.rs: impl_derive_opg_model"]}
{"id": "C91", "title": "Unrelated types do not affect a document", "statement": "The document of an API depends only on the types that it mentions and those they lead to: changing, adding or removing any other type of the program leaves it as it is, and whether describing succeeds at all.", "quantifier": "all pairs of programs that agree on the reached types, all APIs and documents; likewise single calls of get_schema and mention_schema from any registry", "why_tests_cant": "it quantifies over all changes to the rest of a program", "anchors": ["opg/src/models.rs: mention_schema", "opg/src/macros.rs: describe_api!", "opg_derive/src/opg.rs: impl_derive_opg_model"]}
{"id": "C92", "title": "Describing more does not change what is described already", "statement": "A path described in two APIs of one program has the same path item in both documents. When an API is extended by further paths, the schemas of its document are still there unchanged. Two descriptions put one after the other have a document that consists of the documents of the two: paths and servers follow one another, tags, schemas and security schemes are joined.", "quantifier": "all programs, all pairs of APIs and documents, all paths including those of callbacks, all schema names", "why_tests_cant": "it compares all pairs of descriptions that have something in common, with any other content", "anchors": ["opg/src/macros.rs: describe_api!", "opg/src/models.rs: mention_schema, mention_security_scheme"]}
{"id": "C93", "title": "Values match exactly one alternative", "statement": "OpenAPI reads oneOf as exactly one. Every value that serde writes for a described type is accepted by its schema under this reading as well: where the schema offers alternatives, the value matches one of them and no other.", "quantifier": "all programs, all described types, all values serde writes for them, all registries that contain the generated schemas", "why_tests_cant": "whether a further alternative also accepts a value depends on all other variants and on every value of them", "anchors": ["opg_derive/src/opg.rs: serialize_enum, serialize_external_tagged_enum, serialize_internal_tagged_enum, serialize_untagged_enum", "opg/src/macros.rs: generic_tuple"]}
{"id": "C94", "title": "The paths of a document match the requests the author means", "statement": "The URLs that a described path stands for (its literals, with any text for its typed segments) are those that match the text of the path in the document, with the same texts for the same parameters. A URL determines these texts, and they are described by the schema of the segment's type. A parameter said to be in the path occurs in the text of the path. Two paths compete for a URL exactly if their segments overlap one by one.", "quantifier": "all descriptions, all paths and callback paths at any depth, all URLs and texts", "why_tests_cant": "all URLs of all paths are compared with the template language of OpenAPI", "anchors": ["opg/src/macros.rs: @opg_property_url, @opg_path_url", "opg/src/models.rs: Path"]}
{"id": "C95", "title": "Values of earlier versions are accepted by the documents of later ones", "statement": "When types only grow (structs get fields that need not be written, enums get variants, required fields become optional, documentation changes), what was written for values of the old version is what is written for values of the new one; so the document of the new version accepts it, at every place where the type is used, and the new service reads it.", "quantifier": "all pairs of programs of which one has grown from the other, all types, all values, all mentions and all described APIs", "why_tests_cant": "two versions of arbitrary sets of types are compared on all their values", "anchors": ["opg_derive/src/opg.rs: serialize_body, object_type_description", "opg_derive/src/attr.rs: Field", "opg/src/models.rs: ModelObject"]}
{"id": "C96", "title": "A document of types that ask for more accepts no further values", "statement": "Of two versions of a program, let the structs of the first have all fields of the second (and perhaps further ones, in any order), with every field that the second requires required, and let its enums have no variants but those of the second. Then every value that the documentation of a type accepts in the first version is accepted in the second. So dropping fields, making them optional and adding variants never makes a document reject what it accepted; adding fields never makes it accept more; and reordering fields or variants, or changing descriptions, changes nothing.", "quantifier": "all such pairs of programs, all types, all mentions and all described APIs, all JSON values", "why_tests_cant": "two versions of arbitrary sets of (recursively used) types are compared on all JSON values", "anchors": ["opg_derive/src/opg.rs: serialize_body, serialize_enum, object_type_description", "opg_derive/src/attr.rs: Container, Field, Variant", "opg/src/models.rs: ModelObject, ModelString"]}
{"id": "C97", "title": "A document is not much larger than the program it describes", "statement": "However often types refer to each other, each is written once: the schema of a type has at most forty nodes (scalars, sequences, maps and keys) for each node of its declaration (itself, its variants, fields, and the constructors of their types), and all the components of a document together have at most 42 nodes for each node of the declarations. A whole document has besides at most thirty nodes for each node of the description (section, path, operation, property, parameter and so on) and forty for each node of what is mentioned there.", "quantifier": "all programs, all types, all sequences of mentions, all descriptions", "why_tests_cant": "the bound is on all programs, of any number of types that share each other in any way; where it fails the growth shows only in large programs", "anchors": ["opg/src/models.rs: Components::mention_schema, OpgModel::select_reference, Model::apply_params, Model::try_merge", "opg_derive/src/opg.rs: serialize_body, serialize_internal_tagged_enum, serialize_newtype_struct"]}
{"id": "C98", "title": "The schema of each type is generated once", "statement": "However often types refer to each other, the code of each type runs once while a document is made: mentioning types makes at most one call of get_schema for each derived type, and no more calls altogether than the mentioned types and the declarations have nodes.", "quantifier": "all programs without recursive types, all sequences of mentions on an empty registry", "why_tests_cant": "the number of calls is not visible in the document; where it is exponential this shows only with deeply nested types", "anchors": ["opg/src/models.rs: Components::mention_schema, OpgModel::get_schema, OpgModel::select_reference", "opg_derive/src/opg.rs: serialize_body, serialize_internal_tagged_enum, serialize_newtype_struct", "opg/src/macros.rs: impl_opg_model"]}
{"id": "C99", "title": "Every component of a document is used", "statement": "A document has no component that nothing refers to: from the schemas in paths, following references, every registered schema is found.", "quantifier": "all programs, all sequences of mentions on an empty registry, all API descriptions", "why_tests_cant": "which names are registered and which references are written is decided by different code, and every way of nesting types has to agree", "anchors": ["opg/src/models.rs: Components::mention_schema, Components::add_model, Serialize for ModelReference", "opg_derive/src/opg.rs: serialize_body, object_property, newtype_model", "opg/src/macros.rs: describe_api, impl_opg_model"]}
{"id": "C100", "title": "Pointers and kinds of collections make no difference to a document", "statement": "Putting a field's type behind a reference, Box, Rc, Arc, Cell or RefCell or taking it out, using another kind of sequence or map, or a primitive of the same schema (such as an atomic one) changes nothing in a document: the macro accepts the same items, names, schemas, what is registered, and the document of any description stay the same.", "quantifier": "all programs, all items, any number of such changes at any depth of any fields' types, all registry calls, all API descriptions", "why_tests_cant": "changes may be made in any number of fields of any number of types, nested in any way, and recursion runs through the changed types", "anchors": ["opg/src/lib.rs: impl_opg_model uses", "opg/src/macros.rs: impl_opg_model", "opg/src/models.rs: Components::mention_schema", "opg_derive/src/opg.rs: impl_derive_opg_model, serialize_body"]}
{"id": "C101", "title": "Skipped fields and variants leave no trace", "statement": "What serde skips does not appear in documents: removing skipped fields and variants, adding some or changing their types leaves the generated code, all schemas, what is registered and all documents as they are.", "quantifier": "all items, all programs, any number of skipped fields and variants of any types, all API descriptions", "why_tests_cant": "skipped parts can be anywhere in a program and of any type, and each way of documenting an enum or struct filters them separately", "anchors": ["opg_derive/src/opg.rs: serialize_body, object_type_description, tuple_type_description, serialize_enum", "opg_derive/src/ast.rs: Container::from_ast", "opg_derive/src/attr.rs: decide_model_type, Field::from_ast, Variant::from_ast"]}
{"id": "C102", "title": "The order of fields and variants is only visible in the order of lists", "statement": "Declaring the named fields of a struct or the variants of an enum in another order changes documents only in the order of `required` names, of allowed values (and with it the example, which is the first one) and of alternatives: the macro still accepts the items, calls and descriptions still give results, the same names are registered, documents are otherwise equal, and schemas accept the same values.", "quantifier": "all items, all programs, all permutations of named fields and of variants in any number of types, all sequences of mentions, all descriptions", "why_tests_cant": "all permutations in all types of a program at once; schemas nest, and the order in which fields are visited decides what is registered when", "anchors": ["opg_derive/src/opg.rs: object_type_description, serialize_enum, serialize_newtype_enum, serialize_adjacent_tagged_enum", "opg_derive/src/ast.rs: Container::from_ast, fields_from_ast, enum_from_ast", "opg/src/models.rs: Components::mention_schema"]}
{"id": "C103", "title": "Impls of OpgModel written by hand cannot undo what is registered", "statement": "Whatever hand written impls of OpgModel do with the registry through its methods, what was registered before a call stays registered with the same schema, the result is determined by the registry at the start, and a mention that answers with a link leaves the name registered; it is the schema that get_schema returned. If every hand written impl refers only to names it got from calls, looked up or added, then no link dangles in a program that mixes derived, built-in and hand written impls. Without hand written impls, runs are those of derived code.", "quantifier": "all impls (any code that calls methods of Components and OpgModel, also overriding get_schema_with_params and select_reference), all mixtures with derived types, all registries, all calls", "why_tests_cant": "the impls are arbitrary code of the user, called at any depth in between derived ones", "anchors": ["opg/src/models.rs: OpgModel, Components::mention_schema, Components::add_model, Components::contains_model, Components::mention_security_scheme", "opg/src/macros.rs: impl_opg_model"]}
{"id": "C104", "title": "Documenting types by hand changes schemas only, and keeps references intact", "statement": "In a program that mixes derived, built-in and hand written impls of OpgModel, describe_api! gives one document; its schemas are those left by mentioning in order what the description mentions; every name in a security requirement is that of a registered scheme (if the literal ones are). If hand written impls refer only to names they know to be registered, every $ref of the written document resolves. Two programs that differ in their impls give documents which differ, besides the components, only in schemas, and at each place both have an answer to a mention of the same type. Without hand written impls, the documents are those of derived code.", "quantifier": "all descriptions, all hand written impls (any code that calls methods of Components and OpgModel), all mixtures with derived types", "why_tests_cant": "the impls are arbitrary code of the user, run while the description is evaluated, in between derived ones", "anchors": ["opg/src/macros.rs: describe_api!", "opg/src/models.rs: OpgModel, Components::mention_schema, Components::mention_security_scheme"]}
{"id": "C105", "title": "A derived impl depends on exactly the types that are documented by themselves", "statement": "The impl generated for an item asks for the schema of a type (which then has to implement OpgModel) exactly if it is the type of a written field of a struct or struct variant, of any component of a tuple, or of what a newtype wraps, and no explicit type is given in its place; it is asked for by reference exactly if neither the field nor its variant is inline (never for newtype structs and internally tagged newtype variants, for which an explicit type on the field has no effect).", "quantifier": "all items the macro accepts, all attributes, all field types", "why_tests_cant": "all combinations of shapes, tagging modes and attributes; the converse is about what is absent from the code", "anchors": ["opg_derive/src/opg.rs: serialize_body, field_model_reference, object_type_description, tuple_type_description"]}
{"id": "C106", "title": "Descriptions, formats and examples are only texts", "statement": "Programs whose derived types differ only in descriptions, formats and examples (and in what example expressions evaluate to) behave alike: a call that returns in one returns in the other, the same names are registered, documents and schemas are the same but for these texts, and so they accept and reject the same values.", "quantifier": "all pairs of programs, all sequences of calls on any registries, all API descriptions, all values", "why_tests_cant": "about all pairs of programs, all values and recursive types", "anchors": ["opg_derive/src/opg.rs: serialize_body, field_model_reference, stringify_option", "opg/src/models.rs: Model::apply_params, ModelReference::apply_params, Components::mention_schema, ModelTypeDescription::try_merge"]}
{"id": "C107", "title": "Renaming derived types changes only component names and links", "statement": "If the derived types of a program get other identifiers (different ones if they were different), then whatever returned before still returns; the components are the same ones under the changed names with the links following the names, documents correspond entry by entry, and the same values are accepted and rejected. The macro accepts an item under any identifier and nothing but the names depends on it. (Descriptions may change: those of variants contain the name of the type.)", "quantifier": "all programs, all injective renamings, all sequences of calls on any registries, all API descriptions, all values", "why_tests_cant": "about all programs and renamings, recursive types and all values", "anchors": ["opg_derive/src/opg.rs: implement_type, serialize_body", "opg_derive/src/ast.rs: Container::from_ast", "opg/src/models.rs: Components::mention_schema, ModelTypeDescription::try_merge"]}
{"id": "C108", "title": "Newtypes and pointers around types change no accepted value", "statement": "Replacing the type of a field, in any type of a program, by a newtype of it or a smart pointer to it (or the other way round, at any depth, or replacing the kind of a collection) may change which components there are, but not which values the documentation accepts or rejects, in the registry and in the published document.", "quantifier": "all pairs of programs that differ in newtypes, pointers, kinds of collections and documentation attributes, all mentioned types, both readings of oneOf, all values", "why_tests_cant": "about all pairs of programs, recursive types and all values", "anchors": ["opg_derive/src/opg.rs: serialize_newtype_struct, serialize_body", "opg/src/macros.rs: impl_opg_model", "opg/src/models.rs: Components::mention_schema"]}
{"id": "C109", "title": "Only the order that a document shows matters in a description", "statement": "In the input of describe_api!, declarations can be moved past declarations about something else, grouped differently, and left out if a later one with the same key overrides them: two descriptions that say the same last under every key, and list paths, servers, tags and security alternatives in the same order, give documents with the same information, tags, servers and paths; and the same document if they mention the same consistently named types and declare and use the same security schemes. Moving whole sections past sections of other kinds changes nothing at all, not even whether there is a document.", "quantifier": "all programs, all pairs of descriptions (with nested callbacks), all documents of them", "why_tests_cant": "about all pairs of descriptions; a test compares finitely many", "anchors": ["opg/src/macros.rs: describe_api", "opg/src/models.rs: Components::mention_schema, Components::mention_security_scheme"]}
{"id": "C110", "title": "Which descriptions yield a document", "statement": "describe_api! yields a document exactly if: every path has a segment, a type given bare as a segment has a name that starts in ASCII, a body has a schema, security requirements are non-empty and without roles, status codes are below 65536, a callback with a literal name is the last of its list, nothing in an info section is repeated, declared security schemes are complete, and the registry answers for all mentioned types in turn; which, if each name is used for one type, is so exactly if the types have finite expansions. In that case the order of sections does not matter to it.", "quantifier": "all programs, all descriptions", "why_tests_cant": "an exact criterion over all descriptions, with nested callbacks, and all programs", "anchors": ["opg/src/macros.rs: describe_api", "opg/src/models.rs: Components::mention_schema"]}
{"id": "C111", "title": "An operation has exactly the parameters declared for it", "statement": "OpenAPI identifies a parameter by its name and its place (header, query, path), and an operation has, besides its own parameters, those of its path item that it does not list itself. With this reading, the parameters an operation has in the document are exactly those declared for it: the last declaration of that name and place in the operation, else in the path, else in the path's segments.", "quantifier": "all programs, all descriptions that yield a document, all paths and operations in it including those in callbacks, all names and places", "why_tests_cant": "every combination of declarations on two levels, in any order and number", "anchors": ["opg/src/macros.rs: describe_api", "opg/src/models.rs: Operation", "opg/src/models.rs: PathValue", "opg/src/models.rs: OperationParameter"]}
{"id": "C112", "title": "A request passes the documented security of an operation exactly if it passes the described one", "statement": "In a published document a request is let through by an operation (it has no security, or all schemes named in one of its alternatives, looked up among the document's security schemes, are satisfied by the credentials shown) exactly if the author lets it through: the operation has no alternatives, or every scheme meant in one of them (the value of the variable, or the scheme the description calls by the literal name) is satisfied. In particular exactly the operations described without security are open to everyone.", "quantifier": "All descriptions that yield a document without repeated keys, all their operations including those of callbacks at any depth, all credentials (any set of security schemes).", "why_tests_cant": "Names of schemes are resolved across the whole description: declared schemes replace used ones, the first use of a variable registers it, alternatives merge equal names. A test sees single documents and single credentials.", "anchors": ["opg/src/macros.rs: describe_api! (@opg_security_scheme, @opg_path_value_security, @opg_path_value_security_item)", "opg/src/models.rs: Operation::security, Components::mention_security_scheme, SecurityScheme"]}
{"id": "C113", "title": "A published document takes exactly the requests its description takes", "statement": "A request (method, URL, header and query values, body, credentials) is in order according to the published document (some documented path matches its URL, has an operation for the method, the security of the operation lets it through, every required parameter and body is there, and every value sent is accepted by its schema) exactly if it is in order according to the description: some described path serves the URL, its last declared operation for the method lets the request through, the headers, query parameters and body declared for it are there unless optional, and every value sent is a value of the declared type.", "quantifier": "All descriptions that yield a document without repeated keys, all requests without repeated keys in their JSON, all notions of values of a type with which the schemas agree; in particular what serde reads, for types whose schemas agree with it.", "why_tests_cant": "It quantifies over all descriptions and all requests, and combines the routing of paths, replacement of path parameters by those of operations, defaults of required flags, resolution of references and of security schemes.", "anchors": ["opg/src/macros.rs: describe_api! (all rules)", "opg/src/models.rs: Opg, PathValue, Operation, OperationParameter, RequestBody, Components, and their serialization"]}
{"id": "C114", "title": "A published document allows exactly the responses its description allows", "statement": "For every operation of a published document: a response (status and body) follows the document (its status is listed; if there is a schema, there is a body that it accepts, and otherwise no body) exactly if it follows the description: its status is declared, and the last declaration for it allows the body, by a value of the declared type, none for None. In particular the responses of a service that writes the declared types follow the document, and a client that has the types reads every response that follows the document.", "quantifier": "All descriptions that yield a document without repeated keys, all their operations including those of callbacks at any depth, all responses, all notions of values of a type that the schemas meet.", "why_tests_cant": "It quantifies over all descriptions and all JSON bodies; repeated declarations of a status replace each other, and schemas refer to components registered anywhere in the description.", "anchors": ["opg/src/macros.rs: describe_api! (@opg_path_value_operation_properties response rules)", "opg/src/models.rs: Operation::responses, Response and ResponseContent"]}
{"id": "C115", "title": "Compatible changes of a description keep the requests of earlier clients in order", "statement": "If a later version of a description has the paths and operations of the earlier one (and perhaps more), and these ask for no further credentials, parameters or bodies except optional ones that clients do not send, and types ask for no more, then every request that the earlier document takes, and every request that an earlier client writes with the earlier types, is taken by the later document. Conversely, if operations answer with no new status and types accept no more, every response the later document allows is one the earlier document allows.", "quantifier": "All pairs of descriptions over all pairs of programs that yield documents without repeated keys, all requests and responses.", "why_tests_cant": "It relates all pairs of versions and all requests; additions may shift paths, replace registered schemas and schemes, and change which declaration counts.", "anchors": ["opg/src/macros.rs: describe_api! (all rules)", "opg/src/models.rs: Components::mention_schema, mention_security_scheme", "opg/src/models.rs: Opg and its serialization"]}
{"id": "C116", "title": "Operations stand where they are described, and their ids are unique exactly if the author's are", "statement": "An operation stands in the document exactly where one is described: below the path of the same number and the method, or below a callback of another operation, to any depth; and it has the id, summary, description and tags given there. So the rule of OpenAPI that ids are unique among all operations holds of the document exactly if the author gave no id twice, and the rule that no two paths are the same up to the names of parameters holds exactly if no two described paths are.", "quantifier": "All descriptions that yield a document, all places at paths and callbacks of any depth.", "why_tests_cant": "Places are nested to any depth, and the rules relate all pairs of operations and all pairs of paths of every document.", "anchors": ["opg/src/macros.rs: describe_api! (@opg_path_value_operation_properties, @opg_path_value_callbacks, @opg_path_value_callbacks_paths)", "opg/src/models.rs: Operation, CallbackObject, PathValue, HttpMethod::as_str", "opg/src/models.rs: serialize_ordered_entries"]}
{"id": "C117", "title": "What a document says apart from schemas follows from the description alone", "statement": "However the types of a description are documented, by derived impls or by hand, the document has the paths described, in their order, and at each of them and in each callback the operations described, with the ids, texts, tags, security, parameters, bodies and responses described; only schemas depend on the impls. Ids of operations are unique in the document exactly if they are in the description.", "quantifier": "All descriptions, all impls of OpgModel for their types, all places at paths and callbacks of any depth.", "why_tests_cant": "It ranges over all impls a user may write by hand, and over all descriptions.", "anchors": ["opg/src/macros.rs: describe_api! (all rules)", "opg/src/models.rs: OpgModel, Components::mention_schema"]}
{"id": "C118", "title": "Requests, responses and security follow the description however types are documented", "statement": "In programs where some types are documented by impls written by hand, a document takes exactly the requests that its description takes, at any path and in callbacks, asks for the credentials described and allows the responses described, provided the schemas of the types accept the values of the types and impls leave alone the security schemes that operations require and the description does not declare. At every place where the description has a type, the document has a schema that is an answer of the impl of this type, and maps of the document are sorted if those of hand written schemas are.", "quantifier": "All programs with derived and hand written impls, all descriptions, all requests and responses, all operations at any depth.", "why_tests_cant": "Impls are arbitrary code over the registry, and requests, responses and descriptions are unbounded.", "anchors": ["opg/src/macros.rs: describe_api! (all rules)", "opg/src/models.rs: OpgModel, Components::mention_schema, Components::mention_security_scheme"]}
{"id": "C119", "title": "Values conform to documents also in programs with hand written impls", "statement": "In programs where some types are documented and serialized by code written by hand and the others by derived code, the schema that a document has where its description has a type accepts every JSON value written for the type, provided the schemas written by hand accept the values of their own types. What is registered under the name of a type is a schema of this type.", "quantifier": "All programs with derived and hand written impls, all descriptions, all places with a type at any depth, all values of the types.", "why_tests_cant": "Hand written impls are arbitrary code over the registry, called in the middle of generating other schemas; programs, values and the nesting of types are unbounded.", "anchors": ["opg/src/models.rs: OpgModel, Components::mention_schema, Components::add_model", "opg/src/macros.rs: describe_api!", "opg_derive/src/opg.rs: impl_derive_opg_model"]}
{"id": "C120", "title": "Requests and responses follow documents also where types are read and documented by hand", "statement": "In programs where some types are documented, read and written by code written by hand and the others by derived code: a document takes exactly the requests that the service reads, with their bodies and parameters read as values of the stated types; responses written from the stated types follow the document; and the bodies of responses that follow the document are read as values of the stated types. The schemas written by hand are to accept exactly what is read by hand.", "quantifier": "All programs with derived and hand written impls, all descriptions, all requests and responses, all JSON values without repeated keys.", "why_tests_cant": "Programs, hand written code, requests, responses and the values they carry are unbounded; both directions (nothing else is accepted, nothing that is read is refused) speak of all JSON values.", "anchors": ["opg/src/models.rs: OpgModel, Components::mention_schema, Components::add_model", "opg/src/macros.rs: describe_api!", "opg_derive/src/opg.rs: impl_derive_opg_model"]}
{"id": "C121", "title": "Later versions serve earlier clients also where types are documented by hand", "statement": "Take two versions of a service, in which some types are documented, read and written by code written by hand and the others by derived code. If the later description has the paths and operations of the earlier one and asks for no further credentials, parameters or bodies, and the later service reads the values that the earlier one reads, then the later document takes every request that the earlier document takes. What the later service answers follows the earlier document, if no status is new and what is written later was written before. It is enough to compare the code written by hand: if it reads more, all types that contain it read more, and if it writes less, they write less.", "quantifier": "All pairs of programs with derived and hand written impls, all pairs of descriptions, all requests and responses, all JSON values without repeated keys.", "why_tests_cant": "The claim relates two arbitrary programs and speaks of all requests and all values that they carry; a test compares finitely many requests of two fixed versions.", "anchors": ["opg/src/models.rs: OpgModel, Components::mention_schema", "opg/src/macros.rs: describe_api!", "opg_derive/src/opg.rs: impl_derive_opg_model"]}
{"id": "C122", "title": "Documents accept only values of the types also where types are documented by hand", "statement": "In the document of a program in which some types are documented and written by code written by hand and the others by derived code, the schema published for a type accepts only JSON values that the program writes for values of the type, up to the order of entries of structs, further entries, and integers for floats, provided that the schemas written by hand accept only what is written by hand. The bodies of responses that follow the document are, up to these differences, ones that the service writes.", "quantifier": "All programs with derived and hand written impls, all descriptions, all places of a document where a type is described, all JSON values, both readings of oneOf.", "why_tests_cant": "The claim is about all values that a schema accepts, of which there are infinitely many, and about all programs and impls; a test tries some values against one document.", "anchors": ["opg/src/models.rs: OpgModel, Components::mention_schema", "opg/src/macros.rs: describe_api!", "opg_derive/src/opg.rs: impl_derive_opg_model"]}
