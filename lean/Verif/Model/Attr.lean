import Verif.Model.Case
/-!
# `opg_derive/src/attr.rs`: attribute parsing

Input: the `syn` meta-item trees of the attributes of one item.  Output: parsed attributes and the list of
recorded errors (`ParsingContext`, parsing_context.rs), in recording order.  Error texts and spans are
abstracted to error kinds.

A Rust `Attr<T>` / `BoolAttr` variable of one `from_ast` call is identified by an `AttrKey`; the set of
variables is a function from keys to optional values.  Every arm of the three big `match`es does exactly
one of: set one variable, push one flag on `model_type`, record one error, nothing; this is an `Action`.
-/

namespace Verif

/-- `syn::Lit`, split into string literals and all others (attr.rs 619-653). -/
inductive Lit where
  | str (s : String)
  | other
  deriving DecidableEq, Repr

mutual
/-- `syn::Meta`.  A path is written as a string; `path == SYMBOL` (symbol.rs 71-81, `is_ident`) is string
equality because a path that is not a single plain identifier is spelled with `::` or `<`. -/
inductive Meta where
  | path (p : String)
  | nameValue (p : String) (l : Lit)
  | list (p : String) (nested : List NestedMeta)
/-- `syn::NestedMeta`, as matched in attr.rs 55-154, 209-279, 340-405. -/
inductive NestedMeta where
  | item (m : Meta)
  | lit (l : Lit)
end

/-- Result of `attr.parse_meta()` (attr.rs 669-683). -/
inductive AttrMeta where
  | list (nested : List NestedMeta)
  | other
  | synErr

/-- `syn::Attribute`, as read in attr.rs 655-684. -/
structure Attribute where
  path : String
  parsed : AttrMeta

/-- Kinds of recorded errors, each with the lines that record it. -/
inductive DErr where
  | duplicate (name : String)          -- attr.rs 724-725, 840-843
  | duplicateModelType                 -- attr.rs 800-801
  | unknownWord (p : String)           -- attr.rs 137, 264, 390
  | unknownMeta (p : String)           -- attr.rs 146-149, 273-276, 399-402
  | expectedString (name : String)     -- attr.rs 644-650
  | badExpr (src : String)             -- attr.rs 573
  | badPath (src : String)             -- attr.rs 584-587
  | expectedList (attr : String)       -- attr.rs 676
  | syn                                -- attr.rs 680
  | untaggedUnitEnum                   -- attr.rs 499-502
  | unitStruct                         -- attr.rs 519
  | union                              -- attr.rs 524
  | unionType                          -- ast.rs 46
  | inconsistentDiscriminants          -- ast.rs 117
  deriving DecidableEq, Repr

/-- External facts the macro depends on: `char::is_uppercase` and whether `syn` can parse a string as an
expression (attr.rs 566-575) or as an expression path (577-589). -/
structure Oracle where
  isUpper : Char → Bool
  exprOk : String → Bool
  pathOk : String → Bool

/-- `enum AttrFrom` (attr.rs 686-691). -/
inductive AttrFrom where
  | serde | opg | repr
  deriving DecidableEq, Repr

/-- `Display for AttrFrom` (attr.rs 693-701). -/
def AttrFrom.name : AttrFrom → String
  | .serde => "serde"
  | .opg => "opg"
  | .repr => "repr"

/-- The dispatch on the attribute path in `get_meta_items` (attr.rs 659-667). -/
def attrFrom (path : String) : Option AttrFrom :=
  if path = "opg" then some .opg
  else if path = "serde" then some .serde
  else if path = "repr" then some .repr
  else none

/-- `enum ExplicitModelType` (attr.rs 428-435). -/
inductive ExplicitModelType where
  | string | integer | number | boolean | any
  deriving DecidableEq, Repr

/-- `ExplicitModelType::from_path` (attr.rs 437-454). -/
def ExplicitModelType.fromPath (p : String) : Option ExplicitModelType :=
  if p = "string" then some .string
  else if p = "number" then some .number
  else if p = "integer" then some .integer
  else if p = "boolean" then some .boolean
  else if p = "any" then some .any
  else none

/-- A parsed `example` / `example_with` value: a string literal expression (`lit_str_expr`,
attr.rs 559-564) or the source text of an arbitrary expression. -/
inductive Example where
  | lit (s : String)
  | expr (src : String)
  deriving DecidableEq, Repr

/-- The `Attr`/`BoolAttr` variables of the three `from_ast` functions (attr.rs 34-46, 193-200, 316-326). -/
inductive AttrKey where
  | rename | renameAll | transparent | untagged | tag | content | repr
  | description | format | ex | inline | nullable
  | skipSerializing | skipSerializingIf | flatten | optional
  deriving DecidableEq, Repr

/-- The symbol a variable was created with, used in "duplicate opg attribute" (symbol.rs 10-48). -/
def AttrKey.symbol : AttrKey → String
  | .rename => "rename" | .renameAll => "rename_all" | .transparent => "transparent"
  | .untagged => "untagged" | .tag => "tag" | .content => "content" | .repr => "repr"
  | .description => "description" | .format => "format" | .ex => "example"
  | .inline => "inline" | .nullable => "nullable" | .skipSerializing => "skip_serializing"
  | .skipSerializingIf => "skip_serializing_if" | .flatten => "flatten" | .optional => "optional"

/-- Values of attribute variables: the `T` of the `Attr<T>`s in attr.rs 34-47, 193-201, 316-327; `BoolAttr` has the
value `()` (758). -/
inductive AVal where
  | unit
  | str (s : String)
  | rule (r : RenameRule)
  | ex (e : Example)
  deriving DecidableEq, Repr

/-- The value of an `Attr<String>` (attr.rs 703-708). -/
def AVal.asStr : AVal → Option String
  | .str s => some s
  | _ => none
/-- The value of an `Attr<RenameRule>` (attr.rs 703-708). -/
def AVal.asRule : AVal → Option RenameRule
  | .rule r => some r
  | _ => none
/-- The value of an `Attr<syn::Expr>` (attr.rs 703-708). -/
def AVal.asEx : AVal → Option Example
  | .ex e => some e
  | _ => none

/-- What one meta item does: the arms of attr.rs 55-154, 209-279, 340-405. -/
inductive Action where
  | set (k : AttrKey) (v : AVal)
  | flag (t : ExplicitModelType)
  | error (e : DErr)
  | nothing
  deriving DecidableEq, Repr

/-- `get_lit_str` (attr.rs 627-653). -/
def getLitStr (name : String) : Lit → Except DErr String
  | .str s => .ok s
  | .other => .error (.expectedString name)

/-- `get_lit_str_simple` (attr.rs 619-625): failure without an error record. -/
def getLitStrSimple : Lit → Option String
  | .str s => some s
  | .other => none

/-- `get_ser` (attr.rs 537-557): values of `serialize = ".."` items; `none` is the silent `Err(())`. -/
def getSer : List NestedMeta → Option (List String)
  | [] => some []
  | .item (.nameValue p l) :: rest =>
    if p = "serialize" then
      match getSer rest with
      | some vs => some ((getLitStrSimple l).toList ++ vs)
      | none => none
    else if p = "deserialize" then getSer rest
    else none
  | _ :: _ => none

/-- `get_renames` (attr.rs 530-535) with `VecAttr::at_most_one` (837-848).
`Except.ok none` covers both `Ok(None)` and the silent `Err(())`: all callers treat them alike
(attr.rs 62-64, 74-78, 216-218, 228-232, 347-349). -/
def getRenames (items : List NestedMeta) : Except DErr (Option String) :=
  match getSer items with
  | none => .ok none
  | some [] => .ok none
  | some [v] => .ok (some v)
  | some (_ :: _ :: _) => .error (.duplicate "rename")

/-- `serde(rename = "..")` / `serde(rename(serialize = ".."))` arms (attr.rs 56-65, 210-219, 341-350). -/
def actRename : Meta → Action
  | .nameValue _ l =>
    match getLitStr "rename" l with
    | .ok s => .set .rename (.str s)
    | .error e => .error e
  | .list _ items =>
    match getRenames items with
    | .ok (some s) => .set .rename (.str s)
    | .ok none => .nothing
    | .error e => .error e
  | .path _ => .nothing

/-- `serde(rename_all ..)` arms (attr.rs 66-79, 220-233): an unknown rule is silently ignored. -/
def actRenameAll : Meta → Action
  | .nameValue _ l =>
    match getLitStr "rename_all" l with
    | .ok s =>
      match RenameRule.fromStr s with
      | some r => .set .renameAll (.rule r)
      | none => .nothing
    | .error e => .error e
  | .list _ items =>
    match getRenames items with
    | .ok (some s) =>
      match RenameRule.fromStr s with
      | some r => .set .renameAll (.rule r)
      | none => .nothing
    | .ok none => .nothing
    | .error e => .error e
  | .path _ => .nothing

/-- `opg("..")` description arm (attr.rs 110-114, 238-242, 363-367): other literals are ignored. -/
def actDescription (l : Lit) : Action :=
  match getLitStrSimple l with
  | some s => .set .description (.str s)
  | none => .nothing

/-- `opg(name = lit)` arms shared by all three (attr.rs 115-130, 243-258, 368-382) and the
"unknown opg variant attribute" arm for other name-value items (140-150, 267-277, 393-403). -/
def actOpgNameValue (o : Oracle) (p : String) (l : Lit) : Action :=
  if p = "format" then
    match getLitStr "format" l with
    | .ok s => .set .format (.str s)
    | .error e => .error e
  else if p = "example" then
    match getLitStr "example" l with
    | .ok s => .set .ex (.ex (.lit s))
    | .error e => .error e
  else if p = "example_with" then
    match getLitStr "example_with" l with
    | .ok s => if o.exprOk s then .set .ex (.ex (.expr s)) else .error (.badExpr s)
    | .error e => .error e
  else .error (.unknownMeta p)

/-- The final `opg(word)` arm (attr.rs 133-139, 260-266, 386-392). -/
def actOpgWord (p : String) : Action :=
  match ExplicitModelType.fromPath p with
  | some t => .flag t
  | none => .error (.unknownWord p)

/-- What the `tag`/`content`/`untagged` arms look at (attr.rs 84, 90-95, 104). -/
inductive DataKind where
  | enum | namedStruct | otherStruct | union
  deriving DecidableEq, Repr

/-- The `match` in `Container::from_ast` (attr.rs 55-154). -/
def containerAction (o : Oracle) (kind : DataKind) (src : AttrFrom) (item : NestedMeta) : Action :=
  match src, item with
  | .serde, .item (.nameValue p l) =>
    if p = "rename" then actRename (.nameValue p l)
    else if p = "rename_all" then actRenameAll (.nameValue p l)
    else if p = "tag" then
      match getLitStrSimple l with
      | some s =>
        match kind with
        | .enum | .namedStruct => .set .tag (.str s)
        | _ => .nothing
      | none => .nothing
    else if p = "content" then
      match getLitStrSimple l with
      | some s =>
        match kind with
        | .enum => .set .content (.str s)
        | _ => .nothing
      | none => .nothing
    else .nothing
  | .serde, .item (.list p items) =>
    if p = "rename" then actRename (.list p items)
    else if p = "rename_all" then actRenameAll (.list p items)
    else .nothing
  | .serde, .item (.path p) =>
    if p = "transparent" then .set .transparent .unit
    else if p = "untagged" then
      match kind with
      | .enum => .set .untagged .unit
      | _ => .nothing
    else .nothing
  | .serde, .lit _ => .nothing
  | .opg, .lit l => actDescription l
  | .opg, .item (.nameValue p l) => actOpgNameValue o p l
  | .opg, .item (.path p) =>
    if p = "inline" then .set .inline .unit
    else if p = "nullable" then .set .nullable .unit
    else actOpgWord p
  | .opg, .item (.list p _) => .error (.unknownMeta p)
  | .repr, _ => .set .repr .unit

/-- The `match` in `Variant::from_ast` (attr.rs 209-279). -/
def variantAction (o : Oracle) (src : AttrFrom) (item : NestedMeta) : Action :=
  match src, item with
  | .serde, .item (.nameValue p l) =>
    if p = "rename" then actRename (.nameValue p l)
    else if p = "rename_all" then actRenameAll (.nameValue p l)
    else .nothing
  | .serde, .item (.list p items) =>
    if p = "rename" then actRename (.list p items)
    else if p = "rename_all" then actRenameAll (.list p items)
    else .nothing
  | .serde, .item (.path p) =>
    if p = "skip" ∨ p = "skip_serializing" then .set .skipSerializing .unit else .nothing
  | .serde, .lit _ => .nothing
  | .opg, .lit l => actDescription l
  | .opg, .item (.nameValue p l) => actOpgNameValue o p l
  | .opg, .item (.path p) =>
    if p = "inline" then .set .inline .unit else actOpgWord p
  | .opg, .item (.list p _) => .error (.unknownMeta p)
  | .repr, _ => .nothing

/-- The `match` in `Field::from_ast` (attr.rs 340-405). -/
def fieldAction (o : Oracle) (src : AttrFrom) (item : NestedMeta) : Action :=
  match src, item with
  | .serde, .item (.nameValue p l) =>
    if p = "rename" then actRename (.nameValue p l)
    else if p = "skip_serializing_if" then
      match getLitStr "skip_serializing_if" l with
      | .ok s => if o.pathOk s then .set .skipSerializingIf .unit else .error (.badPath s)
      | .error e => .error e
    else .nothing
  | .serde, .item (.list p items) =>
    if p = "rename" then actRename (.list p items) else .nothing
  | .serde, .item (.path p) =>
    if p = "skip" ∨ p = "skip_serializing" then .set .skipSerializing .unit
    else if p = "flatten" then .set .flatten .unit
    else .nothing
  | .serde, .lit _ => .nothing
  | .opg, .lit l => actDescription l
  | .opg, .item (.nameValue p l) => actOpgNameValue o p l
  | .opg, .item (.path p) =>
    if p = "optional" then .set .optional .unit
    else if p = "inline" then .set .inline .unit
    else if p = "nullable" then .set .nullable .unit
    else actOpgWord p
  | .opg, .item (.list p _) => .error (.unknownMeta p)
  | .repr, _ => .nothing

/-- The variables of one `from_ast` call (attr.rs 34-47, 193-201, 316-327) and the errors recorded so far
(parsing_context.rs 5-7). -/
structure Acc where
  vals : AttrKey → Option AVal
  flags : List ExplicitModelType
  errs : List DErr

/-- All `Attr::none` (attr.rs 711-718, 761-763, 782-788). -/
def Acc.init : Acc := ⟨fun _ => none, [], []⟩

/-- `Attr::set` / `BoolAttr::set_true` (attr.rs 720-730, 765-767), `OneOfFlagsAttr::set` (790-795),
`error_spanned_by` (parsing_context.rs 16-26). -/
def Acc.step (acc : Acc) : Action → Acc
  | .set k v =>
    match acc.vals k with
    | some _ => { acc with errs := acc.errs ++ [.duplicate k.symbol] }
    | none => { acc with vals := fun k' => if k' = k then some v else acc.vals k' }
  | .flag t => { acc with flags := acc.flags ++ [t] }
  | .error e => { acc with errs := acc.errs ++ [e] }
  | .nothing => acc

/-- `get_meta_items` (attr.rs 655-684): the items of one attribute, or the error it records. -/
def getMetaItems (a : Attribute) : Except DErr (List (AttrFrom × NestedMeta)) :=
  match attrFrom a.path with
  | none => .ok []
  | some src =>
    match a.parsed with
    | .list nested => .ok (nested.map fun m => (src, m))
    | .other => .error (.expectedList src.name)
    | .synErr => .error .syn

/-- The actions of one attribute (attr.rs 50-53): an unparsable attribute records its error and yields no items. -/
def attrActions (act : AttrFrom → NestedMeta → Action) (a : Attribute) : List Action :=
  match getMetaItems a with
  | .ok items => items.map fun i => act i.1 i.2
  | .error e => [.error e]

/-- The `for` loop over all attributes (attr.rs 49-155, 203-280, 334-406). -/
def runAttrs (act : AttrFrom → NestedMeta → Action) (attrs : List Attribute) : Acc :=
  (attrs.flatMap (attrActions act)).foldl Acc.step Acc.init

/-- `OneOfFlagsAttr::at_most_one` (attr.rs 797-805): the popped (last) value, and an error if repeated. -/
def atMostOne (flags : List ExplicitModelType) : Option ExplicitModelType × List DErr :=
  (flags.getLast?, if flags.length > 1 then [.duplicateModelType] else [])

/-- `BoolAttr::get` (attr.rs 769-771). -/
def Acc.has (a : Acc) (k : AttrKey) : Bool := (a.vals k).isSome
/-- `Attr::get` of a string variable (attr.rs 746-748). -/
def Acc.str (a : Acc) (k : AttrKey) : Option String := (a.vals k).bind AVal.asStr
/-- `rename_rule.get().unwrap_or(RenameRule::None)` (attr.rs 163, 284). -/
def Acc.rule (a : Acc) : RenameRule := ((a.vals .renameAll).bind AVal.asRule).getD .none
/-- `example.get()` (attr.rs 170, 288, 746-748). -/
def Acc.exv (a : Acc) : Option Example := (a.vals .ex).bind AVal.asEx

/-- `enum TagType` (attr.rs 464-469). -/
inductive TagType where
  | external
  | internal (tag : String)
  | adjacent (tag content : String)
  | none
  deriving DecidableEq, Repr

/-- `enum ModelType` of the macro crate (attr.rs 456-462). -/
inductive MModelType where
  | newType | object | oneOf | dictionary
  deriving DecidableEq, Repr

/-- `decide_tag` (attr.rs 471-483). -/
def decideTag (untagged : Bool) (tag content : Option String) : TagType :=
  match untagged, tag, content with
  | false, .none, .none => .external
  | true, .none, .none => .none
  | false, some t, .none => .internal t
  | false, some t, some c => .adjacent t c
  | _, _, _ => .external

/-- `struct Name` (attr.rs 855-859). -/
structure Name where
  sourceName : String
  serialized : String
  renamed : Bool
  deriving DecidableEq, Repr

/-- `Name::from_attrs` (attr.rs 863-872). -/
def Name.fromAttrs (source : String) (ser : Option String) : Name :=
  ⟨source, ser.getD source, ser.isSome⟩

/-- `Name::rename_as_variant` (attr.rs 874-878); `none` is a panic of the conversion. -/
def Name.renameAsVariant (isUpper : Char → Bool) (n : Name) (r : RenameRule) : Option Name :=
  if n.renamed then some n
  else (r.applyToVariant isUpper n.sourceName).map fun s => { n with serialized := s }

/-- `Name::rename_as_field` (attr.rs 880-884); `none` is a panic of the conversion. -/
def Name.renameAsField (n : Name) (r : RenameRule) : Option Name :=
  if n.renamed then some n
  else (r.applyToField n.sourceName).map fun s => { n with serialized := s }

/-- `str::trim_start_matches("r#")` on characters (dummy.rs 28). -/
def trimRaw : List Char → List Char
  | 'r' :: '#' :: rest => trimRaw rest
  | cs => cs

/-- `dummy::unraw` (dummy.rs 27-29). -/
def unraw (ident : String) : String := String.ofList (trimRaw ident.toList)

/-- `struct Container` of attr.rs (14-29); `name` is never used by the code generator, `has_flatten` and
`transparent` are kept. -/
structure ContainerAttrs where
  name : Name
  renameRule : RenameRule
  transparent : Bool
  tagType : TagType
  hasFlatten : Bool
  hasRepr : Bool
  description : Option String
  format : Option String
  ex : Option Example
  inline : Bool
  nullable : Bool
  explicitModelType : Option ExplicitModelType
  modelType : MModelType
  deriving DecidableEq, Repr

/-- `struct Variant` of attr.rs (179-189). -/
structure VariantAttrs where
  name : Name
  renameRule : RenameRule
  skipSerializing : Bool
  description : Option String
  format : Option String
  ex : Option Example
  inline : Bool
  explicitModelType : Option ExplicitModelType
  deriving DecidableEq, Repr

/-- `struct Field` of attr.rs (299-312); `transparent` is the constant `false`. -/
structure FieldAttrs where
  name : Name
  skipSerializing : Bool
  flatten : Bool
  optional : Bool
  description : Option String
  format : Option String
  ex : Option Example
  inline : Bool
  nullable : Bool
  explicitModelType : Option ExplicitModelType
  deriving DecidableEq, Repr

/-- `Field::from_ast` (attr.rs 314-421); `ident` is `none` for tuple fields. -/
def fieldAttrsFromAst (o : Oracle) (index : Nat) (ident : Option String) (attrs : List Attribute) :
    FieldAttrs × List DErr :=
  let acc := runAttrs (fieldAction o) attrs
  let (mt, errs) := atMostOne acc.flags
  let source := match ident with
    | some i => unraw i
    | none => toString index
  ({ name := Name.fromAttrs source (acc.str .rename)
     skipSerializing := acc.has .skipSerializing
     flatten := acc.has .flatten
     optional := acc.has .skipSerializingIf || acc.has .optional
     description := acc.str .description
     format := acc.str .format
     ex := acc.exv
     inline := acc.has .inline
     nullable := acc.has .nullable
     explicitModelType := mt }, acc.errs ++ errs)

/-- `Variant::from_ast` (attr.rs 191-292). -/
def variantAttrsFromAst (o : Oracle) (ident : String) (attrs : List Attribute) :
    VariantAttrs × List DErr :=
  let acc := runAttrs (variantAction o) attrs
  let (mt, errs) := atMostOne acc.flags
  ({ name := Name.fromAttrs (unraw ident) (acc.str .rename)
     renameRule := acc.rule
     skipSerializing := acc.has .skipSerializing
     description := acc.str .description
     format := acc.str .format
     ex := acc.exv
     inline := acc.has .inline
     explicitModelType := mt }, acc.errs ++ errs)

end Verif
