import Verif.Model.Ast
import Verif.Model.Expr
/-!
# `opg_derive/src/opg.rs`: code generation

A panic of the macro itself (`unreachable!`, `unimplemented!`, an index out of range, a failed string slice)
is an explicit error value.
-/

namespace Verif

variable {τ : Type}

/-- Ways in which the macro itself panics, each with the lines that do it. -/
inductive MacroPanic where
  | caseConversion       -- case.rs: slicing inside a character / out of range
  | untaggedVariant      -- opg.rs 170
  | adjacentVariant      -- opg.rs 222
  | internalVariant      -- opg.rs 416
  | enumShape            -- opg.rs 73
  | anyNewtype           -- opg.rs 526
  | unitStruct           -- opg.rs 58
  | fieldIndex           -- `fields[0]` of an empty vector, opg.rs 56, 159, 205, 327, 403
  | noErrors             -- opg.rs 16: `unwrap_err` without recorded errors
  deriving DecidableEq, Repr

/-- `From<&attr::Container> for ContextParams` (opg.rs 817-825). -/
def ContainerAttrs.params (a : ContainerAttrs) : ParamsExpr :=
  ⟨a.description, if a.nullable then some true else none, a.format, a.ex⟩

/-- `From<&attr::Variant> for ContextParams` (opg.rs 827-834). -/
def VariantAttrs.params (a : VariantAttrs) : ParamsExpr := ⟨a.description, none, a.format, a.ex⟩

/-- `From<&attr::Field> for ContextParams` (opg.rs 836-844). -/
def FieldAttrs.params (a : FieldAttrs) : ParamsExpr :=
  ⟨a.description, if a.nullable then some true else none, a.format, a.ex⟩

/-- `Option::or` (opg.rs 876-878). -/
def optOr {α : Type} (a b : Option α) : Option α :=
  match a with
  | some x => some x
  | none => b

/-- `ContextParams::or` (opg.rs 871-880): `nullable` is *not* merged. -/
def ParamsExpr.or (p other : ParamsExpr) : ParamsExpr :=
  { p with
    description := optOr p.description other.description
    format := optOr p.format other.format
    ex := optOr p.ex other.ex }

/-- `newtype_model` (opg.rs 701-745).  The `Any` arm (733, `unreachable!`) is excluded by both callers, which
pass a type different from `Any`; it is given the boolean body here and never used. -/
def newtypeModel (nullable : Bool) (p : ParamsExpr) (t : ExplicitModelType) : ModelExpr τ :=
  .single p.description nullable <|
    match t with
    | .string => .string none p.format p.ex
    | .integer => .integer p.format p.ex
    | .number => .number p.format p.ex
    | .boolean | .any => .boolean

/-- `field_model_reference` (opg.rs 671-699). -/
def fieldModelReference (p : ParamsExpr) (f : Field τ) (inline : Bool) : RefExpr τ :=
  match f.attrs.explicitModelType with
  | some .any => .any
  | some t => .inline (newtypeModel f.attrs.nullable p t)
  | none => .mention f.ty inline p

/-- `object_type_description` (opg.rs 624-669). -/
def objectTypeDescription (fields : List (Field τ)) (inlinePred : Field τ → Bool) : TypeExpr τ :=
  .object <| (fields.filter fun f => !f.attrs.skipSerializing).map fun f =>
    .mk f.attrs.name.serialized (fieldModelReference f.attrs.params f (inlinePred f)) (!f.attrs.optional)

/-- `tuple_type_description` (opg.rs 591-622): skipped fields are *not* filtered. -/
def tupleTypeDescription (fields : List (Field τ)) (inlinePred : Field τ → Bool) : TypeExpr τ :=
  .array <| .inline <| .oneOf none <| fields.map fun f =>
    fieldModelReference f.attrs.params f (inlinePred f)

/-- `object_model` (opg.rs 562-583). -/
def objectModel (nullable : Bool) (description : Option String) (fields : List (Field τ))
    (inlinePred : Field τ → Bool) : ModelExpr τ :=
  .single description nullable (objectTypeDescription fields inlinePred)

/-- `tuple_model` (opg.rs 539-560). -/
def tupleModel (nullable : Bool) (description : Option String) (fields : List (Field τ))
    (inlinePred : Field τ → Bool) : ModelExpr τ :=
  .single description nullable (tupleTypeDescription fields inlinePred)

/-- `variants.iter().filter(|variant| !variant.attrs.skip_serializing)` (opg.rs 83, 122, 156, 197, 298, 394). -/
def serialVariants (vs : List (Variant τ)) : List (Variant τ) :=
  vs.filter fun v => !v.attrs.skipSerializing

/-- `.map(..)` of a closure that may panic (opg.rs 154-172, 195-229, 296-355, 392-461). -/
def mapExcept {ε α β : Type} (f : α → Except ε β) : List α → Except ε (List β)
  | [] => .ok []
  | a :: as =>
    match f a with
    | .error e => .error e
    | .ok b =>
      match mapExcept f as with
      | .error e => .error e
      | .ok bs => .ok (b :: bs)

/-- The alternatives of a repr enum (opg.rs 81-109): variants without discriminant are dropped. -/
def reprAlternative (v : Variant τ) : Option (RefExpr τ) :=
  v.discriminant.map fun d =>
    .inline (.single (some (v.attrs.name.serialized ++ " variant")) false (.integer none (some (.lit d))))

/-- `serialize_newtype_enum` (opg.rs 77-146). -/
def serializeNewtypeEnum (c : Container τ) (vs : List (Variant τ)) : ModelExpr τ :=
  if c.attrs.hasRepr then
    .oneOf c.attrs.description ((serialVariants vs).filterMap reprAlternative)
  else
    let names := (serialVariants vs).map fun v => v.attrs.name.serialized
    .single c.attrs.description false (.string (some names) none (names.head?.map .lit))

/-- The field reference of a newtype variant (opg.rs 158-163, 204-209, 326-335). -/
def newtypeVariantReference (v : Variant τ) : Except MacroPanic (RefExpr τ) :=
  match v.fields with
  | [] => .error .fieldIndex
  | f :: _ => .ok (fieldModelReference (f.attrs.params.or v.attrs.params) f v.attrs.inline)

/-- The closure of `serialize_untagged_enum` (opg.rs 157-171). -/
def untaggedAlternative (v : Variant τ) : Except MacroPanic (RefExpr τ) :=
  match v.style with
  | .newType => newtypeVariantReference v
  | .struct => .ok (.inline (objectModel false v.attrs.description v.fields
      fun f => v.attrs.inline || f.attrs.inline))
  | _ => .error .untaggedVariant

/-- `serialize_untagged_enum` (opg.rs 148-184). -/
def serializeUntaggedEnum (c : Container τ) (vs : List (Variant τ)) : Except MacroPanic (ModelExpr τ) :=
  match mapExcept untaggedAlternative (serialVariants vs) with
  | .error e => .error e
  | .ok oneOf => .ok (.oneOf c.attrs.description oneOf)

/-- The `match` in `serialize_adjacent_tagged_enum` (opg.rs 203-223): struct variants go through `tuple_model`. -/
def adjacentAlternative (v : Variant τ) : Except MacroPanic (RefExpr τ) :=
  match v.style with
  | .newType => newtypeVariantReference v
  | .tuple => .ok (.inline (tupleModel false v.attrs.description v.fields
      fun f => v.attrs.inline || f.attrs.inline))
  | .struct => .ok (.inline (tupleModel false v.attrs.description v.fields
      fun f => f.attrs.inline || v.attrs.inline))
  | .unit => .error .adjacentVariant

/-- `serialize_adjacent_tagged_enum` (opg.rs 186-287). -/
def serializeAdjacentEnum (c : Container τ) (vs : List (Variant τ)) (tag content : String) :
    Except MacroPanic (ModelExpr τ) :=
  match mapExcept adjacentAlternative (serialVariants vs) with
  | .error e => .error e
  | .ok oneOf =>
    let names := (serialVariants vs).map fun v => v.attrs.name.serialized
    .ok <| .single c.attrs.description c.attrs.nullable <| .object [
      .mk tag (.inline (.single (some (c.ident ++ " type variant")) false
        (.string (some names) none (names.head?.map .lit)))) true,
      .mk content (.inline (.oneOf c.attrs.description oneOf)) true]

/-- The `match` in `serialize_external_tagged_enum` (opg.rs 304-349). -/
def externalAlternative (v : Variant τ) : Except MacroPanic (RefExpr τ) :=
  match v.style with
  | .unit => .ok (.inline (.single v.attrs.description false
      (.string (some [v.attrs.name.serialized]) none (some (.lit v.attrs.name.serialized)))))
  | .newType => newtypeVariantReference v
  | .tuple => .ok (.inline (tupleModel false v.attrs.description v.fields
      fun f => v.attrs.inline || f.attrs.inline))
  | .struct => .ok (.inline (objectModel false v.attrs.description v.fields
      fun f => v.attrs.inline || f.attrs.inline))

/-- `serialize_external_tagged_enum` (opg.rs 289-380). -/
def serializeExternalEnum (c : Container τ) (vs : List (Variant τ)) : Except MacroPanic (ModelExpr τ) :=
  match mapExcept externalAlternative (serialVariants vs) with
  | .error e => .error e
  | .ok oneOf =>
    .ok <| .single c.attrs.description c.attrs.nullable <|
      .dictionary (.inline (.oneOf c.attrs.description oneOf))

/-- The `match` in `serialize_internal_tagged_enum` (opg.rs 398-417). -/
def internalInner (v : Variant τ) : Except MacroPanic (ModelExpr τ) :=
  match v.style with
  | .unit => .ok (objectModel false v.attrs.description [] fun _ => false)
  | .newType =>
    match v.fields with
    | [] => .error .fieldIndex
    | f :: _ => .ok (.getSchemaWithParams f.ty (f.attrs.params.or v.attrs.params))
  | .struct => .ok (objectModel false v.attrs.description v.fields
      fun f => v.attrs.inline || f.attrs.inline)
  | .tuple => .error .internalVariant

/-- The closure of `serialize_internal_tagged_enum` (opg.rs 395-460). -/
def internalAlternative (c : Container τ) (tag : String) (v : Variant τ) : Except MacroPanic (RefExpr τ) :=
  match internalInner v with
  | .error e => .error e
  | .ok m => .ok (.inline (.tagged m c.ident tag v.attrs.name.serialized c.attrs.nullable))

/-- `serialize_internal_tagged_enum` (opg.rs 382-473). -/
def serializeInternalEnum (c : Container τ) (vs : List (Variant τ)) (tag : String) :
    Except MacroPanic (ModelExpr τ) :=
  match mapExcept (internalAlternative c tag) (serialVariants vs) with
  | .error e => .error e
  | .ok oneOf => .ok (.oneOf c.attrs.description oneOf)

/-- `serialize_enum` (opg.rs 62-75). -/
def serializeEnum (c : Container τ) (vs : List (Variant τ)) : Except MacroPanic (ModelExpr τ) :=
  match c.attrs.modelType, c.attrs.tagType with
  | .newType, _ => .ok (serializeNewtypeEnum c vs)
  | .object, .adjacent tag content => serializeAdjacentEnum c vs tag content
  | .dictionary, _ => serializeExternalEnum c vs
  | .oneOf, .none => serializeUntaggedEnum c vs
  | .oneOf, .internal tag => serializeInternalEnum c vs tag
  | _, _ => .error .enumShape

/-- `serialize_struct` (opg.rs 475-492). -/
def serializeStruct (c : Container τ) (fields : List (Field τ)) : ModelExpr τ :=
  .single c.attrs.description c.attrs.nullable (objectTypeDescription fields fun f => f.attrs.inline)

/-- `serialize_tuple_struct` (opg.rs 494-511). -/
def serializeTupleStruct (c : Container τ) (fields : List (Field τ)) : ModelExpr τ :=
  .single c.attrs.description c.attrs.nullable (tupleTypeDescription fields fun f => f.attrs.inline)

/-- `serialize_newtype_struct` (opg.rs 513-537). -/
def serializeNewtypeStruct (c : Container τ) (f : Field τ) : Except MacroPanic (ModelExpr τ) :=
  let p := f.attrs.params.or c.attrs.params
  match c.attrs.explicitModelType with
  | some .any => .error .anyNewtype
  | some t => .ok (newtypeModel c.attrs.nullable p t)
  | none => .ok (.getSchemaWithParams f.ty p)

/-- `serialize_body` (opg.rs 50-60): the generated body of `get_schema`. -/
def serializeBody (c : Container τ) : Except MacroPanic (ModelExpr τ) :=
  match c.data with
  | .enum vs => serializeEnum c vs
  | .struct .struct fs => .ok (serializeStruct c fs)
  | .struct .tuple fs => .ok (serializeTupleStruct c fs)
  | .struct .newType fs =>
    match fs with
    | [] => .error .fieldIndex
    | f :: _ => serializeNewtypeStruct c f
  | .struct .unit _ => .error .unitStruct

/-- The generated `type_name` (`implement_type`, opg.rs 779-798): `stringify!(ident)` or `None`. -/
def Container.typeName (c : Container τ) : Option String :=
  if c.attrs.inline then none else some c.ident

/-- Outcome of `#[derive(OpgModel)]` on one item (lib.rs 20-30 of opg_derive, opg.rs 10-35). -/
inductive DeriveOutcome (τ : Type) where
  /-- the macro panics -/
  | panic (p : MacroPanic)
  /-- `compile_error!`s -/
  | errors (es : List DErr)
  /-- generated impl -/
  | code (c : Container τ) (body : ModelExpr τ)

/-- `impl_derive_opg_model` (opg.rs 10-35) with `ParsingContext::check` (parsing_context.rs 28-35). -/
def derive (o : Oracle) (input : DeriveInput τ) : DeriveOutcome τ :=
  match containerFromAst o input with
  | none => .panic .caseConversion
  | some (none, errs) => if errs.isEmpty then .panic .noErrors else .errors errs
  | some (some c, errs) =>
    if errs.isEmpty then
      match serializeBody c with
      | .error p => .panic p
      | .ok body => .code c body
    else .errors errs

end Verif
