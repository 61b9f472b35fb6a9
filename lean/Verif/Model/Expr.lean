import Verif.Model.Schema
import Verif.Model.Attr
/-!
# Generated Rust expressions

The bodies of `get_schema` that `opg_derive/src/opg.rs` quotes, and the bodies in `impl_opg_model!`, all are
expressions of a small language: struct literals around calls of `cx.mention_schema::<T>(..)` and
`<T as OpgModel>::get_schema(..)`.  This is the syntax of that language; `Eval.lean` gives its meaning.
`τ` is the representation of the Rust types occurring in the calls.
-/

namespace Verif

/-- The quoted `ContextParams { .. }` literal (`ContextParams::tokenize`, opg.rs 896-912); the `variants`
field is always `None` there.  `ex` is still an expression, evaluated at run time by `to_string`. -/
structure ParamsExpr where
  description : Option String := none
  nullable : Option Bool := none
  format : Option String := none
  ex : Option Example := none
  deriving DecidableEq, Repr

/-- The model merged into each alternative of an internally tagged enum (opg.rs 423-455). -/
def internalTagModel (typeName tag variantName : String) (nullable : Bool) : Model :=
  ⟨none, .single ⟨nullable, .object {
    properties := BMap.insert tag (.inline ⟨some (typeName ++ " type variant"),
      .single ⟨false, .string (some [variantName]) none (some variantName)⟩⟩) []
    additional := none
    required := [tag] }⟩⟩

mutual
/-- Expressions of type `ModelReference` (opg.rs 585-589, 671-699). -/
inductive RefExpr (τ : Type) where
  /-- `cx.mention_schema::<ty>(inline, &params)` -/
  | mention (ty : τ) (inline : Bool) (params : ParamsExpr)
  /-- `ModelReference::Inline(model)` -/
  | inline (m : ModelExpr τ)
  /-- `ModelReference::Any` -/
  | any
/-- Expressions of type `Model` (opg.rs 77-473, 539-583, 701-745). -/
inductive ModelExpr (τ : Type) where
  /-- `<ty as OpgModel>::get_schema(cx)` -/
  | getSchema (ty : τ)
  /-- `<ty as OpgModel>::get_schema_with_params(cx, &params)` -/
  | getSchemaWithParams (ty : τ) (params : ParamsExpr)
  /-- `Model { description, data: ModelData::Single(ModelType { nullable, type_description }) }` -/
  | single (description : Option String) (nullable : Bool) (td : TypeExpr τ)
  /-- `Model { description, data: ModelData::OneOf(ModelOneOf { one_of: vec![..] }) }` -/
  | oneOf (description : Option String) (rs : List (RefExpr τ))
  /-- `{ let mut model = #m; let _ = model.try_merge(tag_model); model }` (opg.rs 420-458), where `tag_model`
  is determined by the type name, the tag, the variant name and the container's `nullable`; see
  `internalTagModel` -/
  | tagged (m : ModelExpr τ) (typeName tag variantName : String) (nullable : Bool)
/-- Expressions of type `ModelTypeDescription` (opg.rs 77-473, 591-669, 701-745). -/
inductive TypeExpr (τ : Type) where
  | string (variants : Option (List String)) (format : Option String) (ex : Option Example)
  | number (format : Option String) (ex : Option Example)
  | integer (format : Option String) (ex : Option Example)
  | boolean
  | array (items : RefExpr τ)
  /-- `{ properties.insert(name, ref); required.push(name); ..; Object(ModelObject { properties, required,
  ..Default::default() }) }`, the flag saying whether the `required.push` is there -/
  | object (entries : List (PropExpr τ))
  /-- `Object(ModelObject { additional_properties: Some(Box::new(ref)), ..Default::default() })` -/
  | dictionary (additional : RefExpr τ)
/-- One `properties.insert(name, ref); [required.push(name);]` (opg.rs 624-669). -/
inductive PropExpr (τ : Type) where
  | mk (name : String) (ref : RefExpr τ) (required : Bool)
end

end Verif
