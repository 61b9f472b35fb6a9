import Verif.Base.BMap
/-!
# `opg/src/models.rs`: schema objects, their operations, `Components`

Functions taking `&mut self` / `mut self` return the new value.
-/

namespace Verif

mutual
/-- `enum ModelReference` (models.rs 1005-1019). -/
inductive Ref where
  /-- `$ref: "#/components/schemas/..."` -/
  | link (name : String)
  | inline (m : Model)
  | any
/-- `struct Model` (models.rs 637-647). -/
structure Model where
  description : Option String
  data : ModelData
/-- `enum ModelData` with `ModelOneOf`, `ModelAllOf`, `ModelAnyOf` inlined (models.rs 686-694, 717-775):
each of these three structs has the single field `one_of` / `all_of` / `any_of`. -/
inductive ModelData where
  | single (t : ModelType)
  | oneOf (rs : List Ref)
  | allOf (rs : List Ref)
  | anyOf (rs : List Ref)
/-- `struct ModelType` (models.rs 777-788). -/
structure ModelType where
  nullable : Bool
  desc : TypeDesc
/-- `enum ModelTypeDescription` (models.rs 817-829), with `ModelString`, `ModelSimple` (850-892) given
as arguments of the constructors and `ModelArray` (908-913) inlined. -/
inductive TypeDesc where
  | string (variants : Option (List String)) (format : Option String) (ex : Option String)
  | number (format : Option String) (ex : Option String)
  | integer (format : Option String) (ex : Option String)
  | boolean
  | array (items : Ref)
  | object (o : ModelObject)
/-- `struct ModelObject` (models.rs 928-943). -/
structure ModelObject where
  properties : List (String × Ref)
  additional : Option Ref
  required : List String
end

/-- `ModelObject::default()` (derive(Default), models.rs 929); used for partial list access in proofs only. -/
instance : Inhabited ModelObject := ⟨⟨[], none, []⟩⟩
/-- Some model (models.rs 637-647); used in proofs only. -/
instance : Inhabited Model := ⟨⟨none, .oneOf []⟩⟩
/-- Some reference (models.rs 1007-1019); used in proofs only. -/
instance : Inhabited Ref := ⟨.any⟩

/-- `ModelObject::default()` (derive(Default), models.rs 929). -/
def ModelObject.empty : ModelObject := ⟨[], none, []⟩

/-- `struct ContextParams` (models.rs 614-632). -/
structure Params where
  description : Option String := none
  nullable : Option Bool := none
  variants : Option (List String) := none
  format : Option String := none
  ex : Option String := none
  deriving DecidableEq, Repr

/-! ## `apply_params` -/

/-- `if let Some(x) = &params.x { self.x = Some(x.clone()) }` (models.rs 653-655, 867-869, 898-903). -/
def overrideOpt {α : Type} (new old : Option α) : Option α :=
  match new with
  | some x => some x
  | none => old

/-- `ModelTypeDescription::apply_params` (models.rs 831-848) with `ModelString::apply_params` (863-873)
and `ModelSimple::apply_params` (894-906) inlined; `other => other` for boolean, array, object. -/
def TypeDesc.applyParams (d : TypeDesc) (p : Params) : TypeDesc :=
  match d with
  | .string v f e => .string (overrideOpt p.variants v) (overrideOpt p.format f) (overrideOpt p.ex e)
  | .number f e => .number (overrideOpt p.format f) (overrideOpt p.ex e)
  | .integer f e => .integer (overrideOpt p.format f) (overrideOpt p.ex e)
  | other => other

/-- `ModelType::apply_params` (models.rs 790-799). -/
def ModelType.applyParams (t : ModelType) (p : Params) : ModelType :=
  ⟨match p.nullable with
    | some b => b
    | none => t.nullable,
   t.desc.applyParams p⟩

/-- `ModelData::apply_params` (models.rs 696-704): only `Single` is affected. -/
def ModelData.applyParams (d : ModelData) (p : Params) : ModelData :=
  match d with
  | .single t => .single (t.applyParams p)
  | d => d

/-- `Model::apply_params` (models.rs 649-658). -/
def Model.applyParams (m : Model) (p : Params) : Model :=
  ⟨overrideOpt p.description m.description, m.data.applyParams p⟩

/-! ## Merging -/

/-- `struct ModelMergeError` (models.rs 683-684). -/
inductive MergeError where
  | conflict
  deriving DecidableEq, Repr

/-- `ModelObject::add_property` (models.rs 945-965). Returns the result and the object after the call. -/
def ModelObject.addProperty (o : ModelObject) (property : String) (ty : Ref) (isRequired : Bool) :
    Except MergeError Unit × ModelObject :=
  if BMap.containsKey property o.properties then
    (.error .conflict, o)
  else
    (.ok (), { o with
      properties := BMap.insert property ty o.properties
      required := if isRequired then o.required ++ [property] else o.required })

/-- The `try_for_each` of `ModelObject::merge` (models.rs 969-980): inserts the other object's
properties one by one and stops at the first occupied entry, keeping what was inserted so far. -/
def mergeProps (props : List (String × Ref)) :
    List (String × Ref) → Except MergeError Unit × List (String × Ref)
  | [] => (.ok (), props)
  | (k, r) :: rest =>
    if BMap.containsKey k props then (.error .conflict, props)
    else mergeProps (BMap.insert k r props) rest

/-- `ModelObject::merge` (models.rs 967-988). -/
def ModelObject.merge (o another : ModelObject) : Except MergeError Unit × ModelObject :=
  match mergeProps o.properties another.properties with
  | (.error e, props) => (.error e, { o with properties := props })
  | (.ok (), props) => (.ok (), { o with properties := props, required := o.required ++ another.required })

/-- `Model::try_merge` (models.rs 660-675). -/
def Model.tryMerge (m other : Model) : Except MergeError Unit × Model :=
  match m with
  | ⟨d, .single ⟨n, .object selfObject⟩⟩ =>
    match other.data with
    | .single ⟨_, .object otherObject⟩ =>
      let (res, o) := selfObject.merge otherObject
      (res, ⟨d, .single ⟨n, .object o⟩⟩)
    | _ => (.error .conflict, m)
  | _ => (.error .conflict, m)

/-! ## Security schemes -/

/-- `enum ParameterIn` (models.rs 499-507). -/
inductive ParameterIn where
  | query | header | path | cookie
  deriving DecidableEq, Repr

/-- `enum HttpSecurityScheme` (models.rs 1077-1094). -/
inductive HttpSecurityScheme where
  | basic (description : Option String)
  | bearer (format : Option String) (description : Option String)
  deriving DecidableEq, Repr

/-- `struct ApiKeySecurityScheme` (models.rs 1107-1121). -/
structure ApiKeySecurityScheme where
  parameterIn : ParameterIn
  name : String
  description : Option String
  deriving DecidableEq, Repr

/-- `enum SecurityScheme` (models.rs 1066-1075). -/
inductive SecurityScheme where
  | http (s : HttpSecurityScheme)
  | apiKey (s : ApiKeySecurityScheme)
  deriving DecidableEq, Repr

/-! ## `Components` -/

/-- `struct Components` (models.rs 509-522). -/
structure Components where
  schemas : List (String × Model)
  securitySchemes : List (String × SecurityScheme)

/-- `Components::new()` / `Default` (models.rs 512, 525-527). -/
def Components.empty : Components := ⟨[], []⟩

/-- `Components::contains_model` (models.rs 529-533). -/
def Components.containsModel (cx : Components) (name : String) : Bool :=
  BMap.containsKey name cx.schemas

/-- `Components::mention_security_scheme` (models.rs 550-561). Returns the name and the new registry. -/
def Components.mentionSecurityScheme (cx : Components) (name : String) (s : SecurityScheme) :
    String × Components :=
  if BMap.containsKey name cx.securitySchemes then (name, cx)
  else (name, { cx with securitySchemes := BMap.insert name s cx.securitySchemes })

/-- `Components::add_model` (models.rs 574-584): inserts only into a vacant entry. -/
def Components.addModel (cx : Components) (name : String) (model : Model) : Components :=
  if BMap.containsKey name cx.schemas then cx
  else { cx with schemas := BMap.insert name model cx.schemas }

/-! ## `verify_schemas` -/

/-- `TraverseContext::check` (models.rs 1056-1064). -/
def traverseCheck (schemas : List (String × Model)) (link : String) : Except String Unit :=
  if BMap.containsKey link schemas then .ok () else .error link

/-- `ModelReference::traverse` (models.rs 1043-1051): inline models are *not* entered. -/
def Ref.traverse (schemas : List (String × Model)) (r : Ref) : Except String Unit :=
  match r with
  | .link l => traverseCheck schemas l
  | _ => .ok ()

/-- `Iterator::try_for_each` (models.rs 727, 747, 767, 995). -/
def tryForEach {α : Type} (f : α → Except String Unit) : List α → Except String Unit
  | [] => .ok ()
  | a :: as =>
    match f a with
    | .ok () => tryForEach f as
    | .error e => .error e

/-- `ModelObject::traverse` (models.rs 990-996): property values, then additional properties. -/
def ModelObject.traverse (schemas : List (String × Model)) (o : ModelObject) : Except String Unit :=
  tryForEach (Ref.traverse schemas) (o.properties.map Prod.snd ++ o.additional.toList)

/-- `ModelType::traverse` (models.rs 801-808), with `ModelArray::traverse` (915-920). -/
def ModelType.traverse (schemas : List (String × Model)) (t : ModelType) : Except String Unit :=
  match t.desc with
  | .array items => items.traverse schemas
  | .object o => o.traverse schemas
  | _ => .ok ()

/-- `ModelData::traverse` (models.rs 706-714) and `ModelOneOf/AllOf/AnyOf::traverse` (724-769);
`Model::traverse` (677-680) delegates to it. -/
def ModelData.traverse (schemas : List (String × Model)) (d : ModelData) : Except String Unit :=
  match d with
  | .single t => t.traverse schemas
  | .oneOf rs => tryForEach (Ref.traverse schemas) rs
  | .allOf rs => tryForEach (Ref.traverse schemas) rs
  | .anyOf rs => tryForEach (Ref.traverse schemas) rs

/-- `Components::verify_schemas` (models.rs 563-572). -/
def Components.verifySchemas (cx : Components) : Except String Unit :=
  tryForEach (fun (b : String × Model) => b.2.data.traverse cx.schemas) cx.schemas

end Verif
