import Verif.Model.Schema
/-!
# Links of a schema (specification)

`links`: every link at any depth.  `directRefs`: the references that are members of the schema itself
(items, properties, additionalProperties, oneOf/allOf/anyOf alternatives).
-/

namespace Verif

mutual
/-- All links occurring in a reference, at any depth. -/
def Ref.links : Ref → List String
  | .link l => [l]
  | .inline m => m.links
  | .any => []
/-- All links occurring in a model, at any depth. -/
def Model.links : Model → List String
  | ⟨_, d⟩ => d.links
def ModelData.links : ModelData → List String
  | .single t => t.links
  | .oneOf rs => refsLinks rs
  | .allOf rs => refsLinks rs
  | .anyOf rs => refsLinks rs
def ModelType.links : ModelType → List String
  | ⟨_, d⟩ => d.links
def TypeDesc.links : TypeDesc → List String
  | .array items => items.links
  | .object o => o.links
  | .string _ _ _ | .number _ _ | .integer _ _ | .boolean => []
def ModelObject.links : ModelObject → List String
  | ⟨properties, additional, _⟩ => propsLinks properties ++ optLinks additional
def refsLinks : List Ref → List String
  | [] => []
  | r :: rs => r.links ++ refsLinks rs
def propsLinks : List (String × Ref) → List String
  | [] => []
  | (_, r) :: rs => r.links ++ propsLinks rs
def optLinks : Option Ref → List String
  | none => []
  | some r => r.links
end

/-- The references a schema directly consists of, in member order. -/
def Model.directRefs (m : Model) : List Ref :=
  match m.data with
  | .single ⟨_, .array items⟩ => [items]
  | .single ⟨_, .object o⟩ => o.properties.map Prod.snd ++ o.additional.toList
  | .single _ => []
  | .oneOf rs => rs
  | .allOf rs => rs
  | .anyOf rs => rs

/-- The link a reference is, if it is one. -/
def Ref.asLink : Ref → Option String
  | .link l => some l
  | _ => none

/-- The links among the direct references of a schema, in member order. -/
def Model.directLinks (m : Model) : List String := m.directRefs.filterMap Ref.asLink

/-- No registered schema and none of its nested inline schemas has a dangling link. -/
def Components.NoDangling (cx : Components) : Prop :=
  ∀ name m, (name, m) ∈ cx.schemas → ∀ l ∈ m.links, l ∈ BMap.keys cx.schemas

theorem refsLinks_eq (rs : List Ref) : refsLinks rs = rs.flatMap Ref.links := by
  induction rs with
  | nil => rfl
  | cons r rs ih => simp [refsLinks, ih]

theorem propsLinks_eq (ps : List (String × Ref)) : propsLinks ps = (ps.map Prod.snd).flatMap Ref.links := by
  induction ps with
  | nil => rfl
  | cons p ps ih => obtain ⟨k, r⟩ := p; simp [propsLinks, ih]

theorem optLinks_eq (o : Option Ref) : optLinks o = o.toList.flatMap Ref.links := by
  cases o <;> simp [optLinks]

/-- The deep links of a schema are the deep links of its direct references. -/
theorem Model.links_eq (m : Model) : m.links = m.directRefs.flatMap Ref.links := by
  obtain ⟨d, data⟩ := m
  cases data with
  | single t =>
    obtain ⟨n, desc⟩ := t
    cases desc <;>
      simp [Model.links, ModelData.links, ModelType.links, TypeDesc.links, Model.directRefs]
    rename_i o
    obtain ⟨p, a, r⟩ := o
    simp [ModelObject.links, propsLinks_eq, optLinks_eq]
  | _ => simp [Model.links, ModelData.links, Model.directRefs, refsLinks_eq]

end Verif
