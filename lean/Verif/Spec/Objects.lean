import Verif.Spec.Links
/-!
# Object schemas inside a schema (specification)
-/

namespace Verif

mutual
/-- All object schemas occurring in a reference, at any depth (links are not followed). -/
def Ref.objects : Ref → List ModelObject
  | .link _ => []
  | .inline m => m.objects
  | .any => []
def Model.objects : Model → List ModelObject
  | ⟨_, d⟩ => d.objects
def ModelData.objects : ModelData → List ModelObject
  | .single t => t.objects
  | .oneOf rs => refsObjects rs
  | .allOf rs => refsObjects rs
  | .anyOf rs => refsObjects rs
def ModelType.objects : ModelType → List ModelObject
  | ⟨_, d⟩ => d.objects
def TypeDesc.objects : TypeDesc → List ModelObject
  | .array items => items.objects
  | .object ⟨properties, additional, required⟩ =>
    ⟨properties, additional, required⟩ :: (propsObjects properties ++ optObjects additional)
  | .string _ _ _ | .number _ _ | .integer _ _ | .boolean => []
def refsObjects : List Ref → List ModelObject
  | [] => []
  | r :: rs => r.objects ++ refsObjects rs
def propsObjects : List (String × Ref) → List ModelObject
  | [] => []
  | (_, r) :: rs => r.objects ++ propsObjects rs
def optObjects : Option Ref → List ModelObject
  | none => []
  | some r => r.objects
end

/-- Property names are in strictly increasing order (so there are no duplicates), and every required name is
the name of a property. -/
def ModelObject.WellFormed (o : ModelObject) : Prop :=
  BMap.Sorted o.properties ∧ ∀ name ∈ o.required, name ∈ BMap.keys o.properties

theorem refsObjects_eq (rs : List Ref) : refsObjects rs = rs.flatMap Ref.objects := by
  induction rs with
  | nil => rfl
  | cons r rs ih => simp [refsObjects, ih]

theorem propsObjects_eq (ps : List (String × Ref)) :
    propsObjects ps = (ps.map Prod.snd).flatMap Ref.objects := by
  induction ps with
  | nil => rfl
  | cons p ps ih => obtain ⟨k, r⟩ := p; simp [propsObjects, ih]

end Verif
