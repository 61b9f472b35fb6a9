import Verif.Spec.Links
/-!
# C14, C15: `apply_params`
-/

namespace Verif

theorem overrideOpt_eq {α : Type} (a b : Option α) : overrideOpt a b = a.or b := by
  cases a <;> rfl

/-- What a schema without nested schemas says, field by field. -/
inductive ScalarKind where
  | string | number | integer
  deriving DecidableEq

/-- The simple data of a string / number / integer type: kind, enum variants, format, example. -/
def TypeDesc.simple : TypeDesc → Option (ScalarKind × Option (List String) × Option String × Option String)
  | .string v f e => some (.string, v, f, e)
  | .number f e => some (.number, none, f, e)
  | .integer f e => some (.integer, none, f, e)
  | _ => none

/-- **C14**. `apply_params` overrides exactly the given parameters, on exactly the schemas that can carry
them. -/
theorem c14_apply_params (m : Model) (p : Params) :
    (m.applyParams p).description = p.description.or m.description ∧
    -- single types: nullable
    (∀ t, m.data = .single t → ∃ d', (m.applyParams p).data = .single ⟨p.nullable.getD t.nullable, d'⟩ ∧
      -- string / number / integer: format, example, and enum variants for strings only
      (∀ k v f e, t.desc.simple = some (k, v, f, e) →
        d'.simple = some (k, if k = .string then p.variants.or v else v, p.format.or f, p.ex.or e)) ∧
      -- boolean, array, object: nothing
      (t.desc.simple = none → d' = t.desc)) ∧
    -- oneOf / allOf / anyOf: nothing
    ((∀ t, m.data ≠ .single t) → (m.applyParams p).data = m.data) := by
  obtain ⟨d, data⟩ := m
  refine ⟨by simp [Model.applyParams, overrideOpt_eq], ?_, ?_⟩
  · rintro ⟨n, desc⟩ h
    simp only at h; subst h
    refine ⟨desc.applyParams p, ?_, ?_, ?_⟩
    · simp only [Model.applyParams, ModelData.applyParams, ModelType.applyParams]
      cases p.nullable <;> rfl
    · intro k v f e hs
      cases desc <;> simp only [TypeDesc.simple, Option.some.injEq, Prod.mk.injEq, reduceCtorEq] at hs <;>
        obtain ⟨rfl, rfl, rfl, rfl⟩ := hs <;> simp [TypeDesc.applyParams, TypeDesc.simple, overrideOpt_eq]
    · intro hs
      cases desc <;> simp_all [TypeDesc.simple, TypeDesc.applyParams]
  · intro h
    cases data with
    | single t => exact absurd rfl (h t)
    | _ => rfl

example : ((⟨some "old", .single ⟨false, .string none (some "f") none⟩⟩ : Model).applyParams
      { nullable := some true, ex := some "e" }) =
    ⟨some "old", .single ⟨true, .string none (some "f") (some "e")⟩⟩ := rfl

/-- Parameters that take `q`'s value where given and `p`'s otherwise. -/
def Params.followedBy (p q : Params) : Params where
  description := q.description.or p.description
  nullable := q.nullable.or p.nullable
  variants := q.variants.or p.variants
  format := q.format.or p.format
  ex := q.ex.or p.ex

/-- **C15** (composition). -/
theorem c15_apply_params_compose (m : Model) (p q : Params) :
    (m.applyParams p).applyParams q = m.applyParams (p.followedBy q) := by
  obtain ⟨d, data⟩ := m
  simp only [Model.applyParams, overrideOpt_eq, Params.followedBy, Option.or_assoc]
  congr 1
  cases data with
  | single t =>
    obtain ⟨n, desc⟩ := t
    simp only [ModelData.applyParams, ModelType.applyParams]
    congr 1; congr 1
    · cases p.nullable <;> cases q.nullable <;> rfl
    · cases desc <;> simp [TypeDesc.applyParams, overrideOpt_eq, Option.or_assoc]
  | _ => rfl

/-- **C15** (identity): empty parameters change nothing. -/
theorem c15_apply_params_empty (m : Model) : m.applyParams {} = m := by
  obtain ⟨d, data⟩ := m
  cases data with
  | single t => obtain ⟨n, desc⟩ := t; cases desc <;> rfl
  | _ => rfl

/-- **C15** (idempotence). -/
theorem c15_apply_params_idem (m : Model) (p : Params) :
    (m.applyParams p).applyParams p = m.applyParams p := by
  rw [c15_apply_params_compose]
  congr 1
  obtain ⟨a, b, c, d, e⟩ := p
  simp [Params.followedBy]

/-- **C15** (links): the links of a schema, at every depth, are unchanged. -/
theorem c15_apply_params_links (m : Model) (p : Params) : (m.applyParams p).links = m.links := by
  obtain ⟨d, data⟩ := m
  cases data with
  | single t => obtain ⟨n, desc⟩ := t; cases desc <;> rfl
  | _ => rfl

example : let p : Params := { description := some "p", format := some "x" }
    let q : Params := { description := some "q" }
    p.followedBy q = { description := some "q", format := some "x" } := rfl

end Verif
