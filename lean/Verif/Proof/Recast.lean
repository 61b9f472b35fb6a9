import Verif.Spec.Recast
import Verif.Proof.Neutral
/-!
# Newtypes and pointers around types: proofs
-/

namespace Verif

variable {env env' : Env} {roots roots' : List (Ty × Bool)} {reg reg' : List (String × Model)}

mutual
theorem Sim.symm {r r'} : Sim reg reg' r r' → Sim reg' reg r' r
  | .any => .any
  | .model h h' hs => .model h' h hs.symm
theorem SimModel.symm {m m'} : SimModel reg reg' m m' → SimModel reg' reg m' m
  | .single h => .single h.symm
  | .oneOf hl h => .oneOf hl.symm fun k r r' hr hr' => (h k r' r hr' hr).symm
theorem SimDesc.symm {d d'} : SimDesc reg reg' d d' → SimDesc reg' reg d' d
  | .string => .string
  | .number => .number
  | .integer => .integer
  | .boolean => .boolean
  | .array h => .array h.symm
  | .object hr hp hs ha has => .object hr.symm (fun k => (hp k).symm) (fun k r r' hr hr' => (hs k r' r hr' hr).symm) ha.symm
      fun r r' hr hr' => (has r' r hr' hr).symm
end

/-- The code of a newtype. -/
theorem newtype_code {c : Container Ty} {t} (h : c.IsNewtype t) :
    ∃ p, serializeBody c = .ok (.getSchemaWithParams t p) ∧ p.nullable = none := by
  obtain ⟨f, fs, h1, h2, h3, h4⟩ := h
  refine ⟨f.attrs.params.or c.attrs.params, ?_, by simp only [ParamsExpr.or, FieldAttrs.params, h3]; rfl⟩
  simp only [serializeBody, h1, serializeNewtypeStruct, h4, h2]

theorem newtype_expr {i t} (h : (env.decl i).IsNewtype t) :
    ∃ p, schemaExpr env (.named i) = some (.getSchemaWithParams t p) ∧ p.nullable = none := by
  obtain ⟨p, h, hp⟩ := newtype_code h
  exact ⟨p, by simp only [schemaExpr, h], hp⟩

theorem simModel_params {m m' : Model} {p : Params} (hn : p.nullable = none) (hv : p.variants = none)
    (h : SimModel reg reg' m m') : SimModel reg reg' m (m'.applyParams p) := by
  have := sim_applyParams (p := {}) (p' := p) rfl hv hn.symm h
  rwa [applyParams_default] at this

theorem mentions_recast {ts us : List Ty} (hl : ts.length = us.length)
    (h : ∀ (k : Nat) t u, ts[k]? = some t → us[k]? = some u → Recast env env' t u) :
    RefsLike (Recast env env') env env' (ts.map fun t => .mention t false {}) (us.map fun t => .mention t false {}) := by
  induction ts generalizing us with
  | nil =>
    cases us with
    | nil => exact .nil
    | cons => simp at hl
  | cons t ts ih =>
    cases us with
    | nil => simp at hl
    | cons u us =>
      exact .cons (.mention (h 0 t u rfl rfl) rfl (.inl rfl)) (ih (by simpa using hl) fun k t u ht hu => h (k + 1) t u ht hu)

theorem code_of_body {i e} (h : schemaExpr env (.named i) = some e) : serializeBody (env.decl i) = .ok e := by
  simp only [schemaExpr] at h
  split at h
  · cases h; assumption
  · cases h

/-- The schemas of recast types in the two programs accept the same values. -/
theorem recast_alike (T : Tidy env roots reg) (T' : Tidy env' roots' reg') (same : env.Recasts env')
    (hp : ∀ i, Reached env roots (.named i) → Reached env' roots' (.named i) → NullableAlike env env' i)
    {t} (hx : Expands env t) : ∀ {t'}, Recast env env' t t' →
    Reached env roots t → Reached env' roots' t' → Alike env env' reg reg' t t' := by
  induction hx with
  | @intro t e he h ih =>
    intro t' hc
    induction hc with
    | @newtypeLeft i u t' hn hc _ =>
      intro hr hr' m m' hm hm'
      obtain ⟨p, hs, hp'⟩ := newtype_expr hn
      rw [hs] at he
      cases he
      obtain ⟨m₀, hm₀, rfl⟩ := yields_getSchemaWithParams (hasSchema_yields hm hs)
      have hu := (seen_of_asked hr hs List.mem_cons_self).1
      exact (simModel_params hp' rfl (ih u false List.mem_cons_self hc hu hr' m₀ m' hm₀ hm').symm).symm
    | @newtypeRight i t u hn hc ihc =>
      intro hr hr' m m' hm hm'
      obtain ⟨p, hs, hp'⟩ := newtype_expr hn
      obtain ⟨m₀, hm₀, rfl⟩ := yields_getSchemaWithParams (hasSchema_yields hm' hs)
      have hu := (seen_of_asked hr' hs List.mem_cons_self).1
      exact simModel_params hp' rfl (ihc he hr hu m m₀ hm hm₀)
    | @pointerLeft w t u hc _ =>
      intro hr hr' m m' hm hm'
      have hs : schemaExpr env (.wrap w t) = some (.getSchema t) := rfl
      rw [hs] at he
      cases he
      have hu := (seen_of_asked hr hs List.mem_cons_self).1
      exact ih t false List.mem_cons_self hc hu hr' m m' (yields_getSchema (hasSchema_yields hm hs)) hm'
    | @pointerRight w t u hc ihc =>
      intro hr hr' m m' hm hm'
      have hs : schemaExpr env' (.wrap w u) = some (.getSchema u) := rfl
      have hu := (seen_of_asked hr' hs List.mem_cons_self).1
      exact ihc he hr hu m m' hm (yields_getSchema (hasSchema_yields hm' hs))
    | @prim p q hpq =>
      intro hr hr'
      cases he
      refine alike_of_code (R := Recast env env') T T' rfl rfl ?_ hr hr' (fun u b hu u' hR => ih u b hu hR)
      rw [← hpq]
      refine .single ?_
      cases p.schema.1
      · exact .string
      · exact .number
      · exact .integer
      · exact .boolean
    | option hc _ =>
      intro hr hr'
      cases he
      exact alike_of_code T T' rfl rfl (.getSchemaWithParams hc rfl) hr hr' (fun u b hu u' hR => ih u b hu hR)
    | tuple hl hc _ =>
      intro hr hr'
      cases he
      exact alike_of_code T T' rfl rfl (.single (.array (.inline (.oneOf (mentions_recast hl hc))))) hr hr'
        (fun u b hu u' hR => ih u b hu hR)
    | seq hc _ =>
      intro hr hr'
      cases he
      exact alike_of_code T T' rfl rfl (.single (.array (.mention hc rfl (.inl rfl)))) hr hr' (fun u b hu u' hR => ih u b hu hR)
    | dict hc _ =>
      intro hr hr'
      cases he
      exact alike_of_code T T' rfl rfl (.single (.dictionary (.mention hc rfl (.inl rfl)))) hr hr' (fun u b hu u' hR => ih u b hu hR)
    | named i =>
      intro hr hr'
      cases T'.expands _ hr' with
      | @intro _ e' he' h' =>
        exact alike_of_code T T' he he' (body_like (containerLike_of (same i) (hp i hr hr')) (code_of_body he) (code_of_body he')) hr hr'
          (fun u b hu u' hR => ih u b hu hR)
    | _ =>
      intro hr hr'
      cases he
      exact alike_of_code (R := Recast env env') T T' rfl rfl (.single .string) hr hr' (fun u b hu u' hR => ih u b hu hR)

end Verif
