import Verif.Spec.Swap
import Verif.Proof.Generic
import Verif.Proof.Same
/-!
# Generated code with interchangeable types
-/

namespace Verif

theorem Interchangeable.symm {t u : Ty} (h : Interchangeable t u) : Interchangeable u t := by
  induction h with
  | prim h => exact .prim h.symm
  | left _ ih => exact .right ih
  | right _ ih => exact .left ih
  | option _ ih => exact .option ih
  | tuple hl _ ih => exact .tuple hl.symm fun k t u h1 h2 => ih k u t h2 h1
  | seq _ ih => exact .seq ih
  | dict _ ih => exact .dict ih
  | unit => exact .unit
  | uuid => exact .uuid
  | naiveDateTime => exact .naiveDateTime
  | dateTime => exact .dateTime
  | naiveDate => exact .naiveDate
  | named i => exact .named i

theorem Interchangeable.refl : ∀ t : Ty, Interchangeable t t
  | .prim _ => .prim rfl
  | .wrap _ t => .left (.right (refl t))
  | .option t => .option (refl t)
  | .tuple ts => .tuple rfl fun k t u h1 h2 => by
      have hm : t ∈ ts := List.mem_iff_getElem?.2 ⟨k, h1⟩
      rw [h1] at h2
      cases h2
      exact refl t
  | .seq _ t => .seq (refl t)
  | .dict _ t => .dict (refl t)
  | .unit => .unit
  | .uuid => .uuid
  | .naiveDateTime => .naiveDateTime
  | .dateTime => .dateTime
  | .naiveDate => .naiveDate
  | .named i => .named i

def Swap.flip (p : Swap) : Swap := ⟨(p.1.2, p.1.1), p.2.symm⟩

theorem Field.map_map {α β γ : Type} (f : α → β) (g : β → γ) (x : Field α) : (x.map f).map g = x.map (g ∘ f) := rfl

theorem Container.map_map {α β γ : Type} (f : α → β) (g : β → γ) (c : Container α) : (c.map f).map g = c.map (g ∘ f) := by
  obtain ⟨i, a, d⟩ := c
  cases d with
  | struct s fs => simp [Container.map, Data.map, Function.comp_def, Field.map]
  | enum vs => simp [Container.map, Data.map, Function.comp_def, Variant.map, Field.map]

theorem Env.Swapped.symm {env env' : Env} (h : env.Swapped env') : env'.Swapped env := by
  refine ⟨h.1.symm, fun i => ?_⟩
  obtain ⟨shape, h1, h2⟩ := h.2 i
  refine ⟨shape.map Swap.flip, ?_, ?_⟩
  · rw [Container.map_map, h2]; rfl
  · rw [Container.map_map, h1]; rfl

theorem Interchangeable.typeName {env env' : Env} (he : env.Swapped env') {t u : Ty} (h : Interchangeable t u) :
    typeName env' u = typeName env t := by
  induction h with
  | left _ ih => rw [ih]; rfl
  | right _ ih => rw [← ih]; rfl
  | option _ ih => exact ih
  | named i =>
    obtain ⟨shape, h1, h2⟩ := he.2 i
    simp only [Verif.typeName, h1, h2]
    rfl
  | _ => rfl

section
variable {env env' : Env} {rec rec' : Ty → M Model}

/-- What `rec'` has to do on the second type: the same as `rec` on the first. -/
def Follows (rec rec' : Ty → M Model) (p : Swap) : Prop := ∀ cx x, rec p.before cx = some x → rec' p.after cx = some x

theorem mentionWith_follows (he : env.Swapped env') {p : Swap} (hr : Follows rec rec' p) {i q cx x}
    (h : mentionWith env rec p.before i q cx = some x) : mentionWith env' rec' p.after i q cx = some x := by
  have hl : linkName env' p.after i = linkName env p.before i := by
    unfold linkName; rw [show typeName env' p.after = typeName env p.before from p.2.typeName he]
  rw [mentionWith_eq] at h ⊢
  rw [hl]
  cases hn : linkName env p.before i with
  | some l =>
    rw [hn] at h
    simp only at h ⊢
    split at h
    · rename_i hc; rw [if_pos hc]; exact h
    · rename_i hc
      rw [if_neg hc]
      cases hx : rec p.before cx with
      | none => rw [hx] at h; cases h
      | some y => rw [hx] at h; rw [hr cx y hx]; exact h
  | none =>
    rw [hn] at h
    simp only at h ⊢
    cases hx : rec p.before cx with
    | none => rw [hx] at h; cases h
    | some y => rw [hx] at h; rw [hr cx y hx]; exact h

mutual
theorem RefExpr.follows (he : env.Swapped env') : ∀ (e : RefExpr Swap), (∀ x ∈ e.asked, Follows rec rec' x.1) → ∀ cx y,
    (e.map Swap.before).eval env rec cx = some y → (e.map Swap.after).eval env' rec' cx = some y
  | .mention t i p, hs, cx, y, h => by
    simp only [RefExpr.map] at h ⊢
    rw [RefExpr.eval] at h ⊢
    rw [ParamsExpr.eval_same he.1]
    rw [RefExpr.asked] at hs
    exact mentionWith_follows he (hs _ (List.mem_singleton.2 rfl)) h
  | .inline m, hs, cx, y, h => by
    simp only [RefExpr.map] at h ⊢
    rw [RefExpr.eval] at h ⊢
    cases hm : (m.map Swap.before).eval env rec cx with
    | none => rw [hm] at h; cases h
    | some z => rw [hm] at h; rw [ModelExpr.follows he m hs cx z hm]; exact h
  | .any, _, cx, y, h => by
    simp only [RefExpr.map] at h ⊢
    rw [RefExpr.eval] at h ⊢
    exact h
theorem ModelExpr.follows (he : env.Swapped env') : ∀ (e : ModelExpr Swap), (∀ x ∈ e.asked, Follows rec rec' x.1) → ∀ cx y,
    (e.map Swap.before).eval env rec cx = some y → (e.map Swap.after).eval env' rec' cx = some y
  | .getSchema t, hs, cx, y, h => by
    simp only [ModelExpr.map] at h ⊢
    rw [ModelExpr.eval] at h ⊢
    rw [ModelExpr.asked] at hs
    exact hs _ (List.mem_singleton.2 rfl) cx y h
  | .getSchemaWithParams t p, hs, cx, y, h => by
    simp only [ModelExpr.map] at h ⊢
    rw [ModelExpr.eval] at h ⊢
    rw [ModelExpr.asked] at hs
    cases hm : rec t.before cx with
    | none => rw [hm] at h; cases h
    | some z =>
      rw [hm] at h
      rw [hs _ (List.mem_singleton.2 rfl) cx z hm, ParamsExpr.eval_same he.1]
      exact h
  | .single d n td, hs, cx, y, h => by
    simp only [ModelExpr.map] at h ⊢
    rw [ModelExpr.eval] at h ⊢
    cases hm : (td.map Swap.before).eval env rec cx with
    | none => rw [hm] at h; cases h
    | some z => rw [hm] at h; rw [TypeExpr.follows he td hs cx z hm]; exact h
  | .oneOf d rs, hs, cx, y, h => by
    simp only [ModelExpr.map] at h ⊢
    rw [ModelExpr.eval] at h ⊢
    cases hm : RefExpr.evalList env rec (RefExpr.mapList Swap.before rs) cx with
    | none => rw [hm] at h; cases h
    | some z => rw [hm] at h; rw [RefExpr.followsList he rs hs cx z hm]; exact h
  | .tagged m .., hs, cx, y, h => by
    simp only [ModelExpr.map] at h ⊢
    rw [ModelExpr.eval] at h ⊢
    cases hm : (m.map Swap.before).eval env rec cx with
    | none => rw [hm] at h; cases h
    | some z => rw [hm] at h; rw [ModelExpr.follows he m hs cx z hm]; exact h
theorem TypeExpr.follows (he : env.Swapped env') : ∀ (e : TypeExpr Swap), (∀ x ∈ e.asked, Follows rec rec' x.1) → ∀ cx y,
    (e.map Swap.before).eval env rec cx = some y → (e.map Swap.after).eval env' rec' cx = some y
  | .string .., _, cx, y, h | .number .., _, cx, y, h | .integer .., _, cx, y, h => by
    simp only [TypeExpr.map] at h ⊢
    rw [TypeExpr.eval] at h ⊢
    rw [optExample_same he.1]
    exact h
  | .boolean, _, cx, y, h => by
    simp only [TypeExpr.map] at h ⊢
    rw [TypeExpr.eval] at h ⊢
    exact h
  | .array r, hs, cx, y, h => by
    simp only [TypeExpr.map] at h ⊢
    rw [TypeExpr.eval] at h ⊢
    cases hm : (r.map Swap.before).eval env rec cx with
    | none => rw [hm] at h; cases h
    | some z => rw [hm] at h; rw [RefExpr.follows he r hs cx z hm]; exact h
  | .object es, hs, cx, y, h => by
    simp only [TypeExpr.map] at h ⊢
    rw [TypeExpr.eval] at h ⊢
    cases hm : PropExpr.evalList env rec (PropExpr.mapList Swap.before es) [] [] cx with
    | none => rw [hm] at h; cases h
    | some z => rw [hm] at h; rw [PropExpr.followsList he es hs [] [] cx z hm]; exact h
  | .dictionary r, hs, cx, y, h => by
    simp only [TypeExpr.map] at h ⊢
    rw [TypeExpr.eval] at h ⊢
    cases hm : (r.map Swap.before).eval env rec cx with
    | none => rw [hm] at h; cases h
    | some z => rw [hm] at h; rw [RefExpr.follows he r hs cx z hm]; exact h
theorem RefExpr.followsList (he : env.Swapped env') : ∀ (es : List (RefExpr Swap)), (∀ x ∈ RefExpr.askedList es, Follows rec rec' x.1) →
    ∀ cx y, RefExpr.evalList env rec (RefExpr.mapList Swap.before es) cx = some y →
      RefExpr.evalList env' rec' (RefExpr.mapList Swap.after es) cx = some y
  | [], _, cx, y, h => by
    simp only [RefExpr.mapList] at h ⊢
    rw [RefExpr.evalList] at h ⊢
    exact h
  | r :: rs, hs, cx, y, h => by
    simp only [RefExpr.mapList] at h ⊢
    rw [RefExpr.evalList] at h ⊢
    rw [RefExpr.askedList] at hs
    cases hm : (r.map Swap.before).eval env rec cx with
    | none => rw [hm] at h; cases h
    | some z =>
      rw [hm] at h
      rw [RefExpr.follows he r (fun x hx => hs x (List.mem_append_left _ hx)) cx z hm]
      simp only at h ⊢
      cases hm' : RefExpr.evalList env rec (RefExpr.mapList Swap.before rs) z.2 with
      | none => rw [hm'] at h; cases h
      | some z' =>
        rw [hm'] at h
        rw [RefExpr.followsList he rs (fun x hx => hs x (List.mem_append_right _ hx)) _ z' hm']
        exact h
theorem PropExpr.followsList (he : env.Swapped env') : ∀ (es : List (PropExpr Swap)), (∀ x ∈ PropExpr.askedList es, Follows rec rec' x.1) →
    ∀ props req cx y, PropExpr.evalList env rec (PropExpr.mapList Swap.before es) props req cx = some y →
      PropExpr.evalList env' rec' (PropExpr.mapList Swap.after es) props req cx = some y
  | [], _, props, req, cx, y, h => by
    simp only [PropExpr.mapList] at h ⊢
    rw [PropExpr.evalList] at h ⊢
    exact h
  | .mk n r q :: rs, hs, props, req, cx, y, h => by
    simp only [PropExpr.mapList] at h ⊢
    rw [PropExpr.evalList] at h ⊢
    rw [PropExpr.askedList] at hs
    cases hm : (r.map Swap.before).eval env rec cx with
    | none => rw [hm] at h; cases h
    | some z =>
      rw [hm] at h
      rw [RefExpr.follows he r (fun x hx => hs x (List.mem_append_left _ hx)) cx z hm]
      exact PropExpr.followsList he rs (fun x hx => hs x (List.mem_append_right _ hx)) _ _ _ y h
end
end

/-! ## Enough depth -/

variable {env env' : Env}

/-- For finitely many pairs there is one depth. -/
theorem enough {n : Nat} : ∀ (l : List (Swap × Bool)), (∀ x ∈ l, ∃ k, Follows (getSchema env n) (getSchema env' k) x.1) →
    ∃ k, ∀ x ∈ l, Follows (getSchema env n) (getSchema env' k) x.1
  | [], _ => ⟨0, fun _ h => by cases h⟩
  | x :: l, h => by
    obtain ⟨k, hk⟩ := h x List.mem_cons_self
    obtain ⟨k', hk'⟩ := enough l fun y hy => h y (List.mem_cons_of_mem _ hy)
    refine ⟨max k k', fun y hy cx z hz => ?_⟩
    rcases List.mem_cons.1 hy with rfl | hy
    · exact getSchema_mono (Nat.le_max_left _ _) (hk cx z hz)
    · exact getSchema_mono (Nat.le_max_right _ _) (hk' y hy cx z hz)

theorem follows_body {n : Nat} (he : env.Swapped env')
    (ih : ∀ t u, Interchangeable t u → ∃ k, ∀ cx x, getSchema env n t cx = some x → getSchema env' k u cx = some x)
    {t u : Ty} (e : ModelExpr Swap) (ht : schemaExpr env t = some (e.map Swap.before))
    (hu : schemaExpr env' u = some (e.map Swap.after)) :
    ∃ k, ∀ cx x, getSchema env (n + 1) t cx = some x → getSchema env' k u cx = some x := by
  obtain ⟨k, hk⟩ := enough (env := env) (env' := env') (n := n) e.asked fun x _ => ih x.1.before x.1.after x.1.2
  refine ⟨k + 1, fun cx x h => ?_⟩
  rw [getSchema, ht] at h
  rw [getSchema, hu]
  exact ModelExpr.follows he e hk cx x h

theorem getSchema_swapped (he : env.Swapped env') : ∀ (n : Nat) (t u : Ty), Interchangeable t u →
    ∃ k, ∀ cx x, getSchema env n t cx = some x → getSchema env' k u cx = some x := by
  intro n
  induction n with
  | zero => intro t u _; exact ⟨0, fun cx x h => by cases h⟩
  | succ n ih =>
    intro t u h
    induction h with
    | @prim p q h =>
      refine ⟨1, fun cx x hx => ?_⟩
      rw [getSchema] at hx ⊢
      simp only [schemaExpr, ← h] at hx ⊢
      cases hp : p.schema.1 <;> rw [hp] at hx <;> simpa [simpleExpr, ModelExpr.eval, TypeExpr.eval] using hx
    | @left w t u h =>
      obtain ⟨k, hk⟩ := ih t u h
      exact ⟨k, fun cx x hx => hk cx x hx⟩
    | right _ ih' =>
      obtain ⟨k, hk⟩ := ih'
      exact ⟨k + 1, fun cx x hx => hk cx x hx⟩
    | @option t u h _ => exact follows_body he ih (.getSchemaWithParams ⟨(t, u), h⟩ { nullable := some true }) rfl rfl
    | @tuple ts us hl h _ =>
      have : ∀ (ts us : List Ty), ts.length = us.length →
          (∀ (k : Nat) t u, ts[k]? = some t → us[k]? = some u → Interchangeable t u) →
          ∃ ps : List Swap, ts = ps.map Swap.before ∧ us = ps.map Swap.after := by
        intro ts
        induction ts with
        | nil => intro us hl _; cases us with
          | nil => exact ⟨[], rfl, rfl⟩
          | cons _ _ => cases hl
        | cons t ts ih => intro us hl h; cases us with
          | nil => cases hl
          | cons u us =>
            obtain ⟨ps, rfl, rfl⟩ := ih us (by simpa using hl) fun k a b h1 h2 => h (k + 1) a b (by simpa using h1) (by simpa using h2)
            exact ⟨⟨(t, u), h 0 t u rfl rfl⟩ :: ps, rfl, rfl⟩
      obtain ⟨ps, rfl, rfl⟩ := this ts us hl h
      refine follows_body he ih (.single none false (.array (.inline (.oneOf none (ps.map fun p => .mention p false {}))))) ?_ ?_ <;>
        simp [schemaExpr, ModelExpr.map, TypeExpr.map, RefExpr.map, RefExpr.mapList_eq, Function.comp_def]
    | @seq k k' t u h _ => exact follows_body he ih (.single none false (.array (.mention ⟨(t, u), h⟩ false {}))) rfl rfl
    | @dict k k' t u h _ => exact follows_body he ih (.single none false (.dictionary (.mention ⟨(t, u), h⟩ false {}))) rfl rfl
    | unit => exact ⟨1, fun cx x hx => hx⟩
    | uuid => exact ⟨1, fun cx x hx => hx⟩
    | naiveDateTime => exact ⟨1, fun cx x hx => hx⟩
    | dateTime => exact ⟨1, fun cx x hx => hx⟩
    | naiveDate => exact ⟨1, fun cx x hx => hx⟩
    | named i =>
      obtain ⟨shape, h1, h2⟩ := he.2 i
      cases hb : serializeBody shape with
      | error p =>
        refine ⟨0, fun cx x hx => ?_⟩
        rw [getSchema] at hx
        simp only [schemaExpr, h1, serializeBody_map, hb] at hx
        cases hx
      | ok e =>
        refine follows_body he ih e ?_ ?_
        · simp only [schemaExpr, h1, serializeBody_map, hb]; rfl
        · simp only [schemaExpr, h2, serializeBody_map, hb]; rfl

theorem mention_swapped (he : env.Swapped env') {t u : Ty} (h : Interchangeable t u) (n : Nat) :
    ∃ k, ∀ i p cx x, mentionWith env (getSchema env n) t i p cx = some x →
      mentionWith env' (getSchema env' k) u i p cx = some x := by
  obtain ⟨k, hk⟩ := getSchema_swapped he n t u h
  exact ⟨k, fun i p cx x hx => mentionWith_follows (p := ⟨(t, u), h⟩) he hk hx⟩

theorem calls_swapped (he : env.Swapped env') {calls calls' : List Call} (hc : Pointwise Call.Swapped calls calls')
    {cx rs cx'} (run : CallsReturn env cx calls rs cx') : CallsReturn env' cx calls' rs cx' := by
  induction run generalizing calls' with
  | nil => cases hc; exact .nil _
  | mention h _ ih =>
    cases hc with
    | cons h1 hc =>
      cases h1 with
      | mention hi =>
        obtain ⟨n, h⟩ := h
        obtain ⟨k, hk⟩ := mention_swapped he hi n
        exact .mention ⟨k, hk _ _ _ _ h⟩ (ih hc)
  | addModel _ ih =>
    cases hc with
    | cons h1 hc => cases h1; exact .addModel (ih hc)
  | security _ ih =>
    cases hc with
    | cons h1 hc => cases h1; exact .security (ih hc)

theorem mention_enough {n : Nat} (he : env.Swapped env') : ∀ (parts : List Part), ∃ k, ∀ t, Part.mention t ∈ parts →
    ∀ i p cx x, mentionWith env (getSchema env n) t i p cx = some x → mentionWith env' (getSchema env' k) t i p cx = some x
  | [] => ⟨0, fun _ h => by cases h⟩
  | q :: parts => by
    obtain ⟨k, hk⟩ := mention_enough (n := n) he parts
    cases q with
    | mention u =>
      obtain ⟨k', hk'⟩ := mention_swapped he (.refl u) n
      refine ⟨max k k', fun t ht i p cx x hx => ?_⟩
      rcases List.mem_cons.1 ht with e | ht
      · cases e
        exact mentionWith_mono (fun h => getSchema_mono (Nat.le_max_right _ _) h) (hk' i p cx x hx)
      · exact mentionWith_mono (fun h => getSchema_mono (Nat.le_max_left _ _) h) (hk t ht i p cx x hx)
    | _ => exact ⟨k, fun t ht => hk t (by simpa using ht)⟩

theorem askAlike_swapped (he : env.Swapped env') (n : Nat) (reason) (parts : List Part) :
    ∃ k, AskAlike true Eq (fun t => Part.mention t ∈ parts) (⟨env, n, reason⟩ : Ctx) (⟨env', k, reason⟩ : Ctx) := by
  obtain ⟨k, hk⟩ := mention_enough (n := n) he parts
  refine ⟨k, rfl, ?_, ?_, ?_⟩
  · rintro t ht cx cx' rfl a cx1 hx
    rw [show ask (⟨env', k, reason⟩ : Ctx) t cx = _ from hk t ht _ _ _ _ hx]
    exact ⟨rfl, rfl⟩
  · rintro n s cx cx' rfl a cx1 hx
    simp only [Option.some.injEq] at hx
    simp [hx]
  · rintro n s cx cx' rfl; rfl

end Verif
