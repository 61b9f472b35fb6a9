import Verif.Proof.Deep
/-!
# Fuel-free facts about returning calls
-/

namespace Verif

variable {env : Env}

theorem SchemaReturns.keeps {t cx m cx'} (h : SchemaReturns env t cx m cx') : cx.Keeps cx' := by
  obtain ⟨n, h⟩ := h; exact getSchema_keeps h

theorem MentionReturns.keeps {t i p cx r cx'} (h : MentionReturns env t i p cx r cx') : cx.Keeps cx' := by
  obtain ⟨n, h⟩ := h; exact mentionSchema_keeps h

theorem SchemaReturns.unique {t cx m cx' m2 cx2} (h : SchemaReturns env t cx m cx')
    (h2 : SchemaReturns env t cx m2 cx2) : m = m2 ∧ cx' = cx2 := by
  obtain ⟨n, h⟩ := h
  obtain ⟨k, h2⟩ := h2
  have a := getSchema_mono (Nat.le_max_left n k) h
  have b := getSchema_mono (Nat.le_max_right n k) h2
  rw [a] at b; cases b; exact ⟨rfl, rfl⟩

theorem MentionReturns.unique {t i p cx m cx' m2 cx2} (h : MentionReturns env t i p cx m cx')
    (h2 : MentionReturns env t i p cx m2 cx2) : m = m2 ∧ cx' = cx2 := by
  obtain ⟨n, h⟩ := h
  obtain ⟨k, h2⟩ := h2
  have a := mentionSchema_mono (Nat.le_max_left n k) h
  have b := mentionSchema_mono (Nat.le_max_right n k) h2
  rw [a] at b; cases b; exact ⟨rfl, rfl⟩

/-- What a mention does, without fuel. -/
theorem mentionReturns_iff {t i p cx r cx'} : MentionReturns env t i p cx r cx' ↔
    (∃ l, linkName env t i = some l ∧ r = .link l ∧
      ((l ∈ BMap.keys cx.schemas ∧ cx' = cx) ∨
       (l ∉ BMap.keys cx.schemas ∧ ∃ m cx2, SchemaReturns env t cx m cx2 ∧
        cx' = { cx2 with schemas := BMap.insert l m cx2.schemas }))) ∨
    (linkName env t i = none ∧ ∃ m, SchemaReturns env t cx m cx' ∧ r = .inline (m.applyParams p)) := by
  constructor
  · rintro ⟨n, h⟩
    rcases mentionWith_some h with ⟨l, hl, hr, ⟨hc, he⟩ | ⟨hc, m, cx2, h2, he⟩⟩ | ⟨hl, m, h2, hr⟩
    · exact .inl ⟨l, hl, hr, .inl ⟨BMap.containsKey_iff.1 hc, he⟩⟩
    · exact .inl ⟨l, hl, hr, .inr ⟨BMap.containsKey_false_iff.1 hc, m, cx2, ⟨n, h2⟩, he⟩⟩
    · exact .inr ⟨hl, m, ⟨n, h2⟩, hr⟩
  · rintro (⟨l, hl, hr, ⟨hc, he⟩ | ⟨hc, m, cx2, ⟨n, h2⟩, he⟩⟩ | ⟨hl, m, ⟨n, h2⟩, hr⟩)
    · refine ⟨0, ?_⟩
      rw [mentionSchema, mentionWith_eq]
      simp [hl, BMap.containsKey_iff.2 hc, hr, he]
    · refine ⟨n, ?_⟩
      rw [mentionSchema, mentionWith_eq]
      simp [hl, BMap.containsKey_false_iff.2 hc, h2, hr, he]
    · refine ⟨n, ?_⟩
      rw [mentionSchema, mentionWith_eq]
      simp [hl, h2, hr]

theorem schemaReturns_iff {t e} (he : schemaExpr env t = some e) {cx m cx'} :
    SchemaReturns env t cx m cx' ↔ ∃ n, e.eval env (getSchema env n) cx = some (m, cx') := by
  constructor
  · rintro ⟨n, h⟩
    cases n with
    | zero => simp [getSchema] at h
    | succ n => refine ⟨n, ?_⟩; rw [getSchema, he] at h; exact h
  · rintro ⟨n, h⟩
    refine ⟨n + 1, ?_⟩
    rw [getSchema, he]; exact h

theorem modelExpr_eval_fuel_mono {n k : Nat} (hk : n ≤ k) {e : ModelExpr Ty} {cx x}
    (h : e.eval env (getSchema env n) cx = some x) : e.eval env (getSchema env k) cx = some x := by
  rw [ModelExpr.eval_eq] at h ⊢
  split at h
  · cases h
  · rename_i as cx3 h3
    rw [runReqs_fuel_mono hk h3]
    exact h

theorem refExpr_eval_fuel_mono {n k : Nat} (hk : n ≤ k) {e : RefExpr Ty} {cx x}
    (h : e.eval env (getSchema env n) cx = some x) : e.eval env (getSchema env k) cx = some x := by
  rw [RefExpr.eval_eq] at h ⊢
  split at h
  · cases h
  · rename_i as cx3 h3
    rw [runReqs_fuel_mono hk h3]
    exact h

theorem refExpr_evalList_fuel_mono {n k : Nat} (hk : n ≤ k) {e : List (RefExpr Ty)} {cx x}
    (h : RefExpr.evalList env (getSchema env n) e cx = some x) :
    RefExpr.evalList env (getSchema env k) e cx = some x := by
  rw [RefExpr.evalList_eq] at h ⊢
  split at h
  · cases h
  · rename_i as cx3 h3
    rw [runReqs_fuel_mono hk h3]
    exact h

/-- A list of mentions, run by a fixed fuel, is a sequence of returning mention calls. -/
theorem evalList_mentions (xs : List (Ty × Bool × ParamsExpr)) {cx rs cx'} :
    (∃ n, RefExpr.evalList env (getSchema env n) (xs.map fun x => .mention x.1 x.2.1 x.2.2) cx = some (rs, cx')) ↔
      CallsReturn env cx (xs.map fun x => .mention x.1 x.2.1 (x.2.2.eval env)) rs cx' := by
  induction xs generalizing cx rs with
  | nil =>
    simp only [List.map_nil, RefExpr.evalList]
    constructor
    · rintro ⟨n, h⟩
      cases h; exact .nil _
    · intro h
      cases h; exact ⟨0, rfl⟩
  | cons x xs ih =>
    simp only [List.map_cons, RefExpr.evalList, RefExpr.eval]
    constructor
    · rintro ⟨n, h⟩
      split at h
      · cases h
      · rename_i r cx1 h1
        split at h
        · cases h
        · rename_i rs' cx2 h2
          cases h
          exact .mention ⟨n, h1⟩ (ih.1 ⟨n, h2⟩)
    · intro h
      cases h with
      | mention h hr =>
        obtain ⟨n, h⟩ := h
        obtain ⟨k, hk⟩ := ih.2 hr
        refine ⟨max n k, ?_⟩
        have h1 := mentionSchema_mono (Nat.le_max_left n k) h
        rw [mentionSchema] at h1
        rw [h1]
        have h2 := refExpr_evalList_fuel_mono (Nat.le_max_right n k) hk
        simp only [h2]

theorem CallsReturn.keeps {cx calls rs cx'} (h : CallsReturn env cx calls rs cx') : cx.Keeps cx' := by
  induction h with
  | nil => exact .refl _
  | mention h _ ih => exact h.keeps.trans ih
  | addModel _ ih =>
    rename_i cx name m _ _ _ _
    refine Components.Keeps.trans ?_ ih
    unfold Components.addModel
    split
    · exact .refl _
    · rename_i hc
      exact Components.Keeps.insert (.refl _) (by simpa using hc)
  | security _ ih =>
    rename_i cx name m _ _ _ _
    refine Components.Keeps.trans ⟨?_, ?_⟩ ih
    · unfold Components.mentionSecurityScheme
      split <;> exact fun _ _ h => h
    · unfold Components.mentionSecurityScheme
      split
      · exact fun _ _ h => h
      · rename_i hc
        intro n s h
        have : n ≠ name := by
          intro e; subst e
          simp [BMap.containsKey, h] at hc
        simpa only [BMap.get_insert_ne this] using h

theorem CallsReturn.good {W : Prop} {cx calls rs cx'} (h : CallsReturn env cx calls rs cx')
    (hm : ∀ c ∈ calls, c.isMention = true) (hg : cx.Good W) :
    cx'.Good W ∧ ∀ r ∈ rs, r.All W (· ∈ BMap.keys cx'.schemas) := by
  induction h with
  | nil => exact ⟨hg, by simp⟩
  | mention h hr ih =>
    obtain ⟨n, h⟩ := h
    have h1 := mentionSchema_good h hg
    have h2 := ih (fun c hc => hm c (List.mem_cons_of_mem _ hc)) h1.1
    refine ⟨h2.1, ?_⟩
    intro r hr'
    rcases List.mem_cons.1 hr' with rfl | hr'
    · exact h1.2.imp fun l hl => hr.keeps.keys hl
    · exact h2.2 r hr'
  | addModel _ ih => have := hm _ List.mem_cons_self; simp [Call.isMention] at this
  | security _ ih =>
    refine ih (fun c hc => hm c (List.mem_cons_of_mem _ hc)) ?_
    unfold Components.mentionSecurityScheme
    split
    · exact hg
    · exact hg

theorem Components.good_false_iff {cx : Components} : cx.Good False ↔ cx.NoDangling := by
  constructor
  · intro h name m hm l hl
    exact (h (name, m) hm).1 l hl
  · intro h b hb
    exact ⟨fun l hl => h b.1 b.2 hb l hl, fun _ _ f => f.elim⟩

end Verif
