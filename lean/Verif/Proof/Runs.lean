import Verif.Proof.Requests
import Verif.Spec.Registry
/-!
# Runs of `get_schema` and `mention_schema`
-/

namespace Verif

variable {env : Env} {rec : Ty → M Model}

/-- The link a mention produces, if any. -/
def linkName (env : Env) (t : Ty) (inline : Bool) : Option String :=
  if inline then none else typeName env t

theorem typeName_of_alwaysInline {t : Ty} (h : alwaysInline env t = true) : typeName env t = none := by
  cases t <;> simp_all [alwaysInline, typeName, Container.typeName]

theorem selectReference_eq (t : Ty) (inline : Bool) (p : Params) (cx : Components) :
    selectReference env rec t inline p cx =
      match linkName env t inline with
      | some l => some (.link l, cx)
      | none =>
        match rec t cx with
        | none => none
        | some (m, cx') => some (.inline (m.applyParams p), cx') := by
  unfold selectReference linkName
  simp only
  cases ha : alwaysInline env t with
  | true => simp only [typeName_of_alwaysInline ha, ite_self]; rfl
  | false =>
    simp only [Bool.false_eq_true, if_false]
    cases typeName env t <;> cases inline <;> rfl

theorem mentionWith_eq (t : Ty) (inline : Bool) (p : Params) (cx : Components) :
    mentionWith env rec t inline p cx =
      match linkName env t inline with
      | some l =>
        if BMap.containsKey l cx.schemas then some (.link l, cx)
        else
          match rec t cx with
          | none => none
          | some (m, cx2) => some (.link l, { cx2 with schemas := BMap.insert l m cx2.schemas })
      | none =>
        match rec t cx with
        | none => none
        | some (m, cx') => some (.inline (m.applyParams p), cx') := by
  unfold mentionWith
  rw [selectReference_eq]
  cases linkName env t inline with
  | some l => rfl
  | none =>
    simp only
    cases rec t cx <;> rfl

theorem getSchema_eq (fuel : Nat) (t : Ty) (cx : Components) :
    getSchema env (fuel + 1) t cx =
      match schemaExpr env t with
      | none => none
      | some e =>
        match runReqs env (getSchema env fuel) e.reqs cx with
        | none => none
        | some (as, cx') => some ((e.fill env as).1, cx') := by
  rw [getSchema]
  cases schemaExpr env t with
  | none => rfl
  | some e => exact ModelExpr.eval_eq e cx

/-- Inversion of a returning `get_schema`. -/
theorem getSchema_some {fuel t cx m cx'} (h : getSchema env fuel t cx = some (m, cx')) :
    ∃ n e as, fuel = n + 1 ∧ schemaExpr env t = some e ∧
      runReqs env (getSchema env n) e.reqs cx = some (as, cx') ∧ m = (e.fill env as).1 := by
  cases fuel with
  | zero => simp [getSchema] at h
  | succ n =>
    rw [getSchema_eq] at h
    cases he : schemaExpr env t with
    | none => simp [he] at h
    | some e =>
      simp only [he] at h
      cases hr : runReqs env (getSchema env n) e.reqs cx with
      | none => simp [hr] at h
      | some p =>
        obtain ⟨as, cx1⟩ := p
        simp only [hr, Option.some.injEq, Prod.mk.injEq] at h
        exact ⟨n, e, as, rfl, rfl, by rw [hr, h.2], h.1.symm⟩

/-- Inversion of a returning mention. -/
theorem mentionWith_some {t inline p cx r cx'} (h : mentionWith env rec t inline p cx = some (r, cx')) :
    (∃ l, linkName env t inline = some l ∧ r = .link l ∧
      ((BMap.containsKey l cx.schemas = true ∧ cx' = cx) ∨
       (BMap.containsKey l cx.schemas = false ∧ ∃ m cx2, rec t cx = some (m, cx2) ∧
        cx' = { cx2 with schemas := BMap.insert l m cx2.schemas }))) ∨
    (linkName env t inline = none ∧ ∃ m, rec t cx = some (m, cx') ∧ r = .inline (m.applyParams p)) := by
  rw [mentionWith_eq] at h
  cases hl : linkName env t inline with
  | some l =>
    left
    refine ⟨l, rfl, ?_⟩
    simp only [hl] at h
    split at h
    · cases h
      rename_i hc
      exact ⟨rfl, .inl ⟨hc, rfl⟩⟩
    · rename_i hc
      split at h
      · cases h
      · rename_i m cx2 hr
        cases h
        exact ⟨rfl, .inr ⟨by simpa using hc, m, cx2, hr, rfl⟩⟩
  | none =>
    right
    simp only [hl] at h
    split at h
    · cases h
    · rename_i m cx2 hr
      cases h
      exact ⟨rfl, m, hr, rfl⟩

/-- Inversion of `runReqs` on a nonempty list. -/
theorem runReqs_cons_some {q qs cx as cx'} (h : runReqs env rec (q :: qs) cx = some (as, cx')) :
    ∃ a as' cx1, q.run env rec cx = some (a, cx1) ∧ runReqs env rec qs cx1 = some (as', cx') ∧
      as = a :: as' := by
  simp only [runReqs] at h
  split at h
  · cases h
  · rename_i a cx1 h1
    split at h
    · cases h
    · rename_i as' cx2 h2
      cases h
      exact ⟨a, as', cx1, h1, h2, rfl⟩

theorem Req.run_some {q : Req} {cx a cx'} (h : q.run env rec cx = some (a, cx')) :
    (∃ t i p r, q = .mention t i p ∧ mentionWith env rec t i (p.eval env) cx = some (r, cx') ∧ a = .ref r) ∨
    (∃ t m, q = .schema t ∧ rec t cx = some (m, cx') ∧ a = .model m) := by
  cases q with
  | mention t i p =>
    simp only [Req.run] at h
    split at h
    · cases h
    · rename_i r cx1 h1
      cases h
      exact .inl ⟨t, i, p, r, rfl, h1, rfl⟩
  | schema t =>
    simp only [Req.run] at h
    split at h
    · cases h
    · rename_i r cx1 h1
      cases h
      exact .inr ⟨t, r, rfl, h1, rfl⟩

/-! ## A preorder preserved by all runs -/

/-- If `R` is a preorder preserved by inserting a schema under an unregistered name then every run moves the
registry along `R`. -/
theorem runReqs_rel {R : Components → Components → Prop} (hrefl : ∀ cx, R cx cx)
    (htrans : ∀ {a b c}, R a b → R b c → R a c)
    (hins : ∀ {cx cx2 : Components} {l m}, R cx cx2 → BMap.containsKey l cx.schemas = false →
      R cx { cx2 with schemas := BMap.insert l m cx2.schemas })
    (hrec : ∀ {t cx m cx'}, rec t cx = some (m, cx') → R cx cx') :
    (∀ {t i p cx r cx'}, mentionWith env rec t i p cx = some (r, cx') → R cx cx') ∧
    (∀ {qs cx as cx'}, runReqs env rec qs cx = some (as, cx') → R cx cx') := by
  have hm : ∀ {t i p cx r cx'}, mentionWith env rec t i p cx = some (r, cx') → R cx cx' := by
    intro t i p cx r cx' h
    rcases mentionWith_some h with ⟨l, hl, hr, ⟨hc, he⟩ | ⟨hc, m, cx2, h2, he⟩⟩ | ⟨_, m, h2, _⟩
    · subst he; exact hrefl _
    · subst he; exact hins (hrec h2) hc
    · exact hrec h2
  refine ⟨hm, ?_⟩
  intro qs
  induction qs with
  | nil => intro cx as cx' h; simp only [runReqs, Option.some.injEq, Prod.mk.injEq] at h; rw [h.2]; exact hrefl _
  | cons q qs ih =>
    intro cx as cx' h
    obtain ⟨a, as', cx1, h1, h2, _⟩ := runReqs_cons_some h
    refine htrans ?_ (ih h2)
    rcases Req.run_some h1 with ⟨t, i, p, r, _, h3, _⟩ | ⟨t, m, _, h3, _⟩
    · exact hm h3
    · exact hrec h3

theorem getSchema_rel {R : Components → Components → Prop} (hrefl : ∀ cx, R cx cx)
    (htrans : ∀ {a b c}, R a b → R b c → R a c)
    (hins : ∀ {cx cx2 : Components} {l m}, R cx cx2 → BMap.containsKey l cx.schemas = false →
      R cx { cx2 with schemas := BMap.insert l m cx2.schemas }) (fuel : Nat) :
    ∀ {t cx m cx'}, getSchema env fuel t cx = some (m, cx') → R cx cx' := by
  induction fuel with
  | zero => intro t cx m cx' h; simp [getSchema] at h
  | succ n ih =>
    intro t cx m cx' h
    obtain ⟨n', e, as, hn, _, hr, _⟩ := getSchema_some h
    cases hn
    exact (runReqs_rel hrefl htrans hins ih).2 hr

theorem mentionSchema_rel {R : Components → Components → Prop} (hrefl : ∀ cx, R cx cx)
    (htrans : ∀ {a b c}, R a b → R b c → R a c)
    (hins : ∀ {cx cx2 : Components} {l m}, R cx cx2 → BMap.containsKey l cx.schemas = false →
      R cx { cx2 with schemas := BMap.insert l m cx2.schemas }) (fuel : Nat) :
    ∀ {t i p cx r cx'}, mentionSchema env fuel t i p cx = some (r, cx') → R cx cx' :=
  (runReqs_rel hrefl htrans hins (getSchema_rel hrefl htrans hins fuel)).1

/-! ## Instances: kept entries, kept security schemes, sortedness, key growth -/

theorem Components.Keeps.refl (cx : Components) : cx.Keeps cx := ⟨fun _ _ h => h, fun _ _ h => h⟩

theorem Components.Keeps.trans {a b c : Components} (h : a.Keeps b) (h' : b.Keeps c) : a.Keeps c :=
  ⟨fun n m hh => h'.1 n m (h.1 n m hh), fun n m hh => h'.2 n m (h.2 n m hh)⟩

theorem Components.Keeps.insert {cx cx2 : Components} {l m} (h : cx.Keeps cx2)
    (hc : BMap.containsKey l cx.schemas = false) :
    cx.Keeps { cx2 with schemas := BMap.insert l m cx2.schemas } := by
  refine ⟨?_, h.2⟩
  intro n m' hg
  have : n ≠ l := by
    intro e; subst e
    simp [BMap.containsKey, hg] at hc
  simp only [BMap.get_insert_ne this]
  exact h.1 n m' hg

theorem getSchema_keeps {fuel t cx m cx'} (h : getSchema env fuel t cx = some (m, cx')) : cx.Keeps cx' :=
  getSchema_rel (R := Components.Keeps) .refl .trans .insert fuel h

theorem mentionSchema_keeps {fuel t i p cx r cx'} (h : mentionSchema env fuel t i p cx = some (r, cx')) :
    cx.Keeps cx' :=
  mentionSchema_rel (R := Components.Keeps) .refl .trans .insert fuel h

theorem runReqs_keeps {fuel qs cx as cx'} (h : runReqs env (getSchema env fuel) qs cx = some (as, cx')) :
    cx.Keeps cx' :=
  (runReqs_rel (R := Components.Keeps) .refl .trans .insert getSchema_keeps).2 h

theorem mentionSchema_security {fuel t i p cx r cx'} (h : mentionSchema env fuel t i p cx = some (r, cx')) :
    cx'.securitySchemes = cx.securitySchemes :=
  mentionSchema_rel (R := fun a b => b.securitySchemes = a.securitySchemes) (fun _ => rfl)
    (fun h h' => h'.trans h) (fun h _ => h) fuel h

theorem getSchema_security {fuel t cx r cx'} (h : getSchema env fuel t cx = some (r, cx')) :
    cx'.securitySchemes = cx.securitySchemes :=
  getSchema_rel (R := fun a b => b.securitySchemes = a.securitySchemes) (fun _ => rfl)
    (fun h h' => h'.trans h) (fun h _ => h) fuel h

theorem mentionSchema_sorted {fuel t i p cx r cx'} (h : mentionSchema env fuel t i p cx = some (r, cx'))
    (hs : BMap.Sorted cx.schemas) : BMap.Sorted cx'.schemas :=
  mentionSchema_rel (R := fun a b => BMap.Sorted a.schemas → BMap.Sorted b.schemas) (fun _ h => h)
    (fun h h' hs => h' (h hs)) (fun h _ hs => BMap.sorted_insert (h hs)) fuel h hs

theorem getSchema_sorted {fuel t cx r cx'} (h : getSchema env fuel t cx = some (r, cx'))
    (hs : BMap.Sorted cx.schemas) : BMap.Sorted cx'.schemas :=
  getSchema_rel (R := fun a b => BMap.Sorted a.schemas → BMap.Sorted b.schemas) (fun _ h => h)
    (fun h h' hs => h' (h hs)) (fun h _ hs => BMap.sorted_insert (h hs)) fuel h hs

theorem Components.Keeps.keys {a b : Components} (h : a.Keeps b) {l : String}
    (hl : l ∈ BMap.keys a.schemas) : l ∈ BMap.keys b.schemas := by
  rw [← BMap.get_isSome_iff] at hl ⊢
  cases hg : BMap.get l a.schemas with
  | none => simp [hg] at hl
  | some m => simp [h.1 l m hg]

/-! ## More fuel changes nothing -/

theorem mentionWith_mono {rec' : Ty → M Model} (hrec : ∀ {t cx x}, rec t cx = some x → rec' t cx = some x)
    {t i p cx x} (h : mentionWith env rec t i p cx = some x) : mentionWith env rec' t i p cx = some x := by
  obtain ⟨r, cx'⟩ := x
  rw [mentionWith_eq]
  rcases mentionWith_some h with ⟨l, hl, hr, ⟨hc, he⟩ | ⟨hc, m, cx2, h2, he⟩⟩ | ⟨hl, m, h2, hr⟩
  · simp [hl, hc, he, hr]
  · simp [hl, hc, hr, he, hrec h2]
  · simp [hl, hrec h2, hr]

theorem runReqs_mono {rec' : Ty → M Model} (hrec : ∀ {t cx x}, rec t cx = some x → rec' t cx = some x)
    {qs cx x} (h : runReqs env rec qs cx = some x) : runReqs env rec' qs cx = some x := by
  obtain ⟨as, cx'⟩ := x
  induction qs generalizing cx as with
  | nil => simpa [runReqs] using h
  | cons q qs ih =>
    obtain ⟨a, as', cx1, h1, h2, e⟩ := runReqs_cons_some h
    have h3 : q.run env rec' cx = some (a, cx1) := by
      rcases Req.run_some h1 with ⟨t, i, p, r, eq, h3, ea⟩ | ⟨t, m, eq, h3, ea⟩
      · subst eq ea; simp [Req.run, mentionWith_mono hrec h3]
      · subst eq ea; simp [Req.run, hrec h3]
    simp [runReqs, h3, ih as' h2, e]

theorem getSchema_mono_succ (n : Nat) : ∀ {t cx x}, getSchema env n t cx = some x →
    getSchema env (n + 1) t cx = some x := by
  induction n with
  | zero => intro t cx x h; simp [getSchema] at h
  | succ n ih =>
    intro t cx x h
    obtain ⟨m, cx'⟩ := x
    obtain ⟨n', e, as, hn, he, hr, hm⟩ := getSchema_some h
    cases hn
    rw [getSchema_eq, he]
    simp [runReqs_mono ih hr, hm]

theorem getSchema_mono {n k : Nat} (hk : n ≤ k) {t cx x} (h : getSchema env n t cx = some x) :
    getSchema env k t cx = some x := by
  induction hk with
  | refl => exact h
  | step _ ih => exact getSchema_mono_succ _ ih

theorem mentionSchema_mono {n k : Nat} (hk : n ≤ k) {t i p cx x}
    (h : mentionSchema env n t i p cx = some x) : mentionSchema env k t i p cx = some x :=
  mentionWith_mono (getSchema_mono hk) h

theorem runReqs_fuel_mono {n k : Nat} (hk : n ≤ k) {qs cx x}
    (h : runReqs env (getSchema env n) qs cx = some x) : runReqs env (getSchema env k) qs cx = some x :=
  runReqs_mono (getSchema_mono hk) h

/-! ## Results do not depend on the registry -/

theorem mentionWith_indep {rec' : Ty → M Model}
    (hrec : ∀ t cx1 cx2 m1 m2 cx1' cx2', rec t cx1 = some (m1, cx1') → rec' t cx2 = some (m2, cx2') → m1 = m2)
    {t i p cx1 cx2 r1 r2 cx1' cx2'}
    (h1 : mentionWith env rec t i p cx1 = some (r1, cx1'))
    (h2 : mentionWith env rec' t i p cx2 = some (r2, cx2')) : r1 = r2 := by
  rcases mentionWith_some h1 with ⟨l, hl, hr, _⟩ | ⟨hl, m, hm, hr⟩ <;>
    rcases mentionWith_some h2 with ⟨l', hl', hr', _⟩ | ⟨hl', m', hm', hr'⟩
  · rw [hr, hr']; rw [hl] at hl'; cases hl'; rfl
  · rw [hl] at hl'; cases hl'
  · rw [hl] at hl'; cases hl'
  · rw [hr, hr', hrec _ _ _ _ _ _ _ hm hm']

theorem runReqs_indep {rec' : Ty → M Model}
    (hrec : ∀ t cx1 cx2 m1 m2 cx1' cx2', rec t cx1 = some (m1, cx1') → rec' t cx2 = some (m2, cx2') → m1 = m2)
    {qs cx1 cx2 as1 as2 cx1' cx2'}
    (h1 : runReqs env rec qs cx1 = some (as1, cx1'))
    (h2 : runReqs env rec' qs cx2 = some (as2, cx2')) : as1 = as2 := by
  induction qs generalizing cx1 cx2 as1 as2 with
  | nil => simp [runReqs] at h1 h2; rw [h1.1, h2.1]
  | cons q qs ih =>
    obtain ⟨a, as, cxa, ha, hb, e⟩ := runReqs_cons_some h1
    obtain ⟨a', as', cxa', ha', hb', e'⟩ := runReqs_cons_some h2
    rw [e, e', ih hb hb']
    congr 1
    rcases Req.run_some ha with ⟨t, i, p, r, eq, h3, ea⟩ | ⟨t, m, eq, h3, ea⟩ <;>
      rcases Req.run_some ha' with ⟨t', i', p', r', eq', h3', ea'⟩ | ⟨t', m', eq', h3', ea'⟩ <;>
      (rw [eq] at eq'; cases eq')
    · rw [ea, ea', mentionWith_indep hrec h3 h3']
    · rw [ea, ea', hrec _ _ _ _ _ _ _ h3 h3']

theorem getSchema_indep (n : Nat) : ∀ {k t cx1 cx2 m1 m2 cx1' cx2'},
    getSchema env n t cx1 = some (m1, cx1') → getSchema env k t cx2 = some (m2, cx2') → m1 = m2 := by
  induction n with
  | zero => intro k t cx1 cx2 m1 m2 cx1' cx2' h; simp [getSchema] at h
  | succ n ih =>
    intro k t cx1 cx2 m1 m2 cx1' cx2' h1 h2
    obtain ⟨n1, e1, as1, hn1, he1, hr1, hm1⟩ := getSchema_some h1
    obtain ⟨n2, e2, as2, hn2, he2, hr2, hm2⟩ := getSchema_some h2
    cases hn1
    rw [he1] at he2; cases he2
    rw [hm1, hm2, runReqs_indep (rec' := getSchema env n2) (fun _ _ _ _ _ _ _ h h' => ih h h') hr1 hr2]

/-! ## Running again on a larger registry -/

/-- A run repeated on any registry that has at least the names of its final registry returns the same and
changes nothing. -/
def Reruns (rec : Ty → M Model) : Prop :=
  ∀ t cx m cx', rec t cx = some (m, cx') →
    ∀ cx2 : Components, (∀ l, l ∈ BMap.keys cx'.schemas → l ∈ BMap.keys cx2.schemas) →
      rec t cx2 = some (m, cx2)

theorem mentionWith_rerun (hrec : Reruns rec) {t i p cx r cx'}
    (h : mentionWith env rec t i p cx = some (r, cx')) (cx2 : Components)
    (hk : ∀ l, l ∈ BMap.keys cx'.schemas → l ∈ BMap.keys cx2.schemas) :
    mentionWith env rec t i p cx2 = some (r, cx2) := by
  rw [mentionWith_eq]
  rcases mentionWith_some h with ⟨l, hl, hr, hh⟩ | ⟨hl, m, h2, hr⟩
  · have : BMap.containsKey l cx2.schemas = true := by
      rw [BMap.containsKey_iff]
      apply hk
      rcases hh with ⟨hc, he⟩ | ⟨hc, m, cx3, h2, he⟩
      · rw [he]; exact BMap.containsKey_iff.1 hc
      · rw [he]; exact BMap.mem_keys_insert.2 (.inl rfl)
    simp [hl, this, hr]
  · simp [hl, hrec _ _ _ _ h2 cx2 hk, hr]

theorem runReqs_rerun (hrec : Reruns rec) (hkeep : ∀ t cx m cx', rec t cx = some (m, cx') → cx.Keeps cx')
    {qs cx as cx'} (h : runReqs env rec qs cx = some (as, cx')) (cx2 : Components)
    (hk : ∀ l, l ∈ BMap.keys cx'.schemas → l ∈ BMap.keys cx2.schemas) :
    runReqs env rec qs cx2 = some (as, cx2) := by
  induction qs generalizing cx as with
  | nil => simp [runReqs] at h ⊢; exact h.1
  | cons q qs ih =>
    obtain ⟨a, as', cx1, h1, h2, e⟩ := runReqs_cons_some h
    have hk1 : ∀ l, l ∈ BMap.keys cx1.schemas → l ∈ BMap.keys cx2.schemas := fun l hl =>
      hk l (((runReqs_rel (R := Components.Keeps) .refl .trans .insert (hkeep _ _ _ _)).2 h2).keys hl)
    have h3 : q.run env rec cx2 = some (a, cx2) := by
      rcases Req.run_some h1 with ⟨t, i, p, r, eq, h3, ea⟩ | ⟨t, m, eq, h3, ea⟩
      · subst eq ea; simp [Req.run, mentionWith_rerun hrec h3 cx2 hk1]
      · subst eq ea; simp [Req.run, hrec _ _ _ _ h3 cx2 hk1]
    simp [runReqs, h3, ih h2, e]

theorem getSchema_rerun (n : Nat) : Reruns (getSchema env n) := by
  induction n with
  | zero => intro t cx m cx' h; simp [getSchema] at h
  | succ n ih =>
    intro t cx m cx' h cx2 hk
    obtain ⟨n', e, as, hn, he, hr, hm⟩ := getSchema_some h
    cases hn
    rw [getSchema_eq, he]
    simp [runReqs_rerun ih (fun _ _ _ _ => getSchema_keeps) hr cx2 hk, hm]

theorem mentionSchema_rerun {n t i p cx r cx'} (h : mentionSchema env n t i p cx = some (r, cx'))
    (cx2 : Components) (hk : ∀ l, l ∈ BMap.keys cx'.schemas → l ∈ BMap.keys cx2.schemas) :
    mentionSchema env n t i p cx2 = some (r, cx2) :=
  mentionWith_rerun (getSchema_rerun n) h cx2 hk

end Verif
