import Verif.Proof.Compiles
import Verif.Proof.Arrange
/-!
# Sections in another order, in programs with hand written impls: proofs
-/

namespace Verif

variable {κ : Type} [Mentioner κ] {c : κ}

/-- What is used of the impls: they do not see security schemes, keep them, and keep them sorted. -/
structure Quiet (c : κ) : Prop where
  framed : ∀ t, Framed (Mentioner.ask c t)
  kept : ∀ t, MHolds Components.Kept (Mentioner.ask c t)
  sorted : ∀ t, MHolds (fun cx cx' => BMap.Sorted cx.securitySchemes → BMap.Sorted cx'.securitySchemes) (Mentioner.ask c t)

theorem declared_sorted {cx : Components} {n s} (h : BMap.Sorted cx.securitySchemes) :
    BMap.Sorted (cx.mentionSecurityScheme n s).2.securitySchemes := by
  unfold Components.mentionSecurityScheme
  split
  · exact h
  · exact BMap.sorted_insert h

theorem sorted_inv : Inv fun cx cx' => BMap.Sorted cx.securitySchemes → BMap.Sorted cx'.securitySchemes where
  refl _ h := h
  trans h h' a := h' (h a)
  addModel cx n m h := by
    unfold Components.addModel
    split <;> exact h
  security cx n s h := declared_sorted h
  insert _ _ _ _ _ h := h

theorem quiet_mixed (w : Ty → Impl Ty) (n : Nat) (reason) : Quiet (⟨w, n, reason⟩ : MixedCtx) where
  framed _ := runProg_framed w n _ _
  kept _ := runProg_holds kept_inv w n _ _
  sorted _ := runProg_holds sorted_inv w n _ _

theorem Ran.quiet (q : Quiet c) {ps rs cx cx'} (h : Ran c ps rs cx cx') :
    cx.Kept cx' ∧ (BMap.Sorted cx.securitySchemes → BMap.Sorted cx'.securitySchemes) := by
  induction h with
  | nil => exact ⟨kept_inv.refl _, fun h => h⟩
  | mention h _ ih => exact ⟨kept_inv.trans (q.kept _ _ _ _ h) ih.1, fun a => ih.2 (q.sorted _ _ _ _ h a)⟩
  | scheme _ ih => exact ⟨kept_inv.trans (kept_inv.security _ _ _) ih.1, fun a => ih.2 (declared_sorted a)⟩
  | literal _ ih => exact ih
  | raw _ ih => exact ih

/-- Runs of paths from states that agree in schemas, and perhaps in a security scheme. -/
theorem askAlike_tied (q : Quiet c) (n : String) (yes : Prop) : AskAlike true (fun cx sx => sx.schemas = cx.schemas ∧
    (yes → BMap.get n sx.securitySchemes = BMap.get n cx.securitySchemes)) (fun _ => True) c c where
  reason := rfl
  ask t _ := by
    rintro cx sx ⟨hs, hn⟩ a cx1 hx
    obtain ⟨sx1, e, tied⟩ := q.framed t _ sx _ _ hs hx
    have e : ask c t sx = some (a, sx1) := e
    rw [e]
    exact ⟨rfl, tied.schemas, fun y => tied.scheme n (hn y)⟩
  scheme m s := by
    rintro cx sx ⟨hs, hn⟩ a cx1 hx
    have key : ∀ x : Components, (x.mentionSecurityScheme m s).1 = m := by
      intro x
      unfold Components.mentionSecurityScheme
      split <;> rfl
    simp only [Option.some.injEq] at hx
    have h1 : (cx.mentionSecurityScheme m s).1 = a := by rw [hx]
    have h2 : (cx.mentionSecurityScheme m s).2 = cx1 := by rw [hx]
    subst h1 h2
    refine ⟨(key cx).trans (key sx).symm, ?_, fun y => ?_⟩
    · show (sx.mentionSecurityScheme m s).2.schemas = (cx.mentionSecurityScheme m s).2.schemas
      rw [mentionSecurityScheme_schemas, mentionSecurityScheme_schemas]; exact hs
    · show BMap.get n (sx.mentionSecurityScheme m s).2.securitySchemes = BMap.get n (cx.mentionSecurityScheme m s).2.securitySchemes
      rw [mentionSecurityScheme_get, mentionSecurityScheme_get, hn y]
  insert m s := by
    rintro cx sx ⟨hs, hn⟩
    refine ⟨hs, fun y => ?_⟩
    show BMap.get n (BMap.insert ..) = BMap.get n (BMap.insert ..)
    rw [BMap.get_insert, BMap.get_insert]
    split
    · rfl
    · exact hn y

theorem runPaths_tied (q : Quiet c) {ps : List PathDecl} {cx sx items cx'} (hs : sx.schemas = cx.schemas)
    (h : runPaths c ps cx = some (items, cx')) : ∃ sx', runPaths c ps sx = some (items, sx') ∧ Tied sx cx sx' cx' := by
  have run : ∀ n yes, (yes → BMap.get n sx.securitySchemes = BMap.get n cx.securitySchemes) → ∃ sx', runPaths c ps sx = some (items, sx') ∧
      sx'.schemas = cx'.schemas ∧ (yes → BMap.get n sx'.securitySchemes = BMap.get n cx'.securitySchemes) := by
    intro n yes hn
    have := runPaths_alike (askAlike_tied q n yes) ps (fun _ _ => trivial) cx sx ⟨hs, hn⟩ _ _ h
    split at this
    · rename_i items' sx' e
      obtain ⟨rfl, h1, h2⟩ := this
      exact ⟨sx', e, h1, h2⟩
    · cases this
  obtain ⟨sx', e, h1, -⟩ := run "" False (fun h => h.elim)
  refine ⟨sx', e, h1, fun n hn => ?_⟩
  obtain ⟨sx2, e2, -, h2⟩ := run n True fun _ => hn
  rw [e] at e2
  cases e2
  exact h2 trivial

/-- Security schemes declared before paths or after them. -/
theorem schemes_past_paths (q : Quiet c) {ps : List PathDecl} {ds : List SchemeDecl} {cx : Components}
    (sorted : BMap.Sorted cx.securitySchemes) (items cx') :
    (∃ cx1, runSchemes ds cx = some ((), cx1) ∧ runPaths c ps cx1 = some (items, cx')) ↔
    ∃ cx1, runPaths c ps cx = some (items, cx1) ∧ runSchemes ds cx1 = some ((), cx') := by
  have same : ∀ {cx1 cx2 cy1 cy2 items'}, runSchemes ds cx = some ((), cx1) → runPaths c ps cx1 = some (items, cx2) →
      runPaths c ps cx = some (items', cy1) → runSchemes ds cy1 = some ((), cy2) → items = items' ∧ cx2 = cy2 := by
    intro cx1 cx2 cy1 cy2 items' h1 h2 h3 h4
    obtain ⟨a1, a2, a3⟩ := runSchemes_last ds h1
    obtain ⟨b1, b2, b3⟩ := runSchemes_last ds h4
    obtain ⟨cx2', e, tied⟩ := runPaths_tied q (sx := cx1) a1 h3
    rw [h2] at e
    cases e
    obtain ⟨rs, hr, -⟩ := runPaths_makes ps h2
    obtain ⟨rs', hr', -⟩ := runPaths_makes ps h3
    obtain ⟨k1, k2⟩ := hr.quiet q
    obtain ⟨-, k4⟩ := hr'.quiet q
    refine ⟨rfl, ?_⟩
    have es : cx2.schemas = cy2.schemas := tied.schemas.trans b1.symm
    have ec : cx2.securitySchemes = cy2.securitySchemes := by
      refine BMap.ext (k2 (a2 sorted)) (b2 (k4 sorted)) fun n => ?_
      have a := a3 n
      have b := b3 n
      cases hl : lastOf (SchemeDecl.named? n) ds with
      | none =>
        rw [hl] at a b
        have a : BMap.get n cx1.securitySchemes = BMap.get n cx.securitySchemes := a
        have b : BMap.get n cy2.securitySchemes = BMap.get n cy1.securitySchemes := b
        rw [b, tied.scheme n a]
      | some d =>
        rw [hl] at a b
        obtain ⟨s, ha, hd⟩ := a
        obtain ⟨s', hb, hd'⟩ := b
        rw [k1.securitySchemes n s ha, hb, schemeOf_unique hd hd']
    cases cx2; cases cy2; cases es; cases ec; rfl
  constructor
  · rintro ⟨cx1, h1, h2⟩
    obtain ⟨cx1', h3, tied⟩ := runPaths_tied q (sx := cx) (runSchemes_last ds h1).1.symm h2
    obtain ⟨u, cx2, h4, -⟩ := (runSchemes_iff ds cx1').2 (runSchemes_right h1)
    obtain ⟨-, rfl⟩ := same h1 h2 h3 h4
    exact ⟨cx1', h3, h4⟩
  · rintro ⟨cx1, h1, h2⟩
    obtain ⟨u, cx1', h3, e⟩ := (runSchemes_iff ds cx).2 (runSchemes_right h2)
    obtain ⟨cx2, h4, tied⟩ := runPaths_tied q (sx := cx1') e h1
    obtain ⟨-, rfl⟩ := same h3 h4 h1 h2
    exact ⟨cx1', h3, h4⟩

theorem Section.run_sorted (q : Quiet c) (s : Section) {d cx d' cx'} (h : s.run c d cx = some (d', cx'))
    (sorted : BMap.Sorted cx.securitySchemes) : BMap.Sorted cx'.securitySchemes := by
  cases s with
  | info ps =>
    rw [Section.run] at h
    cases hi : runInfo ps none none none with
    | none => rw [hi] at h; cases h
    | some i => rw [hi] at h; obtain ⟨-, rfl⟩ := act_pure.1 h; exact sorted
  | tags ts => rw [Section.run] at h; obtain ⟨-, rfl⟩ := act_pure.1 h; exact sorted
  | servers ss => rw [Section.run] at h; obtain ⟨-, rfl⟩ := act_pure.1 h; exact sorted
  | securitySchemes ss =>
    rw [Section.run] at h
    obtain ⟨u, cx1, h1, h⟩ := act_bind.1 h
    obtain ⟨-, rfl⟩ := act_pure.1 h
    exact (runSchemes_last ss h1).2.1 sorted
  | paths ps =>
    rw [Section.run] at h
    obtain ⟨u, cx1, h1, h⟩ := act_bind.1 h
    obtain ⟨-, rfl⟩ := act_pure.1 h
    obtain ⟨rs, hr, -⟩ := runPaths_makes ps h1
    exact (hr.quiet q).2 sorted

theorem run_info_iff {ps d cx d' cx'} : (Section.info ps).run c d cx = some (d', cx') ↔
    ∃ i, runInfo ps none none none = some i ∧ d' = { d with info := i } ∧ cx' = cx := by
  rw [Section.run]
  cases runInfo ps none none none with
  | none => simp
  | some i => rw [act_pure]; grind

theorem run_tags_iff {ts d cx d' cx'} : (Section.tags ts).run c d cx = some (d', cx') ↔
    d' = { d with tags := BMap.insertAll (ts.map fun t => (t.1, ⟨t.2⟩)) d.tags } ∧ cx' = cx := by
  rw [Section.run, act_pure]; grind

theorem run_servers_iff {ss d cx d' cx'} : (Section.servers ss).run c d cx = some (d', cx') ↔
    d' = { d with servers := d.servers ++ ss.map fun s => ⟨s.1, s.2⟩ } ∧ cx' = cx := by
  rw [Section.run, act_pure]; grind

theorem run_schemes_iff {ss d cx d' cx'} : (Section.securitySchemes ss).run c d cx = some (d', cx') ↔
    runSchemes ss cx = some ((), cx') ∧ d' = d := by
  rw [Section.run, act_bind]
  constructor
  · rintro ⟨u, cx1, h, h'⟩
    obtain ⟨rfl, rfl⟩ := act_pure.1 h'
    exact ⟨h, rfl⟩
  · rintro ⟨h, rfl⟩
    exact ⟨(), cx', h, act_pure.2 ⟨rfl, rfl⟩⟩

theorem run_paths_iff {ps d cx d' cx'} : (Section.paths ps).run c d cx = some (d', cx') ↔
    ∃ items, runPaths c ps cx = some (items, cx') ∧ d' = { d with paths := d.paths ++ items } := by
  rw [Section.run, act_bind]
  constructor
  · rintro ⟨u, cx1, h, h'⟩
    obtain ⟨rfl, rfl⟩ := act_pure.1 h'
    exact ⟨u, h, rfl⟩
  · rintro ⟨u, h, rfl⟩
    exact ⟨u, cx', h, act_pure.2 ⟨rfl, rfl⟩⟩

/-- Two sections of different kinds. -/
theorem Section.run_swap (q : Quiet c) (s s' : Section) (hk : s.kind ≠ s'.kind) {d cx d' cx'} (sorted : BMap.Sorted cx.securitySchemes)
    (h : (s.run c d >>= s'.run c) cx = some (d', cx')) : (s'.run c d >>= s.run c) cx = some (d', cx') := by
  have plain : ∀ {s s' : Section} {d cx d' cx'}, s.kind ≠ s'.kind → (∀ ds, s ≠ .securitySchemes ds) → (∀ ds, s ≠ .paths ds) →
      ((s.run c d >>= s'.run c) cx = some (d', cx') ↔ (s'.run c d >>= s.run c) cx = some (d', cx')) := by
    intro s s' d cx d' cx' hk h1 h2
    rw [act_bind, act_bind]
    cases s with
    | securitySchemes ds => exact absurd rfl (h1 ds)
    | paths ds => exact absurd rfl (h2 ds)
    | _ =>
      cases s' <;> first
        | exact absurd rfl hk
        | (simp only [run_info_iff, run_tags_iff, run_servers_iff, run_schemes_iff, run_paths_iff]; grind)
  have other : (∃ ds, s = .securitySchemes ds) ∨ (∃ ds, s = .paths ds) ∨ ((∀ ds, s ≠ .securitySchemes ds) ∧ ∀ ds, s ≠ .paths ds) := by
    cases s <;> simp
  have other' : (∃ ds, s' = .securitySchemes ds) ∨ (∃ ds, s' = .paths ds) ∨ ((∀ ds, s' ≠ .securitySchemes ds) ∧ ∀ ds, s' ≠ .paths ds) := by
    cases s' <;> simp
  rcases other' with h1 | h1 | h1
  rotate_right
  · exact (plain (Ne.symm hk) h1.1 h1.2).2 h
  all_goals
    rcases other with h2 | h2 | h2
    rotate_right
    · exact (plain hk h2.1 h2.2).1 h
    all_goals
      obtain ⟨ps, rfl⟩ := h1
      obtain ⟨ds, rfl⟩ := h2
      first | exact absurd rfl hk | skip
  · obtain ⟨d1, cx1, h1, h2⟩ := act_bind.1 h
    obtain ⟨items, g1, rfl⟩ := run_paths_iff.1 h1
    obtain ⟨g2, rfl⟩ := run_schemes_iff.1 h2
    obtain ⟨cx4, h3, h4⟩ := (schemes_past_paths q sorted items cx').2 ⟨cx1, g1, g2⟩
    exact act_bind.2 ⟨d, cx4, run_schemes_iff.2 ⟨h3, rfl⟩, run_paths_iff.2 ⟨items, h4, rfl⟩⟩
  · obtain ⟨d1, cx1, h1, h2⟩ := act_bind.1 h
    obtain ⟨g1, rfl⟩ := run_schemes_iff.1 h1
    obtain ⟨items, g2, rfl⟩ := run_paths_iff.1 h2
    obtain ⟨cx4, h3, h4⟩ := (schemes_past_paths q sorted items cx').1 ⟨cx1, g1, g2⟩
    exact act_bind.2 ⟨_, cx4, run_paths_iff.2 ⟨items, h3, rfl⟩, run_schemes_iff.2 ⟨h4, rfl⟩⟩

/-- A section moved to the front past sections of other kinds. -/
theorem runSections_front (q : Quiet c) (s : Section) (post : Api) : ∀ (pre : Api) {d cx x}, (∀ s' ∈ pre, s.kind ≠ s'.kind) →
    BMap.Sorted cx.securitySchemes → runSections c (s :: (pre ++ post)) d cx = some x → runSections c (pre ++ s :: post) d cx = some x
  | [], d, cx, x, _, _, h => h
  | s' :: pre, d, cx, (d', cx'), hk, sorted, h => by
    rw [List.cons_append, runSections] at h ⊢
    obtain ⟨d1, cx1, h1, h⟩ := act_bind.1 h
    rw [runSections] at h
    obtain ⟨d2, cx2, h2, h⟩ := act_bind.1 h
    have := s.run_swap q s' (hk s' (.head _)) sorted (act_bind.2 ⟨d1, cx1, h1, h2⟩)
    obtain ⟨d3, cx3, h3, h4⟩ := act_bind.1 this
    refine act_bind.2 ⟨d3, cx3, h3, ?_⟩
    refine runSections_front q s post pre (fun t ht => hk t (.tail _ ht)) (s'.run_sorted q h3 sorted) ?_
    rw [runSections]
    exact act_bind.2 ⟨d2, cx2, h4, h⟩

/-- Sections moved past sections of other kinds. -/
theorem runSections_moved (q : Quiet c) : ∀ (api api' : Api), SameByKind Section.kind api api' → ∀ {d cx x},
    BMap.Sorted cx.securitySchemes → runSections c api d cx = some x → runSections c api' d cx = some x
  | [], api', same, d, cx, x, _, h => by
    cases api' with
    | nil => exact h
    | cons s ss =>
      have := same s.kind
      simp at this
  | s :: ss, api', same, d, cx, (d', cx'), sorted, h => by
    have split : ∀ (l : Api) t ts, l.filter (fun a => a.kind = s.kind) = t :: ts → ∃ pre post, l = pre ++ t :: post ∧
        ∀ s' ∈ pre, s.kind ≠ s'.kind := by
      intro l
      induction l with
      | nil => intro t ts h; cases h
      | cons a l ih =>
        intro t ts h
        by_cases hk : a.kind = s.kind
        · rw [List.filter_cons_of_pos (by simpa using hk)] at h
          cases h
          exact ⟨[], l, rfl, fun _ h => (nomatch h)⟩
        · rw [List.filter_cons_of_neg (by simpa using hk)] at h
          obtain ⟨pre, post, rfl, hp⟩ := ih t ts h
          refine ⟨a :: pre, post, rfl, fun s' hs' => ?_⟩
          rcases List.mem_cons.1 hs' with rfl | hs'
          · exact Ne.symm hk
          · exact hp s' hs'
    have hk := same s.kind
    rw [List.filter_cons_of_pos (by simp)] at hk
    obtain ⟨pre, post, rfl, hp⟩ := split api' s _ hk.symm
    refine runSections_front q s post pre hp sorted ?_
    rw [runSections] at h ⊢
    obtain ⟨d1, cx1, h1, h⟩ := act_bind.1 h
    refine act_bind.2 ⟨d1, cx1, h1, runSections_moved q ss (pre ++ post) (fun k => ?_) (s.run_sorted q h1 sorted) h⟩
    have := same k
    rw [List.filter_append, List.filter_cons, List.filter_cons] at this
    rw [List.filter_append]
    by_cases e : s.kind = k
    · subst e
      have none : pre.filter (fun a => decide (a.kind = s.kind)) = [] := by
        rw [List.filter_eq_nil_iff]
        intro a ha
        simpa using Ne.symm (hp a ha)
      rw [none] at this ⊢
      simpa using this
    · simpa [e] using this

theorem describeVia_moved {w : Ty → Impl Ty} {reason} {api api' : Api} (same : SameByKind Section.kind api api') {d}
    (h : DescribesVia w reason api d) : DescribesVia w reason api' d := by
  obtain ⟨n, h⟩ := h
  refine ⟨n, ?_⟩
  unfold describeApi at h ⊢
  split at h
  · cases h
  · rename_i hr
    rw [runSections_moved (quiet_mixed w n reason) api api' same (by simp [Components.empty, BMap.Sorted]) hr]
    exact h

end Verif
