import Verif.Proof.Same
import Verif.Proof.ApiDoc
import Verif.Proof.Order
import Verif.Spec.Published
/-!
# Descriptions with common parts
-/

namespace Verif

variable {env : Env}

/-! ## One declaration in two descriptions -/

theorem mentionSchema_indep {n k : Nat} {t i p cx1 cx2 r1 r2 cx1' cx2'}
    (h1 : mentionSchema env n t i p cx1 = some (r1, cx1')) (h2 : mentionSchema env k t i p cx2 = some (r2, cx2')) :
    r1 = r2 :=
  mentionWith_indep (rec := getSchema env n) (rec' := getSchema env k) (fun _ _ _ _ _ _ _ a b => getSchema_indep n a b) h1 h2

theorem mentionSecurityScheme_name (cx : Components) (n : String) (s : SecurityScheme) :
    (cx.mentionSecurityScheme n s).1 = n := by
  unfold Components.mentionSecurityScheme; split <;> rfl

/-- Two runs in one program. -/
theorem askAlike_twice (n k : Nat) (reason) :
    AskAlike false (fun _ _ => True) (fun _ => True) (⟨env, n, reason⟩ : Ctx) (⟨env, k, reason⟩ : Ctx) where
  reason := rfl
  ask t _ := by
    intro cx cx' _ a cx1 hx
    split
    · rename_i b cx1' hy
      exact ⟨mentionSchema_indep hx hy, trivial⟩
    · rfl
  scheme n s := by
    intro cx cx' _ a cx1 hx
    have h := mentionSecurityScheme_name cx n s
    simp only [Option.some.injEq] at hx
    rw [hx] at h
    exact ⟨h.trans (mentionSecurityScheme_name cx' n s).symm, trivial⟩
  insert _ _ _ _ _ := trivial

theorem MadePath.unique {n k : Nat} {reason : Nat → Option String} {decl pv pv'} (h : MadePath (⟨env, n, reason⟩ : Ctx) decl pv)
    (h' : MadePath (⟨env, k, reason⟩ : Ctx) decl pv') : pv = pv' := by
  obtain ⟨segs, props⟩ := decl
  obtain ⟨cx, cx1, h⟩ := h
  obtain ⟨cx', cx1', h'⟩ := h'
  have := PathDecl.run_alike (askAlike_twice n k reason) segs props (fun _ _ => trivial) cx cx' trivial _ _ h
  rw [h'] at this
  exact this.1

theorem ItemIn.unique {reason : Nat → Option String} {api api' : Api} {d d' : Opg} (h : Describes env reason api d)
    (h' : Describes env reason api' d') {decl pv pv'} (hi : ItemIn api d decl pv) (hi' : ItemIn api' d' decl pv') :
    pv = pv' := by
  obtain ⟨⟨_, n, _⟩, e1, e2, hs⟩ := h.step
  obtain ⟨⟨_, k, _⟩, e1', e2', hs'⟩ := h'.step
  simp only at e1 e2 e1' e2'
  subst e1 e2 e1' e2'
  exact (hi.made hs).unique (hi'.made hs')

/-! ## Sequences of calls -/

theorem CallsReturn.split {cx calls calls' rs cx'} (h : CallsReturn env cx (calls ++ calls') rs cx') :
    ∃ rs1 rs2 cx1, CallsReturn env cx calls rs1 cx1 ∧ CallsReturn env cx1 calls' rs2 cx' := by
  induction calls generalizing cx rs with
  | nil => exact ⟨[], rs, cx, .nil cx, h⟩
  | cons c calls ih =>
    cases h with
    | mention h hr => obtain ⟨rs1, rs2, cx1, h1, h2⟩ := ih hr; exact ⟨_, rs2, cx1, .mention h h1, h2⟩
    | addModel hr => obtain ⟨rs1, rs2, cx1, h1, h2⟩ := ih hr; exact ⟨rs1, rs2, cx1, .addModel h1, h2⟩
    | security hr => obtain ⟨rs1, rs2, cx1, h1, h2⟩ := ih hr; exact ⟨rs1, rs2, cx1, .security h1, h2⟩

theorem CallsReturn.unique {cx calls rs cx' rs2 cx2} (h : CallsReturn env cx calls rs cx')
    (h2 : CallsReturn env cx calls rs2 cx2) : rs = rs2 ∧ cx' = cx2 := by
  induction h generalizing rs2 with
  | nil => cases h2; exact ⟨rfl, rfl⟩
  | mention h _ ih =>
    cases h2 with
    | mention h' hr =>
      obtain ⟨rfl, rfl⟩ := h.unique h'
      obtain ⟨rfl, rfl⟩ := ih hr
      exact ⟨rfl, rfl⟩
  | addModel _ ih => cases h2 with | addModel hr => exact ih hr
  | security _ ih => cases h2 with | security hr => exact ih hr

/-! ## Enough fuel -/

/-- A type with a finite expansion has a schema for some fuel, whatever is registered. -/
theorem expands_fuel {t} (h : Expands env t) : ∃ n, ∀ cx, ∃ x, getSchema env n t cx = some x := by
  induction h with
  | @intro t e he h ih =>
    have key : ∀ qs : List Req, (∀ q ∈ qs, q ∈ e.reqs) → ∃ n, ∀ cx, ∃ x, runReqs env (getSchema env n) qs cx = some x := by
      intro qs
      induction qs with
      | nil => intro _; exact ⟨0, fun cx => ⟨([], cx), rfl⟩⟩
      | cons q qs ihq =>
        intro hq
        have hq0 : q.asked ∈ e.asked := mem_asked.2 ⟨q, hq q List.mem_cons_self, rfl⟩
        obtain ⟨n, hn⟩ := ih q.asked.1 q.asked.2 hq0
        obtain ⟨k, hk⟩ := ihq fun q' hq' => hq q' (List.mem_cons_of_mem _ hq')
        refine ⟨max n k, fun cx => ?_⟩
        have h1 : ∃ a cx1, q.run env (getSchema env n) cx = some (a, cx1) := by
          obtain ⟨⟨m, cx1⟩, hn⟩ := hn cx
          cases q with
          | schema t => exact ⟨.model m, cx1, by simp only [Req.asked] at hn; simp [Req.run, hn]⟩
          | mention t i p =>
            simp only [Req.asked] at hn
            have : ∃ r cx1, mentionWith env (getSchema env n) t i (p.eval env) cx = some (r, cx1) := by
              rw [mentionWith_eq]
              cases linkName env t i with
              | none => simp [hn]
              | some l =>
                simp only [hn]
                split <;> simp
            obtain ⟨r, cx1, hr⟩ := this
            exact ⟨.ref r, cx1, by simp [Req.run, hr]⟩
        obtain ⟨a, cx1, h1⟩ := h1
        obtain ⟨⟨as, cx2⟩, h2⟩ := hk cx1
        have h1' : runReqs env (getSchema env n) [q] cx = some ([a], cx1) := by simp [runReqs, h1]
        have h1'' := runReqs_fuel_mono (Nat.le_max_left n k) h1'
        have h2' := runReqs_fuel_mono (Nat.le_max_right n k) h2
        refine ⟨(a :: as, cx2), ?_⟩
        have := runReqs_append (env := env) (rec := getSchema env (max n k)) [q] qs cx
        rw [h1''] at this
        simp only [h2'] at this
        exact this
    obtain ⟨n, hn⟩ := key e.reqs fun _ h => h
    refine ⟨n + 1, fun cx => ?_⟩
    obtain ⟨⟨as, cx'⟩, hr⟩ := hn cx
    refine ⟨((e.fill env as).1, cx'), ?_⟩
    rw [getSchema_eq, he]
    simp only [hr]

theorem expands_fuel_all (ts : List Ty) (h : ∀ t ∈ ts, Expands env t) :
    ∃ n, ∀ t ∈ ts, ∀ cx, ∃ x, mentionSchema env n t false {} cx = some x := by
  induction ts with
  | nil => exact ⟨0, by simp⟩
  | cons t ts ih =>
    obtain ⟨n, hn⟩ := expands_fuel (h t List.mem_cons_self)
    obtain ⟨k, hk⟩ := ih fun u hu => h u (List.mem_cons_of_mem _ hu)
    refine ⟨max n k, fun u hu cx => ?_⟩
    rcases List.mem_cons.1 hu with rfl | hu
    · have : ∃ x, mentionSchema env n u false {} cx = some x := by
        obtain ⟨⟨m, cx1⟩, hn⟩ := hn cx
        unfold mentionSchema
        rw [mentionWith_eq]
        cases linkName env u false with
        | none => simp [hn]
        | some l =>
          simp only [hn]
          split <;> simp
      obtain ⟨x, hx⟩ := this
      exact ⟨x, mentionSchema_mono (Nat.le_max_left n k) hx⟩
    · obtain ⟨x, hx⟩ := hk u hu cx
      exact ⟨x, mentionSchema_mono (Nat.le_max_right n k) hx⟩

/-- With enough fuel the second run follows the first one from any registry. -/
theorem askAlike_enough {n k : Nat} {reason} {T : Ty → Prop}
    (hk : ∀ t, T t → ∀ cx, ∃ x, mentionSchema env k t false {} cx = some x) :
    AskAlike true (fun _ _ => True) T (⟨env, n, reason⟩ : Ctx) (⟨env, k, reason⟩ : Ctx) where
  reason := rfl
  ask t ht := by
    intro cx cx' _ a cx1 hx
    obtain ⟨⟨b, cx1'⟩, hy⟩ := hk t ht cx'
    have : ask (⟨env, k, reason⟩ : Ctx) t cx' = some (b, cx1') := hy
    rw [this]
    exact ⟨mentionSchema_indep hx hy, trivial⟩
  scheme n s := (askAlike_twice (env := env) 0 0 fun _ => none).scheme n s |> fun h => by
    intro cx cx' hs a cx1 hx
    exact h cx cx' hs a cx1 hx
  insert _ _ _ _ _ := trivial

/-- More fuel does not matter. -/
theorem askAlike_mono {n k : Nat} (hk : n ≤ k) {reason} :
    AskAlike true Eq (fun _ => True) (⟨env, n, reason⟩ : Ctx) (⟨env, k, reason⟩ : Ctx) where
  reason := rfl
  ask t ht := by
    rintro cx _ rfl a cx1 hx
    have : ask (⟨env, k, reason⟩ : Ctx) t cx = some (a, cx1) := mentionSchema_mono hk hx
    rw [this]
    exact ⟨rfl, rfl⟩
  scheme n s := by
    rintro cx _ rfl a cx1 hx
    simp only [Option.some.injEq] at hx ⊢
    rw [hx]
    exact ⟨rfl, rfl⟩
  insert _ _ _ _ h := by rw [h]

theorem Section.run_from {c : Ctx} (s : Section) {d cx d0 cx0} (d') (h : s.run c d cx = some (d0, cx0)) :
    ∃ d1, s.run c d' cx = some (d1, cx0) := by
  cases s with
  | info ps =>
    rw [Section.run] at h ⊢
    cases hi : runInfo ps none none none with
    | none => rw [hi] at h; cases h
    | some i => rw [hi] at h; cases h; exact ⟨_, rfl⟩
  | tags ts => cases h; exact ⟨_, rfl⟩
  | servers ts => cases h; exact ⟨_, rfl⟩
  | securitySchemes ss =>
    simp only [Section.run, act_bind, act_pure] at h ⊢
    obtain ⟨u, cx1, h1, rfl, rfl⟩ := h
    exact ⟨_, u, _, h1, rfl, rfl⟩
  | paths ps =>
    simp only [Section.run, act_bind, act_pure] at h ⊢
    obtain ⟨u, cx1, h1, rfl, rfl⟩ := h
    exact ⟨_, u, _, h1, rfl, rfl⟩

theorem runSections_from {c : Ctx} (ss : Api) {d cx d0 cx0} (d') (h : runSections c ss d cx = some (d0, cx0)) :
    ∃ d1, runSections c ss d' cx = some (d1, cx0) := by
  induction ss generalizing d cx d' with
  | nil => cases h; exact ⟨d', rfl⟩
  | cons s ss ih =>
    simp only [runSections, act_bind] at h ⊢
    obtain ⟨d1, cx1, h1, h2⟩ := h
    obtain ⟨d2, h3⟩ := s.run_from d' h1
    obtain ⟨d3, h4⟩ := ih d2 h2
    exact ⟨d3, d2, cx1, h3, h4⟩

theorem runSections_append {c : Ctx} (ss ss' : Api) {d cx x} :
    runSections c (ss ++ ss') d cx = some x ↔ ∃ d1 cx1, runSections c ss d cx = some (d1, cx1) ∧ runSections c ss' d1 cx1 = some x := by
  induction ss generalizing d cx with
  | nil =>
    constructor
    · intro h; exact ⟨d, cx, rfl, h⟩
    · rintro ⟨d1, cx1, h, h'⟩; cases h; exact h'
  | cons s ss ih =>
    obtain ⟨a, b⟩ := x
    simp only [List.cons_append, runSections, act_bind]
    constructor
    · rintro ⟨d1, cx1, h1, h2⟩
      obtain ⟨d2, cx2, h3, h4⟩ := ih.1 h2
      exact ⟨d2, cx2, ⟨d1, cx1, h1, h3⟩, h4⟩
    · rintro ⟨d2, cx2, ⟨d1, cx1, h1, h3⟩, h4⟩
      exact ⟨d1, cx1, h1, ih.2 ⟨d2, cx2, h3, h4⟩⟩

/-- Two descriptions of types with finite expansions can be joined. -/
theorem describes_append {reason : Nat → Option String} {api api' : Api} {d d' : Opg} (h : Describes env reason api d)
    (h' : Describes env reason api' d') (hx : ∀ t, .mention t ∈ api'.parts → Expands env t) :
    ∃ d'', Describes env reason (api ++ api') d'' := by
  obtain ⟨n, h⟩ := h
  obtain ⟨k, h'⟩ := h'
  unfold describeApi at h h'
  split at h
  · cases h
  split at h'
  · cases h'
  rename_i d1 cx1 h1 _ d2 cx2 h2
  obtain ⟨k', hk'⟩ := expands_fuel_all (env := env) api'.mentions (by
    intro t ht
    apply hx
    obtain ⟨p, hp, e⟩ := List.mem_filterMap.1 ht
    cases p <;> simp at e
    subst e; exact hp)
  have hk : ∀ t, .mention t ∈ api'.parts → ∀ cx, ∃ x, mentionSchema env (max n k') t false {} cx = some x := by
    intro t ht cx
    obtain ⟨x, hx⟩ := hk' t (List.mem_filterMap.2 ⟨_, ht, rfl⟩) cx
    exact ⟨x, mentionSchema_mono (Nat.le_max_right n k') hx⟩
  have a1 : runSections (⟨env, max n k', reason⟩ : Ctx) api .empty .empty = some (d1, cx1) := by
    have := runSections_alike (askAlike_mono (Nat.le_max_left n k')) api .empty (fun _ _ => trivial) _ _ rfl _ _ h1
    split at this
    · rename_i hr; obtain ⟨rfl, rfl⟩ := this; exact hr
    · cases this
  have a2 : ∃ cx, runSections (⟨env, max n k', reason⟩ : Ctx) api' .empty cx1 = some (d2, cx) := by
    have := runSections_alike (askAlike_enough hk) api' .empty (fun _ ht => ht) _ cx1 trivial _ _ h2
    split at this
    · rename_i hr; obtain ⟨rfl, -⟩ := this; exact ⟨_, hr⟩
    · cases this
  obtain ⟨cx, a2⟩ := a2
  obtain ⟨d3, a3⟩ := runSections_from api' d1 a2
  refine ⟨{ d3 with components := cx }, max n k', ?_⟩
  unfold describeApi
  rw [(runSections_append api api').2 ⟨_, _, a1, a3⟩]

theorem pointwise_unique {α β : Type} {R R' : α → β → Prop} (hu : ∀ a b b', R a b → R' a b' → b = b') {as : List α}
    {bs cs : List β} (h : Pointwise R as bs) (h' : Pointwise R' as cs) : bs = cs := by
  induction h generalizing cs with
  | nil => cases h'; rfl
  | cons h _ ih =>
    cases h' with
    | cons h' hs => rw [hu _ _ _ h h', ih hs]

/-- The paths of a document, one by one. -/
theorem Describes.made {reason : Nat → Option String} {api : Api} {d : Opg} (h : Describes env reason api d) :
    ∃ n, Pointwise (MadePath (⟨env, n, reason⟩ : Ctx)) api.pathList d.paths := by
  obtain ⟨⟨_, n, _⟩, e1, e2, hs⟩ := h.step
  simp only at e1 e2
  subst e1 e2
  obtain ⟨items, rs, e, hp, -⟩ := hs.paths
  have e' : d.paths = items := e
  exact ⟨n, e' ▸ hp⟩

theorem Pointwise.unappend {α β : Type} {R : α → β → Prop} {as as' : List α} {cs : List β}
    (h : Pointwise R (as ++ as') cs) : ∃ bs bs', cs = bs ++ bs' ∧ Pointwise R as bs ∧ Pointwise R as' bs' := by
  induction as generalizing cs with
  | nil => exact ⟨[], cs, rfl, .nil, h⟩
  | cons a as ih =>
    cases h with
    | cons h hs =>
      obtain ⟨bs, bs', rfl, h1, h2⟩ := ih hs
      exact ⟨_ :: bs, bs', rfl, .cons h h1, h2⟩

theorem Api.pathList_append (api api' : Api) : Api.pathList (api ++ api') = api.pathList ++ api'.pathList :=
  List.flatMap_append ..

theorem Api.parts_append (api api' : Api) : Api.parts (api ++ api') = api.parts ++ api'.parts := by
  rw [Api.parts, Api.pathList_append, pathParts_append]; rfl

theorem mem_pathParts {p : Part} : ∀ {ps : List PathDecl}, p ∈ pathParts ps ↔ ∃ d ∈ ps, p ∈ pathParts [d]
  | [] => by rw [pathParts]; simp
  | d :: ps => by
    have : d :: ps = [d] ++ ps := rfl
    rw [this, pathParts_append, List.mem_append, mem_pathParts (ps := ps)]
    simp

end Verif
