import Verif.Spec.Mixed
import Verif.Proof.Custom
import Verif.Proof.ApiDoc
import Verif.Proof.Together
/-!
# Described APIs of programs with hand written impls
-/

namespace Verif

/-! ## What descriptions do to the registry -/

variable {κ : Type} [Mentioner κ] {c : κ}

/-- The effect of sections: the calls of their parts return `rs`; in between, security schemes are declared. -/
inductive Went (c : κ) : List Part → List Ref → Components → Components → Prop
  | nil (cx) : Went c [] [] cx cx
  | ran {ps qs rs rs' cx cx1 cx2} (h : Ran c ps rs cx cx1) (rest : Went c qs rs' cx1 cx2) : Went c (ps ++ qs) (rs ++ rs') cx cx2
  | declared {ps rs cx cx1 cx2} (h : cx1.schemas = cx.schemas)
      (hk : ∀ n, n ∈ BMap.keys cx.securitySchemes → n ∈ BMap.keys cx1.securitySchemes)
      (hs : BMap.Sorted cx.securitySchemes → BMap.Sorted cx1.securitySchemes) (rest : Went c ps rs cx1 cx2) :
      Went c ps rs cx cx2

theorem runSchemes_declared (ds : List SchemeDecl) {cx u cx'} (h : runSchemes ds cx = some (u, cx')) :
    cx'.schemas = cx.schemas ∧ ∀ n, n ∈ BMap.keys cx.securitySchemes → n ∈ BMap.keys cx'.securitySchemes := by
  obtain ⟨h1, -, h2⟩ := runSchemes_last ds h
  refine ⟨h1, fun n hn => ?_⟩
  have := h2 n
  unfold Last at this
  rw [← BMap.get_isSome_iff] at hn ⊢
  split at this
  · obtain ⟨v, hv, -⟩ := this; rw [hv]; rfl
  · rw [this]; exact hn

theorem runSections_went (ss : Api) {d cx d' cx'} (h : runSections c ss d cx = some (d', cx')) :
    ∃ items rs, d'.paths = d.paths ++ items ∧ Went c (pathParts (ss.flatMap Section.pathList)) rs cx cx' ∧
      ∀ P S, Givens P S (pathParts (ss.flatMap Section.pathList)) rs → forallPaths (docAll P S) items := by
  induction ss generalizing d cx with
  | nil =>
    simp only [runSections, act_pure] at h
    obtain ⟨rfl, rfl⟩ := h
    refine ⟨[], [], by simp, ?_, fun _ _ _ => by simp [forallPaths]⟩
    rw [List.flatMap_nil, pathParts]
    exact .nil _
  | cons s ss ih =>
    simp only [runSections, act_bind] at h
    obtain ⟨d1, cx1, h1, h⟩ := h
    obtain ⟨items, rs, e, hw, hp⟩ := ih h
    rw [List.flatMap_cons]
    cases s with
    | info ps =>
      rw [Section.run] at h1
      cases hi : runInfo ps none none none with
      | none => rw [hi] at h1; exact absurd h1 (by simp)
      | some i =>
        rw [hi] at h1
        simp only [act_pure] at h1
        obtain ⟨rfl, rfl⟩ := h1
        exact ⟨items, rs, e, hw, hp⟩
    | tags ts =>
      simp only [Section.run, act_pure] at h1
      obtain ⟨rfl, rfl⟩ := h1
      exact ⟨items, rs, e, hw, hp⟩
    | servers ts =>
      simp only [Section.run, act_pure] at h1
      obtain ⟨rfl, rfl⟩ := h1
      exact ⟨items, rs, e, hw, hp⟩
    | securitySchemes ts =>
      simp only [Section.run, act_bind, act_pure] at h1
      obtain ⟨u, cx2, h2, rfl, rfl⟩ := h1
      obtain ⟨a1, a2⟩ := runSchemes_declared ts h2
      exact ⟨items, rs, e, .declared a1 a2 (runSchemes_last ts h2).2.1 hw, hp⟩
    | paths ps =>
      simp only [Section.run, act_bind, act_pure] at h1
      obtain ⟨items', cx2, h2, rfl, rfl⟩ := h1
      obtain ⟨rs', hr, hp'⟩ := runPaths_makes ps h2
      have e' : d'.paths = d.paths ++ items' ++ items := e
      refine ⟨items' ++ items, rs' ++ rs, by rw [e', List.append_assoc], ?_, ?_⟩
      · rw [pathParts_append]; exact .ran hr hw
      · intro P S g
        rw [pathParts_append] at g
        exact forallPaths_append (hp' P S g.left) (hp P S g.right)

theorem describeApi_went {api : Api} {d : Opg} (h : describeApi c api = some d) :
    ∃ rs, Went c api.parts rs .empty d.components ∧ ∀ P S, Givens P S api.parts rs → forallPaths (docAll P S) d.paths := by
  unfold describeApi at h
  split at h
  · cases h
  · rename_i d1 cx hr
    cases h
    obtain ⟨items, rs, e, hw, hp⟩ := runSections_went api hr
    have e' : d1.paths = items := e
    exact ⟨rs, hw, fun P S g => by rw [← e'] at hp; exact hp P S g⟩

/-- All keys of one registry are keys of the other. -/
structure KeysKept (cx cx' : Components) : Prop where
  schemas : ∀ n, n ∈ BMap.keys cx.schemas → n ∈ BMap.keys cx'.schemas
  securitySchemes : ∀ n, n ∈ BMap.keys cx.securitySchemes → n ∈ BMap.keys cx'.securitySchemes

theorem KeysKept.refl (cx : Components) : KeysKept cx cx := ⟨fun _ h => h, fun _ h => h⟩
theorem KeysKept.trans {a b c : Components} (h : KeysKept a b) (h' : KeysKept b c) : KeysKept a c :=
  ⟨fun n hn => h'.schemas n (h.schemas n hn), fun n hn => h'.securitySchemes n (h.securitySchemes n hn)⟩

theorem Components.Kept.keysKept {cx cx' : Components} (h : cx.Kept cx') : KeysKept cx cx' where
  schemas _ hn := h.keys hn
  securitySchemes n hn := by
    obtain ⟨m, hm⟩ := Option.isSome_iff_exists.1 (BMap.get_isSome_iff.2 hn)
    exact BMap.get_isSome_iff.1 (by rw [h.securitySchemes n m hm]; rfl)

theorem mentionScheme_key (cx : Components) (n s) : n ∈ BMap.keys (cx.mentionSecurityScheme n s).2.securitySchemes := by
  rw [← BMap.get_isSome_iff, mentionSecurityScheme_get]
  cases BMap.get n cx.securitySchemes <;> simp

theorem Ran.keysKept (hk : ∀ t, MHolds Components.Kept (Mentioner.ask c t)) {ps rs cx cx'} (h : Ran c ps rs cx cx') :
    KeysKept cx cx' ∧ ∀ n s, Part.scheme n s ∈ ps → n ∈ BMap.keys cx'.securitySchemes := by
  induction h with
  | nil => exact ⟨.refl _, fun _ _ h => (List.not_mem_nil h).elim⟩
  | mention h _ ih =>
    refine ⟨(hk _ _ _ _ h).keysKept.trans ih.1, fun n s hm => ih.2 n s ?_⟩
    simpa using hm
  | scheme _ ih =>
    refine ⟨(kept_inv.security _ _ _).keysKept.trans ih.1, fun n s hm => ?_⟩
    rcases List.mem_cons.1 hm with e | hm
    · cases e; exact ih.1.securitySchemes _ (mentionScheme_key _ _ _)
    · exact ih.2 n s hm
  | literal _ ih => exact ⟨ih.1, fun n s hm => ih.2 n s (by simpa using hm)⟩
  | raw _ ih => exact ⟨ih.1, fun n s hm => ih.2 n s (by simpa using hm)⟩

theorem Went.keysKept (hk : ∀ t, MHolds Components.Kept (Mentioner.ask c t)) {ps rs cx cx'} (h : Went c ps rs cx cx') :
    KeysKept cx cx' ∧ ∀ n s, Part.scheme n s ∈ ps → n ∈ BMap.keys cx'.securitySchemes := by
  induction h with
  | nil => exact ⟨.refl _, fun _ _ h => (List.not_mem_nil h).elim⟩
  | ran h _ ih =>
    obtain ⟨a, b⟩ := h.keysKept hk
    refine ⟨a.trans ih.1, fun n s hm => ?_⟩
    rcases List.mem_append.1 hm with hm | hm
    · exact ih.1.securitySchemes n (b n s hm)
    · exact ih.2 n s hm
  | declared h h' _ _ ih => exact ⟨KeysKept.trans ⟨fun n hn => by rw [h]; exact hn, h'⟩ ih.1, ih.2⟩

theorem Ran.links (hk : ∀ t, MHolds Components.Kept (Mentioner.ask c t)) (hr : ∀ t cx, Resolves Ref.links (Mentioner.ask c t) cx) {ps rs cx cx'}
    (h : Ran c ps rs cx cx') (hn : cx.NoDangling) :
    cx'.NoDangling ∧ ∀ r ∈ rs, ∀ l ∈ r.links, l ∈ BMap.keys cx'.schemas := by
  induction h with
  | nil => exact ⟨hn, fun _ h => (List.not_mem_nil h).elim⟩
  | mention h t ih =>
    obtain ⟨h1, -, h3⟩ := hr _ _ _ _ hn h
    obtain ⟨h4, h5⟩ := ih h1
    refine ⟨h4, fun r hm l hl => ?_⟩
    rcases List.mem_cons.1 hm with rfl | hm
    · exact (t.keysKept hk).1.schemas l (h3 l hl)
    · exact h5 r hm l hl
  | scheme _ ih =>
    refine ih ?_
    rw [Components.NoDangling] at hn ⊢
    rw [show (Components.mentionSecurityScheme _ _ _).2.schemas = _ from mentionSecurityScheme_schemas ..]
    exact hn
  | literal _ ih => exact ih hn
  | raw _ ih => exact ih hn

theorem Went.links (hk : ∀ t, MHolds Components.Kept (Mentioner.ask c t)) (hr : ∀ t cx, Resolves Ref.links (Mentioner.ask c t) cx) {ps rs cx cx'}
    (h : Went c ps rs cx cx') (hn : cx.NoDangling) :
    cx'.NoDangling ∧ ∀ r ∈ rs, ∀ l ∈ r.links, l ∈ BMap.keys cx'.schemas := by
  induction h with
  | nil => exact ⟨hn, fun _ h => (List.not_mem_nil h).elim⟩
  | ran h t ih =>
    obtain ⟨h1, h2⟩ := h.links hk hr hn
    obtain ⟨h4, h5⟩ := ih h1
    refine ⟨h4, fun r hm l hl => ?_⟩
    rcases List.mem_append.1 hm with hm | hm
    · exact (t.keysKept hk).1.schemas l (h2 r hm l hl)
    · exact h5 r hm l hl
  | declared h _ _ _ ih =>
    refine ih ?_
    rw [Components.NoDangling, h]
    exact hn

/-! ## Runs that differ in security schemes only -/

variable {τ α : Type}

/-- The states after running agree in schemas, and in the security schemes in which the states before agree. -/
structure Tied (sx cx sx' cx' : Components) : Prop where
  schemas : sx'.schemas = cx'.schemas
  scheme : ∀ n, BMap.get n sx.securitySchemes = BMap.get n cx.securitySchemes →
    BMap.get n sx'.securitySchemes = BMap.get n cx'.securitySchemes

theorem Tied.start {sx cx : Components} (h : sx.schemas = cx.schemas) : Tied sx cx sx cx := ⟨h, fun _ h => h⟩
theorem Tied.trans {a b c d e f : Components} (h : Tied a b c d) (h' : Tied c d e f) : Tied a b e f :=
  ⟨h'.schemas, fun n hn => h'.scheme n (h.scheme n hn)⟩

/-- The value and the schemas do not depend on the security schemes. -/
def Framed (x : M α) : Prop :=
  ∀ cx sx a cx', sx.schemas = cx.schemas → x cx = some (a, cx') → ∃ sx', x sx = some (a, sx') ∧ Tied sx cx sx' cx'

structure Ops.Framed (o : Ops τ) : Prop where
  getSchema : ∀ t, Verif.Framed (o.getSchema t)
  withParams : ∀ t p, Verif.Framed (o.withParams t p)
  mention : ∀ t i p, Verif.Framed (o.mention t i p)
  select : ∀ t i p, Verif.Framed (o.select t i p)

theorem exec_framed {o : Ops τ} (h : o.Framed) : ∀ (p : Prog τ α), Framed (p.exec o)
  | .ret _, _, sx, _, _, hs, hx => by cases hx; exact ⟨sx, rfl, .start hs⟩
  | .getSchema t k, cx, sx, a, cx', hs, hx => by
    rw [Prog.exec] at hx ⊢
    cases he : o.getSchema t cx with
    | none => rw [he] at hx; cases hx
    | some y =>
      obtain ⟨sx1, e1, e2⟩ := h.getSchema t cx sx y.1 y.2 hs he
      rw [he] at hx; rw [e1]
      obtain ⟨sx2, e3, e4⟩ := exec_framed h (k y.1) _ _ _ _ e2.schemas hx
      exact ⟨sx2, e3, e2.trans e4⟩
  | .withParams t p k, cx, sx, a, cx', hs, hx => by
    rw [Prog.exec] at hx ⊢
    cases he : o.withParams t p cx with
    | none => rw [he] at hx; cases hx
    | some y =>
      obtain ⟨sx1, e1, e2⟩ := h.withParams t p cx sx y.1 y.2 hs he
      rw [he] at hx; rw [e1]
      obtain ⟨sx2, e3, e4⟩ := exec_framed h (k y.1) _ _ _ _ e2.schemas hx
      exact ⟨sx2, e3, e2.trans e4⟩
  | .mention t i p k, cx, sx, a, cx', hs, hx => by
    rw [Prog.exec] at hx ⊢
    cases he : o.mention t i p cx with
    | none => rw [he] at hx; cases hx
    | some y =>
      obtain ⟨sx1, e1, e2⟩ := h.mention t i p cx sx y.1 y.2 hs he
      rw [he] at hx; rw [e1]
      obtain ⟨sx2, e3, e4⟩ := exec_framed h (k y.1) _ _ _ _ e2.schemas hx
      exact ⟨sx2, e3, e2.trans e4⟩
  | .select t i p k, cx, sx, a, cx', hs, hx => by
    rw [Prog.exec] at hx ⊢
    cases he : o.select t i p cx with
    | none => rw [he] at hx; cases hx
    | some y =>
      obtain ⟨sx1, e1, e2⟩ := h.select t i p cx sx y.1 y.2 hs he
      rw [he] at hx; rw [e1]
      obtain ⟨sx2, e3, e4⟩ := exec_framed h (k y.1) _ _ _ _ e2.schemas hx
      exact ⟨sx2, e3, e2.trans e4⟩
  | .contains n k, cx, sx, a, cx', hs, hx => by
    rw [Prog.exec] at hx ⊢
    rw [show sx.containsModel n = cx.containsModel n by unfold Components.containsModel; rw [hs]]
    exact exec_framed h _ _ _ _ _ hs hx
  | .verify k, cx, sx, a, cx', hs, hx => by
    rw [Prog.exec] at hx ⊢
    rw [show sx.verifySchemas = cx.verifySchemas by unfold Components.verifySchemas; rw [hs]]
    exact exec_framed h _ _ _ _ _ hs hx
  | .addModel n m next, cx, sx, a, cx', hs, hx => by
    rw [Prog.exec] at hx ⊢
    have e : Tied sx cx (sx.addModel n m) (cx.addModel n m) := by
      unfold Components.addModel
      rw [hs]
      split
      · exact .start hs
      · exact ⟨rfl, fun _ h => h⟩
    obtain ⟨sx2, e3, e4⟩ := exec_framed h next _ _ _ _ e.schemas hx
    exact ⟨sx2, e3, e.trans e4⟩
  | .security n s next, cx, sx, a, cx', hs, hx => by
    rw [Prog.exec] at hx ⊢
    have e : Tied sx cx (sx.mentionSecurityScheme n s).2 (cx.mentionSecurityScheme n s).2 :=
      ⟨by rw [mentionSecurityScheme_schemas, mentionSecurityScheme_schemas]; exact hs, fun k hk => by
        rw [mentionSecurityScheme_get, mentionSecurityScheme_get, hk]⟩
    obtain ⟨sx2, e3, e4⟩ := exec_framed h next _ _ _ _ e.schemas hx
    exact ⟨sx2, e3, e.trans e4⟩

theorem appliedSchema_framed {s : M Model} (h : Framed s) (p : Params) : Framed (appliedSchema s p) := by
  intro cx sx a cx' hs hx
  obtain ⟨m, cx1, h1, e⟩ := appliedSchema_some.1 hx
  cases e
  obtain ⟨sx1, h2, e2⟩ := h _ _ _ _ hs h1
  exact ⟨sx1, appliedSchema_some.2 ⟨m, sx1, h2, rfl⟩, e2⟩

theorem runSelect_framed (im : Impl τ) {run : (α : Type) → Prog τ α → M α} (h : ∀ α p, Framed (run α p)) (i p) :
    Framed (im.runSelect run i p) := by
  intro cx sx r cx' hs hx
  rw [runSelect_some] at hx
  simp only [runSelect_some]
  rcases hx with ⟨hc, m, h1, e⟩ | ⟨l, h1, h2, h3, h4, rfl⟩ | ⟨f, h1, h2⟩
  · obtain ⟨sx', h2, e2⟩ := h _ _ _ _ _ _ hs h1
    exact ⟨sx', .inl ⟨hc, m, h2, e⟩, e2⟩
  · exact ⟨sx, .inr (.inl ⟨l, h1, h2, h3, h4, rfl⟩), .start hs⟩
  · obtain ⟨sx', h3, e2⟩ := h _ _ _ _ _ _ hs h2
    exact ⟨sx', .inr (.inr ⟨f, h1, h3⟩), e2⟩

theorem mentionVia_framed {sel : M Ref} {s : M Model} (h : Framed sel) (h' : Framed s) : Framed (mentionVia sel s) := by
  intro cx sx r cx' hs hx
  obtain ⟨cx1, h1, ⟨h2, rfl⟩ | ⟨l, m, cx2, h2, h3, h4, rfl⟩⟩ := mentionVia_some.1 hx
  · obtain ⟨sx1, e1, e2⟩ := h _ _ _ _ hs h1
    exact ⟨sx1, mentionVia_some.2 ⟨sx1, e1, .inl ⟨by rw [e2.schemas]; exact h2, rfl⟩⟩, e2⟩
  · obtain ⟨sx1, e1, e2⟩ := h _ _ _ _ hs h1
    obtain ⟨sx2, e3, e4⟩ := h' _ _ _ _ e2.schemas h4
    exact ⟨_, mentionVia_some.2 ⟨sx1, e1, .inr ⟨l, m, sx2, h2, by rw [e2.schemas]; exact h3, e3, rfl⟩⟩, e2.trans ⟨by
      show BMap.insert .. = BMap.insert ..
      rw [e4.schemas], e4.scheme⟩⟩

theorem implOps_framed (w : τ → Impl τ) {run : (α : Type) → Prog τ α → M α} (h : ∀ α p, Framed (run α p)) :
    (implOps w run).Framed where
  getSchema t := h _ _
  withParams t p := by
    simp only [implOps, Impl.runWithParams]
    split
    · exact appliedSchema_framed (h _ _) p
    · exact h _ _
  mention t i p := mentionVia_framed (runSelect_framed _ h i p) (h _ _)
  select t i p := runSelect_framed _ h i p

theorem runProg_framed (w : τ → Impl τ) : ∀ (n : Nat) (α : Type) (p : Prog τ α), Framed (runProg w n α p)
  | 0, _, _ => fun _ _ _ _ _ h => by cases h
  | n + 1, _, p => exec_framed (implOps_framed w (runProg_framed w n)) p

/-! ## Contexts with hand written impls -/

variable {w : Ty → Impl Ty} {reason : Nat → Option String}

theorem ask_mixed (n : Nat) (t : Ty) (cx : Components) :
    ask (⟨w, n + 1, reason⟩ : MixedCtx) t cx = (implOps w (runProg w n)).mention t false {} cx := by
  show runProg w (n + 1) Ref (.mention t false {} .ret) cx = _
  rw [runProg, Prog.exec]
  cases (implOps w (runProg w n)).mention t false {} cx <;> rfl

theorem askAlike_via {n k : Nat} (h : n ≤ k) :
    AskAlike true Eq (fun _ => True) (⟨w, n, reason⟩ : MixedCtx) (⟨w, k, reason⟩ : MixedCtx) where
  reason := rfl
  ask t _ := by
    rintro cx cx' rfl a cx1 hx
    have : ask (⟨w, k, reason⟩ : MixedCtx) t cx = some (a, cx1) := runProg_mono w h _ _ _ hx
    rw [this]
    exact ⟨rfl, rfl⟩
  scheme n s := by
    rintro cx cx' rfl a cx1 hx
    simp only [Option.some.injEq] at hx
    simp [hx]
  insert n s := by rintro cx cx' rfl; rfl

theorem describeVia_mono {n k : Nat} (h : n ≤ k) {api d} (hd : describeApi (⟨w, n, reason⟩ : MixedCtx) api = some d) :
    describeApi (⟨w, k, reason⟩ : MixedCtx) api = some d :=
  describeApi_same (askAlike_via h) api (fun _ _ => trivial) hd

theorem DescribesVia.succ {api d} (h : DescribesVia w reason api d) :
    ∃ n, describeApi (⟨w, n + 1, reason⟩ : MixedCtx) api = some d := by
  obtain ⟨n, h⟩ := h
  exact ⟨n, describeVia_mono (Nat.le_succ n) h⟩

theorem ask_kept (n : Nat) (t : Ty) : MHolds Components.Kept (ask (⟨w, n, reason⟩ : MixedCtx) t) :=
  runProg_holds kept_inv w n _ _

theorem ask_resolves (hw : ∀ t, (w t).Candid) (n : Nat) (t : Ty) (cx) :
    Resolves Ref.links (ask (⟨w, n, reason⟩ : MixedCtx) t) cx :=
  runProg_resolves hw n _ _ (.mention t false {} .ret) (known := fun _ => False) cx (fun _ _ hl => .inr hl) (fun _ => False.elim)

theorem partsProg_append (o : Ops Ty) : ∀ (ps qs : List Part) cx, (partsProg (ps ++ qs)).exec o cx =
    match (partsProg ps).exec o cx with
    | none => none
    | some (rs, cx') =>
      match (partsProg qs).exec o cx' with
      | none => none
      | some (rs', cx'') => some (rs ++ rs', cx'')
  | [], qs, cx => by
    rw [List.nil_append, partsProg, Prog.exec]
    simp only
    cases (partsProg qs).exec o cx <;> rfl
  | .mention t :: ps, qs, cx => by
    rw [List.cons_append, partsProg, partsProg, Prog.exec, Prog.exec]
    cases o.mention t false {} cx with
    | none => rfl
    | some y =>
      simp only [exec_bind, partsProg_append o ps qs]
      cases (partsProg ps).exec o y.2 with
      | none => rfl
      | some z =>
        simp only [Prog.exec]
        cases (partsProg qs).exec o z.2 <;> rfl
  | .scheme n s :: ps, qs, cx => by
    rw [List.cons_append, partsProg, partsProg, Prog.exec, Prog.exec]
    exact partsProg_append o ps qs _
  | .literal n :: ps, qs, cx => by rw [List.cons_append, partsProg, partsProg]; exact partsProg_append o ps qs _
  | .raw n :: ps, qs, cx => by rw [List.cons_append, partsProg, partsProg]; exact partsProg_append o ps qs _

theorem Ran.prog {n : Nat} {ps rs cx cx'} (h : Ran (⟨w, n + 1, reason⟩ : MixedCtx) ps rs cx cx') :
    (partsProg ps).exec (implOps w (runProg w n)) cx = some (rs, cx') := by
  induction h with
  | nil => rfl
  | mention h _ ih =>
    rw [ask_mixed] at h
    rw [partsProg, Prog.exec, h]
    simp only [exec_bind, ih]
    rfl
  | scheme _ ih => exact ih
  | literal _ ih => exact ih
  | raw _ ih => exact ih

theorem Went.prog {n : Nat} {ps rs cx cx'} (h : Went (⟨w, n + 1, reason⟩ : MixedCtx) ps rs cx cx') {sx : Components}
    (hs : sx.schemas = cx.schemas) :
    ∃ sx', (partsProg ps).exec (implOps w (runProg w n)) sx = some (rs, sx') ∧ sx'.schemas = cx'.schemas := by
  induction h generalizing sx with
  | nil => exact ⟨sx, rfl, hs⟩
  | ran h _ ih =>
    obtain ⟨sx1, h1, e1⟩ := exec_framed (implOps_framed w (runProg_framed w n)) _ _ _ _ _ hs h.prog
    obtain ⟨sx2, h2, e2⟩ := ih e1.schemas
    refine ⟨sx2, ?_, e2⟩
    rw [partsProg_append, h1]
    simp only [h2]
  | declared h _ _ _ ih => exact ih (hs.trans h.symm)

/-! ## Programs without hand written impls -/

theorem askAlike_derived (env : Env) (n : Nat) :
    AskAlike true Eq (fun _ => True) (⟨impls env fun _ => none, n + 1, reason⟩ : MixedCtx) (⟨env, n, reason⟩ : Ctx) where
  reason := rfl
  ask t _ := by
    rintro cx cx' rfl a cx1 hx
    rw [ask_mixed] at hx
    have : ask (⟨env, n, reason⟩ : Ctx) t cx = some (a, cx1) := by
      rw [← hx]
      exact ((derived_ops (derived_run env n)).mention t false {} cx).symm
    rw [this]
    exact ⟨rfl, rfl⟩
  scheme n s := by
    rintro cx cx' rfl a cx1 hx
    simp only [Option.some.injEq] at hx
    simp [hx]
  insert n s := by rintro cx cx' rfl; rfl

theorem askAlike_derived' (env : Env) (n : Nat) :
    AskAlike true Eq (fun _ => True) (⟨env, n, reason⟩ : Ctx) (⟨impls env fun _ => none, n + 1, reason⟩ : MixedCtx) where
  reason := rfl
  ask t _ := by
    rintro cx cx' rfl a cx1 hx
    have : ask (⟨impls env fun _ => none, n + 1, reason⟩ : MixedCtx) t cx = some (a, cx1) := by
      rw [ask_mixed, ← hx]
      exact (derived_ops (derived_run env n)).mention t false {} cx
    rw [this]
    exact ⟨rfl, rfl⟩
  scheme n s := by
    rintro cx cx' rfl a cx1 hx
    simp only [Option.some.injEq] at hx
    simp [hx]
  insert n s := by rintro cx cx' rfl; rfl

/-! ## Two programs -/

theorem askTo_any (w' : Ty → Impl Ty) (parts : List Part) (n k : Nat) :
    AskTo false (fun r r' => r = r' ∨ ∃ t, Part.mention t ∈ parts ∧ MentionsVia w t r ∧ MentionsVia w' t r') (fun _ _ => True)
      (fun t => Part.mention t ∈ parts) (fun _ => True) (⟨w, n, reason⟩ : MixedCtx) (⟨w', k, reason⟩ : MixedCtx) where
  reason := rfl
  ask t ht := by
    intro cx cx' _ r cx1 hx
    split
    · rename_i r' cx1' hy
      exact ⟨.inr ⟨t, ht, ⟨_, _, n, hx⟩, ⟨_, _, k, hy⟩⟩, trivial⟩
    · rfl
  raw r _ := .inl rfl
  scheme m s := by
    intro cx cx' _ a cx1 hx
    simp only [Option.some.injEq] at hx
    refine ⟨?_, trivial⟩
    have h1 : (cx.mentionSecurityScheme m s).1 = a := by rw [hx]
    have h2 : ∀ x : Components, (x.mentionSecurityScheme m s).1 = m := by
      intro x
      unfold Components.mentionSecurityScheme
      split <;> rfl
    rw [← h1, h2]
    exact (h2 cx').symm
  insert _ _ _ _ _ := trivial

theorem describeApi_any {w' : Ty → Impl Ty} {api : Api} {d d' : Opg} (h : DescribesVia w reason api d)
    (h' : DescribesVia w' reason api d') :
    d.Along (fun r r' => r = r' ∨ ∃ t, Part.mention t ∈ api.parts ∧ MentionsVia w t r ∧ MentionsVia w' t r')
      { d' with components := d.components } := by
  obtain ⟨n, h⟩ := h
  obtain ⟨k, h'⟩ := h'
  unfold describeApi at h h'
  split at h
  · cases h
  · rename_i d1 cx hr
    cases h
    split at h'
    · cases h'
    · rename_i d1' cx' hr'
      cases h'
      have := runSections_to (askTo_any (w := w) (reason := reason) w' api.parts n k) api ⟨fun _ ht => ht, fun _ _ => trivial⟩
        ⟨rfl, rfl, rfl, rfl, .nil, rfl⟩ .empty .empty trivial _ _ hr
      rw [hr'] at this
      obtain ⟨⟨h1, h2, h3, h4, h5, -⟩, -⟩ := this
      exact ⟨h1, h2, h3, h4, h5, rfl⟩

end Verif
