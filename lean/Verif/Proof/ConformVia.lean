import Verif.Spec.ConformVia
import Verif.Proof.Conform
import Verif.Proof.Mixed
/-!
# Values and schemas in programs with hand written impls: proofs
-/

namespace Verif

variable {α β : Type} {env : Env} {custom : Nat → Option (Impl Ty)} {hand : Nat → Option (Json → Prop)}

/-! ## Following runs -/

/-- What runs of calls establish: `I` is kept, calls of allowed types (`A`) leave a mark (`V`), and answer as `k` says. -/
structure Traced (k : Docs) (o : Ops Ty) (I : Components → Prop) (V : Components → Ty × Bool → Prop) (A : Ty × Bool → Prop) : Prop where
  getSchema : ∀ t cx m cx', A (t, false) → I cx → o.getSchema t cx = some (m, cx') → I cx' ∧ V cx' (t, false) ∧ k.schema t m
  withParams : ∀ t p cx m cx', A (t, false) → I cx → o.withParams t p cx = some (m, cx') →
    I cx' ∧ V cx' (t, false) ∧ ∃ m₀, k.schema t m₀ ∧ m = m₀.applyParams p
  mention : ∀ t i p cx r cx', A (t, !i) → I cx → o.mention t i p cx = some (r, cx') → I cx' ∧ V cx' (t, !i) ∧ k.mention t i p r
  select : ∀ t i p cx r cx', A (t, false) → I cx → o.select t i p cx = some (r, cx') → I cx'
  mark : ∀ cx cx' x, V cx x → cx.Kept cx' → V cx' x
  holds : o.MHolds Components.Kept

variable {k : Docs} {o : Ops Ty} {I : Components → Prop} {V : Components → Ty × Bool → Prop} {A : Ty × Bool → Prop}

theorem exec_bind_some {o : Ops Ty} {p : Prog Ty α} {f : α → Prog Ty β} {cx b cx'} (h : (p.bind f).exec o cx = some (b, cx')) :
    ∃ a cx1, p.exec o cx = some (a, cx1) ∧ (f a).exec o cx1 = some (b, cx') := by
  rw [exec_bind] at h
  cases hp : p.exec o cx with
  | none => rw [hp] at h; cases h
  | some x => rw [hp] at h; exact ⟨x.1, x.2, rfl, h⟩

mutual
theorem RefExpr.traced (T : Traced k o I V A) : ∀ (e : RefExpr Ty) {cx r cx'}, (∀ x ∈ e.asked, A x) → I cx →
    (e.prog k.env).exec o cx = some (r, cx') → I cx' ∧ (∀ x ∈ e.asked, V cx' x) ∧ e.Yields k r
  | .mention t i p, cx, r, cx', ha, hi, h => by
    simp only [RefExpr.prog, Prog.exec] at h
    cases hm : o.mention t i (p.eval k.env) cx with
    | none => rw [hm] at h; cases h
    | some x =>
      rw [hm] at h
      cases h
      obtain ⟨h1, h2, h3⟩ := T.mention t i _ cx _ _ (ha _ (by simp [RefExpr.asked])) hi hm
      simp only [RefExpr.Yields, RefExpr.asked, List.mem_singleton, forall_eq]
      exact ⟨h1, h2, h3⟩
  | .inline e, cx, r, cx', ha, hi, h => by
    simp only [RefExpr.prog] at h
    obtain ⟨m, cx1, hm, h⟩ := exec_bind_some h
    cases h
    simp only [RefExpr.asked] at ha
    obtain ⟨h1, h2, h3⟩ := ModelExpr.traced T e ha hi hm
    simp only [RefExpr.Yields, RefExpr.asked]
    exact ⟨h1, h2, m, h3, rfl⟩
  | .any, cx, r, cx', ha, hi, h => by
    simp only [RefExpr.prog, Prog.exec] at h
    cases h
    simp only [RefExpr.Yields, RefExpr.asked]
    exact ⟨hi, by simp, trivial⟩
theorem ModelExpr.traced (T : Traced k o I V A) : ∀ (e : ModelExpr Ty) {cx r cx'}, (∀ x ∈ e.asked, A x) → I cx →
    (e.prog k.env).exec o cx = some (r, cx') → I cx' ∧ (∀ x ∈ e.asked, V cx' x) ∧ e.Yields k r
  | .getSchema t, cx, r, cx', ha, hi, h => by
    simp only [ModelExpr.prog, Prog.exec] at h
    cases hm : o.getSchema t cx with
    | none => rw [hm] at h; cases h
    | some x =>
      rw [hm] at h
      cases h
      obtain ⟨h1, h2, h3⟩ := T.getSchema t cx _ _ (ha _ (by simp [ModelExpr.asked])) hi hm
      simp only [ModelExpr.Yields, ModelExpr.asked, List.mem_singleton, forall_eq]
      exact ⟨h1, h2, h3⟩
  | .getSchemaWithParams t p, cx, r, cx', ha, hi, h => by
    simp only [ModelExpr.prog, Prog.exec] at h
    cases hm : o.withParams t (p.eval k.env) cx with
    | none => rw [hm] at h; cases h
    | some x =>
      rw [hm] at h
      cases h
      obtain ⟨h1, h2, h3⟩ := T.withParams t _ cx _ _ (ha _ (by simp [ModelExpr.asked])) hi hm
      simp only [ModelExpr.Yields, ModelExpr.asked, List.mem_singleton, forall_eq]
      exact ⟨h1, h2, h3⟩
  | .single d b td, cx, r, cx', ha, hi, h => by
    simp only [ModelExpr.prog] at h
    obtain ⟨m, cx1, hm, h⟩ := exec_bind_some h
    cases h
    simp only [ModelExpr.asked] at ha
    obtain ⟨h1, h2, h3⟩ := TypeExpr.traced T td ha hi hm
    simp only [ModelExpr.Yields, ModelExpr.asked]
    exact ⟨h1, h2, m, h3, rfl⟩
  | .oneOf d rs, cx, r, cx', ha, hi, h => by
    simp only [ModelExpr.prog] at h
    obtain ⟨m, cx1, hm, h⟩ := exec_bind_some h
    cases h
    simp only [ModelExpr.asked] at ha
    obtain ⟨h1, h2, h3⟩ := RefExpr.tracedList T rs ha hi hm
    simp only [ModelExpr.Yields, ModelExpr.asked]
    exact ⟨h1, h2, m, h3, rfl⟩
  | .tagged e id t v b, cx, r, cx', ha, hi, h => by
    simp only [ModelExpr.prog] at h
    obtain ⟨m, cx1, hm, h⟩ := exec_bind_some h
    cases h
    simp only [ModelExpr.asked] at ha
    obtain ⟨h1, h2, h3⟩ := ModelExpr.traced T e ha hi hm
    simp only [ModelExpr.Yields, ModelExpr.asked]
    exact ⟨h1, h2, m, h3, rfl⟩
theorem TypeExpr.traced (T : Traced k o I V A) : ∀ (e : TypeExpr Ty) {cx r cx'}, (∀ x ∈ e.asked, A x) → I cx →
    (e.prog k.env).exec o cx = some (r, cx') → I cx' ∧ (∀ x ∈ e.asked, V cx' x) ∧ e.Yields k r
  | .string v f e, cx, r, cx', ha, hi, h => by
    simp only [TypeExpr.prog, Prog.exec] at h
    cases h
    simp only [TypeExpr.Yields, TypeExpr.asked]
    exact ⟨hi, by simp, trivial⟩
  | .number f e, cx, r, cx', ha, hi, h => by
    simp only [TypeExpr.prog, Prog.exec] at h
    cases h
    simp only [TypeExpr.Yields, TypeExpr.asked]
    exact ⟨hi, by simp, trivial⟩
  | .integer f e, cx, r, cx', ha, hi, h => by
    simp only [TypeExpr.prog, Prog.exec] at h
    cases h
    simp only [TypeExpr.Yields, TypeExpr.asked]
    exact ⟨hi, by simp, trivial⟩
  | .boolean, cx, r, cx', ha, hi, h => by
    simp only [TypeExpr.prog, Prog.exec] at h
    cases h
    simp only [TypeExpr.Yields, TypeExpr.asked]
    exact ⟨hi, by simp, trivial⟩
  | .array e, cx, r, cx', ha, hi, h => by
    simp only [TypeExpr.prog] at h
    obtain ⟨m, cx1, hm, h⟩ := exec_bind_some h
    cases h
    simp only [TypeExpr.asked] at ha
    obtain ⟨h1, h2, h3⟩ := RefExpr.traced T e ha hi hm
    simp only [TypeExpr.Yields, TypeExpr.asked]
    exact ⟨h1, h2, m, h3, rfl⟩
  | .object es, cx, r, cx', ha, hi, h => by
    simp only [TypeExpr.prog] at h
    obtain ⟨⟨props, req⟩, cx1, hm, h⟩ := exec_bind_some h
    cases h
    simp only [TypeExpr.asked] at ha
    obtain ⟨h1, h2, rs, h3, h4, h5⟩ := PropExpr.tracedList T es ha hi hm
    simp only [TypeExpr.Yields, TypeExpr.asked]
    exact ⟨h1, h2, rs, h3, by rw [h4, h5]; simp⟩
  | .dictionary e, cx, r, cx', ha, hi, h => by
    simp only [TypeExpr.prog] at h
    obtain ⟨m, cx1, hm, h⟩ := exec_bind_some h
    cases h
    simp only [TypeExpr.asked] at ha
    obtain ⟨h1, h2, h3⟩ := RefExpr.traced T e ha hi hm
    simp only [TypeExpr.Yields, TypeExpr.asked]
    exact ⟨h1, h2, m, h3, rfl⟩
theorem RefExpr.tracedList (T : Traced k o I V A) : ∀ (es : List (RefExpr Ty)) {cx rs cx'}, (∀ x ∈ RefExpr.askedList es, A x) → I cx →
    (RefExpr.progList k.env es).exec o cx = some (rs, cx') →
    I cx' ∧ (∀ x ∈ RefExpr.askedList es, V cx' x) ∧ RefExpr.YieldsList k es rs
  | [], cx, rs, cx', ha, hi, h => by
    simp only [RefExpr.progList, Prog.exec] at h
    cases h
    simp only [RefExpr.YieldsList, RefExpr.askedList]
    exact ⟨hi, by simp, trivial⟩
  | e :: es, cx, rs, cx', ha, hi, h => by
    simp only [RefExpr.progList] at h
    obtain ⟨r, cx1, hr, h⟩ := exec_bind_some h
    obtain ⟨rs', cx2, hrs, h⟩ := exec_bind_some h
    cases h
    simp only [RefExpr.askedList, List.mem_append] at ha
    obtain ⟨h1, h2, h3⟩ := RefExpr.traced T e (fun x hx => ha x (.inl hx)) hi hr
    obtain ⟨h4, h5, h6⟩ := RefExpr.tracedList T es (fun x hx => ha x (.inr hx)) h1 hrs
    simp only [RefExpr.YieldsList, RefExpr.askedList, List.mem_append]
    exact ⟨h4, fun x hx => hx.elim (fun hx => T.mark _ _ x (h2 x hx) (exec_holds kept_inv T.holds _ _ _ _ hrs)) (h5 x), r, rs', h3, h6, rfl⟩
theorem PropExpr.tracedList (T : Traced k o I V A) : ∀ (es : List (PropExpr Ty)) {props req cx props' req' cx'},
    (∀ x ∈ PropExpr.askedList es, A x) → I cx →
    (PropExpr.progList k.env es props req).exec o cx = some ((props', req'), cx') →
    I cx' ∧ (∀ x ∈ PropExpr.askedList es, V cx' x) ∧ ∃ rs, PropExpr.YieldsList k es rs ∧
      props' = BMap.insertAll ((es.map PropExpr.nm).zip rs) props ∧
      req' = req ++ (es.filter PropExpr.rq).map PropExpr.nm
  | [], props, req, cx, props', req', cx', ha, hi, h => by
    simp only [PropExpr.progList, Prog.exec] at h
    cases h
    simp only [PropExpr.askedList]
    exact ⟨hi, by simp, [], by simp only [PropExpr.YieldsList], rfl, by simp⟩
  | .mk name r b :: es, props, req, cx, props', req', cx', ha, hi, h => by
    simp only [PropExpr.progList] at h
    obtain ⟨r', cx1, hr, h⟩ := exec_bind_some h
    simp only [PropExpr.askedList, List.mem_append] at ha
    obtain ⟨h1, h2, h3⟩ := RefExpr.traced T r (fun x hx => ha x (.inl hx)) hi hr
    obtain ⟨h4, h5, rs, h6, h7, h8⟩ := PropExpr.tracedList T es (fun x hx => ha x (.inr hx)) h1 h
    simp only [PropExpr.askedList, List.mem_append]
    refine ⟨h4, fun x hx => hx.elim (fun hx => T.mark _ _ x (h2 x hx) (exec_holds kept_inv T.holds _ _ _ _ h)) (h5 x), r' :: rs,
      by simp only [PropExpr.YieldsList]; exact ⟨_, _, h3, h6, rfl⟩, ?_, ?_⟩
    · rw [h7]; rfl
    · rw [h8]
      cases b <;> simp [PropExpr.rq, PropExpr.nm, List.filter_cons]
end

/-- The same for code written by hand. -/
theorem exec_traced (T : Traced k o I V A) (N : String → Prop) (hN : ∀ cx n m, ¬ N n → I cx → I (cx.addModel n m))
    (hS : ∀ cx n s, I cx → I (cx.mentionSecurityScheme n s).2) : ∀ (p : Prog Ty α) {cx a cx'}, (∀ t b, p.Calls t b → A (t, b)) →
    (∀ n, p.Adds n → ¬ N n) → I cx → p.exec o cx = some (a, cx') → I cx'
  | .ret _, _, _, _, _, _, hi, hx => by cases hx; exact hi
  | .getSchema t k, cx, a, cx', hc, hn, hi, hx => by
    rw [Prog.exec] at hx
    cases he : o.getSchema t cx with
    | none => rw [he] at hx; cases hx
    | some x =>
      rw [he] at hx
      exact exec_traced T N hN hS (k x.1) (fun t b h => hc t b (.afterGetSchema h)) (fun n h => hn n (.afterGetSchema h))
        (T.getSchema t cx _ _ (hc _ _ (.getSchema ..)) hi he).1 hx
  | .withParams t p k, cx, a, cx', hc, hn, hi, hx => by
    rw [Prog.exec] at hx
    cases he : o.withParams t p cx with
    | none => rw [he] at hx; cases hx
    | some x =>
      rw [he] at hx
      exact exec_traced T N hN hS (k x.1) (fun t b h => hc t b (.afterWithParams h)) (fun n h => hn n (.afterWithParams h))
        (T.withParams t p cx _ _ (hc _ _ (.withParams ..)) hi he).1 hx
  | .mention t i p k, cx, a, cx', hc, hn, hi, hx => by
    rw [Prog.exec] at hx
    cases he : o.mention t i p cx with
    | none => rw [he] at hx; cases hx
    | some x =>
      rw [he] at hx
      exact exec_traced T N hN hS (k x.1) (fun t b h => hc t b (.afterMention h)) (fun n h => hn n (.afterMention h))
        (T.mention t i p cx _ _ (hc _ _ (.mention ..)) hi he).1 hx
  | .select t i p k, cx, a, cx', hc, hn, hi, hx => by
    rw [Prog.exec] at hx
    cases he : o.select t i p cx with
    | none => rw [he] at hx; cases hx
    | some x =>
      rw [he] at hx
      exact exec_traced T N hN hS (k x.1) (fun t b h => hc t b (.afterSelect h)) (fun n h => hn n (.afterSelect h))
        (T.select t i p cx _ _ (hc _ _ (.select ..)) hi he) hx
  | .contains n k, cx, a, cx', hc, hn, hi, hx =>
    exec_traced T N hN hS (k _) (fun t b h => hc t b (.afterContains h)) (fun n h => hn n (.afterContains h)) hi hx
  | .verify k, cx, a, cx', hc, hn, hi, hx =>
    exec_traced T N hN hS (k _) (fun t b h => hc t b (.afterVerify h)) (fun n h => hn n (.afterVerify h)) hi hx
  | .addModel n m next, cx, a, cx', hc, hn, hi, hx =>
    exec_traced T N hN hS next (fun t b h => hc t b (.afterAddModel h)) (fun n h => hn n (.afterAddModel h))
      (hN _ _ _ (hn n (.addModel ..)) hi) hx
  | .security n s next, cx, a, cx', hc, hn, hi, hx =>
    exec_traced T N hN hS next (fun t b h => hc t b (.afterSecurity h)) (fun n h => hn n (.afterSecurity h)) (hS _ _ _ hi) hx

/-! ## The calls of generated code -/

theorem Prog.Calls.bind_left {p : Prog Ty α} {f : α → Prog Ty β} {t b} (h : p.Calls t b) : (p.bind f).Calls t b := by
  induction h with
  | getSchema => exact .getSchema ..
  | withParams => exact .withParams ..
  | mention => exact .mention ..
  | select => exact .select ..
  | afterGetSchema _ ih => exact .afterGetSchema ih
  | afterWithParams _ ih => exact .afterWithParams ih
  | afterMention _ ih => exact .afterMention ih
  | afterSelect _ ih => exact .afterSelect ih
  | afterContains _ ih => exact .afterContains ih
  | afterVerify _ ih => exact .afterVerify ih
  | afterAddModel _ ih => exact .afterAddModel ih
  | afterSecurity _ ih => exact .afterSecurity ih

/-- Code can always go on to the next piece. -/
theorem Prog.Calls.bind_right : ∀ {p : Prog Ty α} {f : α → Prog Ty β} {t b}, (∀ a, (f a).Calls t b) → (p.bind f).Calls t b
  | .ret a, _, _, _, h => h a
  | .getSchema _ _, _, _, _, h => .afterGetSchema (m := default) (bind_right h)
  | .withParams _ _ _, _, _, _, h => .afterWithParams (m := default) (bind_right h)
  | .mention _ _ _ _, _, _, _, h => .afterMention (r := .any) (bind_right h)
  | .select _ _ _ _, _, _, _, h => .afterSelect (r := .any) (bind_right h)
  | .contains _ _, _, _, _, h => .afterContains (x := true) (bind_right h)
  | .verify _, _, _, _, h => .afterVerify (x := .ok ()) (bind_right h)
  | .addModel _ _ next, _, _, _, h => .afterAddModel (bind_right (p := next) h)
  | .security _ _ next, _, _, _, h => .afterSecurity (bind_right (p := next) h)

mutual
theorem RefExpr.calls (env : Env) : ∀ (e : RefExpr Ty) {t b}, (t, b) ∈ e.asked → (e.prog env).Calls t b
  | .mention t i p, t', b, h => by
    simp only [RefExpr.asked, List.mem_singleton] at h
    cases h
    simp only [RefExpr.prog]
    exact .mention ..
  | .inline e, t, b, h => by
    simp only [RefExpr.asked] at h
    simp only [RefExpr.prog]
    exact (ModelExpr.calls env e h).bind_left
  | .any, t, b, h => by simp [RefExpr.asked] at h
theorem ModelExpr.calls (env : Env) : ∀ (e : ModelExpr Ty) {t b}, (t, b) ∈ e.asked → (e.prog env).Calls t b
  | .getSchema t, t', b, h => by
    simp only [ModelExpr.asked, List.mem_singleton] at h
    cases h
    simp only [ModelExpr.prog]
    exact .getSchema ..
  | .getSchemaWithParams t p, t', b, h => by
    simp only [ModelExpr.asked, List.mem_singleton] at h
    cases h
    simp only [ModelExpr.prog]
    exact .withParams ..
  | .single d n td, t, b, h => by
    simp only [ModelExpr.asked] at h
    simp only [ModelExpr.prog]
    exact (TypeExpr.calls env td h).bind_left
  | .oneOf d rs, t, b, h => by
    simp only [ModelExpr.asked] at h
    simp only [ModelExpr.prog]
    exact (RefExpr.callsList env rs h).bind_left
  | .tagged e .., t, b, h => by
    simp only [ModelExpr.asked] at h
    simp only [ModelExpr.prog]
    exact (ModelExpr.calls env e h).bind_left
theorem TypeExpr.calls (env : Env) : ∀ (e : TypeExpr Ty) {t b}, (t, b) ∈ e.asked → (e.prog env).Calls t b
  | .string .., t, b, h => by simp [TypeExpr.asked] at h
  | .number .., t, b, h => by simp [TypeExpr.asked] at h
  | .integer .., t, b, h => by simp [TypeExpr.asked] at h
  | .boolean, t, b, h => by simp [TypeExpr.asked] at h
  | .array r, t, b, h => by
    simp only [TypeExpr.asked] at h
    simp only [TypeExpr.prog]
    exact (RefExpr.calls env r h).bind_left
  | .object es, t, b, h => by
    simp only [TypeExpr.asked] at h
    simp only [TypeExpr.prog]
    exact (PropExpr.callsList env es h).bind_left
  | .dictionary r, t, b, h => by
    simp only [TypeExpr.asked] at h
    simp only [TypeExpr.prog]
    exact (RefExpr.calls env r h).bind_left
theorem RefExpr.callsList (env : Env) : ∀ (es : List (RefExpr Ty)) {t b}, (t, b) ∈ RefExpr.askedList es → (RefExpr.progList env es).Calls t b
  | [], t, b, h => by simp [RefExpr.askedList] at h
  | e :: es, t, b, h => by
    simp only [RefExpr.askedList, List.mem_append] at h
    simp only [RefExpr.progList]
    exact h.elim (fun h => (RefExpr.calls env e h).bind_left) fun h =>
      Prog.Calls.bind_right fun _ => (RefExpr.callsList env es h).bind_left
theorem PropExpr.callsList (env : Env) : ∀ (es : List (PropExpr Ty)) {props req t b}, (t, b) ∈ PropExpr.askedList es →
    (PropExpr.progList env es props req).Calls t b
  | [], _, _, t, b, h => by simp [PropExpr.askedList] at h
  | .mk name e r :: es, props, req, t, b, h => by
    simp only [PropExpr.askedList, List.mem_append] at h
    simp only [PropExpr.progList]
    exact h.elim (fun h => (RefExpr.calls env e h).bind_left) fun h =>
      Prog.Calls.bind_right fun _ => PropExpr.callsList env es h
end

/-! ## Schemas of types -/

/-- The impls. -/
local notation "W" => impls env custom

structure Known (custom : Nat → Option (Impl Ty)) (hand : Nat → Option (Json → Prop)) : Prop where
  hands : ∀ i, (hand i).isSome = (custom i).isSome
  plain : ∀ i im, custom i = some im → im.Plain

theorem Known.none (K : Known custom hand) {t} (h : ¬ ByHand hand t) : ∀ i, t = .named i → custom i = none := by
  rintro i rfl
  cases hc : custom i with
  | none => rfl
  | some im =>
    have := K.hands i
    rw [hc] at this
    obtain ⟨v, hv⟩ := Option.isSome_iff_exists.1 this
    exact absurd ⟨i, v, rfl, hv⟩ h

theorem Known.eq (K : Known custom hand) {t} (h : ¬ ByHand hand t) : (impls env custom t).schema = schemaProg env t := by
  rw [impls_eq env custom t (K.none h)]

theorem Known.impl (K : Known custom hand) (t : Ty) : (impls env custom t).Plain := by
  by_cases h : ∀ i, t = .named i → custom i = .none
  · rw [impls_eq env custom t h]
    refine ⟨rfl, fun f => ?_⟩
    simp only []
    split <;> nofun
  · obtain ⟨i, h⟩ := Classical.not_forall.1 h
    obtain ⟨rfl, h⟩ := Classical.not_imp.1 h
    cases hc : custom i with
    | none => exact absurd (fun _ => hc) h
    | some im =>
      have : impls env custom (.named i) = im := by rw [impls, hc]; rfl
      rw [this]
      exact K.plain i im hc

/-- Any run of generated code gives what its expressions yield. -/
theorem Known.traced (K : Known custom hand) (n : Nat) :
    Traced (docsVia env custom) (implOps W (runProg W n)) (fun _ => True) (fun _ _ => True) (fun _ => True) where
  getSchema t cx m cx' _ _ h := ⟨trivial, trivial, cx, cx', n, h⟩
  withParams t p cx m cx' _ _ h := by
    refine ⟨trivial, trivial, ?_⟩
    simp only [implOps, Impl.runWithParams, (K.impl t).withParams, appliedSchema_some] at h
    obtain ⟨m₀, cx1, h, e⟩ := h
    cases e
    exact ⟨m₀, ⟨cx, cx', n, h⟩, rfl⟩
  mention t i p cx r cx' _ _ h := ⟨trivial, trivial, cx, cx', progReturns_mention.2 ⟨n, h⟩⟩
  select _ _ _ _ _ _ _ _ _ := trivial
  mark _ _ _ _ _ := trivial
  holds := implOps_holds kept_inv _ (runProg_holds kept_inv _ n)

theorem Known.schema (K : Known custom hand) {t m} (h : SchemaVia W t m) (hb : ¬ ByHand hand t) :
    ∃ e, schemaExpr env t = some e ∧ e.Yields (docsVia env custom) m := by
  obtain ⟨cx, cx', n, h⟩ := h
  have hs : (W t).schema = schemaProg env t := K.eq hb
  cases he : schemaExpr env t with
  | none =>
    rw [schemaProg, he] at hs
    rw [derived_stuck hs] at h
    cases h
  | some e =>
    rw [schemaProg, he] at hs
    cases n with
    | zero => cases h
    | succ n =>
      rw [runProg, hs] at h
      exact ⟨e, rfl, (ModelExpr.traced (K.traced n) e (fun _ _ => trivial) trivial h).2.2⟩

/-- Pointers have the schemas of their targets. -/
theorem schemaVia_strip : ∀ (t : Ty) {m}, SchemaVia W t m ↔ SchemaVia W t.strip m
  | .wrap q t, m => by
    rw [Ty.strip, ← schemaVia_strip t]
    unfold SchemaVia
    rw [(mixed_pointer env custom q t).2.2.2]
    simp only [progReturns_getSchema]
  | .prim _, _ | .tuple _, _ | .seq _ _, _ | .dict _ _, _ | .unit, _ | .uuid, _ | .naiveDateTime, _ | .dateTime, _ | .naiveDate, _
  | .option _, _ | .named _, _ => by rw [Ty.strip]; nofun

/-! ## Registries -/

/-- A mention of the type by reference gives a link. -/
def LinksAs (w : Ty → Impl Ty) (t : Ty) (l : String) : Prop := (w t).select = .default ∧ (w t).name = some l

/-- All that the schema of a generated impl refers to is registered, and so on for the schemas it refers to. -/
inductive Done (env : Env) (custom : Nat → Option (Impl Ty)) (hand : Nat → Option (Json → Prop)) (cx : Components) : Ty → Prop
  | intro {t e} (he : schemaExpr env t = some e)
      (keys : ∀ u, (u, true) ∈ e.asked → ∀ l, LinksAs (impls env custom) u l → l ∈ BMap.keys cx.schemas)
      (deep : ∀ u b, (u, b) ∈ e.asked → ¬ ByHand hand u → Done env custom hand cx u) : Done env custom hand cx t

theorem Done.mono {cx cx' : Components} {t} (h : Done env custom hand cx t)
    (hk : ∀ n, n ∈ BMap.keys cx.schemas → n ∈ BMap.keys cx'.schemas) : Done env custom hand cx' t := by
  induction h with
  | intro he keys _ ih => exact .intro he (fun u hu l hl => hk l (keys u hu l hl)) ih

theorem done_strip {cx : Components} : ∀ (t : Ty), (¬ ByHand hand t → Done env custom hand cx t) ↔
    (¬ ByHand hand t.strip → Done env custom hand cx t.strip)
  | .wrap q t => by
    rw [Ty.strip, ← done_strip t]
    have he : schemaExpr env (.wrap q t) = some (.getSchema t) := by simp [schemaExpr]
    constructor
    · intro h hb
      have := h (by rintro ⟨_, _, ⟨⟩, _⟩)
      cases this with
      | intro he' keys deep =>
        rw [he] at he'
        cases he'
        exact deep t false (by simp [ModelExpr.asked]) hb
    · intro h _
      refine .intro he ?_ ?_
      · intro u hu
        simp [ModelExpr.asked] at hu
      · intro u b hu hb
        simp only [ModelExpr.asked, List.mem_singleton, Prod.mk.injEq] at hu
        rw [hu.1] at hb ⊢
        exact h hb
  | .prim _ | .tuple _ | .seq _ _ | .dict _ _ | .unit | .uuid | .naiveDateTime | .dateTime | .naiveDate
  | .option _ | .named _ => by rw [Ty.strip]; nofun

/-- The types of a program. -/
structure Closed (env : Env) (custom : Nat → Option (Impl Ty)) (T U : Ty → Prop) : Prop where
  calls : ∀ t, T t → ∀ u b, (impls env custom t).schema.Calls u b → T u ∧ (b = true → U u)
  adds : ∀ t, T t → ∀ n, (impls env custom t).schema.Adds n → ¬ ∃ u, U u ∧ (impls env custom u).name = some n
  one : ∀ t t' n, U t → U t' → (impls env custom t).name = some n → (impls env custom t').name = some n → t.strip = t'.strip

/-- What is registered under the names of types is their schemas, and complete. -/
def Sound (env : Env) (custom : Nat → Option (Impl Ty)) (hand : Nat → Option (Json → Prop)) (U : Ty → Prop) (cx : Components) : Prop :=
  ∀ l m, BMap.get l cx.schemas = some m → ∀ t, U t → (impls env custom t).name = some l →
    SchemaVia (impls env custom) t m ∧ (¬ ByHand hand t → Done env custom hand cx t)

/-- What is left by asking for a type. -/
def Left (env : Env) (custom : Nat → Option (Impl Ty)) (hand : Nat → Option (Json → Prop)) (cx : Components) (x : Ty × Bool) : Prop :=
  (x.2 = true → ∀ l, LinksAs (impls env custom) x.1 l → l ∈ BMap.keys cx.schemas) ∧
  (¬ ByHand hand x.1 → Done env custom hand cx x.1)

variable {T U : Ty → Prop}

theorem Sound.insert (C : Closed env custom T U) {cx : Components} (hs : Sound env custom hand U cx) {t l m} (hu : U t)
    (hl : (W t).name = some l) (hm : SchemaVia W t m) (hd : ¬ ByHand hand t → Done env custom hand cx t) :
    Sound env custom hand U { cx with schemas := BMap.insert l m cx.schemas } := by
  have hk : ∀ n, n ∈ BMap.keys cx.schemas → n ∈ BMap.keys (BMap.insert l m cx.schemas) := fun n hn => BMap.mem_keys_insert.2 (.inr hn)
  intro l' m' hg t' hu' hl'
  replace hg : BMap.get l' (BMap.insert l m cx.schemas) = some m' := hg
  rw [BMap.get_insert] at hg
  split at hg
  · rename_i e
    subst e
    cases hg
    have e := C.one t t' l' hu hu' hl hl'
    refine ⟨(schemaVia_strip t').2 (e ▸ (schemaVia_strip t).1 hm), (done_strip t').2 fun hb => ?_⟩
    have := (done_strip (env := env) (custom := custom) (cx := cx) t).1 hd (e ▸ hb)
    rw [← e]
    exact this.mono hk
  · obtain ⟨h1, h2⟩ := hs l' m' hg t' hu' hl'
    exact ⟨h1, fun hb => (h2 hb).mono hk⟩

theorem Sound.addModel {cx : Components} (hs : Sound env custom hand U cx) {n m} (hn : ¬ ∃ u, U u ∧ (W u).name = some n) :
    Sound env custom hand U (cx.addModel n m) := by
  intro l m' hg t hu hl
  have hne : l ≠ n := by rintro rfl; exact hn ⟨t, hu, hl⟩
  have hk := (kept_inv.addModel cx n m)
  have hg : BMap.get l cx.schemas = some m' := by
    unfold Components.addModel at hg
    split at hg
    · exact hg
    · rwa [show BMap.get l (BMap.insert n m cx.schemas) = _ from BMap.get_insert_ne hne ..] at hg
  obtain ⟨h1, h2⟩ := hs l m' hg t hu hl
  exact ⟨h1, fun hb => (h2 hb).mono fun n hn => hk.keys hn⟩

theorem Sound.congr {cx cx' : Components} (hs : Sound env custom hand U cx) (e : cx'.schemas = cx.schemas) :
    Sound env custom hand U cx' := by
  intro l m hg t hu hl
  rw [e] at hg
  obtain ⟨h1, h2⟩ := hs l m hg t hu hl
  exact ⟨h1, fun hb => (h2 hb).mono fun n hn => by rw [e]; exact hn⟩

theorem Left.mono {cx cx' : Components} {x} (h : Left env custom hand cx x) (hk : ∀ n, n ∈ BMap.keys cx.schemas → n ∈ BMap.keys cx'.schemas) :
    Left env custom hand cx' x :=
  ⟨fun hx l hl => hk l (h.1 hx l hl), fun hb => (h.2 hb).mono hk⟩

/-- The calls, from the runs of `get_schema`. -/
theorem Closed.traced (C : Closed env custom T U) (K : Known custom hand) (n : Nat)
    (ih : ∀ t, T t → ∀ cx m cx', Sound env custom hand U cx → runProg W n Model (W t).schema cx = some (m, cx') →
      Sound env custom hand U cx' ∧ (¬ ByHand hand t → Done env custom hand cx' t)) :
    Traced (docsVia env custom) (implOps W (runProg W n)) (Sound env custom hand U) (Left env custom hand)
      (fun x => T x.1 ∧ (x.2 = true → U x.1)) where
  getSchema t cx m cx' ha hi h := by
    obtain ⟨h1, h2⟩ := ih t ha.1 cx m cx' hi h
    exact ⟨h1, ⟨nofun, h2⟩, cx, cx', n, h⟩
  withParams t p cx m cx' ha hi h := by
    simp only [implOps, Impl.runWithParams, (K.impl t).withParams, appliedSchema_some] at h
    obtain ⟨m₀, cx1, h, e⟩ := h
    cases e
    obtain ⟨h1, h2⟩ := ih t ha.1 cx m₀ cx' hi h
    exact ⟨h1, ⟨nofun, h2⟩, m₀, ⟨cx, cx', n, h⟩, rfl⟩
  mention t i p cx r cx' ha hi h := by
    have hd : (docsVia env custom).mention t i p r := ⟨cx, cx', progReturns_mention.2 ⟨n, h⟩⟩
    refine ⟨?_, ?_, hd⟩
    all_goals
      clear hd
      simp only [implOps, mentionVia_some, runSelect_some] at h
      obtain ⟨cx1, hs, hr⟩ := h
      rcases hs with ⟨hc, m, hm, rfl⟩ | ⟨l, hd, rfl, hl, rfl, rfl⟩ | ⟨f, hf, -⟩
      · obtain ⟨h1, h2⟩ := ih t ha.1 cx m cx1 hi hm
        rcases hr with ⟨-, rfl⟩ | ⟨_, _, _, ⟨⟩, -⟩
        first
        | exact h1
        | refine ⟨?_, h2⟩
          rintro hi l ⟨hd, hl⟩
          rcases hc with hc | ⟨-, hc | hc⟩
          · rw [hc] at hd; cases hd
          · rw [hc] at hi; cases hi
          · rw [hc] at hl; cases hl
      · have hu : U t := ha.2 rfl
        rcases hr with ⟨hk, rfl⟩ | ⟨l', m, cx2, e, hk, hm, rfl⟩
        · first
          | exact hi
          | obtain ⟨m, hm⟩ := Option.isSome_iff_exists.1 (BMap.get_isSome_iff.2 (hk l rfl))
            refine ⟨?_, (hi l m hm t hu hl).2⟩
            rintro - l' ⟨-, hl'⟩
            rw [hl] at hl'
            cases hl'
            exact hk l rfl
        · cases e
          obtain ⟨h1, h2⟩ := ih t ha.1 _ m cx2 hi hm
          first
          | exact Sound.insert C h1 hu hl ⟨_, _, n, hm⟩ h2
          | refine ⟨?_, fun hb => (h2 hb).mono fun n hn => BMap.mem_keys_insert.2 (.inr hn)⟩
            rintro - l' ⟨-, hl'⟩
            rw [hl] at hl'
            cases hl'
            exact BMap.mem_keys_insert.2 (.inl rfl)
      · exact absurd hf ((K.impl t).select f)
  select t i p cx r cx' ha hi h := by
    simp only [implOps, runSelect_some] at h
    rcases h with ⟨hc, m, hm, rfl⟩ | ⟨l, hd, rfl, hl, rfl, rfl⟩ | ⟨f, hf, -⟩
    · exact (ih t ha.1 cx m cx' hi hm).1
    · exact hi
    · exact absurd hf ((K.impl t).select f)
  mark _ _ _ h hk := h.mono fun _ hn => hk.keys hn
  holds := implOps_holds kept_inv _ (runProg_holds kept_inv _ n)

theorem Closed.run (C : Closed env custom T U) (K : Known custom hand) : ∀ n t, T t → ∀ cx m cx', Sound env custom hand U cx →
    runProg W n Model (W t).schema cx = some (m, cx') →
    Sound env custom hand U cx' ∧ (¬ ByHand hand t → Done env custom hand cx' t)
  | 0, _, _, _, _, _, _, h => by cases h
  | n + 1, t, ht, cx, m, cx', hi, h => by
    have tr := C.traced K n (C.run K n)
    by_cases hb : ByHand hand t
    · refine ⟨?_, fun h => absurd hb h⟩
      rw [runProg] at h
      exact exec_traced tr _ (fun cx n m hn hi => hi.addModel hn)
        (fun cx n s hi => hi.congr (mentionSecurityScheme_schemas ..)) _ (C.calls t ht) (C.adds t ht) hi h
    · have hs : (W t).schema = schemaProg env t := K.eq hb
      have hc := C.calls t ht
      cases he : schemaExpr env t with
      | none =>
        rw [schemaProg, he] at hs
        rw [derived_stuck hs] at h
        cases h
      | some e =>
        rw [schemaProg, he] at hs
        rw [runProg, hs] at h
        rw [hs] at hc
        obtain ⟨h1, h2, -⟩ := ModelExpr.traced tr e (fun x hx => hc _ _ (e.calls env hx)) hi h
        exact ⟨h1, fun _ => .intro he (fun u hu => (h2 _ hu).1 rfl) fun u b hu => (h2 _ hu).2⟩

/-- Mentions by descriptions. -/
theorem Ran.sound (C : Closed env custom T U) (K : Known custom hand) {c : MixedCtx} (hc : c.impls = W) {ps rs cx cx'}
    (h : Ran c ps rs cx cx') (roots : ∀ t, Part.mention t ∈ ps → T t ∧ U t) (hs : Sound env custom hand U cx) :
    Sound env custom hand U cx' ∧ (∀ n, n ∈ BMap.keys cx.schemas → n ∈ BMap.keys cx'.schemas) ∧
      ∀ t, Part.mention t ∈ ps → Left env custom hand cx' (t, true) := by
  induction h with
  | nil => exact ⟨hs, fun _ h => h, fun _ h => by cases h⟩
  | mention h rest ih =>
    rename_i t r ps rs cx cx1 cx2
    obtain ⟨n, hn⟩ := progReturns_mention.1 (⟨c.fuel, h⟩ : ProgReturns c.impls (.mention t false {} .ret) cx r cx1)
    rw [hc] at hn
    obtain ⟨h1, h2⟩ := roots t (by simp)
    have tr := C.traced K n (C.run K n)
    obtain ⟨h3, h4, -⟩ := tr.mention t false {} cx r cx1 ⟨h1, fun _ => h2⟩ hs hn
    have hk := tr.holds.mention t false {} cx r cx1 hn
    obtain ⟨h5, h6, h7⟩ := ih (fun t ht => roots t (by simp [ht])) h3
    refine ⟨h5, fun n hn => h6 n (hk.keys hn), fun t' ht' => ?_⟩
    rcases List.mem_cons.1 ht' with e | ht'
    · cases e; exact Left.mono h4 h6
    · exact h7 t' ht'
  | scheme _ ih =>
    obtain ⟨h5, h6, h7⟩ := ih (fun t ht => roots t (by simp [ht])) (hs.congr (mentionSecurityScheme_schemas ..))
    refine ⟨h5, fun n hn => h6 n ?_, fun t ht => h7 t (by simpa using ht)⟩
    rw [mentionSecurityScheme_schemas]
    exact hn
  | literal _ ih =>
    obtain ⟨h5, h6, h7⟩ := ih (fun t ht => roots t (by simp [ht])) hs
    exact ⟨h5, h6, fun t ht => h7 t (by simpa using ht)⟩
  | raw _ ih =>
    obtain ⟨h5, h6, h7⟩ := ih (fun t ht => roots t (by simp [ht])) hs
    exact ⟨h5, h6, fun t ht => h7 t (by simpa using ht)⟩

theorem Went.sound (C : Closed env custom T U) (K : Known custom hand) {c : MixedCtx} (hc : c.impls = W) {ps rs cx cx'}
    (h : Went c ps rs cx cx') (roots : ∀ t, Part.mention t ∈ ps → T t ∧ U t) (hs : Sound env custom hand U cx) :
    Sound env custom hand U cx' ∧ (∀ n, n ∈ BMap.keys cx.schemas → n ∈ BMap.keys cx'.schemas) ∧
      ∀ t, Part.mention t ∈ ps → Left env custom hand cx' (t, true) := by
  induction h with
  | nil => exact ⟨hs, fun _ h => h, fun _ h => by cases h⟩
  | ran h _ ih =>
    obtain ⟨h1, h2, h3⟩ := h.sound C K hc (fun t ht => roots t (by simp [ht])) hs
    obtain ⟨h5, h6, h7⟩ := ih (fun t ht => roots t (by simp [ht])) h1
    refine ⟨h5, fun n hn => h6 n (h2 n hn), fun t ht => ?_⟩
    rcases List.mem_append.1 ht with ht | ht
    · exact Left.mono (h3 t ht) h6
    · exact h7 t ht
  | declared h _ _ _ ih =>
    obtain ⟨h5, h6, h7⟩ := ih roots (hs.congr h)
    exact ⟨h5, fun n hn => h6 n (by rw [h]; exact hn), h7⟩

/-! ## The program and its registry -/

/-- The types asked for, and registered if by reference. -/
def viaSetting (env : Env) (custom : Nat → Option (Impl Ty)) (hand : Nat → Option (Json → Prop)) (T U : Ty → Prop)
    (cx : Components) : Setting where
  docs := docsVia env custom
  hand := hand
  reached t := T t ∧ (¬ ByHand hand t → Done env custom hand cx t)
  linked t := U t ∧ ∀ l, LinksAs (impls env custom) t l → l ∈ BMap.keys cx.schemas

theorem Left.seen {cx : Components} {x : Ty × Bool} (ht : T x.1) (hu : x.2 = true → U x.1) (h : Left env custom hand cx x) :
    (viaSetting env custom hand T U cx).Seen x :=
  ⟨⟨ht, h.2⟩, fun e => ⟨hu e, h.1 e⟩⟩

theorem grounds_via (C : Closed env custom T U) (K : Known custom hand) {cx : Components} (hs : Sound env custom hand U cx)
    (derived : ∀ i, T (.named i) → ¬ ByHand hand (.named i) → ∃ o input, Derived o env i input) :
    Grounds (viaSetting env custom hand T U cx) cx.schemas where
  derived i hr hb := derived i hr.1 hb
  schema t m hm hb := K.schema hm hb
  mention t i p r hm hseen := by
    obtain ⟨cx0, cx1, hm⟩ := hm
    obtain ⟨cx2, hsel, hr⟩ := progReturns_mention_select.1 hm
    clear hm
    obtain ⟨n, hsel⟩ := progReturns_select'.1 hsel
    rcases runSelect_some.1 hsel with ⟨hc, m, hm, rfl⟩ | ⟨l, hd, rfl, hl, rfl, rfl⟩ | ⟨f, hf, -⟩
    · exact .inr ⟨m, ⟨_, _, n, hm⟩, rfl⟩
    · obtain ⟨hu, hk⟩ := hseen.2 rfl
      obtain ⟨m, hm⟩ := Option.isSome_iff_exists.1 (BMap.get_isSome_iff.2 (hk l ⟨hd, hl⟩))
      exact .inl ⟨l, m, rfl, (hs l m hm t hu hl).1, hm⟩
    · exact absurd hf ((K.impl t).select f)
  asked t e hr hb he x hx := by
    have hc := C.calls t hr.1
    have he : schemaExpr env t = some e := he
    rw [K.eq hb, schemaProg, he] at hc
    obtain ⟨h1, h2⟩ := hc x.1 x.2 (e.calls env hx)
    cases hr.2 hb with
    | intro he' keys deep =>
      rw [he] at he'
      cases he'
      exact Left.seen h1 h2 ⟨fun e' l hl => keys x.1 (by rw [← e']; exact hx) l hl, deep x.1 x.2 hx⟩

variable {s : Serde}

theorem world_via {ex} {cx : Components} (G : Grounds (viaSetting env custom hand T U cx) cx.schemas)
    (faithful : ∀ t, T t → ¬ ByHand hand t → Faithful (docsVia env custom) (s.writesBy hand) t)
    (byHand : ∀ i v, T (.named i) → hand i = some v → ∀ j, v j → ∀ m, SchemaVia (impls env custom) (.named i) m →
      ValidModel ex cx.schemas m j)
    (distinct : ex = true → ∀ t, T t → ¬ ByHand hand t → Distinct (docsVia env custom) (s.writesBy hand) cx.schemas t) :
    World ex s (viaSetting env custom hand T U cx) cx.schemas where
  toGrounds := G
  faithful t hr hb := faithful t hr.1 hb
  distinct h t hr hb := distinct h t hr.1 hb
  byHand i v hr hv j hj m hm := byHand i v hr.1 hv j hj m hm

end Verif
