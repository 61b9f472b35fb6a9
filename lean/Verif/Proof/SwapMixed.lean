import Verif.Spec.SwapMixed
import Verif.Proof.Swap
import Verif.Proof.Compiles
/-!
# Interchangeable types in programs with hand written impls: proofs
-/

namespace Verif

theorem Prog.Swapped.refl {α : Type} : ∀ p : Prog Ty α, p.Swapped p
  | .ret a => .ret a
  | .getSchema t k => .getSchema (.refl t) fun m => refl (k m)
  | .withParams t _ k => .withParams (.refl t) fun m => refl (k m)
  | .mention t _ _ k => .mention (.refl t) fun r => refl (k r)
  | .select t _ _ k => .select (.refl t) fun r => refl (k r)
  | .contains _ k => .contains fun b => refl (k b)
  | .verify k => .verify fun e => refl (k e)
  | .addModel _ _ p => .addModel (refl p)
  | .security _ _ p => .security (refl p)

theorem Prog.Swapped.symm {α : Type} {p p' : Prog Ty α} (h : p.Swapped p') : p'.Swapped p := by
  induction h with
  | ret a => exact .ret a
  | getSchema h _ ih => exact .getSchema h.symm ih
  | withParams h _ ih => exact .withParams h.symm ih
  | mention h _ ih => exact .mention h.symm ih
  | select h _ ih => exact .select h.symm ih
  | contains _ ih => exact .contains ih
  | verify _ ih => exact .verify ih
  | addModel _ ih => exact .addModel ih
  | security _ ih => exact .security ih

theorem Prog.Swapped.bind {α β : Type} {p p' : Prog Ty α} (h : p.Swapped p') {f f' : α → Prog Ty β} (hf : ∀ a, (f a).Swapped (f' a)) :
    (p.bind f).Swapped (p'.bind f') := by
  induction h with
  | ret a => exact hf a
  | getSchema h _ ih => exact .getSchema h ih
  | withParams h _ ih => exact .withParams h ih
  | mention h _ ih => exact .mention h ih
  | select h _ ih => exact .select h ih
  | contains _ ih => exact .contains ih
  | verify _ ih => exact .verify ih
  | addModel _ ih => exact .addModel ih
  | security _ ih => exact .security ih

/-! ## Generated code -/

section
variable {env env' : Env} (he : env'.evalExpr = env.evalExpr)
include he

mutual
theorem RefExpr.prog_swapped : ∀ (e : RefExpr Swap), ((e.map Swap.before).prog env).Swapped ((e.map Swap.after).prog env')
  | .mention t i p => by
    simp only [RefExpr.map, RefExpr.prog, ParamsExpr.eval_same he]
    exact .mention t.2 fun r => .ret r
  | .inline m => by
    simp only [RefExpr.map, RefExpr.prog]
    exact (ModelExpr.prog_swapped m).bind fun _ => .ret _
  | .any => by simp only [RefExpr.map, RefExpr.prog]; exact .ret _
theorem ModelExpr.prog_swapped : ∀ (e : ModelExpr Swap), ((e.map Swap.before).prog env).Swapped ((e.map Swap.after).prog env')
  | .getSchema t => by simp only [ModelExpr.map, ModelExpr.prog]; exact .getSchema t.2 fun _ => .ret _
  | .getSchemaWithParams t p => by
    simp only [ModelExpr.map, ModelExpr.prog, ParamsExpr.eval_same he]
    exact .withParams t.2 fun _ => .ret _
  | .single d n td => by
    simp only [ModelExpr.map, ModelExpr.prog]
    exact (TypeExpr.prog_swapped td).bind fun _ => .ret _
  | .oneOf d rs => by
    simp only [ModelExpr.map, ModelExpr.prog]
    exact (RefExpr.progList_swapped rs).bind fun _ => .ret _
  | .tagged m .. => by
    simp only [ModelExpr.map, ModelExpr.prog]
    exact (ModelExpr.prog_swapped m).bind fun _ => .ret _
theorem TypeExpr.prog_swapped : ∀ (e : TypeExpr Swap), ((e.map Swap.before).prog env).Swapped ((e.map Swap.after).prog env')
  | .string .. => by simp only [TypeExpr.map, TypeExpr.prog, optExample_same he]; exact .ret _
  | .number .. => by simp only [TypeExpr.map, TypeExpr.prog, optExample_same he]; exact .ret _
  | .integer .. => by simp only [TypeExpr.map, TypeExpr.prog, optExample_same he]; exact .ret _
  | .boolean => by simp only [TypeExpr.map, TypeExpr.prog]; exact .ret _
  | .array r => by
    simp only [TypeExpr.map, TypeExpr.prog]
    exact (RefExpr.prog_swapped r).bind fun _ => .ret _
  | .object es => by
    simp only [TypeExpr.map, TypeExpr.prog]
    exact (PropExpr.progList_swapped es _ _).bind fun _ => .ret _
  | .dictionary r => by
    simp only [TypeExpr.map, TypeExpr.prog]
    exact (RefExpr.prog_swapped r).bind fun _ => .ret _
theorem RefExpr.progList_swapped : ∀ (es : List (RefExpr Swap)),
    (RefExpr.progList env (RefExpr.mapList Swap.before es)).Swapped (RefExpr.progList env' (RefExpr.mapList Swap.after es))
  | [] => by simp only [RefExpr.mapList, RefExpr.progList]; exact .ret _
  | r :: rs => by
    simp only [RefExpr.mapList, RefExpr.progList]
    exact (RefExpr.prog_swapped r).bind fun _ => (RefExpr.progList_swapped rs).bind fun _ => .ret _
theorem PropExpr.progList_swapped : ∀ (es : List (PropExpr Swap)) props req,
    (PropExpr.progList env (PropExpr.mapList Swap.before es) props req).Swapped
      (PropExpr.progList env' (PropExpr.mapList Swap.after es) props req)
  | [], _, _ => by simp only [PropExpr.mapList, PropExpr.progList]; exact .ret _
  | .mk n r q :: rest, props, req => by
    simp only [PropExpr.mapList, PropExpr.progList]
    exact (RefExpr.prog_swapped r).bind fun _ => PropExpr.progList_swapped rest _ _
end
end

/-! ## Running swapped code -/

theorem ProgReturns.next {α β : Type} {w : Ty → Impl Ty} {p : Prog Ty α} {f : α → Prog Ty β} {cx a cx1 b cx2}
    (h : ProgReturns w p cx a cx1) (h' : ProgReturns w (f a) cx1 b cx2) : ProgReturns w (p.bind f) cx b cx2 := by
  obtain ⟨n, h⟩ := progReturns_iff.1 h
  obtain ⟨k, h'⟩ := progReturns_iff.1 h'
  refine progReturns_iff.2 ⟨max n k, ?_⟩
  have h1 := exec_ext (implOps_ext w fun α p => runProg_mono w (Nat.le_max_left n k) p) p cx _ h
  have h2 := exec_ext (implOps_ext w fun α p => runProg_mono w (Nat.le_max_right n k) p) (f a) cx1 _ h'
  rw [exec_bind, h1]
  exact h2

section
variable {w w' : Ty → Impl Ty} (plain : ∀ t, (w t).Transparent) (plain' : ∀ t, (w' t).Transparent)
  (names : ∀ t u, Interchangeable t u → (w' u).name = (w t).name) {n : Nat}
  (A : ∀ t u, Interchangeable t u → ∀ cx m cx', runProg w n Model (w t).schema cx = some (m, cx') → ProgReturns w' (w' u).schema cx m cx')

include plain' A in
theorem select_swapped' {t u : Ty} (h : Interchangeable t u) (hp : (w t).Transparent) (hn : (w' u).name = (w t).name) {i p cx r cx'}
    (run : (w t).runSelect (runProg w n) i p cx = some (r, cx')) : ProgReturns w' (.select u i p .ret) cx r cx' := by
  rw [progReturns_select]
  rcases runSelect_some.1 run with ⟨hc, m, hm, rfl⟩ | ⟨l, hs, hi, hl, rfl, rfl⟩ | ⟨f, hf, -⟩
  · have hm := A t u h _ _ _ hm
    rcases (plain' u).select with hs | ⟨hs, hs'⟩
    · rw [hs]
      refine .inr ⟨?_, m, hm, rfl⟩
      rcases hc with hc | ⟨-, hc⟩
      · rcases hp.select with h1 | ⟨-, h1⟩
        · rw [h1] at hc; cases hc
        · exact .inr (hn.trans h1)
      · rw [hn]; exact hc
    · rw [hs]
      exact ⟨m, hm, rfl⟩
  · rcases (plain' u).select with hs' | ⟨-, hs'⟩
    · rw [hs']
      exact .inl ⟨hi, l, hn.trans hl, rfl, rfl⟩
    · rw [hn, hl] at hs'; cases hs'
  · rcases hp.select with h1 | ⟨h1, -⟩ <;> rw [h1] at hf <;> cases hf

include plain plain' names A in
theorem exec_swapped {α : Type} {p p' : Prog Ty α} (h : p.Swapped p') : ∀ {cx a cx'},
    p.exec (implOps w (runProg w n)) cx = some (a, cx') → ProgReturns w' p' cx a cx' := by
  induction h with
  | ret a =>
    intro cx a' cx' hx
    exact ⟨1, hx⟩
  | @getSchema t u k k' h _ ih =>
    intro cx a cx' hx
    rw [Prog.exec] at hx
    cases hy : (implOps w (runProg w n)).getSchema t cx with
    | none => rw [hy] at hx; cases hx
    | some y =>
      rw [hy] at hx
      have h1 : ProgReturns w' (.getSchema u .ret) cx y.1 y.2 := progReturns_getSchema.2 (A t u h _ _ _ hy)
      exact h1.next (f := k') (ih y.1 hx)
  | @withParams t u p k k' h _ ih =>
    intro cx a cx' hx
    rw [Prog.exec] at hx
    cases hy : (implOps w (runProg w n)).withParams t p cx with
    | none => rw [hy] at hx; cases hx
    | some y =>
      rw [hy] at hx
      have h1 : ProgReturns w' (.withParams u p .ret) cx y.1 y.2 := by
        rw [progReturns_withParams, (plain' u).withParams]
        simp only [implOps, Impl.runWithParams, (plain t).withParams] at hy
        obtain ⟨m0, cx0, hm, e⟩ := appliedSchema_some.1 hy
        rw [e]
        exact ⟨m0, A t u h _ _ _ hm, rfl⟩
      exact h1.next (f := k') (ih y.1 hx)
  | @mention t u i p k k' h _ ih =>
    intro cx a cx' hx
    rw [Prog.exec] at hx
    cases hy : (implOps w (runProg w n)).mention t i p cx with
    | none => rw [hy] at hx; cases hx
    | some y =>
      rw [hy] at hx
      have h1 : ProgReturns w' (.mention u i p .ret) cx y.1 y.2 := by
        rw [progReturns_mention_select]
        obtain ⟨cx1, hs, hc⟩ := mentionVia_some.1 (show mentionVia _ _ cx = some (y.1, y.2) from hy)
        refine ⟨cx1, select_swapped' plain' A h (plain t) (names t u h) hs, ?_⟩
        rcases hc with hc | ⟨l, m, cx2, h2, h3, h4, h5⟩
        · exact .inl hc
        · exact .inr ⟨l, m, cx2, h2, h3, A t u h _ _ _ h4, h5⟩
      exact h1.next (f := k') (ih y.1 hx)
  | @select t u i p k k' h _ ih =>
    intro cx a cx' hx
    rw [Prog.exec] at hx
    cases hy : (implOps w (runProg w n)).select t i p cx with
    | none => rw [hy] at hx; cases hx
    | some y =>
      rw [hy] at hx
      have h1 : ProgReturns w' (.select u i p .ret) cx y.1 y.2 := select_swapped' plain' A h (plain t) (names t u h) hy
      exact h1.next (f := k') (ih y.1 hx)
  | contains _ ih =>
    intro cx a cx' hx
    obtain ⟨k, hk⟩ := progReturns_iff.1 (ih _ hx)
    exact progReturns_iff.2 ⟨k, hk⟩
  | verify _ ih =>
    intro cx a cx' hx
    obtain ⟨k, hk⟩ := progReturns_iff.1 (ih _ hx)
    exact progReturns_iff.2 ⟨k, hk⟩
  | addModel _ ih =>
    intro cx a cx' hx
    obtain ⟨k, hk⟩ := progReturns_iff.1 (ih hx)
    exact progReturns_iff.2 ⟨k, hk⟩
  | security _ ih =>
    intro cx a cx' hx
    obtain ⟨k, hk⟩ := progReturns_iff.1 (ih hx)
    exact progReturns_iff.2 ⟨k, hk⟩
end

/-! ## Mixed programs -/

section
variable {env env' : Env} {custom : Nat → Option (Impl Ty)}

theorem Env.SwappedBut.symm (h : env.SwappedBut custom env') : env'.SwappedBut custom env := by
  refine ⟨h.1.symm, fun i hi => ?_⟩
  obtain ⟨shape, h1, h2⟩ := h.2 i hi
  refine ⟨shape.map Swap.flip, ?_, ?_⟩
  · rw [Container.map_map, h2]; rfl
  · rw [Container.map_map, h1]; rfl

theorem Interchangeable.mixedName (he : env.SwappedBut custom env') {t u : Ty} (h : Interchangeable t u) :
    mixedName env' custom u = mixedName env custom t := by
  induction h with
  | left _ ih => rw [ih]; rfl
  | right _ ih => rw [← ih]; rfl
  | option _ ih => exact ih
  | named i =>
    rw [Verif.mixedName, Verif.mixedName]
    cases hc : custom i with
    | some im => rfl
    | none =>
      obtain ⟨shape, h1, h2⟩ := he.2 i hc
      simp only [Verif.typeName, h1, h2]
      rfl
  | _ => rfl

theorem impls_transparent (env : Env) (plain : ∀ i im, custom i = some im → im.Transparent) (t : Ty) : (impls env custom t).Transparent := by
  have hd : ∀ t, (∀ i, t = .named i → custom i = none) → alwaysInline env t = true → mixedName env custom t = none := by
    intro t ht h
    cases t with
    | named i =>
      rw [mixedName, ht i rfl]
      simp only [alwaysInline] at h
      simp [typeName, Container.typeName, h]
    | wrap => cases h
    | option => cases h
    | _ => rfl
  have hi : ∀ t, (∀ i, t = .named i → custom i = none) →
      Impl.Transparent { schema := schemaProg env t, name := mixedName env custom t, select := if alwaysInline env t then .inlined else .default } := by
    intro t ht
    refine ⟨rfl, ?_⟩
    cases ha : alwaysInline env t with
    | true => exact .inr ⟨by simp, hd t ht ha⟩
    | false => exact .inl (by simp)
  cases t with
  | named i =>
    rw [impls]
    cases hc : custom i with
    | some im => exact plain i im hc
    | none => exact hi (.named i) fun j e => by cases e; exact hc
  | _ => exact hi _ fun j e => by cases e

theorem schema_swapped (he : env.SwappedBut custom env') (plain : ∀ i im, custom i = some im → im.Transparent) :
    ∀ (n : Nat) (t u : Ty), Interchangeable t u → ∀ cx m cx', runProg (impls env custom) n Model (impls env custom t).schema cx = some (m, cx') →
      ProgReturns (impls env' custom) (impls env' custom u).schema cx m cx' := by
  intro n
  induction n with
  | zero => intro t u _ cx m cx' h; cases h
  | succ n ih =>
    have X : ∀ {p p' : Prog Ty Model}, p.Swapped p' → ∀ {cx a cx'}, runProg (impls env custom) (n + 1) Model p cx = some (a, cx') →
        ProgReturns (impls env' custom) p' cx a cx' := fun h _ _ _ hx =>
      exec_swapped (impls_transparent env plain) (impls_transparent env' plain)
        (fun t u h => by rw [mixed_name, mixed_name]; exact h.mixedName he) ih h hx
    have Y : ∀ (e : ModelExpr Swap) {t u : Ty}, schemaExpr env t = some (e.map Swap.before) → schemaExpr env' u = some (e.map Swap.after) →
        (schemaProg env t).Swapped (schemaProg env' u) := by
      intro e t u h1 h2
      unfold schemaProg
      rw [h1, h2]
      exact ModelExpr.prog_swapped he.1 e
    intro t u h
    induction h with
    | @prim p q h =>
      intro cx m cx'
      refine X ?_
      show (schemaProg env (.prim p)).Swapped (schemaProg env' (.prim q))
      have : schemaProg env' (.prim q) = schemaProg env (.prim p) := by
        simp only [schemaProg, schemaExpr, ← h]
        cases p.schema.1 <;> simp [simpleExpr, ModelExpr.prog, TypeExpr.prog]
      rw [this]
      exact .refl _
    | @left q t u h _ =>
      intro cx m cx' hx
      rw [(mixed_pointer env custom q t).2.2.2, runProg, Prog.exec] at hx
      cases hy : (implOps (impls env custom) (runProg (impls env custom) n)).getSchema t cx with
      | none => rw [hy] at hx; cases hx
      | some y =>
        rw [hy] at hx
        cases hx
        exact ih t u h _ _ _ hy
    | @right q t u h ih' =>
      intro cx m cx' hx
      rw [(mixed_pointer env' custom q u).2.2.2]
      exact progReturns_getSchema.2 (ih' cx m cx' hx)
    | @option t u h _ => exact fun cx m cx' => X (Y (t := .option t) (u := .option u) (.getSchemaWithParams ⟨(t, u), h⟩ { nullable := some true }) rfl rfl)
    | @tuple ts us hl h _ =>
      have : ∀ (ts us : List Ty), ts.length = us.length →
          (∀ (k : Nat) t u, ts[k]? = some t → us[k]? = some u → Interchangeable t u) →
          ∃ ps : List Swap, ts = ps.map Swap.before ∧ us = ps.map Swap.after := by
        intro ts
        induction ts with
        | nil => intro us hl _; cases us with
          | nil => exact ⟨[], rfl, rfl⟩
          | cons _ _ => cases hl
        | cons t ts ih => intro us hl h; cases us with
          | nil => cases hl
          | cons u us =>
            obtain ⟨ps, rfl, rfl⟩ := ih us (by simpa using hl) fun k a b h1 h2 => h (k + 1) a b (by simpa using h1) (by simpa using h2)
            exact ⟨⟨(t, u), h 0 t u rfl rfl⟩ :: ps, rfl, rfl⟩
      obtain ⟨ps, rfl, rfl⟩ := this ts us hl h
      refine fun cx m cx' => X (Y (t := .tuple _) (u := .tuple _) (.single none false (.array (.inline (.oneOf none (ps.map fun p => .mention p false {}))))) ?_ ?_) <;>
        simp [schemaExpr, ModelExpr.map, TypeExpr.map, RefExpr.map, RefExpr.mapList_eq, Function.comp_def]
    | @seq k k' t u h _ => exact fun cx m cx' => X (Y (t := .seq k t) (u := .seq k' u) (.single none false (.array (.mention ⟨(t, u), h⟩ false {}))) rfl rfl)
    | @dict k k' t u h _ => exact fun cx m cx' => X (Y (t := .dict k t) (u := .dict k' u) (.single none false (.dictionary (.mention ⟨(t, u), h⟩ false {}))) rfl rfl)
    | unit | uuid | naiveDateTime | dateTime | naiveDate =>
      intro cx m cx'
      refine X ?_
      simp only [impls, schemaProg, schemaExpr, ModelExpr.prog, TypeExpr.prog]
      exact .refl _
    | named i =>
      intro cx m cx' hx
      cases hc : custom i with
      | some im =>
        have e : ∀ env, impls env custom (.named i) = im := fun env => by rw [impls, hc]; rfl
        rw [e] at hx ⊢
        exact X (.refl _) hx
      | none =>
        have e : ∀ env, (impls env custom (.named i)).schema = schemaProg env (.named i) := fun env => by rw [impls, hc]; rfl
        rw [e] at hx ⊢
        obtain ⟨shape, h1, h2⟩ := he.2 i hc
        cases hb : serializeBody shape with
        | error p =>
          exfalso
          have hs : schemaExpr env (.named i) = none := by simp only [schemaExpr, h1, serializeBody_map, hb]; rfl
          have : (impls env custom (.named i)).schema = .getSchema (.named i) .ret := by rw [e, schemaProg, hs]
          have h3 := derived_stuck this (n + 1) cx
          rw [e] at h3
          rw [h3] at hx
          cases hx
        | ok b =>
          refine X (Y b ?_ ?_) hx
          · simp only [schemaExpr, h1, serializeBody_map, hb]; rfl
          · simp only [schemaExpr, h2, serializeBody_map, hb]; rfl

theorem prog_swapped (he : env.SwappedBut custom env') (plain : ∀ i im, custom i = some im → im.Transparent) {α : Type}
    {p p' : Prog Ty α} (h : p.Swapped p') {cx a cx'} (hx : ProgReturns (impls env custom) p cx a cx') :
    ProgReturns (impls env' custom) p' cx a cx' := by
  obtain ⟨n, hn⟩ := progReturns_iff.1 hx
  exact exec_swapped (impls_transparent env plain) (impls_transparent env' plain)
    (fun t u h => by rw [mixed_name, mixed_name]; exact h.mixedName he) (schema_swapped he plain n) h hn
end

/-! ## Documents -/

/-- A context that answers mentions with what they return at any depth. -/
structure LimitCtx where
  asks : Ty → M Ref
  reason : Nat → Option String

instance : Mentioner LimitCtx where
  ask := LimitCtx.asks
  reason := LimitCtx.reason

open Classical in
noncomputable def limitAsk (w : Ty → Impl Ty) (t : Ty) : M Ref := fun cx =>
  if h : ∃ x : Ref × Components, ProgReturns w (.mention t false {} .ret) cx x.1 x.2 then some h.choose else none

theorem limitAsk_of {w : Ty → Impl Ty} {t cx r cx'} (h : ProgReturns w (.mention t false {} .ret) cx r cx') :
    limitAsk w t cx = some (r, cx') := by
  have hx : ∃ x : Ref × Components, ProgReturns w (.mention t false {} .ret) cx x.1 x.2 := ⟨(r, cx'), h⟩
  unfold limitAsk
  rw [dif_pos hx]
  obtain ⟨h1, h2⟩ := hx.choose_spec.det h
  rw [Option.some.injEq]
  exact Prod.ext h1 h2

theorem askAlike_limit {w w' : Ty → Impl Ty} {reason : Nat → Option String} (n : Nat)
    (h : ∀ t cx r cx', ProgReturns w (.mention t false {} .ret) cx r cx' → ProgReturns w' (.mention t false {} .ret) cx r cx') :
    AskAlike true Eq (fun _ => True) (⟨w, n, reason⟩ : MixedCtx) (⟨limitAsk w', reason⟩ : LimitCtx) where
  reason := rfl
  ask t _ := by
    rintro cx cx' rfl a cx1 hx
    have : ask (⟨limitAsk w', reason⟩ : LimitCtx) t cx = some (a, cx1) := limitAsk_of (h t cx a cx1 ⟨n, hx⟩)
    rw [this]
    exact ⟨rfl, rfl⟩
  scheme n s := by
    rintro cx cx' rfl a cx1 hx
    simp only [Option.some.injEq] at hx
    simp [hx]
  insert n s := by rintro cx cx' rfl; rfl

/-- Where mentions return the same, so do descriptions. -/
theorem describesVia_same {w w' : Ty → Impl Ty} {reason : Nat → Option String}
    (h : ∀ t cx r cx', ProgReturns w (.mention t false {} .ret) cx r cx' → ProgReturns w' (.mention t false {} .ret) cx r cx')
    (hp : ∀ (p : Prog Ty (List Ref)) cx r cx', ProgReturns w p cx r cx' → ProgReturns w' p cx r cx')
    {api : Api} {d : Opg} (hd : DescribesVia w reason api d) : DescribesVia w' reason api d := by
  obtain ⟨n, hn⟩ := hd.succ
  obtain ⟨rs, hw, -⟩ := describeApi_went hn
  obtain ⟨cx, h1, -⟩ := hw.prog rfl
  obtain ⟨d', hd'⟩ := describesVia_of_ok (reason := reason) hd.ok (hp _ _ _ _ ⟨n + 1, h1⟩)
  obtain ⟨k, hk⟩ := hd'
  have e1 := describeApi_same (askAlike_limit (n + 1) h) api (fun _ _ => trivial) hn
  have e2 := describeApi_same (askAlike_limit (w := w') k fun _ _ _ _ h => h) api (fun _ _ => trivial) hk
  rw [e1] at e2
  cases e2
  exact ⟨k, hk⟩

end Verif
