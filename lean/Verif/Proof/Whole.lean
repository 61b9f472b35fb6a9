import Verif.Spec.Whole
import Verif.Proof.Sorts
import Verif.Proof.OpenApiGen
/-!
# Impls whose schemas require only what they declare
-/

namespace Verif

variable {τ α β : Type}

theorem Model.whole_iff {m : Model} : m.Whole ↔ m.All True fun _ => True :=
  ⟨fun h => ⟨fun _ _ => trivial, fun o ho _ => h o ho⟩, fun h o ho => h.2 o ho trivial⟩

theorem Ref.whole_iff {r : Ref} : r.Whole ↔ r.All True fun _ => True :=
  ⟨fun h => ⟨fun _ _ => trivial, fun o ho _ => h o ho⟩, fun h o ho => h.2 o ho trivial⟩

theorem Ref.whole_inline {m : Model} : (Ref.inline m).Whole ↔ m.Whole :=
  Ref.whole_iff.trans (Ref.all_inline.trans Model.whole_iff.symm)

theorem Model.whole_applyParams {m : Model} (p : Params) (h : m.Whole) : (m.applyParams p).Whole :=
  Model.whole_iff.2 (Model.all_applyParams p (Model.whole_iff.1 h))

theorem Model.whole_tagged {m : Model} (ident tag name : String) (n : Bool) (h : m.Whole) :
    ((m.tryMerge (internalTagModel ident tag name n)).2).Whole :=
  Model.whole_iff.2 (Model.all_tagged ident tag name n (Model.whole_iff.1 h))

/-- Registries of whole schemas. -/
def Components.HoldsWhole (cx : Components) : Prop := ∀ b ∈ cx.schemas, b.2.Whole

def WholeYields (ok : α → Prop) (x : M α) : Prop := ∀ cx a cx', x cx = some (a, cx') → cx.HoldsWhole → cx'.HoldsWhole ∧ ok a

structure Ops.WholeYields (o : Ops τ) : Prop where
  getSchema : ∀ t, Verif.WholeYields Model.Whole (o.getSchema t)
  withParams : ∀ t p, Verif.WholeYields Model.Whole (o.withParams t p)
  mention : ∀ t i p, Verif.WholeYields Ref.Whole (o.mention t i p)
  select : ∀ t i p, Verif.WholeYields Ref.Whole (o.select t i p)

theorem holdsWhole_insert {cx : Components} (h : cx.HoldsWhole) {n m} (hm : m.Whole) :
    ({ cx with schemas := BMap.insert n m cx.schemas } : Components).HoldsWhole := fun b hb => by
  rcases BMap.mem_insert_sub hb with e | hb'
  · subst e; exact hm
  · exact h b hb'

theorem holdsWhole_security {cx : Components} (h : cx.HoldsWhole) {n s} : (cx.mentionSecurityScheme n s).2.HoldsWhole := by
  unfold Components.mentionSecurityScheme
  split
  · exact h
  · exact h

theorem exec_whole {ok : α → Prop} {o : Ops τ} (h : o.WholeYields) : ∀ (p : Prog τ α), p.Whole ok → WholeYields ok (p.exec o)
  | .ret _, hp, _, _, _, hx, hs => by cases hx; exact ⟨hs, hp⟩
  | .getSchema t k, hp, cx, a, cx', hx, hs => by
    rw [Prog.exec] at hx
    cases he : o.getSchema t cx with
    | none => rw [he] at hx; cases hx
    | some x =>
      rw [he] at hx
      obtain ⟨h1, h2⟩ := h.getSchema t cx _ _ he hs
      exact exec_whole h (k x.1) (hp _ h2) _ _ _ hx h1
  | .withParams t p k, hp, cx, a, cx', hx, hs => by
    rw [Prog.exec] at hx
    cases he : o.withParams t p cx with
    | none => rw [he] at hx; cases hx
    | some x =>
      rw [he] at hx
      obtain ⟨h1, h2⟩ := h.withParams t p cx _ _ he hs
      exact exec_whole h (k x.1) (hp _ h2) _ _ _ hx h1
  | .mention t i p k, hp, cx, a, cx', hx, hs => by
    rw [Prog.exec] at hx
    cases he : o.mention t i p cx with
    | none => rw [he] at hx; cases hx
    | some x =>
      rw [he] at hx
      obtain ⟨h1, h2⟩ := h.mention t i p cx _ _ he hs
      exact exec_whole h (k x.1) (hp _ h2) _ _ _ hx h1
  | .select t i p k, hp, cx, a, cx', hx, hs => by
    rw [Prog.exec] at hx
    cases he : o.select t i p cx with
    | none => rw [he] at hx; cases hx
    | some x =>
      rw [he] at hx
      obtain ⟨h1, h2⟩ := h.select t i p cx _ _ he hs
      exact exec_whole h (k x.1) (hp _ h2) _ _ _ hx h1
  | .contains _ k, hp, cx, a, cx', hx, hs => exec_whole h (k _) (hp _) _ _ _ hx hs
  | .verify k, hp, cx, a, cx', hx, hs => exec_whole h (k _) (hp _) _ _ _ hx hs
  | .addModel l m next, hp, cx, a, cx', hx, hs => by
    refine exec_whole h next hp.2 _ _ _ hx ?_
    unfold Components.addModel
    split
    · exact hs
    · exact holdsWhole_insert hs hp.1
  | .security l s next, hp, cx, a, cx', hx, hs => exec_whole h next hp _ _ _ hx (holdsWhole_security hs)

theorem runSelect_whole {im : Impl τ} (hw : im.Whole) {run : (α : Type) → Prog τ α → M α}
    (h : ∀ (α : Type) (ok : α → Prop) (p : Prog τ α), p.Whole ok → WholeYields ok (run α p)) (i p) :
    WholeYields Ref.Whole (im.runSelect run i p) := by
  intro cx r cx1 hs hc
  rw [runSelect_some] at hs
  rcases hs with ⟨-, m, hm, rfl⟩ | ⟨_, _, _, _, rfl, rfl⟩ | ⟨f, hf, hm⟩
  · obtain ⟨h1, h2⟩ := h _ _ _ hw.schema _ _ _ hm hc
    exact ⟨h1, Ref.whole_inline.2 (Model.whole_applyParams p h2)⟩
  · exact ⟨hc, fun o ho => by simp [Ref.objects] at ho⟩
  · exact h _ _ _ (hw.select f hf i p) _ _ _ hm hc

theorem implOps_whole {w : τ → Impl τ} (hw : ∀ t, (w t).Whole) {run : (α : Type) → Prog τ α → M α}
    (h : ∀ (α : Type) (ok : α → Prop) (p : Prog τ α), p.Whole ok → WholeYields ok (run α p)) : (implOps w run).WholeYields where
  getSchema t := h _ _ _ (hw t).schema
  withParams t p := by
    intro cx a cx' hx hc
    simp only [implOps, Impl.runWithParams] at hx
    cases hf : (w t).withParams with
    | none =>
      rw [hf] at hx
      simp only [appliedSchema_some] at hx
      obtain ⟨m, cx1, hm, he⟩ := hx
      cases he
      obtain ⟨h1, h2⟩ := h _ _ _ (hw t).schema _ _ _ hm hc
      exact ⟨h1, Model.whole_applyParams p h2⟩
    | some f => rw [hf] at hx; exact h _ _ _ ((hw t).withParams f hf p) _ _ _ hx hc
  mention t i p := by
    intro cx r cx' hx hc
    simp only [implOps, mentionVia_some] at hx
    obtain ⟨cx1, hs, hr⟩ := hx
    obtain ⟨h1, h1'⟩ := runSelect_whole (hw t) h i p _ _ _ hs hc
    rcases hr with ⟨-, rfl⟩ | ⟨l, m, cx2, rfl, h2, h3, rfl⟩
    · exact ⟨h1, h1'⟩
    · obtain ⟨h4, h5⟩ := h _ _ _ (hw t).schema _ _ _ h3 h1
      exact ⟨holdsWhole_insert h4 h5, h1'⟩
  select t i p := runSelect_whole (hw t) h i p

theorem runProg_whole {w : τ → Impl τ} (hw : ∀ t, (w t).Whole) : ∀ (n : Nat) (α : Type) (ok : α → Prop) (p : Prog τ α), p.Whole ok →
    WholeYields ok (runProg w n α p)
  | 0, _, _, _, _ => fun _ _ _ h => by cases h
  | n + 1, _, _, p, hp => exec_whole (implOps_whole hw (runProg_whole hw n)) p hp

/-! ## Derived impls -/

theorem Prog.Whole.bind {ok : α → Prop} {ok' : β → Prop} : ∀ {p : Prog τ α} {f : α → Prog τ β}, p.Whole ok → (∀ a, ok a → (f a).Whole ok') →
    (p.bind f).Whole ok'
  | .ret a, _, hp, hf => hf a hp
  | .getSchema _ _, _, hp, hf => fun m hm => (hp m hm).bind hf
  | .withParams _ _ _, _, hp, hf => fun m hm => (hp m hm).bind hf
  | .mention _ _ _ _, _, hp, hf => fun m hm => (hp m hm).bind hf
  | .select _ _ _ _, _, hp, hf => fun m hm => (hp m hm).bind hf
  | .contains _ _, _, hp, hf => fun b => (hp b).bind hf
  | .verify _, _, hp, hf => fun e => (hp e).bind hf
  | .addModel _ _ next, _, hp, hf => ⟨hp.1, Prog.Whole.bind (p := next) hp.2 hf⟩
  | .security _ _ next, _, hp, hf => Prog.Whole.bind (p := next) hp hf

/-- Properties that make a whole object together with the required names. -/
structure PropsWhole (x : List (String × Ref) × List String) : Prop where
  whole : ∀ p ∈ x.1, p.2.Whole
  formed : BMap.Sorted x.1 ∧ ∀ name ∈ x.2, name ∈ BMap.keys x.1

mutual
theorem RefExpr.prog_whole (env : Env) : ∀ (e : RefExpr Ty), (e.prog env).Whole Ref.Whole
  | .mention t i p => by rw [RefExpr.prog]; exact fun _ h => h
  | .inline m => by rw [RefExpr.prog]; exact (ModelExpr.prog_whole env m).bind fun _ h => Ref.whole_inline.2 h
  | .any => by rw [RefExpr.prog]; exact fun o ho => by simp [Ref.objects] at ho
theorem ModelExpr.prog_whole (env : Env) : ∀ (e : ModelExpr Ty), (e.prog env).Whole Model.Whole
  | .getSchema t => by rw [ModelExpr.prog]; exact fun _ h => h
  | .getSchemaWithParams t p => by rw [ModelExpr.prog]; exact fun _ h => h
  | .single d n td => by
    rw [ModelExpr.prog]
    exact (TypeExpr.prog_whole env td).bind fun _ h => Model.whole_iff.2 (Model.all_single.2 h)
  | .oneOf d rs => by
    rw [ModelExpr.prog]
    exact (RefExpr.progList_whole env rs).bind fun _ h => Model.whole_iff.2 (Model.all_oneOf.2 fun r hr => Ref.whole_iff.1 (h r hr))
  | .tagged m .. => by rw [ModelExpr.prog]; exact (ModelExpr.prog_whole env m).bind fun _ h => Model.whole_tagged _ _ _ _ h
theorem TypeExpr.prog_whole (env : Env) : ∀ (e : TypeExpr Ty), (e.prog env).Whole (TypeDesc.All True fun _ => True)
  | .string .. | .number .. | .integer .. | .boolean => by
    rw [TypeExpr.prog]; exact ⟨fun _ _ => trivial, fun o ho => by simp [TypeDesc.objects] at ho⟩
  | .array r => by rw [TypeExpr.prog]; exact (RefExpr.prog_whole env r).bind fun _ h => TypeDesc.all_array.2 (Ref.whole_iff.1 h)
  | .object es => by
    rw [TypeExpr.prog]
    exact (PropExpr.progList_whole env es [] [] ⟨nofun, BMap.sorted_nil, nofun⟩).bind fun _ h =>
      TypeDesc.all_object.2 ⟨fun r hr => by
        obtain ⟨p, hp, rfl⟩ := List.mem_map.1 hr
        exact Ref.whole_iff.1 (h.whole p hp), nofun, fun _ => h.formed⟩
  | .dictionary r => by
    rw [TypeExpr.prog]
    exact (RefExpr.prog_whole env r).bind fun _ h => TypeDesc.all_object.2 ⟨nofun, fun _ e => by cases e; exact Ref.whole_iff.1 h,
      fun _ => ⟨BMap.sorted_nil, nofun⟩⟩
theorem RefExpr.progList_whole (env : Env) : ∀ (es : List (RefExpr Ty)), (RefExpr.progList env es).Whole fun rs => ∀ r ∈ rs, r.Whole
  | [] => by rw [RefExpr.progList]; exact nofun
  | r :: rs => by
    rw [RefExpr.progList]
    exact (RefExpr.prog_whole env r).bind fun _ h => (RefExpr.progList_whole env rs).bind fun _ h' => List.forall_mem_cons.2 ⟨h, h'⟩
theorem PropExpr.progList_whole (env : Env) : ∀ (es : List (PropExpr Ty)) props req, PropsWhole (props, req) →
    (PropExpr.progList env es props req).Whole PropsWhole
  | [], _, _, h => by rw [PropExpr.progList]; exact h
  | .mk name r q :: rs, props, req, h => by
    rw [PropExpr.progList]
    refine (RefExpr.prog_whole env r).bind fun _ h' => PropExpr.progList_whole env rs _ _ ⟨?_, BMap.sorted_insert h.formed.1, ?_⟩
    · intro p hp
      rcases BMap.mem_insert_sub hp with e | hp'
      · cases e; exact h'
      · exact h.whole p hp'
    · intro x hx
      rw [BMap.mem_keys_insert]
      cases q with
      | true =>
        rcases List.mem_append.1 hx with hx | hx
        · exact .inr (h.formed.2 x hx)
        · exact .inl (List.mem_singleton.1 hx)
      | false => exact .inr (h.formed.2 x hx)
end

theorem impls_whole (env : Env) (custom : Nat → Option (Impl Ty)) (h : ∀ i im, custom i = some im → im.Whole) (t : Ty) :
    (impls env custom t).Whole := by
  by_cases ht : ∀ i, t = .named i → custom i = none
  · rw [impls_eq env custom t ht]
    refine ⟨?_, nofun, ?_⟩
    · show (schemaProg env t).Whole _
      rw [schemaProg]
      cases schemaExpr env t with
      | none => exact fun _ h => h
      | some e => exact ModelExpr.prog_whole env e
    · intro f hf
      simp only at hf
      split at hf <;> cases hf
  · obtain ⟨i, ht⟩ := Classical.not_forall.1 ht
    obtain ⟨rfl, hc⟩ := Classical.not_imp.1 ht
    obtain ⟨im, hi⟩ := Option.ne_none_iff_exists'.1 hc
    rw [impls, hi]
    exact h i im hi

/-! ## Descriptions -/

section
variable {κ : Type} [Mentioner κ] {c : κ}

theorem Ran.whole (hk : ∀ t, WholeYields Ref.Whole (Mentioner.ask c t)) {parts rs cx cx'} (h : Ran c parts rs cx cx')
    (hs : cx.HoldsWhole) : cx'.HoldsWhole ∧ ∀ r ∈ rs, r.Whole := by
  induction h with
  | nil => exact ⟨hs, nofun⟩
  | mention h1 _ ih =>
    obtain ⟨h2, h3⟩ := hk _ _ _ _ h1 hs
    obtain ⟨h4, h5⟩ := ih h2
    exact ⟨h4, List.forall_mem_cons.2 ⟨h3, h5⟩⟩
  | scheme _ ih => exact ih (holdsWhole_security hs)
  | literal _ ih => exact ih hs
  | raw _ ih => exact ih hs

theorem Went.whole (hk : ∀ t, WholeYields Ref.Whole (Mentioner.ask c t)) {parts rs cx cx'} (h : Went c parts rs cx cx')
    (hs : cx.HoldsWhole) : cx'.HoldsWhole ∧ ∀ r ∈ rs, r.Whole := by
  induction h with
  | nil => exact ⟨hs, nofun⟩
  | ran h _ ih =>
    obtain ⟨h1, h2⟩ := h.whole hk hs
    obtain ⟨h3, h4⟩ := ih h1
    exact ⟨h3, fun r hr => (List.mem_append.1 hr).elim (h2 r) (h4 r)⟩
  | declared h _ h' _ ih => exact ih (by unfold Components.HoldsWhole; rw [h]; exact hs)

end

/-- Documents of programs whose impls make whole schemas. -/
theorem DescribesVia.whole {w : Ty → Impl Ty} (hw : ∀ t, (w t).Whole) {reason : Nat → Option String} {api : Api} {d : Opg}
    (h : DescribesVia w reason api d) (raws : ∀ r, Part.raw r ∈ api.parts → r.Whole) :
    d.components.HoldsWhole ∧ forallPaths (docAll Ref.Whole fun _ => True) d.paths := by
  obtain ⟨fuel, h⟩ := h
  obtain ⟨rs, went, f⟩ := describeApi_went h
  obtain ⟨h1, h2⟩ := went.whole (fun t => by
      have := runProg_whole hw fuel _ Ref.Whole (.mention t false {} .ret) fun _ h => h
      exact this)
    (fun _ hb => (List.not_mem_nil hb).elim)
  exact ⟨h1, f Ref.Whole (fun _ => True) ⟨h2, raws, fun _ _ _ => trivial, fun _ _ => trivial⟩⟩

end Verif
