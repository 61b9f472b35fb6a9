import Verif.Proof.Spared
import Verif.Proof.JsonInj
/-!
# Impls that keep properties sorted
-/

namespace Verif

variable {τ α β : Type}

theorem applyParams_sorted {m : Model} (p : Params) (h : m.PropsSorted) : (m.applyParams p).PropsSorted := by
  obtain ⟨d, data⟩ := m
  cases data with
  | single t =>
    obtain ⟨n, td⟩ := t
    simp only [Model.applyParams, ModelData.applyParams, ModelType.applyParams, propsSorted_single] at h ⊢
    cases td <;> first | exact h | simp [TypeDesc.applyParams, TypeDesc.PropsSorted, TypeDesc.objects]
  | _ => exact h

theorem tagged_sorted {m : Model} (ident tag name : String) (n : Bool) (h : m.PropsSorted) :
    ((m.tryMerge (internalTagModel ident tag name n)).2).PropsSorted := by
  obtain ⟨d, data⟩ := m
  cases data with
  | single t =>
    obtain ⟨n', td⟩ := t
    cases td with
    | object o =>
      obtain ⟨props, add, req⟩ := o
      rw [propsSorted_single, propsSorted_object] at h
      obtain ⟨h1, h2, h3⟩ := h
      simp only [Model.tryMerge, internalTagModel, BMap.insert, ModelObject.merge, mergeProps]
      split
      · rename_i heq
        split at heq
        · cases heq
          rw [propsSorted_single, propsSorted_object]
          exact ⟨h1, h2, h3⟩
        · cases heq
      · rename_i heq
        split at heq
        · cases heq
        · cases heq
          rw [propsSorted_single, propsSorted_object]
          refine ⟨BMap.sorted_insert h1, ?_, h3⟩
          rintro ⟨k, v⟩ hb
          rcases BMap.mem_insert_sub hb with e | hb'
          · cases e
            rw [propsSorted_inline, propsSorted_single]
            simp [TypeDesc.PropsSorted, TypeDesc.objects]
          · exact h2 _ hb'
    | _ => exact h
  | _ => exact h

/-- Registries as Rust keeps them. -/
def SortedYields (ok : α → Prop) (x : M α) : Prop := ∀ cx a cx', x cx = some (a, cx') → cx.MapsSorted → cx'.MapsSorted ∧ ok a

structure Ops.SortedYields (o : Ops τ) : Prop where
  getSchema : ∀ t, Verif.SortedYields Model.PropsSorted (o.getSchema t)
  withParams : ∀ t p, Verif.SortedYields Model.PropsSorted (o.withParams t p)
  mention : ∀ t i p, Verif.SortedYields Ref.PropsSorted (o.mention t i p)
  select : ∀ t i p, Verif.SortedYields Ref.PropsSorted (o.select t i p)

theorem mapsSorted_insert {cx : Components} (h : cx.MapsSorted) {n m} (hm : m.PropsSorted) :
    ({ cx with schemas := BMap.insert n m cx.schemas } : Components).MapsSorted :=
  ⟨BMap.sorted_insert h.schemas, h.security, fun b hb => by
    rcases BMap.mem_insert_sub hb with e | hb'
    · subst e; exact hm
    · exact h.models b hb'⟩

theorem mapsSorted_security {cx : Components} (h : cx.MapsSorted) {n s} : (cx.mentionSecurityScheme n s).2.MapsSorted := by
  unfold Components.mentionSecurityScheme
  split
  · exact h
  · exact ⟨h.schemas, BMap.sorted_insert h.security, h.models⟩

theorem exec_sorts {ok : α → Prop} {o : Ops τ} (h : o.SortedYields) : ∀ (p : Prog τ α), p.Sorts ok → SortedYields ok (p.exec o)
  | .ret _, hp, _, _, _, hx, hs => by cases hx; exact ⟨hs, hp⟩
  | .getSchema t k, hp, cx, a, cx', hx, hs => by
    rw [Prog.exec] at hx
    cases he : o.getSchema t cx with
    | none => rw [he] at hx; cases hx
    | some x =>
      rw [he] at hx
      obtain ⟨h1, h2⟩ := h.getSchema t cx _ _ he hs
      exact exec_sorts h (k x.1) (hp _ h2) _ _ _ hx h1
  | .withParams t p k, hp, cx, a, cx', hx, hs => by
    rw [Prog.exec] at hx
    cases he : o.withParams t p cx with
    | none => rw [he] at hx; cases hx
    | some x =>
      rw [he] at hx
      obtain ⟨h1, h2⟩ := h.withParams t p cx _ _ he hs
      exact exec_sorts h (k x.1) (hp _ h2) _ _ _ hx h1
  | .mention t i p k, hp, cx, a, cx', hx, hs => by
    rw [Prog.exec] at hx
    cases he : o.mention t i p cx with
    | none => rw [he] at hx; cases hx
    | some x =>
      rw [he] at hx
      obtain ⟨h1, h2⟩ := h.mention t i p cx _ _ he hs
      exact exec_sorts h (k x.1) (hp _ h2) _ _ _ hx h1
  | .select t i p k, hp, cx, a, cx', hx, hs => by
    rw [Prog.exec] at hx
    cases he : o.select t i p cx with
    | none => rw [he] at hx; cases hx
    | some x =>
      rw [he] at hx
      obtain ⟨h1, h2⟩ := h.select t i p cx _ _ he hs
      exact exec_sorts h (k x.1) (hp _ h2) _ _ _ hx h1
  | .contains _ k, hp, cx, a, cx', hx, hs => exec_sorts h (k _) (hp _) _ _ _ hx hs
  | .verify k, hp, cx, a, cx', hx, hs => exec_sorts h (k _) (hp _) _ _ _ hx hs
  | .addModel l m next, hp, cx, a, cx', hx, hs => by
    refine exec_sorts h next hp.2 _ _ _ hx ?_
    unfold Components.addModel
    split
    · exact hs
    · exact mapsSorted_insert hs hp.1
  | .security l s next, hp, cx, a, cx', hx, hs => exec_sorts h next hp _ _ _ hx (mapsSorted_security hs)

theorem runSelect_sorts {im : Impl τ} (hw : im.Sorts) {run : (α : Type) → Prog τ α → M α}
    (h : ∀ (α : Type) (ok : α → Prop) (p : Prog τ α), p.Sorts ok → SortedYields ok (run α p)) (i p) :
    SortedYields Ref.PropsSorted (im.runSelect run i p) := by
  intro cx r cx1 hs hc
  rw [runSelect_some] at hs
  rcases hs with ⟨-, m, hm, rfl⟩ | ⟨_, _, _, _, rfl, rfl⟩ | ⟨f, hf, hm⟩
  · obtain ⟨h1, h2⟩ := h _ _ _ hw.schema _ _ _ hm hc
    exact ⟨h1, propsSorted_inline.2 (applyParams_sorted p h2)⟩
  · exact ⟨hc, fun o ho => by simp [Ref.objects] at ho⟩
  · exact h _ _ _ (hw.select f hf i p) _ _ _ hm hc

theorem implOps_sorts {w : τ → Impl τ} (hw : ∀ t, (w t).Sorts) {run : (α : Type) → Prog τ α → M α}
    (h : ∀ (α : Type) (ok : α → Prop) (p : Prog τ α), p.Sorts ok → SortedYields ok (run α p)) : (implOps w run).SortedYields where
  getSchema t := h _ _ _ (hw t).schema
  withParams t p := by
    intro cx a cx' hx hc
    simp only [implOps, Impl.runWithParams] at hx
    cases hf : (w t).withParams with
    | none =>
      rw [hf] at hx
      simp only [appliedSchema_some] at hx
      obtain ⟨m, cx1, hm, he⟩ := hx
      cases he
      obtain ⟨h1, h2⟩ := h _ _ _ (hw t).schema _ _ _ hm hc
      exact ⟨h1, applyParams_sorted p h2⟩
    | some f => rw [hf] at hx; exact h _ _ _ ((hw t).withParams f hf p) _ _ _ hx hc
  mention t i p := by
    intro cx r cx' hx hc
    simp only [implOps, mentionVia_some] at hx
    obtain ⟨cx1, hs, hr⟩ := hx
    obtain ⟨h1, h1'⟩ := runSelect_sorts (hw t) h i p _ _ _ hs hc
    rcases hr with ⟨-, rfl⟩ | ⟨l, m, cx2, rfl, h2, h3, rfl⟩
    · exact ⟨h1, h1'⟩
    · obtain ⟨h4, h5⟩ := h _ _ _ (hw t).schema _ _ _ h3 h1
      exact ⟨mapsSorted_insert h4 h5, h1'⟩
  select t i p := runSelect_sorts (hw t) h i p

theorem runProg_sorts {w : τ → Impl τ} (hw : ∀ t, (w t).Sorts) : ∀ (n : Nat) (α : Type) (ok : α → Prop) (p : Prog τ α), p.Sorts ok →
    SortedYields ok (runProg w n α p)
  | 0, _, _, _, _ => fun _ _ _ h => by cases h
  | n + 1, _, _, p, hp => exec_sorts (implOps_sorts hw (runProg_sorts hw n)) p hp

/-! ## Derived impls -/

theorem Prog.Sorts.bind {ok : α → Prop} {ok' : β → Prop} : ∀ {p : Prog τ α} {f : α → Prog τ β}, p.Sorts ok → (∀ a, ok a → (f a).Sorts ok') →
    (p.bind f).Sorts ok'
  | .ret a, _, hp, hf => hf a hp
  | .getSchema _ _, _, hp, hf => fun m hm => (hp m hm).bind hf
  | .withParams _ _ _, _, hp, hf => fun m hm => (hp m hm).bind hf
  | .mention _ _ _ _, _, hp, hf => fun m hm => (hp m hm).bind hf
  | .select _ _ _ _, _, hp, hf => fun m hm => (hp m hm).bind hf
  | .contains _ _, _, hp, hf => fun b => (hp b).bind hf
  | .verify _, _, hp, hf => fun e => (hp e).bind hf
  | .addModel _ _ next, _, hp, hf => ⟨hp.1, Prog.Sorts.bind (p := next) hp.2 hf⟩
  | .security _ _ next, _, hp, hf => Prog.Sorts.bind (p := next) hp hf

/-- Properties that are sorted, with sorted schemas. -/
def PropsOk (x : List (String × Ref) × List String) : Prop := BMap.Sorted x.1 ∧ ∀ p ∈ x.1, p.2.PropsSorted

mutual
theorem RefExpr.prog_sorts (env : Env) : ∀ (e : RefExpr Ty), (e.prog env).Sorts Ref.PropsSorted
  | .mention t i p => by rw [RefExpr.prog]; exact fun _ h => h
  | .inline m => by rw [RefExpr.prog]; exact (ModelExpr.prog_sorts env m).bind fun _ h => propsSorted_inline.2 h
  | .any => by rw [RefExpr.prog]; exact fun o ho => by simp [Ref.objects] at ho
theorem ModelExpr.prog_sorts (env : Env) : ∀ (e : ModelExpr Ty), (e.prog env).Sorts Model.PropsSorted
  | .getSchema t => by rw [ModelExpr.prog]; exact fun _ h => h
  | .getSchemaWithParams t p => by rw [ModelExpr.prog]; exact fun _ h => h
  | .single d n td => by rw [ModelExpr.prog]; exact (TypeExpr.prog_sorts env td).bind fun _ h => propsSorted_single.2 h
  | .oneOf d rs => by rw [ModelExpr.prog]; exact (RefExpr.progList_sorts env rs).bind fun _ h => propsSorted_refs.1.2 h
  | .tagged m .. => by rw [ModelExpr.prog]; exact (ModelExpr.prog_sorts env m).bind fun _ h => tagged_sorted _ _ _ _ h
theorem TypeExpr.prog_sorts (env : Env) : ∀ (e : TypeExpr Ty), (e.prog env).Sorts TypeDesc.PropsSorted
  | .string .. | .number .. | .integer .. | .boolean => by
    rw [TypeExpr.prog]; exact fun o ho => by simp [TypeDesc.objects] at ho
  | .array r => by rw [TypeExpr.prog]; exact (RefExpr.prog_sorts env r).bind fun _ h => propsSorted_array.2 h
  | .object es => by
    rw [TypeExpr.prog]
    exact (PropExpr.progList_sorts env es [] [] ⟨BMap.sorted_nil, nofun⟩).bind fun _ h => propsSorted_object.2 ⟨h.1, h.2, nofun⟩
  | .dictionary r => by
    rw [TypeExpr.prog]
    exact (RefExpr.prog_sorts env r).bind fun _ h => propsSorted_object.2 ⟨BMap.sorted_nil, nofun, fun _ e => by cases e; exact h⟩
theorem RefExpr.progList_sorts (env : Env) : ∀ (es : List (RefExpr Ty)), (RefExpr.progList env es).Sorts fun rs => ∀ r ∈ rs, r.PropsSorted
  | [] => by rw [RefExpr.progList]; exact nofun
  | r :: rs => by
    rw [RefExpr.progList]
    exact (RefExpr.prog_sorts env r).bind fun _ h => (RefExpr.progList_sorts env rs).bind fun _ h' => List.forall_mem_cons.2 ⟨h, h'⟩
theorem PropExpr.progList_sorts (env : Env) : ∀ (es : List (PropExpr Ty)) props req, PropsOk (props, req) →
    (PropExpr.progList env es props req).Sorts PropsOk
  | [], _, _, h => by rw [PropExpr.progList]; exact h
  | .mk name r required :: rs, props, req, h => by
    rw [PropExpr.progList]
    refine (RefExpr.prog_sorts env r).bind fun _ h' => PropExpr.progList_sorts env rs _ _ ⟨BMap.sorted_insert h.1, ?_⟩
    intro p hp
    rcases BMap.mem_insert_sub hp with e | hp'
    · cases e; exact h'
    · exact h.2 p hp'
end

theorem impls_sort (env : Env) (custom : Nat → Option (Impl Ty)) (h : ∀ i im, custom i = some im → im.Sorts) (t : Ty) :
    (impls env custom t).Sorts := by
  by_cases ht : ∀ i, t = .named i → custom i = none
  · rw [impls_eq env custom t ht]
    refine ⟨?_, nofun, ?_⟩
    · show (schemaProg env t).Sorts _
      rw [schemaProg]
      cases schemaExpr env t with
      | none => exact fun _ h => h
      | some e => exact ModelExpr.prog_sorts env e
    · intro f hf
      simp only at hf
      split at hf <;> cases hf
  · obtain ⟨i, ht⟩ := Classical.not_forall.1 ht
    obtain ⟨rfl, hc⟩ := Classical.not_imp.1 ht
    obtain ⟨im, hi⟩ := Option.ne_none_iff_exists'.1 hc
    rw [impls, hi]
    exact h i im hi

/-! ## Descriptions -/

section
variable {κ : Type} [Mentioner κ] {c : κ}

theorem Ran.sorts (hk : ∀ t, SortedYields Ref.PropsSorted (Mentioner.ask c t)) {parts rs cx cx'} (h : Ran c parts rs cx cx')
    (hs : cx.MapsSorted) : cx'.MapsSorted ∧ ∀ r ∈ rs, r.PropsSorted := by
  induction h with
  | nil => exact ⟨hs, nofun⟩
  | mention h1 _ ih =>
    obtain ⟨h2, h3⟩ := hk _ _ _ _ h1 hs
    obtain ⟨h4, h5⟩ := ih h2
    exact ⟨h4, List.forall_mem_cons.2 ⟨h3, h5⟩⟩
  | scheme _ ih => exact ih (mapsSorted_security hs)
  | literal _ ih => exact ih hs
  | raw _ ih => exact ih hs

theorem Went.sorts (hk : ∀ t, SortedYields Ref.PropsSorted (Mentioner.ask c t)) {parts rs cx cx'} (h : Went c parts rs cx cx')
    (hs : cx.MapsSorted) : cx'.MapsSorted ∧ ∀ r ∈ rs, r.PropsSorted := by
  induction h with
  | nil => exact ⟨hs, nofun⟩
  | ran h _ ih =>
    obtain ⟨h1, h2⟩ := h.sorts hk hs
    obtain ⟨h3, h4⟩ := ih h1
    exact ⟨h3, fun r hr => (List.mem_append.1 hr).elim (h2 r) (h4 r)⟩
  | declared h _ h' _ ih => exact ih ⟨by rw [h]; exact hs.schemas, h' hs.security, by rw [h]; exact hs.models⟩

theorem runSections_tags (ss : Api) {d cx d' cx'} (h : runSections c ss d cx = some (d', cx')) (hs : BMap.Sorted d.tags) :
    BMap.Sorted d'.tags := by
  induction ss generalizing d cx with
  | nil =>
    simp only [runSections, act_pure] at h
    obtain ⟨rfl, rfl⟩ := h
    exact hs
  | cons s ss ih =>
    simp only [runSections, act_bind] at h
    obtain ⟨d1, cx1, h1, h⟩ := h
    refine ih h ?_
    cases s with
    | info ps =>
      rw [Section.run] at h1
      cases hi : runInfo ps none none none with
      | none => rw [hi] at h1; exact absurd h1 (by simp)
      | some i =>
        rw [hi] at h1
        obtain ⟨rfl, -⟩ := act_pure.1 h1
        exact hs
    | tags ts =>
      obtain ⟨rfl, -⟩ := act_pure.1 h1
      exact BMap.sorted_insertAll _ hs
    | servers ts =>
      obtain ⟨rfl, -⟩ := act_pure.1 h1
      exact hs
    | securitySchemes ts =>
      obtain ⟨u, cx2, h2, h3⟩ := act_bind.1 h1
      obtain ⟨rfl, -⟩ := act_pure.1 h3
      exact hs
    | paths ps =>
      obtain ⟨its, cx2, h2, h3⟩ := act_bind.1 h1
      obtain ⟨rfl, -⟩ := act_pure.1 h3
      exact hs

theorem describeApi_tags {api : Api} {d : Opg} (h : describeApi c api = some d) : BMap.Sorted d.tags := by
  unfold describeApi at h
  split at h
  · cases h
  · rename_i d1 cx hr
    cases h
    exact runSections_tags (d := .empty) (d' := d1) api hr BMap.sorted_nil
end

theorem DescribesVia.sorted {w : Ty → Impl Ty} (hw : ∀ t, (w t).Sorts) {reason : Nat → Option String} {api : Api} {d : Opg}
    (h : DescribesVia w reason api d) (raws : ∀ r, Part.raw r ∈ api.parts → r.PropsSorted) : d.MapsSorted := by
  obtain ⟨fuel, h⟩ := h
  obtain ⟨rs, went, f⟩ := describeApi_went h
  obtain ⟨h1, h2⟩ := went.sorts (fun t => by
      have := runProg_sorts hw fuel _ Ref.PropsSorted (.mention t false {} .ret) fun _ h => h
      exact this)
    ⟨BMap.sorted_nil, BMap.sorted_nil, nofun⟩
  have hd := f Ref.PropsSorted (fun _ => True) ⟨h2, raws, fun _ _ _ => trivial, fun _ _ => trivial⟩
  refine ⟨describeApi_tags h, ?_, h1⟩
  refine Opg.forall_imp (P := docAll Ref.PropsSorted fun _ => True) (Q := docAll Ref.PropsSorted fun _ => True)
    ⟨fun o ho _ => ?_, fun v hv _ => ?_, fun _ _ _ => trivial⟩ d ⟨trivial, hd⟩ ⟨trivial, hd⟩
  · exact ⟨ho.1.1, ho.1.2.1, ho.1.2.2, fun m hm => (ho.2.2 m hm).1, ho.2.1⟩
  · exact ⟨hv.1.1, hv.1.2, hv.2⟩

end Verif
