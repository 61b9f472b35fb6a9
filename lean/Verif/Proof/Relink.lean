import Verif.Spec.Relink
import Verif.Proof.Texts
/-!
# Types under other names: proofs
-/

namespace Verif

variable {ρ : String → String}

theorem relinkedList_eq (rs : List Ref) : Ref.relinkedList ρ rs = rs.map (Ref.relinked ρ) := by
  induction rs with
  | nil => rfl
  | cons r rs ih => rw [Ref.relinkedList, ih]; rfl

theorem relinkedProps_eq (ps : List (String × Ref)) : Ref.relinkedProps ρ ps = ps.map fun x => (x.1, x.2.relinked ρ) := by
  induction ps with
  | nil => rfl
  | cons p ps ih => obtain ⟨k, r⟩ := p; rw [Ref.relinkedProps, ih]; rfl

theorem applyParams_relinked (m : Model) (p : Params) : (m.applyParams p).relinked ρ = (m.relinked ρ).applyParams p := by
  obtain ⟨d, data⟩ := m
  cases data with
  | single t =>
    obtain ⟨n, td⟩ := t
    cases td with
    | object o =>
      obtain ⟨ps, a, rq⟩ := o
      cases a <;> rfl
    | _ => rfl
  | _ => rfl

theorem mergeProps_relinked (ps qs : List (String × Ref)) :
    mergeProps (Ref.relinkedProps ρ ps) (Ref.relinkedProps ρ qs) = ((mergeProps ps qs).1, Ref.relinkedProps ρ (mergeProps ps qs).2) := by
  induction qs generalizing ps with
  | nil => rfl
  | cons q qs ih =>
    obtain ⟨k, r⟩ := q
    rw [Ref.relinkedProps, mergeProps, mergeProps]
    have e : BMap.containsKey k (Ref.relinkedProps ρ ps) = BMap.containsKey k ps := by
      rw [relinkedProps_eq]; exact containsKey_values (Ref.relinked ρ) k ps
    rw [e]
    split
    · rfl
    · have : BMap.insert k (r.relinked ρ) (Ref.relinkedProps ρ ps) = Ref.relinkedProps ρ (BMap.insert k r ps) := by
        rw [relinkedProps_eq, relinkedProps_eq]; exact insert_values (Ref.relinked ρ) k r ps
      rw [this, ih]

theorem merge_relinked (o o' : ModelObject) (d : Option String) (n : Bool) :
    (⟨d, .single ⟨n, .object (o.merge o').2⟩⟩ : Model).relinked ρ =
      ⟨d, .single ⟨n, .object ((ModelObject.merge ⟨Ref.relinkedProps ρ o.properties, o.additional.map (Ref.relinked ρ), o.required⟩
        ⟨Ref.relinkedProps ρ o'.properties, o'.additional.map (Ref.relinked ρ), o'.required⟩).2)⟩⟩ := by
  obtain ⟨ps, a, rq⟩ := o
  obtain ⟨ps', a', rq'⟩ := o'
  simp only [ModelObject.merge, mergeProps_relinked]
  rcases mergeProps ps ps' with ⟨_ | _, q⟩ <;> cases a <;> rfl

theorem object_relinked (o : ModelObject) : (TypeDesc.object o).relinked ρ =
    .object ⟨Ref.relinkedProps ρ o.properties, o.additional.map (Ref.relinked ρ), o.required⟩ := by
  obtain ⟨ps, a, rq⟩ := o
  cases a <;> rfl

theorem tryMerge_relinked (m o : Model) : (m.tryMerge o).2.relinked ρ = ((m.relinked ρ).tryMerge (o.relinked ρ)).2 := by
  obtain ⟨d, data⟩ := m
  obtain ⟨d', data'⟩ := o
  cases data with
  | single t =>
    obtain ⟨n, td⟩ := t
    cases td with
    | object ob =>
      cases data' with
      | single t' =>
        obtain ⟨n', td'⟩ := t'
        cases td' with
        | object ob' =>
          simp only [Model.tryMerge, Model.relinked, ModelData.relinked, object_relinked]
          have := merge_relinked (ρ := ρ) ob ob' d n
          simp only [Model.relinked, ModelData.relinked, object_relinked] at this
          exact this
        | _ => obtain ⟨_, _ | _, _⟩ := ob <;> rfl
      | _ => obtain ⟨_, _ | _, _⟩ := ob <;> rfl
    | _ => rfl
  | _ => rfl

/-! ## Registries -/

/-- What is kept of registries during runs. -/
structure Moved (ρ : String → String) (cx cx' : Components) : Prop where
  image : ∀ k m, BMap.get k cx'.schemas = some m → ∃ n, k = ρ n
  get : ∀ n, (BMap.get (ρ n) cx'.schemas).map Model.wordless = (BMap.get n cx.schemas).map fun m => m.wordless.relinked ρ
  security : cx.securitySchemes = cx'.securitySchemes

theorem moved_iff (inj : ∀ a b, ρ a = ρ b → a = b) {cx cx' : Components} : Moved ρ cx cx' ↔ RegistryRenamed ρ cx cx' := by
  constructor
  · intro h
    refine ⟨fun k => ⟨fun hk => ?_, ?_⟩, ?_, h.security⟩
    · obtain ⟨m, hm⟩ := Option.isSome_iff_exists.1 (BMap.get_isSome_iff.2 hk)
      obtain ⟨n, rfl⟩ := h.image k m hm
      have := h.get n
      rw [hm] at this
      refine ⟨n, BMap.get_isSome_iff.1 ?_, rfl⟩
      cases hn : BMap.get n cx.schemas with
      | none => rw [hn] at this; cases this
      | some _ => rfl
    · rintro ⟨n, hn, rfl⟩
      obtain ⟨m, hm⟩ := Option.isSome_iff_exists.1 (BMap.get_isSome_iff.2 hn)
      have := h.get n
      rw [hm] at this
      refine BMap.get_isSome_iff.1 ?_
      cases hn : BMap.get (ρ n) cx'.schemas with
      | none => rw [hn] at this; cases this
      | some _ => rfl
    · intro n m m' hm hm'
      have := h.get n
      rw [hm, hm'] at this
      exact (Option.some.inj this).symm
  · intro h
    refine ⟨?_, ?_, h.securitySchemes⟩
    · intro k m hm
      have hk : k ∈ BMap.keys cx'.schemas := BMap.get_isSome_iff.1 (by rw [hm]; rfl)
      obtain ⟨n, -, rfl⟩ := (h.names k).1 hk
      exact ⟨n, rfl⟩
    · intro n
      cases hn : BMap.get n cx.schemas with
      | none =>
        cases hn' : BMap.get (ρ n) cx'.schemas with
        | none => rfl
        | some m' =>
          have hk : ρ n ∈ BMap.keys cx'.schemas := BMap.get_isSome_iff.1 (by rw [hn']; rfl)
          obtain ⟨n0, h0, e⟩ := (h.names _).1 hk
          cases inj _ _ e
          exact absurd h0 (BMap.get_eq_none_iff.1 hn)
      | some m =>
        have hk : ρ n ∈ BMap.keys cx'.schemas := (h.names _).2 ⟨n, BMap.get_isSome_iff.1 (by rw [hn]; rfl), rfl⟩
        obtain ⟨m', hm'⟩ := Option.isSome_iff_exists.1 (BMap.get_isSome_iff.2 hk)
        rw [hm']
        simp only [Option.map_some, h.schemas n m m' hn hm']

theorem Moved.containsKey {cx cx' : Components} (h : Moved ρ cx cx') (n : String) :
    BMap.containsKey (ρ n) cx'.schemas = BMap.containsKey n cx.schemas := by
  have := congrArg Option.isSome (h.get n)
  simpa [BMap.containsKey] using this

theorem Moved.insert (inj : ∀ a b, ρ a = ρ b → a = b) {cx cx' : Components} (h : Moved ρ cx cx') (n : String) {m m' : Model}
    (hm : m.wordless.relinked ρ = m'.wordless) :
    Moved ρ { cx with schemas := BMap.insert n m cx.schemas } { cx' with schemas := BMap.insert (ρ n) m' cx'.schemas } := by
  refine ⟨?_, ?_, h.security⟩
  · intro k a ha
    by_cases hk : k = ρ n
    · exact ⟨n, hk⟩
    · rw [BMap.get_insert_ne hk] at ha
      exact h.image k a ha
  · intro k
    by_cases hk : k = n
    · subst hk
      simp only [BMap.get_insert_self, Option.map_some, hm]
    · have hk' : ρ k ≠ ρ n := fun e => hk (inj _ _ e)
      simp only [BMap.get_insert_ne hk, BMap.get_insert_ne hk', h.get k]

/-! ## Runs -/

/-- Two runs: neither returns, or both do, with related results. -/
inductive StepTo {α : Type} (ρ : String → String) (g f : α → α) : Option (α × Components) → Option (α × Components) → Prop
  | none : StepTo ρ g f none none
  | some {a b cx cx'} (h : g a = f b) (hc : Moved ρ cx cx') : StepTo ρ g f (some (a, cx)) (some (b, cx'))

theorem moved_words {cx cx' cx'' : Components} (h : Moved ρ cx cx') (hc : cx'.wordless = cx''.wordless) : Moved ρ cx cx'' := by
  have e : wordlessSchemas cx'.schemas = wordlessSchemas cx''.schemas := congrArg Components.schemas hc
  have he : ∀ k, (BMap.get k cx'.schemas).map Model.wordless = (BMap.get k cx''.schemas).map Model.wordless := by
    intro k
    rw [← get_values, ← get_values]
    exact congrArg _ e
  refine ⟨?_, fun n => ?_, h.security.trans (congrArg Components.securitySchemes hc :)⟩
  · intro k m hm
    have := he k
    rw [hm] at this
    cases hk : BMap.get k cx'.schemas with
    | none => rw [hk] at this; cases this
    | some m0 => exact h.image k m0 hk
  · rw [← he, h.get]

theorem StepTo.words {α : Type} {g f : α → α} {x y z} (h : StepTo ρ g f x y) (h' : InStep f y z) : StepTo ρ g f x z := by
  cases h with
  | none => cases h'; exact .none
  | some h hc => cases h' with | some h' hc' => exact .some (h.trans h') (moved_words hc hc')

variable {env env' : Env} {rec rec' : Ty → M Model}

/-- What programs of which one has other names have in common. -/
structure CommonTo (ρ : String → String) (env env' : Env) (rec rec' : Ty → M Model) : Prop where
  inj : ∀ a b, ρ a = ρ b → a = b
  name : ∀ t, typeName env' t = (typeName env t).map ρ
  inlines : ∀ t, alwaysInline env t = alwaysInline env' t
  schema : ∀ t cx cx', Moved ρ cx cx' → StepTo ρ (fun m => m.wordless.relinked ρ) Model.wordless (rec t cx) (rec' t cx')

theorem applyParams_relink {m m' : Model} {p p' : Params} (h : m.wordless.relinked ρ = m'.wordless) (hp : p.wordless = p'.wordless) :
    (m.applyParams p).wordless.relinked ρ = (m'.applyParams p').wordless := by
  rw [applyParams_wordless, applyParams_wordless, applyParams_relinked, h, hp]

theorem select_relink (C : CommonTo ρ env env' rec rec') (t : Ty) (i : Bool) {p p' : Params} (hp : p.wordless = p'.wordless)
    {cx cx'} (hc : Moved ρ cx cx') :
    StepTo ρ (fun r => r.wordless.relinked ρ) Ref.wordless (selectReference env rec t i p cx) (selectReference env' rec' t i p' cx') := by
  unfold selectReference
  simp only [C.inlines, C.name]
  have h := C.schema t cx cx' hc
  generalize rec t cx = x at h ⊢
  generalize rec' t cx' = y at h ⊢
  cases h with
  | none => cases alwaysInline env' t <;> cases typeName env t <;> cases i <;> first | exact .none | exact .some rfl hc
  | some h hc' =>
    have hin := applyParams_relink h hp
    cases alwaysInline env' t <;> cases typeName env t <;> cases i <;>
      first | exact .some (by rw [Ref.wordless, Ref.wordless, Ref.relinked, hin]) hc' | exact .some rfl hc

theorem mention_relink (C : CommonTo ρ env env' rec rec') (t : Ty) (i : Bool) {p p' : Params} (hp : p.wordless = p'.wordless)
    {cx cx'} (hc : Moved ρ cx cx') :
    StepTo ρ (fun r => r.wordless.relinked ρ) Ref.wordless (mentionWith env rec t i p cx) (mentionWith env' rec' t i p' cx') := by
  unfold mentionWith
  have h := select_relink C t i hp hc
  generalize selectReference env rec t i p cx = x at h ⊢
  generalize selectReference env' rec' t i p' cx' = y at h ⊢
  cases h with
  | none => exact .none
  | @some a b cx1 cx1' h hc =>
    cases a with
    | link n =>
      cases b with
      | link n' =>
        simp only [Ref.wordless, Ref.relinked, Ref.link.injEq] at h
        subst h
        simp only [hc.containsKey]
        split
        · exact .some rfl hc
        · have h := C.schema t cx1 cx1' hc
          generalize rec t cx1 = x at h ⊢
          generalize rec' t cx1' = y at h ⊢
          cases h with
          | none => exact .none
          | some h hc => exact .some rfl (hc.insert C.inj n h)
      | inline m => simp [Ref.wordless, Ref.relinked] at h
      | any => simp [Ref.wordless, Ref.relinked] at h
    | inline m =>
      cases b with
      | link n => simp [Ref.wordless, Ref.relinked] at h
      | inline m' => exact .some h hc
      | any => simp [Ref.wordless, Ref.relinked] at h
    | any =>
      cases b with
      | link n => simp [Ref.wordless, Ref.relinked] at h
      | inline m => simp [Ref.wordless, Ref.relinked] at h
      | any => exact .some rfl hc

mutual
theorem refEval_relink (C : CommonTo ρ env env' rec rec') : ∀ (e : RefExpr Ty) {cx cx'}, Moved ρ cx cx' →
    StepTo ρ (fun r => r.wordless.relinked ρ) Ref.wordless (e.eval env rec cx) (e.wordless.eval env' rec' cx')
  | .mention t i p, cx, cx', hc => mention_relink C t i (eval_params_words env env' p) hc
  | .inline m, cx, cx', hc => by
    have h := modelEval_relink C m hc
    simp only [RefExpr.wordless, RefExpr.eval]
    generalize m.eval env rec cx = x at h ⊢
    generalize m.wordless.eval env' rec' cx' = y at h ⊢
    cases h with
    | none => exact .none
    | some h hc => exact .some (by simp only [Ref.wordless, Ref.relinked, h]) hc
  | .any, cx, cx', hc => .some rfl hc
theorem modelEval_relink (C : CommonTo ρ env env' rec rec') : ∀ (e : ModelExpr Ty) {cx cx'}, Moved ρ cx cx' →
    StepTo ρ (fun m => m.wordless.relinked ρ) Model.wordless (e.eval env rec cx) (e.wordless.eval env' rec' cx')
  | .getSchema t, cx, cx', hc => C.schema t _ _ hc
  | .getSchemaWithParams t p, cx, cx', hc => by
    have h := C.schema t _ _ hc
    simp only [ModelExpr.wordless, ModelExpr.eval]
    generalize rec t cx = x at h ⊢
    generalize rec' t cx' = y at h ⊢
    cases h with
    | none => exact .none
    | some h hc => exact .some (applyParams_relink h (eval_params_words env env' p)) hc
  | .single d n td, cx, cx', hc => by
    have h := typeEval_relink C td hc
    simp only [ModelExpr.wordless, ModelExpr.eval]
    generalize td.eval env rec cx = x at h ⊢
    generalize td.wordless.eval env' rec' cx' = y at h ⊢
    cases h with
    | none => exact .none
    | some h hc => exact .some (by simp only [Model.wordless, ModelData.wordless, Model.relinked, ModelData.relinked, h]) hc
  | .oneOf d rs, cx, cx', hc => by
    have h := refsEval_relink C rs hc
    simp only [ModelExpr.wordless, ModelExpr.eval]
    generalize RefExpr.evalList env rec rs cx = x at h ⊢
    generalize RefExpr.evalList env' rec' (RefExpr.wordlessList rs) cx' = y at h ⊢
    cases h with
    | none => exact .none
    | some h hc => exact .some (by simp only [Model.wordless, ModelData.wordless, Model.relinked, ModelData.relinked, h]) hc
  | .tagged m a b c d, cx, cx', hc => by
    have h := modelEval_relink C m hc
    simp only [ModelExpr.wordless, ModelExpr.eval]
    generalize m.eval env rec cx = x at h ⊢
    generalize m.wordless.eval env' rec' cx' = y at h ⊢
    cases h with
    | none => exact .none
    | some h hc => exact .some (by rw [tryMerge_wordless, tryMerge_wordless, tryMerge_relinked, h]; rfl) hc
theorem typeEval_relink (C : CommonTo ρ env env' rec rec') : ∀ (e : TypeExpr Ty) {cx cx'}, Moved ρ cx cx' →
    StepTo ρ (fun d => d.wordless.relinked ρ) TypeDesc.wordless (e.eval env rec cx) (e.wordless.eval env' rec' cx')
  | .string v f e, cx, cx', hc => .some rfl hc
  | .number f e, cx, cx', hc => .some rfl hc
  | .integer f e, cx, cx', hc => .some rfl hc
  | .boolean, cx, cx', hc => .some rfl hc
  | .array r, cx, cx', hc => by
    have h := refEval_relink C r hc
    simp only [TypeExpr.wordless, TypeExpr.eval]
    generalize r.eval env rec cx = x at h ⊢
    generalize r.wordless.eval env' rec' cx' = y at h ⊢
    cases h with
    | none => exact .none
    | some h hc => exact .some (by simp only [TypeDesc.wordless, TypeDesc.relinked, h]) hc
  | .object es, cx, cx', hc => by
    have h := propsEval_relink C es (ps := []) (ps' := []) (rq := []) rfl hc
    simp only [TypeExpr.wordless, TypeExpr.eval]
    generalize PropExpr.evalList env rec es [] [] cx = x at h ⊢
    generalize PropExpr.evalList env' rec' (PropExpr.wordlessList es) [] [] cx' = y at h ⊢
    cases h with
    | none => exact .none
    | @some a b _ _ h hc =>
      obtain ⟨p, q⟩ := a
      obtain ⟨p', q'⟩ := b
      simp only [Prod.mk.injEq] at h
      exact .some (by simp only [TypeDesc.wordless, TypeDesc.relinked, h]) hc
  | .dictionary r, cx, cx', hc => by
    have h := refEval_relink C r hc
    simp only [TypeExpr.wordless, TypeExpr.eval]
    generalize r.eval env rec cx = x at h ⊢
    generalize r.wordless.eval env' rec' cx' = y at h ⊢
    cases h with
    | none => exact .none
    | some h hc => exact .some (by simp only [TypeDesc.wordless, TypeDesc.relinked, Ref.wordlessProps, Ref.relinkedProps, h]) hc
theorem refsEval_relink (C : CommonTo ρ env env' rec rec') : ∀ (es : List (RefExpr Ty)) {cx cx'}, Moved ρ cx cx' →
    StepTo ρ (fun rs => Ref.relinkedList ρ (Ref.wordlessList rs)) Ref.wordlessList (RefExpr.evalList env rec es cx)
      (RefExpr.evalList env' rec' (RefExpr.wordlessList es) cx')
  | [], cx, cx', hc => .some rfl hc
  | r :: rs, cx, cx', hc => by
    have h := refEval_relink C r hc
    simp only [RefExpr.wordlessList, RefExpr.evalList]
    generalize r.eval env rec cx = x at h ⊢
    generalize r.wordless.eval env' rec' cx' = y at h ⊢
    cases h with
    | none => exact .none
    | @some a b cx1 cx1' h hc =>
      have h' := refsEval_relink C rs hc
      simp only
      generalize RefExpr.evalList env rec rs cx1 = x at h' ⊢
      generalize RefExpr.evalList env' rec' (RefExpr.wordlessList rs) cx1' = y at h' ⊢
      cases h' with
      | none => exact .none
      | some h' hc => exact .some (by simp only [Ref.wordlessList, Ref.relinkedList, h, h']) hc
theorem propsEval_relink (C : CommonTo ρ env env' rec rec') : ∀ (es : List (PropExpr Ty)) {ps ps' rq cx cx'},
    Ref.relinkedProps ρ (Ref.wordlessProps ps) = Ref.wordlessProps ps' → Moved ρ cx cx' →
    StepTo ρ (fun x => (Ref.relinkedProps ρ (Ref.wordlessProps x.1), x.2)) (fun x => (Ref.wordlessProps x.1, x.2))
      (PropExpr.evalList env rec es ps rq cx) (PropExpr.evalList env' rec' (PropExpr.wordlessList es) ps' rq cx')
  | [], ps, ps', rq, cx, cx', hp, hc => .some (by simp only [hp]) hc
  | .mk n r b :: es, ps, ps', rq, cx, cx', hp, hc => by
    have h := refEval_relink C r hc
    simp only [PropExpr.wordlessList, PropExpr.evalList]
    generalize r.eval env rec cx = x at h ⊢
    generalize r.wordless.eval env' rec' cx' = y at h ⊢
    cases h with
    | none => exact .none
    | @some a b cx1 cx1' h hc =>
      refine propsEval_relink C es ?_ hc
      have e : ∀ (r : Ref) ps, Ref.wordlessProps (BMap.insert n r ps) = BMap.insert n r.wordless (Ref.wordlessProps ps) := by
        intro r ps
        rw [wordlessProps_eq, wordlessProps_eq]; exact (insert_values Ref.wordless n r ps).symm
      have e' : ∀ (r : Ref) ps, Ref.relinkedProps ρ (BMap.insert n r ps) = BMap.insert n (r.relinked ρ) (Ref.relinkedProps ρ ps) := by
        intro r ps
        rw [relinkedProps_eq, relinkedProps_eq]; exact (insert_values (Ref.relinked ρ) n r ps).symm
      rw [e, e, e', h, hp]
end

/-! ## Programs -/

theorem TypesRenamed.ident (h : TypesRenamed ρ env env') (i : Nat) : (env'.decl i).ident = ρ (env.decl i).ident :=
  congrArg Container.ident (h i)

theorem TypesRenamed.inline (h : TypesRenamed ρ env env') (i : Nat) : (env'.decl i).attrs.inline = (env.decl i).attrs.inline :=
  congrArg (fun c => c.attrs.inline) (h i)

theorem typeName_relink (same : TypesRenamed ρ env env') : ∀ t, typeName env' t = (typeName env t).map ρ
  | .wrap _ t => typeName_relink same t
  | .option t => typeName_relink same t
  | .named i => by
    simp only [typeName, Container.typeName, same.ident, same.inline]
    split <;> rfl
  | .prim _ | .tuple _ | .seq _ _ | .dict _ _ | .unit | .uuid | .naiveDateTime | .dateTime | .naiveDate => rfl

theorem alwaysInline_relink (same : TypesRenamed ρ env env') (t : Ty) : alwaysInline env t = alwaysInline env' t := by
  cases t with
  | named i => exact (same.inline i).symm
  | _ => rfl

theorem internal_renamed (c : Container Ty) (x : String) (y : Name) (tag : String) (v : Variant Ty) :
    (internalAlternative { c with ident := x, attrs := { c.attrs with name := y } } tag v).map RefExpr.wordless =
      (internalAlternative c tag v).map RefExpr.wordless := by
  unfold internalAlternative
  cases internalInner v <;> rfl

theorem body_renamed (c : Container Ty) (x : String) (y : Name) :
    (serializeBody { c with ident := x, attrs := { c.attrs with name := y } }).map ModelExpr.wordless =
      (serializeBody c).map ModelExpr.wordless := by
  obtain ⟨id, attrs, data⟩ := c
  cases data with
  | struct style fs =>
    cases style with
    | newType => cases fs <;> rfl
    | _ => rfl
  | enum vs =>
    show (serializeEnum _ vs).map _ = (serializeEnum _ vs).map _
    unfold serializeEnum
    simp only
    have ha : ∀ t k, (serializeAdjacentEnum ⟨x, { attrs with name := y }, .enum vs⟩ vs t k).map ModelExpr.wordless =
        (serializeAdjacentEnum ⟨id, attrs, .enum vs⟩ vs t k).map ModelExpr.wordless := by
      intro t k
      unfold serializeAdjacentEnum
      cases mapExcept adjacentAlternative (serialVariants vs) <;> rfl
    have hi : ∀ t, (serializeInternalEnum ⟨x, { attrs with name := y }, .enum vs⟩ vs t).map ModelExpr.wordless =
        (serializeInternalEnum ⟨id, attrs, .enum vs⟩ vs t).map ModelExpr.wordless := by
      intro t
      unfold serializeInternalEnum
      have h := mapExcept_words (a := fun v => v) (fun v => internal_renamed ⟨id, attrs, .enum vs⟩ x y t v) (serialVariants vs)
      rw [List.map_id'] at h
      revert h
      cases mapExcept (internalAlternative ⟨x, { attrs with name := y }, .enum vs⟩ t) (serialVariants vs) <;>
        cases mapExcept (internalAlternative ⟨id, attrs, .enum vs⟩ t) (serialVariants vs) <;>
        simp [Except.map, ModelExpr.wordless, exprs_wordless]
    cases attrs.modelType <;> cases attrs.tagType <;> first
      | rfl
      | exact ha _ _
      | exact hi _

theorem schemaExpr_relink (same : TypesRenamed ρ env env') (t : Ty) :
    (schemaExpr env t).map ModelExpr.wordless = (schemaExpr env' t).map ModelExpr.wordless := by
  cases t with
  | named i =>
    have h : (serializeBody (env.decl i)).map ModelExpr.wordless = (serializeBody (env'.decl i)).map ModelExpr.wordless := by
      rw [same i]
      exact (body_renamed _ _ _).symm
    revert h
    simp only [schemaExpr]
    cases serializeBody (env.decl i) <;> cases serializeBody (env'.decl i) <;> simp [Except.map]
  | _ => rfl

/-- Runs of `get_schema` in programs of which one has other names. -/
theorem getSchema_relink (inj : ∀ a b, ρ a = ρ b → a = b) (same : TypesRenamed ρ env env') : ∀ (n : Nat) (t : Ty) (cx cx' : Components),
    Moved ρ cx cx' → StepTo ρ (fun m => m.wordless.relinked ρ) Model.wordless (getSchema env n t cx) (getSchema env' n t cx')
  | 0, _, _, _, _ => .none
  | n + 1, t, cx, cx', hc => by
    have hs := schemaExpr_relink same t
    have hr : SameButWords env' env' := fun _ => rfl
    simp only [getSchema]
    cases he : schemaExpr env t with
    | none =>
      rw [he] at hs
      cases he' : schemaExpr env' t with
      | none => exact .none
      | some e' => rw [he'] at hs; cases hs
    | some e =>
      rw [he] at hs
      cases he' : schemaExpr env' t with
      | none => rw [he'] at hs; cases hs
      | some e' =>
        rw [he'] at hs
        have hs : e.wordless = e'.wordless := Option.some.inj hs
        have h1 := modelEval_relink (env' := env') (rec' := getSchema env' n)
          ⟨inj, typeName_relink same, alwaysInline_relink same, getSchema_relink inj same n⟩ e hc
        have h2 := modelEval_words (env := env') (env' := env') (rec := getSchema env' n) (rec' := getSchema env' n)
          ⟨fun _ => rfl, fun _ => rfl, getSchema_words n hr⟩ e' (cx := cx') rfl
        rw [hs] at h1
        exact h1.words h2.symm

theorem mentionSchema_relink (inj : ∀ a b, ρ a = ρ b → a = b) (same : TypesRenamed ρ env env') (n : Nat) (t : Ty) (i : Bool)
    (p : Params) {cx cx'} (hc : Moved ρ cx cx') :
    StepTo ρ (fun r => r.wordless.relinked ρ) Ref.wordless (mentionSchema env n t i p cx) (mentionSchema env' n t i p cx') :=
  mention_relink ⟨inj, typeName_relink same, alwaysInline_relink same, getSchema_relink inj same n⟩ t i rfl hc

end Verif
