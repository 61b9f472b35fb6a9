import Verif.Spec.Texts
import Verif.Spec.Registry
/-!
# Descriptions, formats and examples: proofs
-/

namespace Verif

/-! ## Schemas -/

theorem wordlessList_eq (rs : List Ref) : Ref.wordlessList rs = rs.map Ref.wordless := by
  induction rs with
  | nil => rfl
  | cons r rs ih => rw [Ref.wordlessList, ih]; rfl

theorem wordlessProps_eq (ps : List (String × Ref)) : Ref.wordlessProps ps = ps.map fun x => (x.1, x.2.wordless) := by
  induction ps with
  | nil => rfl
  | cons p ps ih => obtain ⟨k, r⟩ := p; rw [Ref.wordlessProps, ih]; rfl

theorem get_values {α β : Type} (f : α → β) (k : String) (l : List (String × α)) :
    BMap.get k (l.map fun x => (x.1, f x.2)) = (BMap.get k l).map f := by
  induction l with
  | nil => rfl
  | cons x l ih =>
    obtain ⟨k', a⟩ := x
    rw [List.map_cons, BMap.get_cons, BMap.get_cons, ih]
    split <;> rfl

theorem containsKey_values {α β : Type} (f : α → β) (k : String) (l : List (String × α)) :
    BMap.containsKey k (l.map fun x => (x.1, f x.2)) = BMap.containsKey k l := by
  simp only [BMap.containsKey, get_values, Option.isSome_map]

theorem insert_values {α β : Type} (f : α → β) (k : String) (a : α) (l : List (String × α)) :
    BMap.insert k (f a) (l.map fun x => (x.1, f x.2)) = (BMap.insert k a l).map fun x => (x.1, f x.2) := by
  induction l with
  | nil => rfl
  | cons x l ih =>
    simp only [List.map_cons, BMap.insert]
    split
    · rfl
    · rfl
    · rw [ih]; rfl

theorem applyParams_wordless (m : Model) (p : Params) : (m.applyParams p).wordless = m.wordless.applyParams p.wordless := by
  obtain ⟨d, data⟩ := m
  cases data with
  | single t =>
    obtain ⟨n, td⟩ := t
    cases td with
    | object o =>
      obtain ⟨ps, a, rq⟩ := o
      cases a <;> rfl
    | _ => rfl
  | _ => rfl

theorem mergeProps_wordless (ps qs : List (String × Ref)) :
    mergeProps (Ref.wordlessProps ps) (Ref.wordlessProps qs) = ((mergeProps ps qs).1, Ref.wordlessProps (mergeProps ps qs).2) := by
  induction qs generalizing ps with
  | nil => rfl
  | cons q qs ih =>
    obtain ⟨k, r⟩ := q
    rw [Ref.wordlessProps, mergeProps, mergeProps]
    have e : BMap.containsKey k (Ref.wordlessProps ps) = BMap.containsKey k ps := by
      rw [wordlessProps_eq]; exact containsKey_values Ref.wordless k ps
    rw [e]
    split
    · rfl
    · have : BMap.insert k r.wordless (Ref.wordlessProps ps) = Ref.wordlessProps (BMap.insert k r ps) := by
        rw [wordlessProps_eq, wordlessProps_eq]; exact insert_values Ref.wordless k r ps
      rw [this, ih]

theorem merge_wordless (o o' : ModelObject) (d : Option String) (n : Bool) :
    (⟨d, .single ⟨n, .object (o.merge o').2⟩⟩ : Model).wordless =
      ⟨none, .single ⟨n, .object ((ModelObject.merge ⟨Ref.wordlessProps o.properties, o.additional.map Ref.wordless, o.required⟩
        ⟨Ref.wordlessProps o'.properties, o'.additional.map Ref.wordless, o'.required⟩).2)⟩⟩ := by
  obtain ⟨ps, a, rq⟩ := o
  obtain ⟨ps', a', rq'⟩ := o'
  simp only [ModelObject.merge, mergeProps_wordless]
  rcases mergeProps ps ps' with ⟨_ | _, q⟩ <;> cases a <;> rfl

theorem object_wordless (o : ModelObject) : (TypeDesc.object o).wordless =
    .object ⟨Ref.wordlessProps o.properties, o.additional.map Ref.wordless, o.required⟩ := by
  obtain ⟨ps, a, rq⟩ := o
  cases a <;> rfl

theorem tryMerge_wordless (m o : Model) : (m.tryMerge o).2.wordless = (m.wordless.tryMerge o.wordless).2 := by
  obtain ⟨d, data⟩ := m
  obtain ⟨d', data'⟩ := o
  cases data with
  | single t =>
    obtain ⟨n, td⟩ := t
    cases td with
    | object ob =>
      cases data' with
      | single t' =>
        obtain ⟨n', td'⟩ := t'
        cases td' with
        | object ob' =>
          simp only [Model.tryMerge, Model.wordless, ModelData.wordless, object_wordless]
          have := merge_wordless ob ob' d n
          simp only [Model.wordless, ModelData.wordless, object_wordless] at this
          exact this
        | _ => obtain ⟨_, _ | _, _⟩ := ob <;> rfl
      | _ => obtain ⟨_, _ | _, _⟩ := ob <;> rfl
    | _ => rfl
  | _ => rfl

/-! ## Code -/

/-- Quoted metadata without texts. -/
def ParamsExpr.wordless (p : ParamsExpr) : ParamsExpr := ⟨none, p.nullable, none, none⟩

mutual
/-- The code without texts. -/
def RefExpr.wordless : RefExpr Ty → RefExpr Ty
  | .mention t i p => .mention t i p.wordless
  | .inline m => .inline m.wordless
  | .any => .any
def ModelExpr.wordless : ModelExpr Ty → ModelExpr Ty
  | .getSchema t => .getSchema t
  | .getSchemaWithParams t p => .getSchemaWithParams t p.wordless
  | .single _ n td => .single none n td.wordless
  | .oneOf _ rs => .oneOf none (RefExpr.wordlessList rs)
  | .tagged m _ b c d => .tagged m.wordless "" b c d
def TypeExpr.wordless : TypeExpr Ty → TypeExpr Ty
  | .string v _ _ => .string v none none
  | .number _ _ => .number none none
  | .integer _ _ => .integer none none
  | .boolean => .boolean
  | .array r => .array r.wordless
  | .object es => .object (PropExpr.wordlessList es)
  | .dictionary r => .dictionary r.wordless
def RefExpr.wordlessList : List (RefExpr Ty) → List (RefExpr Ty)
  | [] => []
  | r :: rs => r.wordless :: RefExpr.wordlessList rs
def PropExpr.wordlessList : List (PropExpr Ty) → List (PropExpr Ty)
  | [] => []
  | .mk n r b :: es => .mk n r.wordless b :: PropExpr.wordlessList es
end

theorem exprs_wordless (rs : List (RefExpr Ty)) : RefExpr.wordlessList rs = rs.map RefExpr.wordless := by
  induction rs with
  | nil => rfl
  | cons r rs ih => rw [RefExpr.wordlessList, ih]; rfl

theorem mapExcept_words {ε α β γ : Type} {g g' : α → Except ε β} {a : α → α} {b : β → γ}
    (h : ∀ x, (g' (a x)).map b = (g x).map b) (xs : List α) :
    (mapExcept g' (xs.map a)).map (List.map b) = (mapExcept g xs).map (List.map b) := by
  induction xs with
  | nil => rfl
  | cons x xs ih =>
    rw [List.map_cons, mapExcept, mapExcept]
    have hx := h x
    revert hx ih
    cases g' (a x) <;> cases g x <;> cases mapExcept g' (xs.map a) <;> cases mapExcept g xs <;>
      simp [Except.map] <;> intros <;> simp [*]

theorem newtypeModel_words {n t} {p p' : ParamsExpr} : (newtypeModel n p' t : ModelExpr Ty).wordless = (newtypeModel n p t).wordless := by
  cases t <;> rfl

theorem fieldRef_words {p p' : ParamsExpr} (h : p'.wordless = p.wordless) (f : Field Ty) (i : Bool) :
    (fieldModelReference p' f.wordless i).wordless = (fieldModelReference p f i).wordless := by
  unfold fieldModelReference
  have ha : f.wordless.attrs.explicitModelType = f.attrs.explicitModelType := rfl
  have hn : f.wordless.attrs.nullable = f.attrs.nullable := rfl
  have ht : f.wordless.ty = f.ty := rfl
  rw [ha, hn, ht]
  cases f.attrs.explicitModelType with
  | none => simp only [RefExpr.wordless, h]
  | some t =>
    cases t with
    | any => rfl
    | _ => simp only [RefExpr.wordless, newtypeModel_words (p := p) (p' := p')]

theorem params_words (f : Field Ty) : f.wordless.attrs.params.wordless = f.attrs.params.wordless := rfl

theorem or_words {p p' q q' : ParamsExpr} (h : p'.wordless = p.wordless) : (p'.or q').wordless = (p.or q).wordless := h

theorem object_words (fs : List (Field Ty)) {q p : Field Ty → Bool} (h : ∀ x, q x.wordless = p x) :
    (objectTypeDescription (fs.map Field.wordless) q).wordless = (objectTypeDescription fs p).wordless := by
  unfold objectTypeDescription
  rw [TypeExpr.wordless, TypeExpr.wordless]
  congr 1
  induction fs with
  | nil => rfl
  | cons x xs ih =>
    simp only [List.map_cons, List.filter_cons]
    have e : x.wordless.attrs.skipSerializing = x.attrs.skipSerializing := rfl
    rw [e]
    split
    · simp only [List.map_cons, PropExpr.wordlessList, ih, h, fieldRef_words (params_words x)]
      rfl
    · exact ih

theorem tuple_words (fs : List (Field Ty)) {q p : Field Ty → Bool} (h : ∀ x, q x.wordless = p x) :
    (tupleTypeDescription (fs.map Field.wordless) q).wordless = (tupleTypeDescription fs p).wordless := by
  unfold tupleTypeDescription
  simp only [TypeExpr.wordless, RefExpr.wordless, ModelExpr.wordless, exprs_wordless, List.map_map]
  congr 3
  apply List.map_congr_left
  intro x _
  simp only [Function.comp, h, fieldRef_words (params_words x)]

theorem serialVariants_words (vs : List (Variant Ty)) :
    serialVariants (vs.map Variant.wordless) = (serialVariants vs).map Variant.wordless := by
  unfold serialVariants
  rw [List.filter_map]
  rfl

theorem newtypeVariant_words (v : Variant Ty) :
    (newtypeVariantReference v.wordless).map RefExpr.wordless = (newtypeVariantReference v).map RefExpr.wordless := by
  obtain ⟨_, attrs, _, fs, _⟩ := v
  cases fs with
  | nil => rfl
  | cons x xs =>
    simp only [newtypeVariantReference, Variant.wordless, List.map_cons, Except.map]
    rw [fieldRef_words (or_words (params_words x))]

theorem untagged_words (v : Variant Ty) :
    (untaggedAlternative v.wordless).map RefExpr.wordless = (untaggedAlternative v).map RefExpr.wordless := by
  unfold untaggedAlternative
  have hs : v.wordless.style = v.style := rfl
  rw [hs]
  cases v.style with
  | struct =>
    simp only [Except.map, RefExpr.wordless, objectModel, ModelExpr.wordless, Variant.wordless]
    rw [object_words v.fields (p := fun x => v.attrs.inline || x.attrs.inline) (fun _ => rfl)]
  | newType => exact newtypeVariant_words v
  | _ => rfl

theorem adjacent_words (v : Variant Ty) :
    (adjacentAlternative v.wordless).map RefExpr.wordless = (adjacentAlternative v).map RefExpr.wordless := by
  unfold adjacentAlternative
  have hs : v.wordless.style = v.style := rfl
  rw [hs]
  cases v.style with
  | struct =>
    simp only [Except.map, RefExpr.wordless, tupleModel, ModelExpr.wordless, Variant.wordless]
    rw [tuple_words v.fields (p := fun x => x.attrs.inline || v.attrs.inline) (fun _ => rfl)]
  | tuple =>
    simp only [Except.map, RefExpr.wordless, tupleModel, ModelExpr.wordless, Variant.wordless]
    rw [tuple_words v.fields (p := fun x => v.attrs.inline || x.attrs.inline) (fun _ => rfl)]
  | newType => exact newtypeVariant_words v
  | _ => rfl

theorem external_words (v : Variant Ty) :
    (externalAlternative v.wordless).map RefExpr.wordless = (externalAlternative v).map RefExpr.wordless := by
  unfold externalAlternative
  have hs : v.wordless.style = v.style := rfl
  rw [hs]
  cases v.style with
  | struct =>
    simp only [Except.map, RefExpr.wordless, objectModel, ModelExpr.wordless, Variant.wordless]
    rw [object_words v.fields (p := fun x => v.attrs.inline || x.attrs.inline) (fun _ => rfl)]
  | tuple =>
    simp only [Except.map, RefExpr.wordless, tupleModel, ModelExpr.wordless, Variant.wordless]
    rw [tuple_words v.fields (p := fun x => v.attrs.inline || x.attrs.inline) (fun _ => rfl)]
  | newType => exact newtypeVariant_words v
  | unit => rfl

theorem inner_words (v : Variant Ty) :
    (internalInner v.wordless).map ModelExpr.wordless = (internalInner v).map ModelExpr.wordless := by
  unfold internalInner
  have hs : v.wordless.style = v.style := rfl
  rw [hs]
  cases v.style with
  | struct =>
    simp only [Except.map, objectModel, ModelExpr.wordless, Variant.wordless]
    rw [object_words v.fields (p := fun x => v.attrs.inline || x.attrs.inline) (fun _ => rfl)]
  | newType =>
    obtain ⟨_, attrs, _, fs, _⟩ := v
    cases fs <;> rfl
  | _ => rfl

theorem internal_words (c : Container Ty) (tag : String) (v : Variant Ty) :
    (internalAlternative c.wordless tag v.wordless).map RefExpr.wordless = (internalAlternative c tag v).map RefExpr.wordless := by
  unfold internalAlternative
  have h := inner_words v
  revert h
  cases internalInner v.wordless <;> cases internalInner v <;> simp [Except.map, RefExpr.wordless, ModelExpr.wordless]
  intro h
  exact ⟨h, rfl, rfl⟩

theorem names_words (vs : List (Variant Ty)) :
    (serialVariants (vs.map Variant.wordless)).map (fun v => v.attrs.name.serialized) =
      (serialVariants vs).map fun v => v.attrs.name.serialized := by
  rw [serialVariants_words, List.map_map]
  rfl

theorem alternatives_words {g g' : Variant Ty → Except MacroPanic (RefExpr Ty)} {vs : List (Variant Ty)}
    (hg : ∀ v, (g' v.wordless).map RefExpr.wordless = (g v).map RefExpr.wordless) :
    (∃ e, mapExcept g' (serialVariants (vs.map Variant.wordless)) = .error e ∧ mapExcept g (serialVariants vs) = .error e) ∨
    ∃ rs' rs, mapExcept g' (serialVariants (vs.map Variant.wordless)) = .ok rs' ∧ mapExcept g (serialVariants vs) = .ok rs ∧
      rs'.map RefExpr.wordless = rs.map RefExpr.wordless := by
  have := mapExcept_words hg (serialVariants vs)
  rw [serialVariants_words]
  revert this
  cases mapExcept g' ((serialVariants vs).map Variant.wordless) <;> cases mapExcept g (serialVariants vs) <;>
    simp [Except.map]
  rintro rfl
  rfl

theorem enum_words (c : Container Ty) (vs : List (Variant Ty)) :
    (serializeEnum c.wordless (vs.map Variant.wordless)).map ModelExpr.wordless = (serializeEnum c vs).map ModelExpr.wordless := by
  have hn : (serializeNewtypeEnum c.wordless (vs.map Variant.wordless)).wordless = (serializeNewtypeEnum c vs).wordless := by
    unfold serializeNewtypeEnum
    have hr : c.wordless.attrs.hasRepr = c.attrs.hasRepr := rfl
    rw [hr]
    split
    · simp only [ModelExpr.wordless, exprs_wordless, serialVariants_words, List.filterMap_map]
      rfl
    · simp only [names_words]
      rfl
  have ha : ∀ t k, (serializeAdjacentEnum c.wordless (vs.map Variant.wordless) t k).map ModelExpr.wordless =
      (serializeAdjacentEnum c vs t k).map ModelExpr.wordless := by
    intro t k
    unfold serializeAdjacentEnum
    rcases alternatives_words (vs := vs) adjacent_words with ⟨e, h, h'⟩ | ⟨rs', rs, h, h', hr⟩ <;> rw [h, h']
    simp only [Except.map, ModelExpr.wordless, TypeExpr.wordless, PropExpr.wordlessList, RefExpr.wordless, exprs_wordless, hr,
      names_words]
    rfl
  have he : (serializeExternalEnum c.wordless (vs.map Variant.wordless)).map ModelExpr.wordless =
      (serializeExternalEnum c vs).map ModelExpr.wordless := by
    unfold serializeExternalEnum
    rcases alternatives_words (vs := vs) external_words with ⟨e, h, h'⟩ | ⟨rs', rs, h, h', hr⟩ <;> rw [h, h']
    simp only [Except.map, ModelExpr.wordless, TypeExpr.wordless, RefExpr.wordless, exprs_wordless, hr]
    rfl
  have hu : (serializeUntaggedEnum c.wordless (vs.map Variant.wordless)).map ModelExpr.wordless =
      (serializeUntaggedEnum c vs).map ModelExpr.wordless := by
    unfold serializeUntaggedEnum
    rcases alternatives_words (vs := vs) untagged_words with ⟨e, h, h'⟩ | ⟨rs', rs, h, h', hr⟩ <;> rw [h, h']
    simp only [Except.map, ModelExpr.wordless, exprs_wordless, hr]
  have hi : ∀ t, (serializeInternalEnum c.wordless (vs.map Variant.wordless) t).map ModelExpr.wordless =
      (serializeInternalEnum c vs t).map ModelExpr.wordless := by
    intro t
    unfold serializeInternalEnum
    rcases alternatives_words (vs := vs) (internal_words c t) with ⟨e, h, h'⟩ | ⟨rs', rs, h, h', hr⟩ <;> rw [h, h']
    simp only [Except.map, ModelExpr.wordless, exprs_wordless, hr]
  unfold serializeEnum
  have hm : c.wordless.attrs.modelType = c.attrs.modelType := rfl
  have ht : c.wordless.attrs.tagType = c.attrs.tagType := rfl
  rw [hm, ht]
  cases c.attrs.modelType <;> cases c.attrs.tagType <;> first
    | rfl
    | exact he
    | exact hu
    | exact hi _
    | exact ha _ _
    | exact congrArg Except.ok hn

theorem body_words (c : Container Ty) : (serializeBody c.wordless).map ModelExpr.wordless = (serializeBody c).map ModelExpr.wordless := by
  obtain ⟨id, attrs, data⟩ := c
  cases data with
  | enum vs => exact enum_words ⟨id, attrs, .enum vs⟩ vs
  | struct style fs =>
    cases style with
    | struct =>
      show Except.ok (serializeStruct _ (fs.map Field.wordless)).wordless = Except.ok (serializeStruct _ fs).wordless
      simp only [serializeStruct, ModelExpr.wordless]
      rw [object_words fs (p := fun x => x.attrs.inline) (fun _ => rfl)]
      rfl
    | tuple =>
      show Except.ok (serializeTupleStruct _ (fs.map Field.wordless)).wordless = Except.ok (serializeTupleStruct _ fs).wordless
      simp only [serializeTupleStruct, ModelExpr.wordless]
      rw [tuple_words fs (p := fun x => x.attrs.inline) (fun _ => rfl)]
      rfl
    | newType =>
      cases fs with
      | nil => rfl
      | cons x xs =>
        show (serializeNewtypeStruct _ x.wordless).map _ = (serializeNewtypeStruct _ x).map _
        unfold serializeNewtypeStruct
        simp only [Container.wordless]
        cases attrs.explicitModelType with
        | none => rfl
        | some t => cases t <;> rfl
    | unit => rfl

theorem schemaExpr_words {env env' : Env} (same : SameButWords env env') (t : Ty) :
    (schemaExpr env t).map ModelExpr.wordless = (schemaExpr env' t).map ModelExpr.wordless := by
  cases t with
  | named i =>
    have h : (serializeBody (env.decl i)).map ModelExpr.wordless = (serializeBody (env'.decl i)).map ModelExpr.wordless := by
      rw [← body_words (env.decl i), same i, body_words]
    revert h
    simp only [schemaExpr]
    cases serializeBody (env.decl i) <;> cases serializeBody (env'.decl i) <;> simp [Except.map]
  | _ => rfl

/-! ## Runs -/

/-- Two runs: neither returns, or both do, with results that differ in texts only. -/
inductive InStep {α : Type} (f : α → α) : Option (α × Components) → Option (α × Components) → Prop
  | none : InStep f none none
  | some {a b cx cx'} (h : f a = f b) (hc : cx.wordless = cx'.wordless) : InStep f (some (a, cx)) (some (b, cx'))

theorem InStep.trans {α : Type} {f : α → α} {x y z} (h : InStep f x y) (h' : InStep f y z) : InStep f x z := by
  cases h with
  | none => exact h'
  | some h hc => cases h' with | some h' hc' => exact .some (h.trans h') (hc.trans hc')

theorem InStep.symm {α : Type} {f : α → α} {x y} (h : InStep f x y) : InStep f y x := by
  cases h with
  | none => exact .none
  | some h hc => exact .some h.symm hc.symm

theorem wordless_containsKey {cx cx' : Components} (h : cx.wordless = cx'.wordless) (n : String) :
    BMap.containsKey n cx.schemas = BMap.containsKey n cx'.schemas := by
  have h : wordlessSchemas cx.schemas = wordlessSchemas cx'.schemas := congrArg Components.schemas h
  rw [← containsKey_values Model.wordless n cx.schemas, ← containsKey_values Model.wordless n cx'.schemas]
  exact congrArg _ h

theorem wordless_insert {cx cx' : Components} (h : cx.wordless = cx'.wordless) (n : String) {m m' : Model}
    (hm : m.wordless = m'.wordless) :
    Components.wordless { cx with schemas := BMap.insert n m cx.schemas } =
      Components.wordless { cx' with schemas := BMap.insert n m' cx'.schemas } := by
  have h1 : wordlessSchemas cx.schemas = wordlessSchemas cx'.schemas := congrArg Components.schemas h
  have h2 : cx.securitySchemes = cx'.securitySchemes := (congrArg Components.securitySchemes h :)
  have e : ∀ n (m : Model) reg, wordlessSchemas (BMap.insert n m reg) = BMap.insert n m.wordless (wordlessSchemas reg) :=
    fun n m reg => (insert_values Model.wordless n m reg).symm
  simp only [Components.wordless, e, h1, hm, h2]

variable {env env' : Env} {rec rec' : Ty → M Model}

/-- What programs that differ in texts only have in common. -/
structure Common (env env' : Env) (rec rec' : Ty → M Model) : Prop where
  name : ∀ t, typeName env t = typeName env' t
  inlines : ∀ t, alwaysInline env t = alwaysInline env' t
  schema : ∀ t cx cx', cx.wordless = cx'.wordless → InStep Model.wordless (rec t cx) (rec' t cx')

theorem applyParams_words {m m' : Model} {p p' : Params} (h : m.wordless = m'.wordless) (hp : p.wordless = p'.wordless) :
    (m.applyParams p).wordless = (m'.applyParams p').wordless := by
  rw [applyParams_wordless, applyParams_wordless, h, hp]

theorem select_words (C : Common env env' rec rec') (t : Ty) (i : Bool) {p p' : Params} (hp : p.wordless = p'.wordless)
    {cx cx'} (hc : cx.wordless = cx'.wordless) :
    InStep Ref.wordless (selectReference env rec t i p cx) (selectReference env' rec' t i p' cx') := by
  unfold selectReference
  simp only [C.inlines, C.name]
  have h := C.schema t cx cx' hc
  generalize rec t cx = x at h ⊢
  generalize rec' t cx' = y at h ⊢
  cases h with
  | none => cases alwaysInline env' t <;> cases typeName env' t <;> cases i <;> first | exact .none | exact .some rfl hc
  | some h hc' =>
    have hin := applyParams_words h hp
    cases alwaysInline env' t <;> cases typeName env' t <;> cases i <;>
      first | exact .some (by rw [Ref.wordless, Ref.wordless, hin]) hc' | exact .some rfl hc

theorem mention_words (C : Common env env' rec rec') (t : Ty) (i : Bool) {p p' : Params} (hp : p.wordless = p'.wordless)
    {cx cx'} (hc : cx.wordless = cx'.wordless) :
    InStep Ref.wordless (mentionWith env rec t i p cx) (mentionWith env' rec' t i p' cx') := by
  unfold mentionWith
  have h := select_words C t i hp hc
  generalize selectReference env rec t i p cx = x at h ⊢
  generalize selectReference env' rec' t i p' cx' = y at h ⊢
  cases h with
  | none => exact .none
  | @some a b cx1 cx1' h hc =>
    cases a with
    | link n =>
      cases b with
      | link n' =>
        simp only [Ref.wordless, Ref.link.injEq] at h
        subst h
        simp only [wordless_containsKey hc]
        split
        · exact .some rfl hc
        · have h := C.schema t cx1 cx1' hc
          generalize rec t cx1 = x at h ⊢
          generalize rec' t cx1' = y at h ⊢
          cases h with
          | none => exact .none
          | some h hc => exact .some rfl (wordless_insert hc n h)
      | inline m => simp [Ref.wordless] at h
      | any => simp [Ref.wordless] at h
    | inline m =>
      cases b with
      | link n => simp [Ref.wordless] at h
      | inline m' => exact .some h hc
      | any => simp [Ref.wordless] at h
    | any =>
      cases b with
      | link n => simp [Ref.wordless] at h
      | inline m => simp [Ref.wordless] at h
      | any => exact .some rfl hc

theorem eval_params_words (env env' : Env) (p : ParamsExpr) : (p.eval env).wordless = (p.wordless.eval env').wordless := rfl

mutual
theorem refEval_words (C : Common env env' rec rec') : ∀ (e : RefExpr Ty) {cx cx'}, cx.wordless = cx'.wordless →
    InStep Ref.wordless (e.eval env rec cx) (e.wordless.eval env' rec' cx')
  | .mention t i p, cx, cx', hc => mention_words C t i (eval_params_words env env' p) hc
  | .inline m, cx, cx', hc => by
    have h := modelEval_words C m hc
    simp only [RefExpr.wordless, RefExpr.eval]
    generalize m.eval env rec cx = x at h ⊢
    generalize m.wordless.eval env' rec' cx' = y at h ⊢
    cases h with
    | none => exact .none
    | some h hc => exact .some (by rw [Ref.wordless, Ref.wordless, h]) hc
  | .any, cx, cx', hc => .some rfl hc
theorem modelEval_words (C : Common env env' rec rec') : ∀ (e : ModelExpr Ty) {cx cx'}, cx.wordless = cx'.wordless →
    InStep Model.wordless (e.eval env rec cx) (e.wordless.eval env' rec' cx')
  | .getSchema t, cx, cx', hc => C.schema t _ _ hc
  | .getSchemaWithParams t p, cx, cx', hc => by
    have h := C.schema t _ _ hc
    simp only [ModelExpr.wordless, ModelExpr.eval]
    generalize rec t cx = x at h ⊢
    generalize rec' t cx' = y at h ⊢
    cases h with
    | none => exact .none
    | some h hc => exact .some (applyParams_words h (eval_params_words env env' p)) hc
  | .single d n td, cx, cx', hc => by
    have h := typeEval_words C td hc
    simp only [ModelExpr.wordless, ModelExpr.eval]
    generalize td.eval env rec cx = x at h ⊢
    generalize td.wordless.eval env' rec' cx' = y at h ⊢
    cases h with
    | none => exact .none
    | some h hc => exact .some (by simp only [Model.wordless, ModelData.wordless, h]) hc
  | .oneOf d rs, cx, cx', hc => by
    have h := refsEval_words C rs hc
    simp only [ModelExpr.wordless, ModelExpr.eval]
    generalize RefExpr.evalList env rec rs cx = x at h ⊢
    generalize RefExpr.evalList env' rec' (RefExpr.wordlessList rs) cx' = y at h ⊢
    cases h with
    | none => exact .none
    | some h hc => exact .some (by simp only [Model.wordless, ModelData.wordless, h]) hc
  | .tagged m a b c d, cx, cx', hc => by
    have h := modelEval_words C m hc
    simp only [ModelExpr.wordless, ModelExpr.eval]
    generalize m.eval env rec cx = x at h ⊢
    generalize m.wordless.eval env' rec' cx' = y at h ⊢
    cases h with
    | none => exact .none
    | some h hc => exact .some (by rw [tryMerge_wordless, tryMerge_wordless, h]; rfl) hc
theorem typeEval_words (C : Common env env' rec rec') : ∀ (e : TypeExpr Ty) {cx cx'}, cx.wordless = cx'.wordless →
    InStep TypeDesc.wordless (e.eval env rec cx) (e.wordless.eval env' rec' cx')
  | .string v f e, cx, cx', hc => .some rfl hc
  | .number f e, cx, cx', hc => .some rfl hc
  | .integer f e, cx, cx', hc => .some rfl hc
  | .boolean, cx, cx', hc => .some rfl hc
  | .array r, cx, cx', hc => by
    have h := refEval_words C r hc
    simp only [TypeExpr.wordless, TypeExpr.eval]
    generalize r.eval env rec cx = x at h ⊢
    generalize r.wordless.eval env' rec' cx' = y at h ⊢
    cases h with
    | none => exact .none
    | some h hc => exact .some (by simp only [TypeDesc.wordless, h]) hc
  | .object es, cx, cx', hc => by
    have h := propsEval_words C es (ps := []) (ps' := []) (rq := []) rfl hc
    simp only [TypeExpr.wordless, TypeExpr.eval]
    generalize PropExpr.evalList env rec es [] [] cx = x at h ⊢
    generalize PropExpr.evalList env' rec' (PropExpr.wordlessList es) [] [] cx' = y at h ⊢
    cases h with
    | none => exact .none
    | @some a b _ _ h hc =>
      obtain ⟨p, q⟩ := a
      obtain ⟨p', q'⟩ := b
      simp only [Prod.mk.injEq] at h
      exact .some (by simp only [TypeDesc.wordless, h]) hc
  | .dictionary r, cx, cx', hc => by
    have h := refEval_words C r hc
    simp only [TypeExpr.wordless, TypeExpr.eval]
    generalize r.eval env rec cx = x at h ⊢
    generalize r.wordless.eval env' rec' cx' = y at h ⊢
    cases h with
    | none => exact .none
    | some h hc => exact .some (by simp only [TypeDesc.wordless, h]) hc
theorem refsEval_words (C : Common env env' rec rec') : ∀ (es : List (RefExpr Ty)) {cx cx'}, cx.wordless = cx'.wordless →
    InStep Ref.wordlessList (RefExpr.evalList env rec es cx) (RefExpr.evalList env' rec' (RefExpr.wordlessList es) cx')
  | [], cx, cx', hc => .some rfl hc
  | r :: rs, cx, cx', hc => by
    have h := refEval_words C r hc
    simp only [RefExpr.wordlessList, RefExpr.evalList]
    generalize r.eval env rec cx = x at h ⊢
    generalize r.wordless.eval env' rec' cx' = y at h ⊢
    cases h with
    | none => exact .none
    | @some a b cx1 cx1' h hc =>
      have h' := refsEval_words C rs hc
      simp only
      generalize RefExpr.evalList env rec rs cx1 = x at h' ⊢
      generalize RefExpr.evalList env' rec' (RefExpr.wordlessList rs) cx1' = y at h' ⊢
      cases h' with
      | none => exact .none
      | some h' hc => exact .some (by simp only [Ref.wordlessList, h, h']) hc
theorem propsEval_words (C : Common env env' rec rec') : ∀ (es : List (PropExpr Ty)) {ps ps' rq cx cx'},
    Ref.wordlessProps ps = Ref.wordlessProps ps' → cx.wordless = cx'.wordless →
    InStep (fun x => (Ref.wordlessProps x.1, x.2)) (PropExpr.evalList env rec es ps rq cx)
      (PropExpr.evalList env' rec' (PropExpr.wordlessList es) ps' rq cx')
  | [], ps, ps', rq, cx, cx', hp, hc => .some (by simp only [hp]) hc
  | .mk n r b :: es, ps, ps', rq, cx, cx', hp, hc => by
    have h := refEval_words C r hc
    simp only [PropExpr.wordlessList, PropExpr.evalList]
    generalize r.eval env rec cx = x at h ⊢
    generalize r.wordless.eval env' rec' cx' = y at h ⊢
    cases h with
    | none => exact .none
    | @some a b cx1 cx1' h hc =>
      refine propsEval_words C es ?_ hc
      have e : ∀ (r : Ref) ps, Ref.wordlessProps (BMap.insert n r ps) = BMap.insert n r.wordless (Ref.wordlessProps ps) := by
        intro r ps
        rw [wordlessProps_eq, wordlessProps_eq]; exact (insert_values Ref.wordless n r ps).symm
      rw [e, e, h, hp]
end

theorem SameButWords.symm (h : SameButWords env env') : SameButWords env' env := fun i => (h i).symm

theorem typeName_words (same : SameButWords env env') : ∀ t, typeName env t = typeName env' t
  | .wrap _ t => typeName_words same t
  | .option t => typeName_words same t
  | .named i => by
    have h1 : (env.decl i).ident = (env'.decl i).ident := (congrArg Container.ident (same i) :)
    have h2 : (env.decl i).attrs.inline = (env'.decl i).attrs.inline := (congrArg (fun c => c.attrs.inline) (same i) :)
    simp only [typeName, Container.typeName, h1, h2]
  | .prim _ | .tuple _ | .seq _ _ | .dict _ _ | .unit | .uuid | .naiveDateTime | .dateTime | .naiveDate => rfl

theorem alwaysInline_words (same : SameButWords env env') (t : Ty) : alwaysInline env t = alwaysInline env' t := by
  cases t with
  | named i => exact (congrArg (fun c => c.attrs.inline) (same i) :)
  | _ => rfl

/-- Runs of `get_schema` in programs that differ in texts only. -/
theorem getSchema_words : ∀ (n : Nat) {env env' : Env}, SameButWords env env' → ∀ (t : Ty) (cx cx' : Components),
    cx.wordless = cx'.wordless → InStep Model.wordless (getSchema env n t cx) (getSchema env' n t cx')
  | 0, _, _, _, _, _, _, _ => .none
  | n + 1, env, env', same, t, cx, cx', hc => by
    have hs := schemaExpr_words same t
    have hr : SameButWords env' env' := fun _ => rfl
    simp only [getSchema]
    cases he : schemaExpr env t with
    | none =>
      rw [he] at hs
      cases he' : schemaExpr env' t with
      | none => exact .none
      | some e' => rw [he'] at hs; cases hs
    | some e =>
      rw [he] at hs
      cases he' : schemaExpr env' t with
      | none => rw [he'] at hs; cases hs
      | some e' =>
        rw [he'] at hs
        have hs : e.wordless = e'.wordless := Option.some.inj hs
        have h1 := modelEval_words (env' := env') (rec' := getSchema env' n)
          ⟨typeName_words same, alwaysInline_words same, getSchema_words n same⟩ e hc
        have h2 := modelEval_words (env := env') (env' := env') (rec := getSchema env' n) (rec' := getSchema env' n)
          ⟨fun _ => rfl, fun _ => rfl, getSchema_words n hr⟩ e' (cx := cx') rfl
        rw [hs] at h1
        exact h1.trans h2.symm

theorem mentionSchema_words (same : SameButWords env env') (n : Nat) (t : Ty) (i : Bool) {p p' : Params}
    (hp : p.wordless = p'.wordless) {cx cx'} (hc : cx.wordless = cx'.wordless) :
    InStep Ref.wordless (mentionSchema env n t i p cx) (mentionSchema env' n t i p' cx') :=
  mention_words ⟨typeName_words same, alwaysInline_words same, getSchema_words n same⟩ t i hp hc

end Verif
