import Verif.Spec.Formats
import Verif.Proof.OpenApiGen
/-!
# Examples in generated schemas
-/

namespace Verif

theorem refsScalars_mem {rs : List Ref} {x} : x ∈ refsScalars rs ↔ ∃ r ∈ rs, x ∈ r.scalars := by
  induction rs with
  | nil => simp [refsScalars]
  | cons r rs ih => simp [refsScalars, ih]

theorem propsScalars_mem {ps : List (String × Ref)} {x} : x ∈ propsScalars ps ↔ ∃ p ∈ ps, x ∈ p.2.scalars := by
  induction ps with
  | nil => simp [propsScalars]
  | cons p ps ih => obtain ⟨k, r⟩ := p; simp [propsScalars, ih]

/-- All examples in it fit. -/
def Ref.Fit (r : Ref) : Prop := ∀ td ∈ r.scalars, ExampleFits td
def Model.Fit (m : Model) : Prop := ∀ td ∈ m.scalars, ExampleFits td
def TypeDesc.Fit (d : TypeDesc) : Prop := ∀ td ∈ d.scalars, ExampleFits td

theorem fits_none {td : TypeDesc} (h : td.exampleText = none) : ExampleFits td := by
  intro e he; rw [h] at he; cases he

theorem fits_string {v f e} : ExampleFits (.string v f e) ↔ ∀ x, e = some x → ∀ l, v = some l → x ∈ l := by
  constructor
  · intro h x hx l hl
    have := h x hx
    cases this with
    | string h => exact h l hl
  · intro h x hx
    exact .string (h x hx)

/-! ## Static condition -/

/-- The example of the metadata is given for a string type, if at all. -/
def ParamsExpr.For (p : ParamsExpr) (t : Ty) : Prop := p.ex = none ∨ ∃ c, Textual c ∧ Around c t

mutual
def RefExpr.Fit : RefExpr Ty → Prop
  | .mention t _ p => p.For t
  | .inline m => m.Fit
  | .any => True
def ModelExpr.Fit : ModelExpr Ty → Prop
  | .getSchema _ => True
  | .getSchemaWithParams t p => p.For t
  | .single _ _ td => td.Fit
  | .oneOf _ rs => RefExpr.FitList rs
  | .tagged m .. => m.Fit
def TypeExpr.Fit : TypeExpr Ty → Prop
  | .string v _ e => ∀ x, e = some x → ∀ l, v = some l → ∃ s ∈ l, x = .lit s
  | .number _ e => e = none
  | .integer _ e => e = none
  | .boolean => True
  | .array items => items.Fit
  | .object es => PropExpr.FitList es
  | .dictionary r => r.Fit
def RefExpr.FitList : List (RefExpr Ty) → Prop
  | [] => True
  | r :: rs => r.Fit ∧ RefExpr.FitList rs
def PropExpr.FitList : List (PropExpr Ty) → Prop
  | [] => True
  | .mk _ r _ :: rest => r.Fit ∧ PropExpr.FitList rest
end

theorem RefExpr.fitList_iff (rs : List (RefExpr Ty)) : RefExpr.FitList rs ↔ ∀ r ∈ rs, r.Fit := by
  induction rs with
  | nil => simp [RefExpr.FitList]
  | cons r rs ih => simp [RefExpr.FitList, ih]

variable {env : Env}

/-- Metadata without example. -/
theorem fit_applyParams {m : Model} {p : Params} (h : m.Fit) (hv : p.variants = none) (hp : p.ex = none) : (m.applyParams p).Fit := by
  obtain ⟨d, data⟩ := m
  cases data with
  | single t =>
    obtain ⟨n, td⟩ := t
    cases td with
    | string v f e =>
      have := h (.string v f e) (by simp [Model.scalars, ModelData.scalars, ModelType.scalars, TypeDesc.scalars])
      intro td htd
      simp only [Model.applyParams, ModelData.applyParams, ModelType.applyParams, TypeDesc.applyParams, hv, hp,
        Model.scalars, ModelData.scalars, ModelType.scalars, TypeDesc.scalars, List.mem_singleton, overrideOpt] at htd
      subst htd
      rw [fits_string] at this ⊢
      exact this
    | number f e =>
      have := h (.number f e) (by simp [Model.scalars, ModelData.scalars, ModelType.scalars, TypeDesc.scalars])
      intro td htd
      simp only [Model.applyParams, ModelData.applyParams, ModelType.applyParams, TypeDesc.applyParams, hv, hp,
        Model.scalars, ModelData.scalars, ModelType.scalars, TypeDesc.scalars, List.mem_singleton, overrideOpt] at htd
      subst htd
      intro x hx
      have := this x hx
      cases this
    | integer f e =>
      have := h (.integer f e) (by simp [Model.scalars, ModelData.scalars, ModelType.scalars, TypeDesc.scalars])
      intro td htd
      simp only [Model.applyParams, ModelData.applyParams, ModelType.applyParams, TypeDesc.applyParams, hv, hp,
        Model.scalars, ModelData.scalars, ModelType.scalars, TypeDesc.scalars, List.mem_singleton, overrideOpt] at htd
      subst htd
      intro x hx
      have := this x hx
      cases this
    | _ => exact h
  | _ => exact h

/-- Built-in string types are documented as strings without a list of values. -/
theorem textual_schema {c : Ty} (hc : Textual c) {m} (h : HasSchema env c m) : ∃ f e, ScalarSchema m (.string none f e) := by
  obtain ⟨cx, cx', h⟩ := h
  rcases hc with rfl | rfl | rfl | rfl | rfl | rfl | rfl <;>
  · rw [schemaReturns_iff rfl] at h
    obtain ⟨n, h⟩ := h
    simp only [ModelExpr.eval, TypeExpr.eval, simpleExpr, Prim.schema, Option.some.injEq, Prod.mk.injEq] at h
    exact ⟨_, _, _, _, h.1.symm⟩

theorem around_textual {c t : Ty} (hc : Textual c) (h : Around c t) {m} (hm : HasSchema env t m) :
    ∃ f e, ScalarSchema m (.string none f e) := by
  induction h generalizing m with
  | here => exact textual_schema hc hm
  | @wrap w t _ ih =>
    obtain ⟨cx, cx', hm⟩ := hm
    rw [schemaReturns_iff (e := .getSchema t) rfl] at hm
    exact ih ⟨cx, cx', hm⟩
  | @option t _ ih =>
    obtain ⟨cx, cx', hm⟩ := hm
    rw [schemaReturns_iff (e := .getSchemaWithParams t { nullable := some true }) rfl] at hm
    obtain ⟨n, hm⟩ := hm
    simp only [ModelExpr.eval] at hm
    cases hg : getSchema env n t cx with
    | none => simp [hg] at hm
    | some x =>
      simp only [hg, Option.some.injEq, Prod.mk.injEq] at hm
      obtain ⟨f, e, d, n', hx⟩ := ih ⟨cx, x.2, n, hg⟩
      obtain ⟨rfl, _⟩ := hm
      rw [hx]
      exact ⟨f, e, d, true, rfl⟩

theorem fit_params {t : Ty} {p : ParamsExpr} (hp : p.For t) {n cx m cx'} (h : getSchema env n t cx = some (m, cx')) (hm : m.Fit) :
    (m.applyParams (p.eval env)).Fit := by
  rcases hp with hp | ⟨c, hc, ha⟩
  · exact fit_applyParams hm rfl (by simp [ParamsExpr.eval, hp])
  · obtain ⟨f, e, d, n', rfl⟩ := around_textual hc ha ⟨cx, cx', n, h⟩
    intro td htd
    simp only [Model.applyParams, ModelData.applyParams, ModelType.applyParams, TypeDesc.applyParams,
        Model.scalars, ModelData.scalars, ModelType.scalars, TypeDesc.scalars, List.mem_singleton] at htd
    subst htd
    rw [fits_string]
    intro x _ l hl
    cases hl

theorem fit_tagged {m : Model} (ident tag name : String) (n : Bool) (h : m.Fit) :
    ((m.tryMerge (internalTagModel ident tag name n)).2).Fit := by
  obtain ⟨d, data⟩ := m
  cases data with
  | single t =>
    obtain ⟨n', td⟩ := t
    cases td with
    | object o =>
      obtain ⟨props, add, req⟩ := o
      have h1 : ∀ td, (∃ p ∈ props, td ∈ p.2.scalars) ∨ td ∈ optScalars add → ExampleFits td := by
        intro td htd
        refine h td ?_
        simpa [Model.scalars, ModelData.scalars, ModelType.scalars, TypeDesc.scalars, propsScalars_mem] using htd
      simp only [Model.tryMerge, internalTagModel, BMap.insert, ModelObject.merge, mergeProps]
      split
      · rename_i heq
        split at heq
        · cases heq
          intro td htd
          refine h1 td ?_
          simpa [Model.scalars, ModelData.scalars, ModelType.scalars, TypeDesc.scalars, propsScalars_mem] using htd
        · cases heq
      · rename_i heq
        split at heq
        · cases heq
        · cases heq
          intro td htd
          simp only [Model.scalars, ModelData.scalars, ModelType.scalars, TypeDesc.scalars, propsScalars_mem,
            List.mem_append] at htd
          rcases htd with ⟨p, hp, htd⟩ | htd
          · rcases BMap.mem_insert_sub hp with e | hp
            · subst e
              simp only [Ref.scalars, Model.scalars, ModelData.scalars, ModelType.scalars, TypeDesc.scalars, List.mem_singleton] at htd
              subst htd
              rw [fits_string]
              rintro x ⟨⟩ l ⟨⟩
              exact .head _
            · exact h1 td (.inl ⟨p, hp, htd⟩)
          · exact h1 td (.inr htd)
    | _ => exact h
  | _ => exact h

theorem mentionWith_fit {n t i p cx r cx'} (hp : ParamsExpr.For p t) (hrec : ∀ cx m cx', getSchema env n t cx = some (m, cx') → m.Fit)
    (h : mentionWith env (getSchema env n) t i (p.eval env) cx = some (r, cx')) : r.Fit := by
  rcases mentionWith_some h with ⟨l, hl, hr, -⟩ | ⟨hl, m, h2, hr⟩
  · subst hr; intro td htd; simp [Ref.scalars] at htd
  · subst hr
    intro td htd
    exact fit_params hp h2 (hrec _ _ _ h2) td (by simpa [Ref.scalars] using htd)

mutual
theorem RefExpr.eval_fit {n} (e : RefExpr Ty) {cx r cx'} (hl : e.Fit)
    (hrec : ∀ t b, (t, b) ∈ e.asked → ∀ cx m cx', getSchema env n t cx = some (m, cx') → m.Fit)
    (h : e.eval env (getSchema env n) cx = some (r, cx')) : r.Fit := by
  match e with
  | .mention t i p =>
    rw [RefExpr.eval] at h
    exact mentionWith_fit hl (hrec t _ (by simp only [RefExpr.asked]; exact .head _)) h
  | .inline m =>
    rw [RefExpr.eval] at h
    split at h
    · cases h
    · rename_i m' cx1 h1
      cases h
      simp only [RefExpr.Fit] at hl
      simp only [RefExpr.asked] at hrec
      have := ModelExpr.eval_fit m hl hrec h1
      intro td htd
      exact this td (by simpa [Ref.scalars] using htd)
  | .any =>
    rw [RefExpr.eval] at h
    cases h
    intro td htd; simp [Ref.scalars] at htd
theorem ModelExpr.eval_fit {n} (e : ModelExpr Ty) {cx m cx'} (hl : e.Fit)
    (hrec : ∀ t b, (t, b) ∈ e.asked → ∀ cx m cx', getSchema env n t cx = some (m, cx') → m.Fit)
    (h : e.eval env (getSchema env n) cx = some (m, cx')) : m.Fit := by
  match e with
  | .getSchema t =>
    rw [ModelExpr.eval] at h
    exact hrec t _ (by simp only [ModelExpr.asked]; exact .head _) _ _ _ h
  | .getSchemaWithParams t p =>
    rw [ModelExpr.eval] at h
    split at h
    · cases h
    · rename_i m' cx1 h1
      cases h
      simp only [ModelExpr.Fit] at hl
      exact fit_params hl h1 (hrec t _ (by simp only [ModelExpr.asked]; exact .head _) _ _ _ h1)
  | .single d k td =>
    rw [ModelExpr.eval] at h
    split at h
    · cases h
    · rename_i m' cx1 h1
      cases h
      simp only [ModelExpr.Fit] at hl
      simp only [ModelExpr.asked] at hrec
      have := TypeExpr.eval_fit td hl hrec h1
      intro td htd
      exact this td (by simpa [Model.scalars, ModelData.scalars, ModelType.scalars] using htd)
  | .oneOf d rs =>
    rw [ModelExpr.eval] at h
    split at h
    · cases h
    · rename_i rs' cx1 h1
      cases h
      simp only [ModelExpr.Fit] at hl
      simp only [ModelExpr.asked] at hrec
      have := RefExpr.evalList_fit rs hl hrec h1
      intro td htd
      simp only [Model.scalars, ModelData.scalars, refsScalars_mem] at htd
      obtain ⟨r, hr, htd⟩ := htd
      exact this r hr td htd
  | .tagged m' i t k b =>
    rw [ModelExpr.eval] at h
    split at h
    · cases h
    · rename_i m' cx1 h1
      cases h
      simp only [ModelExpr.Fit] at hl
      simp only [ModelExpr.asked] at hrec
      exact fit_tagged _ _ _ _ (ModelExpr.eval_fit _ hl hrec h1)
theorem TypeExpr.eval_fit {n} (e : TypeExpr Ty) {cx d cx'} (hl : e.Fit)
    (hrec : ∀ t b, (t, b) ∈ e.asked → ∀ cx m cx', getSchema env n t cx = some (m, cx') → m.Fit)
    (h : e.eval env (getSchema env n) cx = some (d, cx')) : d.Fit := by
  match e with
  | .string v f x =>
    rw [TypeExpr.eval] at h
    cases h
    simp only [TypeExpr.Fit] at hl
    intro td htd
    simp only [TypeDesc.scalars, List.mem_singleton] at htd
    subst htd
    rw [fits_string]
    intro y hy l hv
    cases x with
    | none => cases hy
    | some x =>
      obtain ⟨s, hs, rfl⟩ := hl x rfl l hv
      cases hy
      exact hs
  | .number f x =>
    rw [TypeExpr.eval] at h
    cases h
    simp only [TypeExpr.Fit] at hl
    subst hl
    intro td htd
    simp only [TypeDesc.scalars, List.mem_singleton] at htd
    subst htd
    exact fits_none rfl
  | .integer f x =>
    rw [TypeExpr.eval] at h
    cases h
    simp only [TypeExpr.Fit] at hl
    subst hl
    intro td htd
    simp only [TypeDesc.scalars, List.mem_singleton] at htd
    subst htd
    exact fits_none rfl
  | .boolean =>
    rw [TypeExpr.eval] at h
    cases h
    intro td htd
    simp only [TypeDesc.scalars, List.mem_singleton] at htd
    subst htd
    exact fits_none rfl
  | .array r =>
    rw [TypeExpr.eval] at h
    split at h
    · cases h
    · rename_i r' cx1 h1
      cases h
      simp only [TypeExpr.Fit] at hl
      simp only [TypeExpr.asked] at hrec
      have := RefExpr.eval_fit r hl hrec h1
      intro td htd
      exact this td (by simpa [TypeDesc.scalars] using htd)
  | .object es =>
    rw [TypeExpr.eval] at h
    split at h
    · cases h
    · rename_i props req cx1 h1
      cases h
      simp only [TypeExpr.Fit] at hl
      simp only [TypeExpr.asked] at hrec
      have := PropExpr.evalList_fit es hl hrec (by simp) h1
      intro td htd
      simp only [TypeDesc.scalars, propsScalars_mem, optScalars, List.append_nil] at htd
      obtain ⟨p, hp, htd⟩ := htd
      exact this p hp td htd
  | .dictionary r =>
    rw [TypeExpr.eval] at h
    split at h
    · cases h
    · rename_i r' cx1 h1
      cases h
      simp only [TypeExpr.Fit] at hl
      simp only [TypeExpr.asked] at hrec
      have := RefExpr.eval_fit r hl hrec h1
      intro td htd
      exact this td (by simpa [TypeDesc.scalars, propsScalars, optScalars] using htd)
theorem RefExpr.evalList_fit {n} (rs : List (RefExpr Ty)) {cx rs' cx'} (hl : RefExpr.FitList rs)
    (hrec : ∀ t b, (t, b) ∈ RefExpr.askedList rs → ∀ cx m cx', getSchema env n t cx = some (m, cx') → m.Fit)
    (h : RefExpr.evalList env (getSchema env n) rs cx = some (rs', cx')) : ∀ r ∈ rs', r.Fit := by
  match rs with
  | [] =>
    rw [RefExpr.evalList] at h
    cases h
    simp
  | r :: rs =>
    rw [RefExpr.evalList] at h
    split at h
    · cases h
    · rename_i r' cx1 h1
      split at h
      · cases h
      · rename_i rs1 cx2 h2
        cases h
        simp only [RefExpr.FitList] at hl
        simp only [RefExpr.askedList, List.mem_append] at hrec
        have a := RefExpr.eval_fit r hl.1 (fun t b ht => hrec t b (.inl ht)) h1
        have b := RefExpr.evalList_fit rs hl.2 (fun t b ht => hrec t b (.inr ht)) h2
        intro x hx
        rcases List.mem_cons.1 hx with e | hx
        · subst e; exact a
        · exact b x hx
theorem PropExpr.evalList_fit {n} (es : List (PropExpr Ty)) {props req props' req' cx cx'} (hl : PropExpr.FitList es)
    (hrec : ∀ t b, (t, b) ∈ PropExpr.askedList es → ∀ cx m cx', getSchema env n t cx = some (m, cx') → m.Fit)
    (hp : ∀ p ∈ props, p.2.Fit)
    (h : PropExpr.evalList env (getSchema env n) es props req cx = some ((props', req'), cx')) : ∀ p ∈ props', p.2.Fit := by
  match es with
  | [] =>
    rw [PropExpr.evalList] at h
    cases h
    exact hp
  | .mk name r q :: es =>
    rw [PropExpr.evalList] at h
    split at h
    · cases h
    · rename_i r' cx1 h1
      simp only [PropExpr.FitList] at hl
      simp only [PropExpr.askedList, List.mem_append] at hrec
      have a := RefExpr.eval_fit r hl.1 (fun t b ht => hrec t b (.inl ht)) h1
      refine PropExpr.evalList_fit es hl.2 (fun t b ht => hrec t b (.inr ht)) ?_ h
      intro p hp'
      rcases BMap.mem_insert_sub hp' with e | hp'
      · subst e; exact a
      · exact hp p hp'
end

/-! ## Generated code -/

theorem fieldModelReference_fit {p : ParamsExpr} {f : Field Ty} {i : Bool}
    (h : ExampleHere p.ex f.attrs.explicitModelType f.ty) : (fieldModelReference p f i).Fit := by
  unfold fieldModelReference
  split
  · trivial
  · rename_i t hne ht
    rw [ht] at h
    simp only [RefExpr.Fit, newtypeModel, ModelExpr.Fit]
    cases t with
    | string => simp [TypeExpr.Fit]
    | boolean | any => trivial
    | integer | number =>
      rcases h with h | h
      · exact h
      · exact h.elim
  · rename_i ht
    rw [ht] at h
    exact h

theorem field_fit {f : Field Ty} {i : Bool} (h : f.ExampleHere) : (fieldModelReference f.attrs.params f i).Fit :=
  fieldModelReference_fit h

theorem object_fit {fs : List (Field Ty)} {pred : Field Ty → Bool} (h : ∀ f ∈ fs, f.ExampleHere) :
    (objectTypeDescription fs pred).Fit := by
  rw [objectTypeDescription, TypeExpr.Fit]
  have h' : ∀ f ∈ fs.filter (fun f => !f.attrs.skipSerializing), f.ExampleHere := fun f hf => h f (List.mem_filter.1 hf).1
  generalize fs.filter (fun f => !f.attrs.skipSerializing) = gs at h'
  induction gs with
  | nil => trivial
  | cons f fs ih => exact ⟨field_fit (h' f (.head _)), ih fun f hf => h' f (.tail _ hf)⟩

theorem tuple_fit {fs : List (Field Ty)} {pred : Field Ty → Bool} (h : ∀ f ∈ fs, f.ExampleHere) :
    (tupleTypeDescription fs pred).Fit := by
  rw [tupleTypeDescription]
  simp only [TypeExpr.Fit, RefExpr.Fit, ModelExpr.Fit, RefExpr.fitList_iff]
  intro r hr
  obtain ⟨f, hf, rfl⟩ := List.mem_map.1 hr
  exact field_fit (h f hf)

theorem names_fit (names : List String) (f) : (TypeExpr.string (some names) f (names.head?.map .lit) : TypeExpr Ty).Fit := by
  simp only [TypeExpr.Fit]
  rintro x hx l ⟨⟩
  cases names with
  | nil => cases hx
  | cons a as => cases hx; exact ⟨a, .head _, rfl⟩

/-- What `TextExamples` says of one variant. -/
def VariantExamples (v : Variant Ty) : Prop :=
  match v.style with
  | .newType => ∀ f rest, v.fields = f :: rest →
      (f.attrs.ex.or v.attrs.ex = none ∨ (f.attrs.explicitModelType = none ∧ ∃ c, Textual c ∧ Around c f.ty))
  | _ => ∀ f ∈ v.fields, f.ExampleHere


theorem newtypeVariant_fit {v : Variant Ty} {r} (hs : v.style = .newType) (hv : VariantExamples v)
    (h : newtypeVariantReference v = .ok r) : r.Fit := by
  rw [VariantExamples, hs] at hv
  unfold newtypeVariantReference at h
  split at h
  · cases h
  · rename_i f rest hf
    cases h
    refine fieldModelReference_fit ?_
    rw [show (f.attrs.params.or v.attrs.params).ex = f.attrs.ex.or v.attrs.ex from optOr_eq _ _]
    rcases hv f rest hf with h | ⟨h1, h2⟩
    · exact .inl h
    · rw [h1]; exact .inr h2

theorem variant_fields {v : Variant Ty} (hs : v.style ≠ .newType) (hv : VariantExamples v) : ∀ f ∈ v.fields, f.ExampleHere := by
  unfold VariantExamples at hv
  split at hv
  · contradiction
  · exact hv

theorem untagged_fit {v : Variant Ty} {r} (hv : VariantExamples v) (h : untaggedAlternative v = .ok r) : r.Fit := by
  unfold untaggedAlternative at h
  split at h
  · exact newtypeVariant_fit ‹_› hv h
  · cases h
    simp only [RefExpr.Fit, objectModel, ModelExpr.Fit]
    exact object_fit (variant_fields (by simp [*]) hv)
  · cases h

theorem adjacent_fit {v : Variant Ty} {r} (hv : VariantExamples v) (h : adjacentAlternative v = .ok r) : r.Fit := by
  unfold adjacentAlternative at h
  split at h
  · exact newtypeVariant_fit ‹_› hv h
  · cases h
    simp only [RefExpr.Fit, tupleModel, ModelExpr.Fit]
    exact tuple_fit (variant_fields (by simp [*]) hv)
  · cases h
    simp only [RefExpr.Fit, tupleModel, ModelExpr.Fit]
    exact tuple_fit (variant_fields (by simp [*]) hv)
  · cases h

theorem external_fit {v : Variant Ty} {r} (hv : VariantExamples v) (h : externalAlternative v = .ok r) : r.Fit := by
  unfold externalAlternative at h
  split at h
  · cases h
    simp [RefExpr.Fit, ModelExpr.Fit, TypeExpr.Fit]
  · exact newtypeVariant_fit ‹_› hv h
  · cases h
    simp only [RefExpr.Fit, tupleModel, ModelExpr.Fit]
    exact tuple_fit (variant_fields (by simp [*]) hv)
  · cases h
    simp only [RefExpr.Fit, objectModel, ModelExpr.Fit]
    exact object_fit (variant_fields (by simp [*]) hv)

theorem internal_fit {c : Container Ty} {tag} {v : Variant Ty} {r} (hv : VariantExamples v)
    (h : internalAlternative c tag v = .ok r) : r.Fit := by
  unfold internalAlternative at h
  split at h
  · cases h
  · rename_i m hm
    cases h
    simp only [RefExpr.Fit, ModelExpr.Fit]
    unfold internalInner at hm
    split at hm
    · cases hm
      simp only [objectModel, ModelExpr.Fit]
      exact object_fit (by simp)
    · rename_i hs
      split at hm
      · cases hm
      · rename_i f rest hf
        cases hm
        simp only [ModelExpr.Fit, ParamsExpr.For]
        rw [VariantExamples, hs] at hv
        rw [show (f.attrs.params.or v.attrs.params).ex = f.attrs.ex.or v.attrs.ex from optOr_eq _ _]
        rcases hv f rest hf with h | ⟨h1, h2⟩
        · exact .inl h
        · exact .inr h2
    · cases hm
      simp only [objectModel, ModelExpr.Fit]
      exact object_fit (variant_fields (by simp [*]) hv)
    · cases hm

theorem alternatives_fit {alt : Variant Ty → Except MacroPanic (RefExpr Ty)} {vs rs}
    (ha : ∀ v r, VariantExamples v → alt v = .ok r → r.Fit) (hv : ∀ v ∈ vs, VariantExamples v)
    (hm : mapExcept alt (serialVariants vs) = .ok rs) : RefExpr.FitList rs := by
  rw [RefExpr.fitList_iff]
  intro r hr
  obtain ⟨v, hv', hvr⟩ := (mapExcept_ok hm).mem_right hr
  exact ha v r (hv v (List.mem_filter.1 hv').1) hvr

theorem serializeBody_fit {c : Container Ty} {e} (hc : TextExamples c) (h : serializeBody c = .ok e) : e.Fit := by
  unfold serializeBody at h
  unfold TextExamples at hc
  split at h
  · rename_i vs hd
    rw [hd] at hc
    obtain ⟨hrep, hv⟩ := hc
    replace hv : ∀ v ∈ vs, VariantExamples v := hv
    unfold serializeEnum at h
    split at h
    · cases h
      unfold serializeNewtypeEnum
      split
      · rename_i hr
        simp only [ModelExpr.Fit, RefExpr.fitList_iff]
        intro r hr'
        obtain ⟨v, hv', hvr⟩ := List.mem_filterMap.1 hr'
        rw [reprAlternative, hrep hr v (List.mem_filter.1 hv').1] at hvr
        cases hvr
      · exact names_fit _ _
    · unfold serializeAdjacentEnum at h
      split at h
      · cases h
      · rename_i rs hm
        cases h
        simp only [ModelExpr.Fit, PropExpr.FitList, RefExpr.Fit, TypeExpr.Fit]
        exact ⟨names_fit _ none, alternatives_fit (fun v r => adjacent_fit) hv hm, trivial⟩
    · unfold serializeExternalEnum at h
      split at h
      · cases h
      · rename_i rs hm
        cases h
        simp only [ModelExpr.Fit, RefExpr.Fit, TypeExpr.Fit]
        exact alternatives_fit (fun v r => external_fit) hv hm
    · unfold serializeUntaggedEnum at h
      split at h
      · cases h
      · rename_i rs hm
        cases h
        simp only [ModelExpr.Fit]
        exact alternatives_fit (fun v r => untagged_fit) hv hm
    · unfold serializeInternalEnum at h
      split at h
      · cases h
      · rename_i rs hm
        cases h
        simp only [ModelExpr.Fit]
        exact alternatives_fit (fun v r => internal_fit) hv hm
    · cases h
  · rename_i fs hd
    rw [hd] at hc
    cases h
    simp only [serializeStruct, ModelExpr.Fit]
    exact object_fit hc
  · rename_i fs hd
    rw [hd] at hc
    cases h
    simp only [serializeTupleStruct, ModelExpr.Fit]
    exact tuple_fit hc
  · rename_i fs hd
    rw [hd] at hc
    split at h
    · cases h
    · rename_i f rest
      have hc := hc f rest rfl
      unfold serializeNewtypeStruct at h
      simp only at h
      split at h
      · cases h
      · rename_i t hne ht
        cases h
        rw [ht] at hc
        simp only [newtypeModel, ModelExpr.Fit]
        cases t with
        | string => simp [TypeExpr.Fit]
        | boolean | any => trivial
        | integer | number =>
          simp only [TypeExpr.Fit]
          rcases hc with hc | hc
          · rw [← hc]; exact optOr_eq _ _
          · exact hc.elim
      · rename_i ht
        cases h
        rw [ht] at hc
        simp only [ModelExpr.Fit, ParamsExpr.For]
        rw [show (f.attrs.params.or c.attrs.params).ex = f.attrs.ex.or c.attrs.ex from optOr_eq _ _]
        exact hc
  · cases h

theorem schemaExpr_fit {t : Ty} {e} (hc : ∀ i, t = .named i → TextExamples (env.decl i)) (h : schemaExpr env t = some e) : e.Fit := by
  cases t with
  | prim p => cases h; cases p <;> simp [ModelExpr.Fit, simpleExpr, Prim.schema, TypeExpr.Fit]
  | wrap w t => cases h; trivial
  | option t => cases h; exact .inl rfl
  | tuple ts =>
    cases h
    simp only [ModelExpr.Fit, TypeExpr.Fit, RefExpr.Fit, RefExpr.fitList_iff]
    intro r hr
    obtain ⟨t, -, rfl⟩ := List.mem_map.1 hr
    exact .inl rfl
  | seq k t => cases h; exact .inl rfl
  | dict k t => cases h; exact .inl rfl
  | unit => cases h; simp [ModelExpr.Fit, TypeExpr.Fit]
  | uuid => cases h; simp [ModelExpr.Fit, TypeExpr.Fit]
  | naiveDateTime => cases h; simp [ModelExpr.Fit, TypeExpr.Fit]
  | dateTime => cases h; simp [ModelExpr.Fit, TypeExpr.Fit]
  | naiveDate => cases h; simp [ModelExpr.Fit, TypeExpr.Fit]
  | named i =>
    rw [schemaExpr] at h
    split at h
    · rename_i body hb
      cases h
      exact serializeBody_fit (hc i rfl) hb
    · cases h

theorem getSchema_fit {roots : List (Ty × Bool)} (hl : ∀ i, Reached env roots (.named i) → TextExamples (env.decl i)) (n : Nat) :
    ∀ t, Reached env roots t → ∀ cx m cx', getSchema env n t cx = some (m, cx') → m.Fit := by
  induction n with
  | zero => intro t _ cx m cx' h; simp [getSchema] at h
  | succ n ih =>
    intro t ht cx m cx' h
    rw [getSchema] at h
    split at h
    · cases h
    · rename_i e he
      exact ModelExpr.eval_fit e (schemaExpr_fit (fun i hi => hl i (hi ▸ ht)) he) (fun t' b hb => ih t' (.step ht ⟨e, he, hb⟩)) h

end Verif
