import Verif.Spec.Shapes
import Verif.Proof.Returns
import Verif.Proof.DerivePanic
/-!
# Evaluating the derived bodies
-/

namespace Verif

variable {env : Env}

/-! ## Pointwise -/

theorem Pointwise.imp {α β : Type} {R S : α → β → Prop} {as bs} (h : Pointwise R as bs) (hi : ∀ a b, R a b → S a b) :
    Pointwise S as bs := by
  induction h with
  | nil => exact .nil
  | cons h _ ih => exact .cons (hi _ _ h) ih

theorem Pointwise.map_left {α β γ : Type} {R : β → γ → Prop} {f : α → β} {as : List α} {bs}
    (h : Pointwise R (as.map f) bs) : Pointwise (fun a b => R (f a) b) as bs := by
  generalize hl : as.map f = l at h
  induction h generalizing as with
  | nil => cases as with
    | nil => exact .nil
    | cons => cases hl
  | cons h _ ih =>
    cases as with
    | nil => cases hl
    | cons a as => simp only [List.map_cons, List.cons.injEq] at hl; obtain ⟨rfl, hl⟩ := hl; exact .cons h (ih hl)

theorem Pointwise.trans {α β γ : Type} {R : α → β → Prop} {S : β → γ → Prop} {as bs cs} (h : Pointwise R as bs)
    (h' : Pointwise S bs cs) : Pointwise (fun a c => ∃ b, R a b ∧ S b c) as cs := by
  induction h generalizing cs with
  | nil => cases h'; exact .nil
  | cons h _ ih => cases h' with
    | cons h' ht' => exact .cons ⟨_, h, h'⟩ (ih ht')

theorem Pointwise.get {α β : Type} {R : α → β → Prop} {as bs} (h : Pointwise R as bs) {i : Nat} {a}
    (ha : as[i]? = some a) : ∃ b, bs[i]? = some b ∧ R a b := by
  induction h generalizing i with
  | nil => simp at ha
  | cons h _ ih =>
    cases i with
    | zero => simp at ha ⊢; subst ha; exact h
    | succ i => simp at ha ⊢; exact ih ha

theorem mapExcept_ok {ε α β : Type} {f : α → Except ε β} {as : List α} {bs} (h : mapExcept f as = .ok bs) :
    Pointwise (fun a b => f a = .ok b) as bs := by
  induction as generalizing bs with
  | nil => cases h; exact .nil
  | cons a as ih =>
    simp only [mapExcept] at h
    split at h
    · cases h
    · split at h
      · cases h
      · cases h; exact .cons (by assumption) (ih (by assumption))

/-! ## Yields -/

/-- Property name, reference and required flag of a property expression. -/
def PropExpr.nm : PropExpr Ty → String
  | .mk n _ _ => n
def PropExpr.rf : PropExpr Ty → RefExpr Ty
  | .mk _ r _ => r
def PropExpr.rq : PropExpr Ty → Bool
  | .mk _ _ b => b

mutual
/-- An expression can evaluate to `r`, given what its mentions and calls of `get_schema` can return. -/
def RefExpr.Yields (k : Docs) : RefExpr Ty → Ref → Prop
  | .mention t i p, r => k.mention t i (p.eval k.env) r
  | .inline e, r => ∃ m, e.Yields k m ∧ r = .inline m
  | .any, r => r = .any
def ModelExpr.Yields (k : Docs) : ModelExpr Ty → Model → Prop
  | .getSchema t, m => k.schema t m
  | .getSchemaWithParams t p, m => ∃ m₀, k.schema t m₀ ∧ m = m₀.applyParams (p.eval k.env)
  | .single d b td, m => ∃ td', td.Yields k td' ∧ m = ⟨d, .single ⟨b, td'⟩⟩
  | .oneOf d rs, m => ∃ rs', RefExpr.YieldsList k rs rs' ∧ m = ⟨d, .oneOf rs'⟩
  | .tagged e id t v b, m => ∃ m₀, e.Yields k m₀ ∧ m = (m₀.tryMerge (internalTagModel id t v b)).2
def TypeExpr.Yields (k : Docs) : TypeExpr Ty → TypeDesc → Prop
  | .string v f e, td => td = .string v f (e.map (Example.eval k.env))
  | .number f e, td => td = .number f (e.map (Example.eval k.env))
  | .integer f e, td => td = .integer f (e.map (Example.eval k.env))
  | .boolean, td => td = .boolean
  | .array e, td => ∃ r, e.Yields k r ∧ td = .array r
  | .object es, td => ∃ rs, PropExpr.YieldsList k es rs ∧
      td = .object ⟨BMap.insertAll ((es.map PropExpr.nm).zip rs) [], none, (es.filter PropExpr.rq).map PropExpr.nm⟩
  | .dictionary e, td => ∃ r, e.Yields k r ∧ td = .object ⟨[], some r, []⟩
def RefExpr.YieldsList (k : Docs) : List (RefExpr Ty) → List Ref → Prop
  | [], rs => rs = []
  | e :: es, rs => ∃ r rest, e.Yields k r ∧ RefExpr.YieldsList k es rest ∧ rs = r :: rest
def PropExpr.YieldsList (k : Docs) : List (PropExpr Ty) → List Ref → Prop
  | [], rs => rs = []
  | .mk _ e _ :: es, rs => ∃ r rest, e.Yields k r ∧ PropExpr.YieldsList k es rest ∧ rs = r :: rest
end

variable {k : Docs}

theorem yields_mention {t i p r} (h : (RefExpr.mention t i p : RefExpr Ty).Yields k r) :
    k.mention t i (p.eval k.env) r := by simpa only [RefExpr.Yields] using h

theorem yields_inline {e r} (h : (RefExpr.inline e : RefExpr Ty).Yields k r) : ∃ m, e.Yields k m ∧ r = .inline m := by
  simpa only [RefExpr.Yields] using h

theorem yields_any {r} (h : (RefExpr.any : RefExpr Ty).Yields k r) : r = .any := by simpa only [RefExpr.Yields] using h

theorem yields_single {d b td m} (h : (ModelExpr.single d b td : ModelExpr Ty).Yields k m) :
    ∃ td', td.Yields k td' ∧ m = ⟨d, .single ⟨b, td'⟩⟩ := by simpa only [ModelExpr.Yields] using h

theorem yieldsList_pointwise {es rs} (h : RefExpr.YieldsList k es rs) : Pointwise (RefExpr.Yields k) es rs := by
  induction es generalizing rs with
  | nil => simp only [RefExpr.YieldsList] at h; subst h; exact .nil
  | cons e es ih =>
    simp only [RefExpr.YieldsList] at h
    obtain ⟨r, rest, hr, ht, rfl⟩ := h
    exact .cons hr (ih ht)

theorem yieldsProps_pointwise {es rs} (h : PropExpr.YieldsList k es rs) :
    Pointwise (fun e r => (PropExpr.rf e).Yields k r) es rs := by
  induction es generalizing rs with
  | nil => simp only [PropExpr.YieldsList] at h; subst h; exact .nil
  | cons e es ih =>
    obtain ⟨n, e, b⟩ := e
    simp only [PropExpr.YieldsList] at h
    obtain ⟨r, rest, hr, ht, rfl⟩ := h
    exact .cons hr (ih ht)

theorem yields_oneOf {d rs m} (h : (ModelExpr.oneOf d rs : ModelExpr Ty).Yields k m) :
    ∃ rs', Pointwise (RefExpr.Yields k) rs rs' ∧ m = ⟨d, .oneOf rs'⟩ := by
  simp only [ModelExpr.Yields] at h
  obtain ⟨rs', h, e⟩ := h
  exact ⟨rs', yieldsList_pointwise h, e⟩

theorem yields_tagged {e id t v b m} (h : (ModelExpr.tagged e id t v b : ModelExpr Ty).Yields k m) :
    ∃ m₀, e.Yields k m₀ ∧ m = (m₀.tryMerge (internalTagModel id t v b)).2 := by simpa only [ModelExpr.Yields] using h

theorem yields_getSchema {t m} (h : (ModelExpr.getSchema t : ModelExpr Ty).Yields k m) : k.schema t m := by
  simpa only [ModelExpr.Yields] using h

theorem yields_getSchemaWithParams {t p m} (h : (ModelExpr.getSchemaWithParams t p : ModelExpr Ty).Yields k m) :
    ∃ m₀, k.schema t m₀ ∧ m = m₀.applyParams (p.eval k.env) := by simpa only [ModelExpr.Yields] using h

theorem yields_string {v f e td} (h : (TypeExpr.string v f e : TypeExpr Ty).Yields k td) :
    td = .string v f (e.map (Example.eval k.env)) := by simpa only [TypeExpr.Yields] using h

theorem yields_integer {f e td} (h : (TypeExpr.integer f e : TypeExpr Ty).Yields k td) :
    td = .integer f (e.map (Example.eval k.env)) := by simpa only [TypeExpr.Yields] using h

theorem yields_number {f e td} (h : (TypeExpr.number f e : TypeExpr Ty).Yields k td) :
    td = .number f (e.map (Example.eval k.env)) := by simpa only [TypeExpr.Yields] using h

theorem yields_boolean {td} (h : (TypeExpr.boolean : TypeExpr Ty).Yields k td) : td = .boolean := by
  simpa only [TypeExpr.Yields] using h

theorem yields_array {e td} (h : (TypeExpr.array e : TypeExpr Ty).Yields k td) : ∃ r, e.Yields k r ∧ td = .array r := by
  simpa only [TypeExpr.Yields] using h

theorem yields_dictionary {e td} (h : (TypeExpr.dictionary e : TypeExpr Ty).Yields k td) :
    ∃ r, e.Yields k r ∧ td = .object ⟨[], some r, []⟩ := by simpa only [TypeExpr.Yields] using h

theorem yields_object {es td} (h : (TypeExpr.object es : TypeExpr Ty).Yields k td) :
    ∃ rs, Pointwise (fun e r => (PropExpr.rf e).Yields k r) es rs ∧
      td = .object ⟨BMap.insertAll ((es.map PropExpr.nm).zip rs) [], none, (es.filter PropExpr.rq).map PropExpr.nm⟩ := by
  simp only [TypeExpr.Yields] at h
  obtain ⟨rs, h, e⟩ := h
  exact ⟨rs, yieldsProps_pointwise h, e⟩

/-! What the generated code returns is what the expressions yield. -/

mutual
theorem ref_yields {n} : ∀ (e : RefExpr Ty) {cx r cx'}, e.eval env (getSchema env n) cx = some (r, cx') → e.Yields env r
  | .mention t i p, cx, r, cx', h => by
    simp only [RefExpr.Yields]
    exact ⟨cx, cx', n, h⟩
  | .inline e, cx, r, cx', h => by
    simp only [RefExpr.eval] at h
    split at h
    · cases h
    · rename_i m cx'' hm
      cases h
      simp only [RefExpr.Yields]
      exact ⟨m, model_yields e hm, rfl⟩
  | .any, cx, r, cx', h => by
    simp only [RefExpr.eval, Option.some.injEq, Prod.mk.injEq] at h
    simp only [RefExpr.Yields]
    exact h.1.symm
theorem model_yields {n} : ∀ (e : ModelExpr Ty) {cx r cx'}, e.eval env (getSchema env n) cx = some (r, cx') → e.Yields env r
  | .getSchema t, cx, r, cx', h => by
    simp only [ModelExpr.Yields]
    exact ⟨cx, cx', n, h⟩
  | .getSchemaWithParams t p, cx, r, cx', h => by
    simp only [ModelExpr.eval] at h
    split at h
    · cases h
    · rename_i m' cx'' ht
      cases h
      simp only [ModelExpr.Yields]
      exact ⟨m', ⟨cx, _, n, ht⟩, rfl⟩
  | .single d b td, cx, r, cx', h => by
    simp only [ModelExpr.eval] at h
    split at h
    · cases h
    · rename_i m cx'' hm
      cases h
      simp only [ModelExpr.Yields]
      exact ⟨m, type_yields td hm, rfl⟩
  | .oneOf d rs, cx, r, cx', h => by
    simp only [ModelExpr.eval] at h
    split at h
    · cases h
    · rename_i m cx'' hm
      cases h
      simp only [ModelExpr.Yields]
      exact ⟨m, refs_yields rs hm, rfl⟩
  | .tagged e id t v b, cx, r, cx', h => by
    simp only [ModelExpr.eval] at h
    split at h
    · cases h
    · rename_i m cx'' hm
      cases h
      simp only [ModelExpr.Yields]
      exact ⟨m, model_yields e hm, rfl⟩
theorem type_yields {n} : ∀ (e : TypeExpr Ty) {cx r cx'}, e.eval env (getSchema env n) cx = some (r, cx') → e.Yields env r
  | .string v f e, cx, r, cx', h => by
    simp only [TypeExpr.eval, Option.some.injEq, Prod.mk.injEq] at h
    simp only [TypeExpr.Yields]
    exact h.1.symm
  | .number f e, cx, r, cx', h => by
    simp only [TypeExpr.eval, Option.some.injEq, Prod.mk.injEq] at h
    simp only [TypeExpr.Yields]
    exact h.1.symm
  | .integer f e, cx, r, cx', h => by
    simp only [TypeExpr.eval, Option.some.injEq, Prod.mk.injEq] at h
    simp only [TypeExpr.Yields]
    exact h.1.symm
  | .boolean, cx, r, cx', h => by
    simp only [TypeExpr.eval, Option.some.injEq, Prod.mk.injEq] at h
    simp only [TypeExpr.Yields]
    exact h.1.symm
  | .array e, cx, r, cx', h => by
    simp only [TypeExpr.eval] at h
    split at h
    · cases h
    · rename_i m cx'' hm
      cases h
      simp only [TypeExpr.Yields]
      exact ⟨m, ref_yields e hm, rfl⟩
  | .object es, cx, r, cx', h => by
    simp only [TypeExpr.eval] at h
    split at h
    · cases h
    · rename_i props req cx'' hm
      cases h
      obtain ⟨rs, h1, h2, h3⟩ := props_yields es hm
      simp only [TypeExpr.Yields]
      exact ⟨rs, h1, by rw [h2, h3]; simp⟩
  | .dictionary e, cx, r, cx', h => by
    simp only [TypeExpr.eval] at h
    split at h
    · cases h
    · rename_i m cx'' hm
      cases h
      simp only [TypeExpr.Yields]
      exact ⟨m, ref_yields e hm, rfl⟩
theorem refs_yields {n} : ∀ (es : List (RefExpr Ty)) {cx rs cx'},
    RefExpr.evalList env (getSchema env n) es cx = some (rs, cx') → RefExpr.YieldsList env es rs
  | [], cx, rs, cx', h => by
    simp only [RefExpr.evalList, Option.some.injEq, Prod.mk.injEq] at h
    simp only [RefExpr.YieldsList]
    exact h.1.symm
  | e :: es, cx, rs, cx', h => by
    simp only [RefExpr.evalList] at h
    split at h
    · cases h
    · rename_i r' cx1 hr
      split at h
      · cases h
      · rename_i rs'' cx2 hrs
        cases h
        simp only [RefExpr.YieldsList]
        exact ⟨_, _, ref_yields e hr, refs_yields es hrs, rfl⟩
theorem props_yields {n} : ∀ (es : List (PropExpr Ty)) {props req cx props' req' cx'},
    PropExpr.evalList env (getSchema env n) es props req cx = some ((props', req'), cx') →
    ∃ rs, PropExpr.YieldsList env es rs ∧
      props' = BMap.insertAll ((es.map PropExpr.nm).zip rs) props ∧
      req' = req ++ (es.filter PropExpr.rq).map PropExpr.nm
  | [], props, req, cx, props', req', cx', h => by
    simp only [PropExpr.evalList, Option.some.injEq, Prod.mk.injEq] at h
    obtain ⟨⟨rfl, rfl⟩, _⟩ := h
    exact ⟨[], by simp only [PropExpr.YieldsList], rfl, by simp⟩
  | .mk name r b :: es, props, req, cx, props', req', cx', h => by
    simp only [PropExpr.evalList] at h
    split at h
    · cases h
    · rename_i r' cx1 hr
      obtain ⟨rs, h1, h2, h3⟩ := props_yields es h
      refine ⟨r' :: rs, by simp only [PropExpr.YieldsList]; exact ⟨_, _, ref_yields r hr, h1, rfl⟩, ?_, ?_⟩
      · rw [h2]; rfl
      · rw [h3]
        cases b <;> simp [PropExpr.rq, PropExpr.nm, List.filter_cons]
end

theorem SchemaReturns.yields {t e cx m cx'} (h : SchemaReturns env t cx m cx') (he : schemaExpr env t = some e) :
    e.Yields env m := by
  obtain ⟨n, h⟩ := (schemaReturns_iff he).1 h
  exact model_yields e h

/-! ## Fields -/

theorem optOr_eq {α : Type} (a b : Option α) : optOr a b = a.or b := by cases a <;> rfl

theorem example_text : Example.eval env = Example.text env := by funext x; cases x <;> rfl

theorem fieldParams_eval (f : Field Ty) : f.attrs.params.eval env = f.doc env := by
  unfold Field.doc
  rw [← example_text]
  rfl
theorem fieldParams_or_variant (f : Field Ty) (v : VariantAttrs) :
    (f.attrs.params.or v.params).eval env = f.docIn env v := by
  simp only [ParamsExpr.or, ParamsExpr.eval, FieldAttrs.params, VariantAttrs.params, Field.docIn, optOr_eq, example_text]
theorem fieldParams_or_container (f : Field Ty) (c : ContainerAttrs) :
    (f.attrs.params.or c.params).eval env = f.docOf env c := by
  simp only [ParamsExpr.or, ParamsExpr.eval, FieldAttrs.params, ContainerAttrs.params, Field.docOf, optOr_eq, example_text]

theorem yields_newtypeModel {b p t m} (h : (newtypeModel b p t : ModelExpr Ty).Yields k m) :
    m = explicitModel t b (p.eval k.env) := by
  obtain ⟨td, htd, rfl⟩ := yields_single h
  cases t <;> simp only [explicitModel, ParamsExpr.eval]
  · rw [yields_string htd]
  · rw [yields_integer htd]
  · rw [yields_number htd]
  · rw [yields_boolean htd]
  · rw [yields_boolean htd]

theorem yields_fieldRef {p : ParamsExpr} {f : Field Ty} {b r} (h : (fieldModelReference p f b).Yields k r) :
    FieldRef k (p.eval k.env) b f r := by
  unfold fieldModelReference at h
  unfold FieldRef
  split at h
  · rename_i he; rw [he]; exact yields_any h
  · rename_i t hne he
    obtain ⟨m, hm, rfl⟩ := yields_inline h
    rw [he]
    cases t <;> first | exact absurd rfl hne | exact congrArg Ref.inline (yields_newtypeModel hm)
  · rename_i he; rw [he]; exact yields_mention h

theorem mem_zip_split {α β : Type} {as : List α} {bs : List β} (R : α → β → Prop) (h : Pointwise R as bs) (f : α → String)
    {name r} (hg : BMap.get name ((as.map f).zip bs).reverse = some r) :
    ∃ pre a post, as = pre ++ a :: post ∧ f a = name ∧ (∀ g ∈ post, f g ≠ name) ∧ R a r := by
  induction h with
  | nil => simp at hg
  | cons h ht ih =>
    rename_i a b as bs
    simp only [List.map_cons, List.zip_cons_cons, List.reverse_cons] at hg
    have happ : ∀ (l : List (String × β)) (x : String × β), BMap.get name (l ++ [x]) =
        (BMap.get name l).or (if name = x.1 then some x.2 else none) := by
      intro l x
      induction l with
      | nil => simp [BMap.get_cons]
      | cons y l ih => rw [List.cons_append, BMap.get_cons, BMap.get_cons]; split <;> simp [*]
    rw [happ] at hg
    cases hrest : BMap.get name ((as.map f).zip bs).reverse with
    | some r' =>
      rw [hrest] at hg
      simp only [Option.some_or, Option.some.injEq] at hg
      subst hg
      obtain ⟨pre, a', post, rfl, h1, h2, h3⟩ := ih hrest
      exact ⟨a :: pre, a', post, rfl, h1, h2, h3⟩
    | none =>
      rw [hrest] at hg
      simp only [Option.none_or] at hg
      split at hg
      · rename_i hn
        cases hg
        refine ⟨[], a, as, rfl, hn.symm, ?_, h⟩
        intro g hgm hgn
        rw [BMap.get_eq_none_iff] at hrest
        apply hrest
        simp only [BMap.keys, List.map_reverse, List.mem_reverse]
        rw [List.map_fst_zip (by simp [ht.length_eq])]
        exact List.mem_map.2 ⟨g, hgm, hgn⟩
      · cases hg

theorem yields_objectTypeDescription {fs : List (Field Ty)} {inl : Bool} {pred : Field Ty → Bool} {td}
    (hp : ∀ f, pred f = (inl || f.attrs.inline)) (h : (objectTypeDescription fs pred).Yields k td) :
    ∃ o, ObjectOf k inl fs o ∧ td = .object o := by
  obtain ⟨rs, hrs, rfl⟩ := yields_object h
  refine ⟨_, ?_, rfl⟩
  have hrs' := Pointwise.map_left hrs
  have hnames : ((fs.filter fun f => !f.attrs.skipSerializing).map fun f =>
      (PropExpr.mk f.attrs.name.serialized (fieldModelReference f.attrs.params f (pred f)) (!f.attrs.optional) : PropExpr Ty)).map
      PropExpr.nm = (serialFields fs).map Field.key := by
    simp [serialFields, PropExpr.nm, Function.comp_def]
  simp only [hnames]
  have hlen : rs.length = (serialFields fs).length := hrs'.length_eq
  constructor
  · rfl
  · rw [List.filter_map, List.map_map]
    simp only [serialFields, Function.comp_def, PropExpr.rq, PropExpr.nm]
  · exact BMap.sorted_insertAll _ BMap.sorted_nil
  · intro name
    rw [← BMap.get_isSome_iff, BMap.get_insertAll]
    simp only [BMap.get_nil, Option.or_none]
    rw [BMap.get_isSome_iff]
    simp only [BMap.keys, List.map_reverse, List.mem_reverse]
    rw [List.map_fst_zip (by simp [hlen])]
    simp [List.mem_map]
  · intro name r hg
    rw [BMap.get_insertAll] at hg
    simp only [BMap.get_nil, Option.or_none] at hg
    obtain ⟨pre, f, post, h1, h2, h3, h4⟩ := mem_zip_split _ hrs' Field.key hg
    refine ⟨pre, f, post, h1, h2, h3, ?_⟩
    have := yields_fieldRef (b := pred f) (p := f.attrs.params) h4
    rw [hp] at this
    exact this

theorem yields_objectModel {b d} {fs : List (Field Ty)} {inl : Bool} {pred : Field Ty → Bool} {m}
    (hp : ∀ f, pred f = (inl || f.attrs.inline)) (h : (objectModel b d fs pred).Yields k m) :
    ∃ o, ObjectOf k inl fs o ∧ m = objectSchema d b o := by
  obtain ⟨td, htd, rfl⟩ := yields_single h
  obtain ⟨o, ho, rfl⟩ := yields_objectTypeDescription hp htd
  exact ⟨o, ho, rfl⟩

theorem yields_tupleModel {b d} {fs : List (Field Ty)} {inl : Bool} {pred : Field Ty → Bool} {m}
    (hp : ∀ f, pred f = (inl || f.attrs.inline)) (h : (tupleModel b d fs pred).Yields k m) :
    ∃ rs, RefsOf k inl fs rs ∧ m = tupleSchema d b rs := by
  obtain ⟨td, htd, rfl⟩ := yields_single h
  obtain ⟨r, hr, rfl⟩ := yields_array htd
  obtain ⟨m, hm, rfl⟩ := yields_inline hr
  obtain ⟨rs, hrs, rfl⟩ := yields_oneOf hm
  refine ⟨rs, ?_, rfl⟩
  refine (Pointwise.map_left hrs).imp fun f r h => ?_
  have := yields_fieldRef h
  rw [hp] at this
  exact this

/-! ## Variants -/

theorem yields_newtypeVariant {v : Variant Ty} {e r} (he : newtypeVariantReference v = .ok e) (h : e.Yields k r) :
    ∃ f rest, v.fields = f :: rest ∧ FieldRef k (f.docIn k.env v.attrs) v.attrs.inline f r := by
  unfold newtypeVariantReference at he
  split at he
  · cases he
  · rename_i f rest hf
    cases he
    refine ⟨f, rest, hf, ?_⟩
    rw [← fieldParams_or_variant]
    exact yields_fieldRef h

theorem yields_external {v : Variant Ty} {e r} (he : externalAlternative v = .ok e) (h : e.Yields k r) :
    VariantContent k v r := by
  unfold externalAlternative at he
  unfold VariantContent
  split at he <;> rename_i hs <;> rw [hs] <;> simp only
  · cases he
    obtain ⟨m, hm, rfl⟩ := yields_inline h
    obtain ⟨td, htd, rfl⟩ := yields_single hm
    rw [yields_string htd]; rfl
  · exact yields_newtypeVariant he h
  · cases he
    obtain ⟨m, hm, rfl⟩ := yields_inline h
    obtain ⟨rs, hrs, rfl⟩ := yields_tupleModel (fun _ => rfl) hm
    exact ⟨rs, hrs, rfl⟩
  · cases he
    obtain ⟨m, hm, rfl⟩ := yields_inline h
    obtain ⟨rs, hrs, rfl⟩ := yields_objectModel (fun _ => rfl) hm
    exact ⟨rs, hrs, rfl⟩

theorem yields_untagged {v : Variant Ty} {e r} (he : untaggedAlternative v = .ok e) (h : e.Yields k r) :
    (v.style = .newType ∨ v.style = .struct) ∧ VariantContent k v r := by
  unfold untaggedAlternative at he
  unfold VariantContent
  split at he <;> rename_i hs
  · rw [hs]; exact ⟨.inl rfl, yields_newtypeVariant he h⟩
  · rw [hs]
    cases he
    obtain ⟨m, hm, rfl⟩ := yields_inline h
    obtain ⟨rs, hrs, rfl⟩ := yields_objectModel (fun _ => rfl) hm
    exact ⟨.inr rfl, rs, hrs, rfl⟩
  · cases he

theorem yields_adjacent {v : Variant Ty} {e r} (he : adjacentAlternative v = .ok e) (h : e.Yields k r) :
    AdjacentContent k v r := by
  unfold adjacentAlternative at he
  unfold AdjacentContent VariantContent
  split at he <;> rename_i hs <;> rw [hs] <;> simp only
  · exact yields_newtypeVariant he h
  · cases he
    obtain ⟨m, hm, rfl⟩ := yields_inline h
    obtain ⟨rs, hrs, rfl⟩ := yields_tupleModel (fun _ => rfl) hm
    exact ⟨rs, hrs, rfl⟩
  · cases he
    obtain ⟨m, hm, rfl⟩ := yields_inline h
    obtain ⟨rs, hrs, rfl⟩ := yields_tupleModel (inl := v.attrs.inline) (fun _ => Bool.or_comm _ _) hm
    exact ⟨rs, hrs, rfl⟩
  · cases he

theorem yields_internal {c : Container Ty} {t : String} {v : Variant Ty} {e r}
    (he : internalAlternative c t v = .ok e) (h : e.Yields k r) :
    ∃ m, InternalContent k v m ∧
      r = .inline (m.tryMerge (internalTagModel c.ident t v.key c.attrs.nullable)).2 := by
  unfold internalAlternative at he
  split at he
  · cases he
  · rename_i m hm
    cases he
    obtain ⟨m', hm', rfl⟩ := yields_inline h
    obtain ⟨m₀, hm₀, rfl⟩ := yields_tagged hm'
    refine ⟨m₀, ?_, rfl⟩
    unfold internalInner at hm
    unfold InternalContent
    split at hm <;> rename_i hs <;> rw [hs] <;> simp only
    · cases hm
      obtain ⟨td, htd, rfl⟩ := yields_single hm₀
      obtain ⟨rs, hrs, rfl⟩ := yields_object htd
      cases hrs; rfl
    · split at hm
      · cases hm
      · rename_i f rest hf
        cases hm
        obtain ⟨m₁, h₁, rfl⟩ := yields_getSchemaWithParams hm₀
        exact ⟨f, rest, m₁, hf, h₁, by rw [fieldParams_or_variant]⟩
    · cases hm
      exact yields_objectModel (fun _ => rfl) hm₀
    · cases hm

theorem variants_yield {alt : Variant Ty → Except MacroPanic (RefExpr Ty)} {S : Variant Ty → Ref → Prop}
    {vs : List (Variant Ty)} {es rs} (hm : mapExcept alt vs = .ok es) (hy : Pointwise (RefExpr.Yields k) es rs)
    (hs : ∀ v e r, alt v = .ok e → e.Yields k r → S v r) : Pointwise S vs rs :=
  ((mapExcept_ok hm).trans hy).imp fun v r ⟨e, h1, h2⟩ => hs v e r h1 h2

end Verif

namespace Verif

theorem Pointwise.inlines {α : Type} {S : α → Model → Prop} {as : List α} {rs : List Ref} {f : α → Model → Model}
    (h : Pointwise (fun a r => ∃ m, S a m ∧ r = .inline (f a m)) as rs) :
    ∃ ms : List Model, rs = ms.map .inline ∧ Pointwise (fun a m' => ∃ m, S a m ∧ m' = f a m) as ms := by
  induction h with
  | nil => exact ⟨[], rfl, .nil⟩
  | cons h _ ih =>
    obtain ⟨m, hm, rfl⟩ := h
    obtain ⟨ms, rfl, hms⟩ := ih
    exact ⟨_ :: ms, rfl, .cons ⟨m, hm, rfl⟩ hms⟩

theorem tagged_tryMerge (m₀ : Model) (ident tag value : String) (nullable : Bool) :
    Tagged tag (ident ++ " type variant") value m₀ (m₀.tryMerge (internalTagModel ident tag value nullable)).2 := by
  obtain ⟨d, data⟩ := m₀
  cases data with
  | single t =>
    obtain ⟨n, td⟩ := t
    cases td with
    | object ob =>
      obtain ⟨props, additional, req⟩ := ob
      by_cases hk : tag ∈ BMap.keys props
      · refine .clash d n _ rfl hk ?_
        have : BMap.containsKey tag props = true := BMap.containsKey_iff.2 hk
        simp [Model.tryMerge, internalTagModel, ModelObject.merge, mergeProps, BMap.insert, this]
      · refine .added d n _ rfl hk ?_
        have : BMap.containsKey tag props = false := by
          rw [Bool.eq_false_iff]; exact fun h => hk (BMap.containsKey_iff.1 h)
        simp [Model.tryMerge, internalTagModel, ModelObject.merge, mergeProps, BMap.insert, this, objectSchema, stringEnum]
    | _ => exact .notObject (fun d n o h => by simp [objectSchema] at h) rfl
  | _ => exact .notObject (fun d n o h => by simp [objectSchema] at h) rfl

end Verif
