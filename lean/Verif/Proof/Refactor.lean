import Verif.Spec.Refactor
import Verif.Proof.Parsed
import Verif.Props.Attrs
/-!
# Generated code does not depend on how names are given
-/

namespace Verif

variable {o : Oracle} {τ : Type}

/-- A field without what code generation ignores. -/
def Field.erase (f : Field τ) : Field τ :=
  { f with attrs := { f.attrs with name := ⟨"", if f.attrs.skipSerializing then "" else f.attrs.name.serialized, false⟩,
                                   flatten := false } }

/-- A variant without what code generation ignores. -/
def Variant.erase (v : Variant τ) : Variant τ :=
  { v with ident := "", fields := v.fields.map Field.erase,
           attrs := { v.attrs with name := ⟨"", if v.attrs.skipSerializing then "" else v.attrs.name.serialized, false⟩,
                                   renameRule := .none } }

def Data.erase : Data τ → Data τ
  | .enum vs => .enum (vs.map Variant.erase)
  | .struct style fs => .struct style (fs.map Field.erase)

/-- A container without what code generation ignores. -/
def Container.erase (c : Container τ) : Container τ :=
  { c with data := c.data.erase,
           attrs := { c.attrs with name := ⟨"", "", false⟩, renameRule := .none, transparent := false, hasFlatten := false } }

theorem fieldModelReference_erase (p : ParamsExpr) (f : Field τ) (i : Bool) :
    fieldModelReference p f.erase i = fieldModelReference p f i := rfl

theorem objectTypeDescription_erase (fs : List (Field τ)) (pr : Field τ → Bool) (hp : ∀ f, pr f.erase = pr f) :
    objectTypeDescription (fs.map Field.erase) pr = objectTypeDescription fs pr := by
  unfold objectTypeDescription
  congr 1
  induction fs with
  | nil => rfl
  | cons f fs ih =>
    rw [List.map_cons, List.filter_cons, List.filter_cons]
    have e : (!f.erase.attrs.skipSerializing) = !f.attrs.skipSerializing := rfl
    rw [e]
    split
    · rename_i hs
      rw [List.map_cons, List.map_cons, ih, hp]
      simp only [Bool.not_eq_eq_eq_not, Bool.not_true] at hs
      simp [Field.erase, hs, fieldModelReference, FieldAttrs.params]
    · exact ih

theorem tupleTypeDescription_erase (fs : List (Field τ)) (pr : Field τ → Bool) (hp : ∀ f, pr f.erase = pr f) :
    tupleTypeDescription (fs.map Field.erase) pr = tupleTypeDescription fs pr := by
  unfold tupleTypeDescription
  rw [List.map_map]
  congr 3
  refine List.map_congr_left fun f _ => ?_
  simp only [Function.comp, hp]
  rfl

theorem serialVariants_erase (vs : List (Variant τ)) :
    serialVariants (vs.map Variant.erase) = (serialVariants vs).map Variant.erase := by
  induction vs with
  | nil => rfl
  | cons v vs ih =>
    unfold serialVariants at ih ⊢
    rw [List.map_cons, List.filter_cons, List.filter_cons]
    have e : (!v.erase.attrs.skipSerializing) = !v.attrs.skipSerializing := rfl
    rw [e]
    split
    · rw [ih, List.map_cons]
    · exact ih

theorem serialVariants_kept {vs : List (Variant τ)} {v} (h : v ∈ serialVariants vs) : v.attrs.skipSerializing = false := by
  have := (List.mem_filter.1 h).2
  simpa using this

theorem erase_serialized {v : Variant τ} (h : v.attrs.skipSerializing = false) :
    v.erase.attrs.name.serialized = v.attrs.name.serialized := by
  simp [Variant.erase, h]

theorem mapExcept_erase {ε α β γ : Type} (f : α → Except ε β) (f' : γ → Except ε β) (g : α → γ) (l : List α)
    (h : ∀ a ∈ l, f' (g a) = f a) : mapExcept f' (l.map g) = mapExcept f l := by
  induction l with
  | nil => rfl
  | cons a as ih =>
    rw [List.map_cons, mapExcept, mapExcept, h a (List.mem_cons_self ..), ih fun b hb => h b (List.mem_cons_of_mem _ hb)]

theorem newtypeVariantReference_erase (v : Variant τ) : newtypeVariantReference v.erase = newtypeVariantReference v := by
  obtain ⟨i, a, s, fs, d⟩ := v
  cases fs <;> rfl

theorem names_erase (vs : List (Variant τ)) :
    (serialVariants (vs.map Variant.erase)).map (fun v => v.attrs.name.serialized) =
      (serialVariants vs).map fun v => v.attrs.name.serialized := by
  rw [serialVariants_erase, List.map_map]
  exact List.map_congr_left fun v hv => erase_serialized (serialVariants_kept hv)

theorem reprs_erase (vs : List (Variant τ)) :
    (serialVariants (vs.map Variant.erase)).filterMap reprAlternative = (serialVariants vs).filterMap reprAlternative := by
  rw [serialVariants_erase, List.filterMap_map]
  have key : ∀ l : List (Variant τ), (∀ v ∈ l, v.attrs.skipSerializing = false) →
      l.filterMap (reprAlternative ∘ Variant.erase) = l.filterMap reprAlternative := by
    intro l hl
    induction l with
    | nil => rfl
    | cons v l ih =>
      have e : reprAlternative v.erase = reprAlternative v := by
        unfold reprAlternative
        rw [erase_serialized (hl v (List.mem_cons_self ..))]
        rfl
      simp only [List.filterMap_cons, Function.comp, e]
      rw [← ih fun w hw => hl w (List.mem_cons_of_mem _ hw)]
  exact key _ fun v hv => serialVariants_kept hv

theorem untaggedAlternative_erase (v : Variant τ) : untaggedAlternative v.erase = untaggedAlternative v := by
  unfold untaggedAlternative
  have e : v.erase.style = v.style := rfl
  rw [e, newtypeVariantReference_erase]
  split
  · rfl
  · rw [objectModel, objectModel]
    show Except.ok (RefExpr.inline (.single _ _ (objectTypeDescription (v.fields.map Field.erase) _))) = _
    rw [objectTypeDescription_erase]
    · rfl
    · intro f; rfl
  · rfl

theorem adjacentAlternative_erase (v : Variant τ) : adjacentAlternative v.erase = adjacentAlternative v := by
  unfold adjacentAlternative
  have e : v.erase.style = v.style := rfl
  rw [e, newtypeVariantReference_erase]
  split
  · rfl
  · rw [tupleModel, tupleModel]
    show Except.ok (RefExpr.inline (.single _ _ (tupleTypeDescription (v.fields.map Field.erase) _))) = _
    rw [tupleTypeDescription_erase]
    · rfl
    · intro f; rfl
  · rw [tupleModel, tupleModel]
    show Except.ok (RefExpr.inline (.single _ _ (tupleTypeDescription (v.fields.map Field.erase) _))) = _
    rw [tupleTypeDescription_erase]
    · rfl
    · intro f; rfl
  · rfl

theorem externalAlternative_erase (v : Variant τ) (h : v.attrs.skipSerializing = false) :
    externalAlternative v.erase = externalAlternative v := by
  unfold externalAlternative
  have e : v.erase.style = v.style := rfl
  rw [e, newtypeVariantReference_erase, erase_serialized h]
  split
  · rfl
  · rfl
  · rw [tupleModel, tupleModel]
    show Except.ok (RefExpr.inline (.single _ _ (tupleTypeDescription (v.fields.map Field.erase) _))) = _
    rw [tupleTypeDescription_erase]
    · rfl
    · intro f; rfl
  · rw [objectModel, objectModel]
    show Except.ok (RefExpr.inline (.single _ _ (objectTypeDescription (v.fields.map Field.erase) _))) = _
    rw [objectTypeDescription_erase]
    · rfl
    · intro f; rfl

theorem internalInner_erase (v : Variant τ) : internalInner v.erase = internalInner v := by
  unfold internalInner
  have e : v.erase.style = v.style := rfl
  rw [e]
  split
  · rfl
  · obtain ⟨i, a, s, fs, d⟩ := v
    cases fs <;> rfl
  · rw [objectModel, objectModel]
    show Except.ok (ModelExpr.single _ _ (objectTypeDescription (v.fields.map Field.erase) _)) = _
    rw [objectTypeDescription_erase]
    · rfl
    · intro f; rfl
  · rfl

theorem internalAlternative_erase (c : Container τ) (tag : String) (v : Variant τ) (h : v.attrs.skipSerializing = false) :
    internalAlternative c.erase tag v.erase = internalAlternative c tag v := by
  unfold internalAlternative
  rw [internalInner_erase, erase_serialized h]
  rfl

theorem serializeEnum_erase (c : Container τ) (vs : List (Variant τ)) :
    serializeEnum c.erase (vs.map Variant.erase) = serializeEnum c vs := by
  unfold serializeEnum
  have e1 : c.erase.attrs.modelType = c.attrs.modelType := rfl
  have e2 : c.erase.attrs.tagType = c.attrs.tagType := rfl
  rw [e1, e2]
  split
  · unfold serializeNewtypeEnum
    have e3 : c.erase.attrs.hasRepr = c.attrs.hasRepr := rfl
    rw [e3, reprs_erase, names_erase]
    rfl
  · unfold serializeAdjacentEnum
    rw [names_erase, serialVariants_erase, mapExcept_erase _ _ _ _ fun v _ => adjacentAlternative_erase v]
    rfl
  · unfold serializeExternalEnum
    rw [serialVariants_erase, mapExcept_erase _ _ _ _ fun v hv => externalAlternative_erase v (serialVariants_kept hv)]
    rfl
  · unfold serializeUntaggedEnum
    rw [serialVariants_erase, mapExcept_erase _ _ _ _ fun v _ => untaggedAlternative_erase v]
    rfl
  · unfold serializeInternalEnum
    rw [serialVariants_erase, mapExcept_erase _ _ _ _ fun v hv => internalAlternative_erase c _ v (serialVariants_kept hv)]
    rfl
  · rfl

theorem serializeBody_erase (c : Container τ) : serializeBody c.erase = serializeBody c := by
  obtain ⟨i, a, d⟩ := c
  unfold serializeBody
  cases d with
  | enum vs => exact serializeEnum_erase ⟨i, a, .enum vs⟩ vs
  | struct style fs =>
    cases style with
    | unit => rfl
    | newType => cases fs <;> rfl
    | struct =>
      show Except.ok (serializeStruct _ (fs.map Field.erase)) = .ok (serializeStruct _ fs)
      unfold serializeStruct
      rw [objectTypeDescription_erase]
      · rfl
      · intro f; rfl
    | tuple =>
      show Except.ok (serializeTupleStruct _ (fs.map Field.erase)) = .ok (serializeTupleStruct _ fs)
      unfold serializeTupleStruct
      rw [tupleTypeDescription_erase]
      · rfl
      · intro f; rfl

/-! ## Items that say the same are parsed to the same, up to what is ignored -/

theorem bool_eq {a b : Bool} {P : Prop} (h : a = true ↔ P) (h' : b = true ↔ P) : a = b := by
  cases a <;> cases b <;> simp_all

theorem option_eq {α : Type} {a b : Option α} {P : α → Prop} (h : ∀ x, a = some x ↔ P x) (h' : ∀ x, b = some x ↔ P x) :
    a = b := Option.ext fun x => (h x).trans (h' x).symm

theorem DocParsed.eq {g : AttrFrom → NestedMeta → AttrKey → AVal → Prop} {attrs attrs' d f e i x d' f' e' i' x'}
    (s : SaysSame g attrs attrs') (h : DocParsed g attrs d f e i x) (h' : DocParsed g attrs' d' f' e' i' x') :
    d = d' ∧ f = f' ∧ e = e' ∧ i = i' ∧ x = x' :=
  ⟨option_eq h.description fun y => (h'.description y).trans (s.values _ (by decide) _).symm,
    option_eq h.format fun y => (h'.format y).trans (s.values _ (by decide) _).symm,
    option_eq h.ex fun y => (h'.ex y).trans (s.values _ (by decide) _).symm,
    bool_eq h.inline (h'.inline.trans (s.values _ (by decide) _).symm),
    option_eq h.explicit fun y => (h'.explicit y).trans (s.type y).symm⟩

theorem FieldParsed.erase_eq {r r' : RenameRule} {i : Nat} {f g : SynField τ} {f' g' : Field τ}
    (s : SameField o r r' i f g) (h : FieldParsed o r i f f') (h' : FieldParsed o r' i g g') : f'.erase = g'.erase := by
  obtain ⟨e1, e2, e3, e4, e5⟩ := DocParsed.eq s.says h.doc h'.doc
  have e6 : f'.attrs.skipSerializing = g'.attrs.skipSerializing :=
    bool_eq h.skip (h'.skip.trans (s.says.values _ (by decide) _).symm)
  have e7 : f'.attrs.optional = g'.attrs.optional := bool_eq h.optional (h'.optional.trans (by
    rw [s.says.values _ (by decide), s.says.values .optional (by decide)]))
  have e8 : f'.attrs.nullable = g'.attrs.nullable :=
    bool_eq h.nullable (h'.nullable.trans (s.says.values _ (by decide) _).symm)
  have e9 : f'.ty = g'.ty := by rw [h.ty, h'.ty, s.ty]
  have e10 : f'.attrs.skipSerializing = false → f'.attrs.name.serialized = g'.attrs.name.serialized := by
    intro hs
    have hk : ¬ Gives (FieldGives o) f.attrs .skipSerializing .unit := by
      rw [← h.skip, hs]; simp
    exact (h.name _).2 ((s.name hk _).2 ((h'.name _).1 rfl))
  obtain ⟨fa, ft⟩ := f'
  obtain ⟨ga, gt⟩ := g'
  cases fa; cases ga
  simp only at e1 e2 e3 e4 e5 e6 e7 e8 e9 e10
  subst e1 e2 e3 e4 e5 e6 e7 e8 e9
  simp only [Field.erase]
  congr 3
  split
  · rfl
  · rename_i hs; exact e10 (Bool.eq_false_iff.2 hs)

theorem FieldsParsed.erase_eq {r r' : RenameRule} {fs gs : SynFields τ} {st st'} {fs' gs' : List (Field τ)}
    (s : SameFields o r r' fs gs) (h : FieldsParsed o r fs st fs') (h' : FieldsParsed o r' gs st' gs') :
    st = st' ∧ fs'.map Field.erase = gs'.map Field.erase := by
  constructor
  · have hk := s.kind
    have hl := s.length
    have hs := h.style
    have hs' := h'.style
    clear h h' s
    cases hs <;> cases hs' <;> simp only at hk <;> simp [SynFields.list] at hl <;> first | rfl | skip
    · exact absurd hl ‹_›
    · exact absurd hl.symm ‹_›
  · apply List.ext_getElem?
    intro i
    rw [List.getElem?_map, List.getElem?_map]
    by_cases hi : i < fs.list.length
    · have hi' : i < gs.list.length := by rw [s.length]; exact hi
      have hj : i < fs'.length := by rw [h.length]; exact hi
      have hj' : i < gs'.length := by rw [h'.length]; exact hi'
      rw [List.getElem?_eq_getElem hj, List.getElem?_eq_getElem hj']
      simp only [Option.map_some, Option.some.injEq]
      exact FieldParsed.erase_eq
        (s.fields i _ _ (List.getElem?_eq_getElem hi) (List.getElem?_eq_getElem hi'))
        (h.fields i _ _ (List.getElem?_eq_getElem hi) (List.getElem?_eq_getElem hj))
        (h'.fields i _ _ (List.getElem?_eq_getElem hi') (List.getElem?_eq_getElem hj'))
    · have h1 : fs'.length ≤ i := by rw [h.length]; omega
      have h2 : gs'.length ≤ i := by rw [h'.length, s.length]; omega
      rw [List.getElem?_eq_none h1, List.getElem?_eq_none h2]

theorem VariantParsed.erase_eq {r r' : RenameRule} {v w : SynVariant τ} {v' w' : Variant τ}
    (s : SameVariant o r r' v w) (h : VariantParsed o r v v') (h' : VariantParsed o r' w w') : v'.erase = w'.erase := by
  obtain ⟨e1, e2, e3, e4, e5⟩ := DocParsed.eq s.says h.doc h'.doc
  have e6 : v'.attrs.skipSerializing = w'.attrs.skipSerializing :=
    bool_eq h.skip (h'.skip.trans (s.says.values _ (by decide) _).symm)
  have e7 : v'.discriminant = w'.discriminant := by rw [h.discriminant, h'.discriminant, s.discriminant]
  have e8 : v'.attrs.skipSerializing = false → v'.attrs.name.serialized = w'.attrs.name.serialized := by
    intro hs
    have hk : ¬ Gives (VariantGives o) v.attrs .skipSerializing .unit := by
      rw [← h.skip, hs]; simp
    exact (h.name _).2 ((s.name hk _).2 ((h'.name _).1 rfl))
  obtain ⟨q, hq, hf⟩ := h.fields
  obtain ⟨q', hq', hf'⟩ := h'.fields
  obtain ⟨e9, e10⟩ := FieldsParsed.erase_eq (s.fields q q' hq hq') hf hf'
  obtain ⟨vi, va, vst, vf, vd⟩ := v'
  obtain ⟨wi, wa, wst, wf, wd⟩ := w'
  cases va; cases wa
  simp only at e1 e2 e3 e4 e5 e6 e7 e8 e9 e10
  subst e1 e2 e3 e4 e5 e6 e7 e9
  simp only [Variant.erase, e10]
  congr 3
  split
  · rfl
  · rename_i hs; exact e8 (Bool.eq_false_iff.2 hs)

theorem Pointwise.and_left {α β : Type} {R : α → β → Prop} {as : List α} {bs : List β} (h : Pointwise R as bs) :
    as.length = bs.length := by
  induction h with
  | nil => rfl
  | cons _ _ ih => simp [ih]

theorem variants_erase_eq {r r' : RenameRule} {vs ws : List (SynVariant τ)} (s : Pointwise (SameVariant o r r') vs ws) :
    ∀ {vs' ws' : List (Variant τ)}, Pointwise (VariantParsed o r) vs vs' → Pointwise (VariantParsed o r') ws ws' →
    vs'.map Variant.erase = ws'.map Variant.erase := by
  induction s with
  | nil => intro vs' ws' h h'; cases h; cases h'; rfl
  | cons hs _ ih =>
    intro vs' ws' h h'
    cases h with
    | cons h1 h2 =>
      cases h' with
      | cons h1' h2' => rw [List.map_cons, List.map_cons, VariantParsed.erase_eq hs h1 h1', ih h2 h2']

theorem variants_unit_eq {r r' : RenameRule} {vs ws : List (SynVariant τ)} (s : Pointwise (SameVariant o r r') vs ws)
    (he : ∀ v ∈ vs, ∃ q, RuleOf (VariantGives o) v.attrs q) (he' : ∀ v ∈ ws, ∃ q, RuleOf (VariantGives o) v.attrs q) :
    (vs.all fun v => v.fields.isUnit) = ws.all fun v => v.fields.isUnit := by
  induction s with
  | nil => rfl
  | cons hs _ ih =>
    rw [List.all_cons, List.all_cons, ih (fun v hv => he v (List.mem_cons_of_mem _ hv))
      fun v hv => he' v (List.mem_cons_of_mem _ hv)]
    congr 1
    obtain ⟨q, hq⟩ := he _ (List.mem_cons_self ..)
    obtain ⟨q', hq'⟩ := he' _ (List.mem_cons_self ..)
    have hk := (hs.fields q q' hq hq').kind
    revert hk
    generalize SynVariant.fields _ = a
    generalize SynVariant.fields _ = b
    intro hk
    cases a <;> cases b <;> first | rfl | exact hk.elim

theorem Tagging.same {g : AttrFrom → NestedMeta → AttrKey → AVal → Prop} {attrs attrs'} (s : SaysSame g attrs attrs') {t}
    (h : Tagging g attrs t) : Tagging g attrs' t := by
  have hu := s.values .untagged (by decide)
  have ht := s.values .tag (by decide)
  have hc := s.values .content (by decide)
  cases h with
  | external h1 h2 h3 => exact .external (by rwa [← hu]) (by simpa only [← ht]) (by simpa only [← hc])
  | untagged h1 h2 h3 => exact .untagged (by rwa [← hu]) (by simpa only [← ht]) (by simpa only [← hc])
  | internal t h1 h2 h3 => exact .internal t (by rwa [← hu]) (by simpa only [← ht]) (by simpa only [← hc])
  | adjacent t c h1 h2 h3 => exact .adjacent t c (by rwa [← hu]) (by simpa only [← ht]) (by simpa only [← hc])
  | contradictory h1 h2 => exact .contradictory (by rwa [← hu]) (by simpa only [← ht, ← hc])
  | contentOnly c h1 h2 h3 => exact .contentOnly c (by rwa [← hu]) (by simpa only [← ht]) (by simpa only [← hc])

theorem derive_modelType {i : DeriveInput τ} {c b} (hc : derive o i = .code c b) :
    decideModelType i.data c.attrs.tagType = .ok c.attrs.modelType := by
  have he := (containerAttrs_nil (derive_code_errs hc)).1
  obtain ⟨-, ⟨b, ha⟩, -⟩ := container_cases (derive_code hc).1
  rw [ha]
  simp only [containerAttrsFromAst, List.append_eq_nil_iff] at he ⊢
  revert he
  generalize decideModelType _ _ = x
  intro he
  cases x with
  | ok m => rfl
  | error e => simp at he

theorem Pointwise.left_mem {α β : Type} {R : α → β → Prop} {as : List α} {bs : List β} (h : Pointwise R as bs) {a}
    (ha : a ∈ as) : ∃ b, R a b := by
  induction h with
  | nil => cases ha
  | cons h _ ih =>
    rcases List.mem_cons.1 ha with rfl | ha
    · exact ⟨_, h⟩
    · exact ih ha

theorem container_erase_eq {i j : DeriveInput τ} {c c' b b'} (s : SameItem o i j) (hc : derive o i = .code c b)
    (hc' : derive o j = .code c' b') : c.erase = c'.erase := by
  have h := container_parsed hc
  have h' := container_parsed hc'
  have m := derive_modelType hc
  have m' := derive_modelType hc'
  have hdoc := h'.doc
  have htag := h'.tag
  have hrepr := h'.repr
  have hnull := h'.nullable
  obtain ⟨r, hr, hd⟩ := h.data
  obtain ⟨r', hr', hd'⟩ := h'.data
  rw [s.kind] at hdoc htag hrepr hnull hr'
  obtain ⟨e1, e2, e3, e4, e5⟩ := DocParsed.eq s.says h.doc hdoc
  have e6 : c.attrs.tagType = c'.attrs.tagType := ((htag _).2 (((h.tag _).1 rfl).same s.says)).symm
  have e7 : c.attrs.hasRepr = c'.attrs.hasRepr :=
    bool_eq h.repr (hrepr.trans (s.says.values _ (by decide) _).symm)
  have e8 : c.attrs.nullable = c'.attrs.nullable :=
    bool_eq h.nullable (hnull.trans (s.says.values _ (by decide) _).symm)
  have e9 : c.ident = c'.ident := by rw [h.ident, h'.ident, s.ident]
  have sd := s.data r r' hr hr'
  rw [e6] at m
  have e10 : c.attrs.modelType = c'.attrs.modelType ∧ c.data.erase = c'.data.erase := by
    revert m m' hd hd' sd
    generalize i.data = di
    generalize j.data = dj
    intro m m' hd hd' sd
    cases di with
    | union => exact hd.elim
    | struct fs =>
      cases dj with
      | union => exact hd'.elim
      | enum _ => exact sd.elim
      | struct gs =>
        obtain ⟨st, fs', e, hf⟩ := hd
        obtain ⟨st', gs', e', hf'⟩ := hd'
        obtain ⟨rfl, he⟩ := FieldsParsed.erase_eq sd hf hf'
        constructor
        · have hk := sd.kind
          have key : decideModelType (.struct fs) c'.attrs.tagType = decideModelType (.struct gs) c'.attrs.tagType := by
            cases fs <;> cases gs <;> first | rfl | exact hk.elim
          rw [key, m'] at m
          exact (Except.ok.inj m).symm
        · rw [e, e', Data.erase, Data.erase, he]
    | enum vs =>
      cases dj with
      | union => exact hd'.elim
      | struct _ => exact sd.elim
      | enum ws =>
        obtain ⟨vs', e, hv⟩ := hd
        obtain ⟨ws', e', hv'⟩ := hd'
        constructor
        · have hu := variants_unit_eq sd (fun v hm => by obtain ⟨_, q⟩ := hv.left_mem hm; exact q.fields.imp fun _ h => h.1)
            fun v hm => by obtain ⟨_, q⟩ := hv'.left_mem hm; exact q.fields.imp fun _ h => h.1
          have : decideModelType (.enum vs) c'.attrs.tagType = decideModelType (.enum ws) c'.attrs.tagType := by
            unfold decideModelType
            simp only [hu]
          rw [this, m'] at m
          exact (Except.ok.inj m).symm
        · rw [e, e', Data.erase, Data.erase, variants_erase_eq sd hv hv']
  clear h h' hc hc' hd hd' htag hdoc hrepr hnull m m'
  obtain ⟨ci, ca, cd⟩ := c
  obtain ⟨ci', ca', cd'⟩ := c'
  cases ca; cases ca'
  simp only at e1 e2 e3 e4 e5 e6 e7 e8 e9 e10
  obtain ⟨e10, e11⟩ := e10
  subst e1 e2 e3 e4 e5 e6 e7 e8 e9 e10
  simp only [Container.erase, e11]

theorem code_same {i j : DeriveInput τ} {c c' b b'} (s : SameItem o i j) (hc : derive o i = .code c b)
    (hc' : derive o j = .code c' b') : b' = b ∧ c'.ident = c.ident ∧ c'.attrs.inline = c.attrs.inline := by
  have e := container_erase_eq s hc hc'
  refine ⟨?_, ?_, ?_⟩
  · have h1 := (derive_code hc).2
    have h2 := (derive_code hc').2
    rw [← serializeBody_erase, e, serializeBody_erase, h2] at h1
    exact Except.ok.inj h1
  · exact (congrArg Container.ident e).symm
  · exact (congrArg (fun c => c.attrs.inline) e).symm

/-! ## Writing names out -/

section
variable {act : AttrFrom → NestedMeta → Action} {g : AttrFrom → NestedMeta → AttrKey → AVal → Prop}
  (hg : ∀ src m k v, act src m = .set k v ↔ g src m k v)
  (hf : ∀ src m t, act src m = .flag t ↔ src = .opg ∧ ∃ p, m = .item (.path p) ∧ (p, t) ∈ typeWords)
  {attrs : List Attribute} {s : String} (ha : g .serde (.item (.nameValue "rename" (.str s))) .rename (.str s))
  (he : (runAttrs act attrs).errs = []) (hn : ∀ v, ¬ Gives g attrs .rename v)
include hg ha he hn

theorem runAttrs_renameTo : runAttrs act (attrs ++ [renameTo s]) = { runAttrs act attrs with
    vals := fun k => if k = .rename then some (.str s) else (runAttrs act attrs).vals k } := by
  have e : attrActions act (renameTo s) = [.set .rename (.str s)] := by
    have := (hg _ _ _ _).2 ha
    show [act .serde _] = _
    rw [this]
  unfold runAttrs
  rw [List.flatMap_append, List.foldl_append, List.flatMap_cons, e]
  simp only [List.flatMap_nil, List.append_nil, List.foldl_cons, List.foldl_nil]
  have hv := (runAttrs_vals_none hg he (k := .rename)).2 hn
  unfold runAttrs at hv
  revert hv
  generalize List.foldl Acc.step Acc.init _ = acc
  intro hv
  simp only [Acc.step, hv]

theorem gives_renameTo (k v) : Gives g (attrs ++ [renameTo s]) k v ↔
    (k = .rename ∧ v = .str s) ∨ (k ≠ .rename ∧ Gives g attrs k v) := by
  have e := runAttrs_renameTo hg ha he hn
  have he' : (runAttrs act (attrs ++ [renameTo s])).errs = [] := by rw [e]; exact he
  rw [← runAttrs_vals hg he', e, ← runAttrs_vals hg he]
  by_cases hk : k = .rename
  · simp [hk, eq_comm]
  · simp [hk]

include hf in
theorem saysSame_renameTo (ht : (atMostOne (runAttrs act attrs).flags).2 = []) : SaysSame g attrs (attrs ++ [renameTo s]) where
  values k hk v := by
    rw [gives_renameTo hg ha he hn]
    have : k ≠ .rename := fun h => hk (by simp [h])
    simp [this]
  type t := by
    have e := runAttrs_renameTo hg ha he hn
    have he' : (runAttrs act (attrs ++ [renameTo s])).errs = [] := by rw [e]; exact he
    have ht' : (atMostOne (runAttrs act (attrs ++ [renameTo s])).flags).2 = [] := by rw [e]; exact ht
    rw [← flags_type he ht hf, ← flags_type he' ht' hf, e]
end

theorem SaysSame.refl (g : AttrFrom → NestedMeta → AttrKey → AVal → Prop) (attrs) : SaysSame g attrs attrs :=
  ⟨fun _ _ _ => .rfl, fun _ => .rfl⟩

theorem fieldErrors_flags {f : SynField τ} (h : fieldErrors o f = []) :
    (atMostOne (runAttrs (fieldAction o) f.attrs).flags).2 = [] := by
  simp only [fieldErrors, fieldAttrsFromAst, List.append_eq_nil_iff] at h
  exact h.2

theorem fieldRenamed_same {rule : RenameRule} {i : Nat} {f f' : SynField τ} (h : FieldRenamed o rule i f f')
    (he : fieldErrors o f = []) : SameField o rule rule i f f' ∧ fieldErrors o f' = [] ∧
      (FieldNameFails o f' → FieldNameFails o f) := by
  cases h with
  | kept => exact ⟨⟨rfl, .refl _ _, fun _ _ => .rfl⟩, he, fun h => h⟩
  | renamed new s hn hs =>
    have h1 := fieldErrors_nil he
    have h2 := fieldErrors_flags he
    have hg := fun src m k v => fieldAction_set (o := o) (src := src) (m := m) (k := k) (v := v)
    have ha : FieldGives o .serde (.item (.nameValue "rename" (.str s))) .rename (.str s) := .common (.rename (.nameValue s))
    have e := runAttrs_renameTo hg ha h1 hn
    refine ⟨⟨rfl, saysSame_renameTo hg (fun _ _ _ => fieldAction_flag) ha h1 hn h2, fun _ t => ?_⟩, ?_, ?_⟩
    · constructor
      · intro ht
        have := fieldSerializedAs_unique h1 ht hs
        subst this
        exact .inl ((gives_renameTo hg ha h1 hn _ _).2 (.inl ⟨rfl, rfl⟩))
      · rintro (ht | ⟨ht, -⟩)
        · rcases (gives_renameTo hg ha h1 hn _ _).1 ht with ⟨-, ht⟩ | ⟨ht, -⟩
          · cases ht; exact hs
          · exact absurd rfl ht
        · exact absurd ((gives_renameTo hg ha h1 hn _ _).2 (.inl ⟨rfl, rfl⟩)) (ht _)
    · simp only [fieldErrors, fieldAttrsFromAst, e, List.append_eq_nil_iff]
      exact ⟨h1, h2⟩
    · rintro ⟨h, -⟩
      refine absurd ((runAttrs_first hg).1 ?_) (h (.str s))
      rw [e]; simp

theorem fieldsRenamed_same {rule : RenameRule} {fs fs' : SynFields τ} (h : FieldsRenamed o rule fs fs')
    (he : ∀ f ∈ fs.list, fieldErrors o f = []) : SameFields o rule rule fs fs' ∧ (∀ f ∈ fs'.list, fieldErrors o f = []) ∧
      ((∃ f ∈ fs'.list, FieldNameFails o f) → ∃ f ∈ fs.list, FieldNameFails o f) := by
  have key : ∀ f' ∈ fs'.list, ∃ i, ∃ f ∈ fs.list, FieldRenamed o rule i f f' := by
    intro f' hf'
    obtain ⟨i, hi, rfl⟩ := List.getElem_of_mem hf'
    have hj : i < fs.list.length := by rw [← h.length]; exact hi
    exact ⟨i, _, List.getElem_mem hj, h.fields i _ _ (List.getElem?_eq_getElem hj) (List.getElem?_eq_getElem hi)⟩
  refine ⟨⟨h.kind, h.length, fun i f f' hf hf' => ?_⟩, fun f' hf' => ?_, ?_⟩
  · exact (fieldRenamed_same (h.fields i f f' hf hf') (he f (List.mem_of_getElem? hf))).1
  · obtain ⟨i, f, hf, hr⟩ := key f' hf'
    exact (fieldRenamed_same hr (he f hf)).2.1
  · rintro ⟨f', hf', hn⟩
    obtain ⟨i, f, hf, hr⟩ := key f' hf'
    exact ⟨f, hf, (fieldRenamed_same hr (he f hf)).2.2 hn⟩

theorem variantErrors_flags {v : SynVariant τ} (h : variantErrors o v = []) :
    (atMostOne (runAttrs (variantAction o) v.attrs).flags).2 = [] := by
  simp only [variantErrors, variantAttrsFromAst, List.append_eq_nil_iff] at h
  exact h.1.2

theorem variantRenamed_same {rule : RenameRule} {v v' : SynVariant τ} (h : VariantRenamed o rule v v')
    (he : variantErrors o v = []) : SameVariant o rule rule v v' ∧ variantErrors o v' = [] ∧
      (VariantNameFails o v' → VariantNameFails o v) ∧
      (CamelCased (VariantGives o) v'.attrs → CamelCased (VariantGives o) v.attrs) ∧
      ((∃ f ∈ v'.fields.list, FieldNameFails o f) → ∃ f ∈ v.fields.list, FieldNameFails o f) := by
  obtain ⟨h1, hfe⟩ := variantErrors_nil he
  have h2 := variantErrors_flags he
  have hr := ruleOf_variant h1
  obtain ⟨hs, he', hn⟩ := fieldsRenamed_same (h.fields _ hr) hfe
  have hg := fun src m k v => variantAction_set (o := o) (src := src) (m := m) (k := k) (v := v)
  have hu : ∀ {r r'}, RuleOf (VariantGives o) v.attrs r → RuleOf (VariantGives o) v.attrs r' → r = r' := by
    rintro r r' (h | ⟨h, rfl⟩) (h' | ⟨h', rfl⟩)
    · exact AVal.rule.inj (gives_unique hg h1 h h')
    · exact absurd h (h' _)
    · exact absurd h' (h _)
    · rfl
  rcases h.name with ⟨e1, e2⟩ | ⟨hx, s, hss, e2⟩
  · refine ⟨⟨h.discriminant, e2 ▸ .refl _ _, ?_, ?_⟩, ?_, ?_, ?_, hn⟩
    · intro _ s
      unfold VariantSerializedAs
      rw [e1, e2]
    · intro r r' hr1 hr2
      rw [e2] at hr2
      rw [hu hr1 hr, hu hr2 hr]; exact hs
    · simp only [variantErrors, variantAttrsFromAst, e2, List.append_eq_nil_iff]
      exact ⟨⟨h1, h2⟩, List.flatMap_eq_nil_iff.2 he'⟩
    · unfold VariantNameFails; rw [e1, e2]; exact fun h => h
    · rw [e2]; exact fun h => h
  · have ha : VariantGives o .serde (.item (.nameValue "rename" (.str s))) .rename (.str s) := .common (.rename (.nameValue s))
    have e := runAttrs_renameTo hg ha h1 hx
    have hgv := gives_renameTo hg ha h1 hx
    refine ⟨⟨h.discriminant, ?_, ?_, ?_⟩, ?_, ?_, ?_, hn⟩
    · rw [e2]; exact saysSame_renameTo hg (fun _ _ _ => variantAction_flag) ha h1 hx h2
    · intro _ t
      unfold VariantSerializedAs
      rw [e2]
      constructor
      · intro ht
        have := variantSerializedAs_unique h1 ht hss
        subst this
        exact .inl ((hgv _ _).2 (.inl ⟨rfl, rfl⟩))
      · rintro (ht | ⟨ht, -⟩)
        · rcases (hgv _ _).1 ht with ⟨-, ht⟩ | ⟨ht, -⟩
          · cases ht; exact hss
          · exact absurd rfl ht
        · exact absurd ((hgv _ _).2 (.inl ⟨rfl, rfl⟩)) (ht _)
    · intro r r' hr1 hr2
      have hr3 : RuleOf (VariantGives o) v.attrs r' := by
        rw [e2] at hr2
        unfold RuleOf at hr2 ⊢
        simpa [hgv] using hr2
      rw [hu hr1 hr, hu hr3 hr]; exact hs
    · simp only [variantErrors, variantAttrsFromAst, e2, e, List.append_eq_nil_iff]
      exact ⟨⟨h1, h2⟩, List.flatMap_eq_nil_iff.2 he'⟩
    · rintro ⟨h, -⟩
      refine absurd ((runAttrs_first hg).1 ?_) (h (.str s))
      rw [e2, e]; simp
    · unfold CamelCased
      rw [← runAttrs_first hg, ← runAttrs_first hg, e2, e]
      simp

theorem Pointwise.right_mem {α β : Type} {R : α → β → Prop} {as : List α} {bs : List β} (h : Pointwise R as bs) {b}
    (hb : b ∈ bs) : ∃ a ∈ as, R a b := by
  induction h with
  | nil => cases hb
  | cons h _ ih =>
    rcases List.mem_cons.1 hb with rfl | hb
    · exact ⟨_, List.mem_cons_self .., h⟩
    · obtain ⟨a, ha, h⟩ := ih hb
      exact ⟨a, List.mem_cons_of_mem _ ha, h⟩

theorem Pointwise.left_in {α β : Type} {R : α → β → Prop} {as : List α} {bs : List β} (h : Pointwise R as bs) {a}
    (ha : a ∈ as) : ∃ b ∈ bs, R a b := by
  induction h with
  | nil => cases ha
  | cons h _ ih =>
    rcases List.mem_cons.1 ha with rfl | ha
    · exact ⟨_, List.mem_cons_self .., h⟩
    · obtain ⟨b, hb, h⟩ := ih ha
      exact ⟨b, List.mem_cons_of_mem _ hb, h⟩

theorem Pointwise.map_mem {α β : Type} {R Q : α → β → Prop} {as : List α} {bs : List β} (h : Pointwise R as bs)
    (hi : ∀ a ∈ as, ∀ b, R a b → Q a b) : Pointwise Q as bs := by
  induction h with
  | nil => exact .nil
  | cons h _ ih =>
    exact .cons (hi _ (List.mem_cons_self ..) _ h) (ih fun a ha => hi a (List.mem_cons_of_mem _ ha))

theorem containerErrs_congr {ident ident' : String} {attrs : List Attribute} {d d' : SynData τ} (hk : d'.kind = d.kind)
    (hm : ∀ t, decideModelType d' t = decideModelType d t) :
    (containerAttrsFromAst o ⟨ident', attrs, d'⟩).2 = (containerAttrsFromAst o ⟨ident, attrs, d⟩).2 := by
  simp only [containerAttrsFromAst, hk, hm]

theorem fields_kind_data {fs fs' : SynFields τ} (hk : match fs, fs' with
    | .named _, .named _ => True
    | .unnamed _, .unnamed _ => True
    | .unit, .unit => True
    | _, _ => False) : (SynData.struct fs').kind = (SynData.struct fs).kind ∧
    (∀ t, decideModelType (.struct fs') t = decideModelType (.struct fs) t) := by
  cases fs <;> cases fs' <;> first | exact hk.elim | exact ⟨rfl, fun _ => rfl⟩

theorem fields_unit {fs fs' : SynFields τ} (hk : match fs, fs' with
    | .named _, .named _ => True
    | .unnamed _, .unnamed _ => True
    | .unit, .unit => True
    | _, _ => False) (hl : fs'.list.length = fs.list.length) :
    (fs' = .unit ↔ fs = .unit) ∧ (fs'.isTuple ↔ fs.isTuple) := by
  cases fs <;> cases fs' <;> first | exact hk.elim | skip
  · simp [SynFields.isTuple]
  · simp only [SynFields.list] at hl
    simp [SynFields.isTuple, hl]
  · simp [SynFields.isTuple]

theorem consistent_renamed {r : RenameRule} {vs ws : List (SynVariant τ)} (h : Pointwise (VariantRenamed o r) vs ws) :
    MixedDiscriminants ws → MixedDiscriminants vs := by
  rintro ⟨⟨v, hv, h1⟩, ⟨w, hw, h2⟩⟩
  obtain ⟨v', hv', hr⟩ := h.right_mem hv
  obtain ⟨w', hw', hr'⟩ := h.right_mem hw
  exact ⟨⟨v', hv', by rw [← hr.discriminant]; exact h1⟩, ⟨w', hw', by rw [← hr'.discriminant]; exact h2⟩⟩

theorem derive_of_clean {i : DeriveInput τ} (hr : recordedErrors o i = []) (hn : ¬ NameFails o i) (hu : ¬ Unsupported o i) :
    ∃ c b, derive o i = .code c b := by
  have hp : ∀ p, derive o i ≠ .panic p := by
    intro p hp
    rcases (c52_panics_iff o i).1 ⟨p, hp⟩ with h | ⟨-, h⟩
    · exact hn h
    · exact hu h
  exact (derive_errors o i hp).1.1 hr

theorem itemRenamed_same {i i' : DeriveInput τ} {c b} (h : ItemRenamed o i i') (hc : derive o i = .code c b) :
    SameItem o i i' ∧ ∃ c' b', derive o i' = .code c' b' := by
  have hr := derive_code_errs hc
  obtain ⟨hca, he, ht⟩ := containerAttrs_nil hr
  have hrule := ruleOf_container he
  have hd := h.data _ hrule
  have hg := fun src m k v => containerAction_set (o := o) (kind := i.data.kind) (src := src) (m := m) (k := k) (v := v)
  have hu : ∀ {r r'}, RuleOf (ContainerGives o i.data.kind) i.attrs r → RuleOf (ContainerGives o i.data.kind) i.attrs r' →
      r = r' := by
    rintro r r' (h | ⟨h, rfl⟩) (h' | ⟨h', rfl⟩)
    · exact AVal.rule.inj (gives_unique hg he h h')
    · exact absurd h (h' _)
    · exact absurd h' (h _)
    · rfl
  have hp : ¬ ∃ p, derive o i = .panic p := by rw [hc]; simp
  rw [c52_panics_iff, inputProblems_iff] at hp
  simp only [not_or, not_and] at hp
  obtain ⟨hp1, hp2⟩ := hp
  have hp2 := hp2 hr
  obtain ⟨ident, attrs, data⟩ := i
  obtain ⟨ident', attrs', data'⟩ := i'
  obtain ⟨h1, h2, -⟩ := h
  simp only at h1 h2
  subst h1 h2
  revert hrule hd
  generalize (containerAttrsFromAst o _).1.renameRule = rule
  intro hrule hd
  cases data with
  | union => exact hd.elim
  | struct fs =>
    cases data' with
    | union => exact hd.elim
    | enum _ => exact hd.elim
    | struct fs' =>
      obtain ⟨e1, e2⟩ := fields_kind_data hd.kind
      obtain ⟨hs, hes, hns⟩ := fieldsRenamed_same hd (recorded_fields hr rfl)
      refine ⟨⟨rfl, e1, .refl _ _, fun r r' hr1 hr2 => ?_⟩, derive_of_clean ?_ ?_ ?_⟩
      · rw [hu hr1 hrule, hu hr2 hrule]; exact hs
      · simp only [recordedErrors, List.append_eq_nil_iff]
        exact ⟨(containerErrs_congr e1 e2).trans hca, List.flatMap_eq_nil_iff.2 hes⟩
      · rintro ⟨hcc, hf⟩
        refine hp1 ⟨?_, hns hf⟩
        simp only [e1] at hcc
        exact hcc
      · intro hun
        apply hp2
        have hl := hd.length
        have hk := hd.kind
        revert hun hl hk
        clear hc
        cases fs' with
        | named _ => intro h; exact h.elim
        | unit => intro h; exact h.elim
        | unnamed gs =>
          cases fs with
          | named _ => intro _ _ hk; exact hk.elim
          | unit => intro _ _ hk; exact hk.elim
          | unnamed fs =>
            intro h hl _
            simp only [SynFields.list] at hl
            match gs, fs, hl, h with
            | [_], [_], _, h => exact h
  | enum vs =>
    cases data' with
    | union => exact hd.elim
    | struct _ => exact hd.elim
    | enum ws =>
      obtain ⟨hcd, hve⟩ := recorded_variants hr rfl
      have hall : ∀ v ∈ vs, ∀ w, VariantRenamed o rule v w → _ := fun v hv w hw => variantRenamed_same hw (hve v hv)
      have hsame : Pointwise (SameVariant o rule rule) vs ws := hd.map_mem fun v hv w hw => (hall v hv w hw).1
      have hfw : ∀ {v w}, v ∈ vs → VariantRenamed o rule v w →
          (w.fields = .unit ↔ v.fields = .unit) ∧ (w.fields.isTuple ↔ v.fields.isTuple) := by
        intro v w hv hw
        have := hw.fields _ (ruleOf_variant (variantErrors_nil (hve v hv)).1)
        exact fields_unit this.kind this.length
      have hdata : HasData ws ↔ HasData vs := by
        constructor
        · rintro ⟨w, hw, hn⟩
          obtain ⟨v, hv, hr⟩ := hd.right_mem hw
          exact ⟨v, hv, fun h => hn ((hfw hv hr).1.2 h)⟩
        · rintro ⟨v, hv, hn⟩
          obtain ⟨w, hw, hr⟩ := hd.left_in hv
          exact ⟨w, hw, fun h => hn ((hfw hv hr).1.1 h)⟩
      refine ⟨⟨rfl, rfl, .refl _ _, fun r r' hr1 hr2 => ?_⟩, derive_of_clean ?_ ?_ ?_⟩
      · rw [hu hr1 hrule, hu hr2 hrule]; exact hsame
      · simp only [recordedErrors, List.append_eq_nil_iff]
        constructor
        · refine (containerErrs_congr (d := .enum vs) (d' := .enum ws) rfl fun t => ?_).trans hca
          have hb : (ws.all fun v => v.fields.isUnit) = vs.all fun v => v.fields.isUnit := by
            have hi : ∀ f : SynFields τ, f.isUnit = true ↔ f = .unit := by intro f; cases f <;> simp [SynFields.isUnit]
            rw [Bool.eq_iff_iff, List.all_eq_true, List.all_eq_true]
            simp only [hi]
            constructor
            · intro h v hv
              obtain ⟨w, hw, hr⟩ := hd.left_in hv
              exact (hfw hv hr).1.1 (h w hw)
            · intro h w hw
              obtain ⟨v, hv, hr⟩ := hd.right_mem hw
              exact (hfw hv hr).1.2 (h v hv)
          unfold decideModelType
          simp only [hb]
        · have hcd' : consistentDiscriminants ws = true := by
            rw [consistent_iff] at hcd ⊢
            exact fun h => hcd (consistent_renamed hd h)
          rw [if_pos hcd']
          refine List.flatMap_eq_nil_iff.2 fun w hw => ?_
          obtain ⟨v, hv, hr⟩ := hd.right_mem hw
          exact (hall v hv w hr).2.1
      · rintro ⟨-, w, hw, hf⟩
        obtain ⟨v, hv, hr⟩ := hd.right_mem hw
        obtain ⟨-, -, a, b, c⟩ := hall v hv w hr
        refine hp1 ⟨consistent_iff.1 hcd, v, hv, ?_⟩
        rcases hf with ⟨h1, h2⟩ | ⟨h1, h2⟩
        · exact .inl ⟨h1, a h2⟩
        · exact .inr ⟨b h1, c h2⟩
      · rintro ⟨hh, w, hw, hk, hf⟩
        obtain ⟨v, hv, hr⟩ := hd.right_mem hw
        refine hp2 ⟨hdata.1 hh, v, hv, ?_, ?_⟩
        · rw [(hall v hv w hr).1.says.values _ (by decide)]; exact hk
        · rw [(hfw hv hr).1, (hfw hv hr).2] at hf
          exact hf

end Verif
