import Verif.Proof.Reads
/-!
# Values that are read are accepted: proofs
-/

namespace Verif

variable {S : Setting} {d : Reader} {reg : List (String × Model)}

/-- The entries of an object conform as fields. -/
structure FieldsConform (S : Setting) (d : Reader) (reg : List (String × Model)) (i : Nat)
    (fs : List (Field Ty)) (es : List (String × Json)) : Prop where
  fits : Fits d i fs es
  conforms : ∀ f ∈ readFields d i fs, ∀ y, (d.fieldKey i f, y) ∈ es → f.attrs.explicitModelType = none →
    ConformsAt false S reg f.ty y

theorem object_accepts (G : Grounds S reg) {i} {fs : List (Field Ty)} {inl : Bool} {o : ModelObject} {de n}
    {es : List (String × Json)} (ho : ObjectOf S.docs inl fs o) (hf : DocumentedFields d i fs)
    (ha : ∀ f ∈ serialFields fs, f.attrs.explicitModelType = none → S.Seen (f.ty, !(inl || f.attrs.inline)))
    (h : FieldsConform S d reg i fs es) : ValidModel false reg (objectSchema de n o) (.obj es) := by
  obtain ⟨hpl, hfs⟩ := hf
  have read : ∀ f ∈ serialFields fs, f ∈ readFields d i fs ∧ d.fieldKey i f = f.key ∧
      (CanMiss d i f → f.attrs.optional = true) := by
    intro f hm
    obtain ⟨h1, h2⟩ := hfs f hm
    exact ⟨List.mem_filter.2 ⟨(List.mem_filter.1 hm).1, by simp [h1]⟩, h2⟩
  refine .object ?_ ?_ ?_
  · intro k hk
    rw [ho.required] at hk
    obtain ⟨f, hm, rfl⟩ := List.mem_map.1 hk
    obtain ⟨hm, hopt⟩ := List.mem_filter.1 hm
    obtain ⟨h1, h2, h3⟩ := read f hm
    refine Classical.byContradiction fun hn => ?_
    have := h3 (h.fits.missing f h1 (by rw [h2]; exact hn))
    simp [this] at hopt
  · intro k y r hy hg
    obtain ⟨pre, f, post, he, rfl, _, hfr⟩ := ho.refs _ _ hg
    have hm : f ∈ serialFields fs := by rw [he]; simp
    obtain ⟨h1, h2, h3⟩ := read f hm
    rw [← h2] at hy
    exact fieldRef_valid G (doc_benign f) hfr (fun t ht => h.fits.explicit f h1 y t hy ht)
      fun hex => ⟨ha f hm hex, h.conforms f h1 y hy hex⟩
  · intro k y r _ _ hadd
    rw [ho.additional] at hadd
    cases hadd

theorem objectDesc_accepts (G : Grounds S reg) {i} {fs : List (Field Ty)} {pred : Field Ty → Bool} {inl de n m}
    {es : List (String × Json)} (hp : ∀ f, pred f = (inl || f.attrs.inline)) (hy : (objectModel n de fs pred).Yields S.docs m)
    (hf : DocumentedFields d i fs) (ha : ∀ a ∈ (objectTypeDescription fs pred).asked, S.Seen a)
    (h : FieldsConform S d reg i fs es) : ValidModel false reg m (.obj es) := by
  obtain ⟨o, ho, rfl⟩ := yields_objectModel (inl := inl) hp hy
  refine object_accepts G ho hf ?_ h
  intro f hf he
  have := ha _ (asked_object (pred := pred) hf he)
  rwa [hp] at this

/-- The elements of an array conform as fields. -/
structure SeqConforms (S : Setting) (d : Reader) (reg : List (String × Model)) (i : Nat)
    (fs : List (Field Ty)) (xs : List Json) : Prop where
  fits : FitsSeq d i fs xs
  conforms : ∀ (k : Nat) f y, (readFields d i fs)[k]? = some f → xs[k]? = some y → f.attrs.explicitModelType = none →
    ConformsAt false S reg f.ty y

theorem tupleDesc_accepts (G : Grounds S reg) {i} {fs : List (Field Ty)} {pred : Field Ty → Bool} {inl td xs de n}
    (hp : ∀ f, pred f = (inl || f.attrs.inline)) (hy : (tupleTypeDescription fs pred).Yields S.docs td)
    (ha : ∀ a ∈ (tupleTypeDescription fs pred).asked, S.Seen a) (h : SeqConforms S d reg i fs xs) :
    ValidModel false reg ⟨de, .single ⟨n, td⟩⟩ (.arr xs) := by
  obtain ⟨rs, hrs, rfl⟩ := yields_tupleDesc hp hy
  refine .array fun y hy => ?_
  obtain ⟨k, hk⟩ := List.getElem?_of_mem hy
  have hlt : k < (readFields d i fs).length := by
    have := (List.getElem?_eq_some_iff.1 hk).1
    have := h.fits.length
    omega
  have hf : (readFields d i fs)[k]? = some (readFields d i fs)[k] := List.getElem?_eq_getElem hlt
  generalize (readFields d i fs)[k] = f at hf
  have hm : f ∈ fs := (List.mem_filter.1 (List.mem_of_getElem? hf)).1
  obtain ⟨r, hr, hfr⟩ := refsOf_mem hrs hm
  refine .inline (valid_oneOf hr (fieldRef_valid G (doc_benign f) hfr (fun t ht => h.fits.explicit k f y t hf hk ht) ?_))
  intro hex
  refine ⟨?_, h.conforms k f y hf hk hex⟩
  have := ha _ (asked_tuple (pred := pred) hm hex)
  rwa [hp] at this

/-- The content of a variant conforms. -/
inductive ContentConforms (S : Setting) (d : Reader) (reg : List (String × Model)) (i : Nat)
    (v : Variant Ty) : Option Json → Prop
  | unit (h : v.style = .unit) : ContentConforms S d reg i v none
  | newtype {f rest c} (hst : v.style = .newType) (hf : v.fields = f :: rest)
      (he : ∀ t, f.attrs.explicitModelType = some t → ExplicitJson t f.attrs.nullable c)
      (hs : f.attrs.explicitModelType = none → ConformsAt false S reg f.ty c) : ContentConforms S d reg i v (some c)
  | tuple {xs} (hst : v.style = .tuple) (h : SeqConforms S d reg i v.fields xs) :
      ContentConforms S d reg i v (some (.arr xs))
  | struct {es} (hst : v.style = .struct) (h : FieldsConform S d reg i v.fields es) :
      ContentConforms S d reg i v (some (.obj es))

theorem newtype_accepts (G : Grounds S reg) {p : ParamsExpr} {f : Field Ty} {b r j} (hp : p.nullable ≠ some false)
    (hy : (fieldModelReference p f b).Yields S.docs r) (ha : ∀ x ∈ (fieldModelReference p f b).asked, S.Seen x)
    (he : ∀ t, f.attrs.explicitModelType = some t → ExplicitJson t f.attrs.nullable j)
    (hs : f.attrs.explicitModelType = none → ConformsAt false S reg f.ty j) : Valid false reg r j :=
  fieldRef_valid G (benign_eval p hp) (yields_fieldRef hy) he fun h => ⟨ha _ (asked_field h), hs h⟩

theorem inlineObject_accepts (G : Grounds S reg) {i de n} {fs : List (Field Ty)} {pred : Field Ty → Bool} {inl r es}
    (hp : ∀ f, pred f = (inl || f.attrs.inline)) (hy : (RefExpr.inline (objectModel n de fs pred)).Yields S.docs r)
    (ha : ∀ x ∈ (RefExpr.inline (objectModel n de fs pred)).asked, S.Seen x) (hf : DocumentedFields d i fs)
    (h : FieldsConform S d reg i fs es) : Valid false reg r (.obj es) := by
  obtain ⟨m, hm, rfl⟩ := yields_inline hy
  exact .inline (objectDesc_accepts G hp hm hf ha h)

theorem inlineTuple_accepts (G : Grounds S reg) {i de n} {fs : List (Field Ty)} {pred : Field Ty → Bool} {inl r xs}
    (hp : ∀ f, pred f = (inl || f.attrs.inline)) (hy : (RefExpr.inline (tupleModel n de fs pred)).Yields S.docs r)
    (ha : ∀ x ∈ (RefExpr.inline (tupleModel n de fs pred)).asked, S.Seen x)
    (h : SeqConforms S d reg i fs xs) : Valid false reg r (.arr xs) := by
  obtain ⟨m, hm, rfl⟩ := yields_inline hy
  obtain ⟨td, htd, rfl⟩ := yields_single hm
  exact .inline (tupleDesc_accepts G hp htd ha h)

theorem external_accepts (G : Grounds S reg) {i} {v : Variant Ty} {e r c} (he : externalAlternative v = .ok e)
    (hy : e.Yields S.docs r) (ha : ∀ x ∈ e.asked, S.Seen x) (hf : DocumentedVariant S.docs d i .external v)
    (hc : ContentConforms S d reg i v c) : ∃ j, c = some j ∧ Valid false reg r j := by
  obtain ⟨h1, h2⟩ := hf
  cases hc with
  | unit h => exact absurd h h2
  | newtype hst hfs hex hs =>
    refine ⟨_, rfl, ?_⟩
    simp only [externalAlternative, hst, newtypeVariantReference, hfs, Except.ok.injEq] at he
    subst he
    exact newtype_accepts G (params_or_nullable _ _) hy ha hex hs
  | tuple hst hw =>
    refine ⟨_, rfl, ?_⟩
    simp only [externalAlternative, hst, Except.ok.injEq] at he
    subst he
    exact inlineTuple_accepts G (inl := v.attrs.inline) (fun _ => rfl) hy ha hw
  | struct hst hw =>
    refine ⟨_, rfl, ?_⟩
    simp only [externalAlternative, hst, Except.ok.injEq] at he
    subst he
    exact inlineObject_accepts G (inl := v.attrs.inline) (fun _ => rfl) hy ha (h1 hst) hw

theorem untagged_accepts (G : Grounds S reg) {i} {v : Variant Ty} {e r c} (he : untaggedAlternative v = .ok e)
    (hy : e.Yields S.docs r) (ha : ∀ x ∈ e.asked, S.Seen x) (hf : DocumentedVariant S.docs d i .none v)
    (hc : ContentConforms S d reg i v c) : ∃ j, c = some j ∧ Valid false reg r j := by
  obtain ⟨h1, _⟩ := hf
  have hst := (yields_untagged he hy).1
  cases hc with
  | unit h => rw [h] at hst; simp at hst
  | newtype hst hfs hex hs =>
    refine ⟨_, rfl, ?_⟩
    simp only [untaggedAlternative, hst, newtypeVariantReference, hfs, Except.ok.injEq] at he
    subst he
    exact newtype_accepts G (params_or_nullable _ _) hy ha hex hs
  | tuple hst' hw => rw [hst'] at hst; simp at hst
  | struct hst hw =>
    refine ⟨_, rfl, ?_⟩
    simp only [untaggedAlternative, hst, Except.ok.injEq] at he
    subst he
    exact inlineObject_accepts G (inl := v.attrs.inline) (fun _ => rfl) hy ha (h1 hst) hw

theorem adjacent_accepts (G : Grounds S reg) {i} {v : Variant Ty} {e r c t cn} (he : adjacentAlternative v = .ok e)
    (hy : e.Yields S.docs r) (ha : ∀ x ∈ e.asked, S.Seen x) (hf : DocumentedVariant S.docs d i (.adjacent t cn) v)
    (hc : ContentConforms S d reg i v c) : ∃ j, c = some j ∧ Valid false reg r j := by
  obtain ⟨_, h3, _⟩ := hf
  cases hc with
  | unit h => simp [adjacentAlternative, h] at he
  | newtype hst hfs hex hs =>
    refine ⟨_, rfl, ?_⟩
    simp only [adjacentAlternative, hst, newtypeVariantReference, hfs, Except.ok.injEq] at he
    subst he
    exact newtype_accepts G (params_or_nullable _ _) hy ha hex hs
  | tuple hst hw =>
    refine ⟨_, rfl, ?_⟩
    simp only [adjacentAlternative, hst, Except.ok.injEq] at he
    subst he
    exact inlineTuple_accepts G (inl := v.attrs.inline) (fun _ => rfl) hy ha hw
  | struct hst hw => exact absurd hst h3

theorem eq_of_once {k : String} {y z : Json} : ∀ {es : List (String × Json)}, (es.filter fun e => e.1 == k).length ≤ 1 →
    (k, y) ∈ es → (k, z) ∈ es → y = z := by
  intro es h hy hz
  have hy' : (k, y) ∈ es.filter fun e => e.1 == k := List.mem_filter.2 ⟨hy, by simp⟩
  have hz' : (k, z) ∈ es.filter fun e => e.1 == k := List.mem_filter.2 ⟨hz, by simp⟩
  generalize es.filter (fun e => e.1 == k) = l at h hy' hz'
  match l, h with
  | [], _ => cases hy'
  | [a], _ =>
    simp only [List.mem_singleton] at hy' hz'
    rw [← hy'] at hz'
    exact (Prod.mk.inj hz').2.symm

/-- A tag added to an object that accepts the rest. -/
theorem tagged_accepts {tag desc value m₀ m} {es : List (String × Json)} (ht : Tagged tag desc value m₀ m)
    (ho : ∃ d n o, m₀ = objectSchema d n o ∧ tag ∉ BMap.keys o.properties) (hk : (tag, .str value) ∈ es)
    (honce : (es.filter fun e => e.1 == tag).length ≤ 1)
    (hv : ValidModel false reg m₀ (.obj (es.filter fun e => e.1 ≠ tag))) : ValidModel false reg m (.obj es) := by
  obtain ⟨d', n', o', rfl, hn'⟩ := ho
  have rest : ∀ k y, (k, y) ∈ es → k ≠ tag → (k, y) ∈ es.filter fun e => e.1 ≠ tag :=
    fun k y hm hne => List.mem_filter.2 ⟨hm, by simpa using hne⟩
  cases ht with
  | added d n o h hn hm =>
    subst hm
    simp only [objectSchema, Model.mk.injEq, ModelData.single.injEq, ModelType.mk.injEq, TypeDesc.object.injEq] at h
    obtain ⟨rfl, rfl, rfl⟩ := h
    cases hv with
    | object hr hp ha =>
      refine .object ?_ ?_ ?_
      · intro k hkr
        simp only [List.mem_append, List.mem_singleton] at hkr
        rcases hkr with hkr | rfl
        · obtain ⟨e, he, hek⟩ := List.mem_map.1 (hr k hkr)
          exact List.mem_map.2 ⟨e, (List.mem_filter.1 he).1, hek⟩
        · exact List.mem_map.2 ⟨_, hk, rfl⟩
      · intro k j r hm hg
        rw [BMap.get_insert] at hg
        split at hg
        · rename_i hkt
          subst hkt
          cases hg
          cases eq_of_once honce hm hk
          exact .inline (.string (by simp))
        · rename_i hne
          exact hp k j r (rest k j hm hne) hg
      · intro k j r hm hg hadd
        rw [BMap.get_insert] at hg
        split at hg
        · cases hg
        · rename_i hne
          exact ha k j r (rest k j hm hne) hg hadd
  | clash d n o h hn hm =>
    simp only [objectSchema, Model.mk.injEq, ModelData.single.injEq, ModelType.mk.injEq, TypeDesc.object.injEq] at h
    obtain ⟨rfl, rfl, rfl⟩ := h
    exact absurd hn hn'
  | notObject h hm => exact absurd rfl (h d' n' o')

theorem internal_accepts (G : Grounds S reg) {i} {c₀ : Container Ty} {t : String} {v : Variant Ty} {e r c j l}
    (he : internalAlternative c₀ t v = .ok e) (hy : e.Yields S.docs r) (ha : ∀ x ∈ e.asked, S.Seen x)
    (hf : DocumentedVariant S.docs d i (.internal t) v) (hc : ContentConforms S d reg i v c)
    (hj : TaggedAs l (.internal t) v.key j c) : Valid false reg r j := by
  obtain ⟨h1, h3, h4⟩ := hf
  unfold internalAlternative at he
  split at he
  · cases he
  rename_i e' hin
  cases he
  obtain ⟨m', hm', rfl⟩ := yields_inline hy
  obtain ⟨m₀, hm₀, rfl⟩ := yields_tagged hm'
  have htag := tagged_tryMerge m₀ c₀.ident t v.key c₀.attrs.nullable
  refine .inline ?_
  cases hc with
  | unit hst =>
    cases hj with
    | internalUnit hm ho =>
    simp only [internalInner, hst, Except.ok.injEq] at hin
    subst hin
    obtain ⟨o, ho', rfl⟩ := yields_objectModel (inl := false) (pred := fun f => false || f.attrs.inline)
      (fs := []) (d := v.attrs.description) (b := false) (m := m₀) (fun _ => rfl) hm₀
    have hno : ∀ k, k ∉ BMap.keys o.properties := fun k h => by simpa [serialFields] using objectOf_keys ho' h
    refine tagged_accepts htag ⟨_, _, o, rfl, hno t⟩ hm ho (.object ?_ ?_ ?_)
    · rw [ho'.required]; simp [serialFields]
    · intro k y r _ hg
      exact absurd (BMap.get_isSome_iff.1 (by rw [hg]; rfl)) (hno k)
    · intro k y r _ _ hadd
      rw [ho'.additional] at hadd; cases hadd
  | @newtype f rest c hst hfs hex hs =>
    obtain ⟨hex0, hobj⟩ := h4 hst f (by rw [hfs]; simp)
    cases hj with
    | internal hm ho =>
    simp only [internalInner, hst, hfs, Except.ok.injEq] at hin
    subst hin
    obtain ⟨m₁, hm₁, rfl⟩ := yields_getSchemaWithParams hm₀
    have hseen := ha (f.ty, false) (by simp [RefExpr.asked, ModelExpr.asked])
    have hv := valid_applyParams (benign_eval (env := S.env) _ (params_or_nullable f v.attrs)) (hs hex0 hseen.1 m₁ hm₁)
    obtain ⟨d, n, o, rfl, hno⟩ := hobj m₁ hm₁
    obtain ⟨d', n', heq⟩ := applyParams_object (d := d) (n := n) (o := o) (p := (f.attrs.params.or v.attrs.params).eval S.env)
    exact tagged_accepts htag ⟨d', n', o, heq, hno⟩ hm ho hv
  | tuple hst hw => cases hj
  | @struct es hst hw =>
    cases hj with
    | internal hm ho =>
    simp only [internalInner, hst, Except.ok.injEq] at hin
    subst hin
    have hm₀' := hm₀
    obtain ⟨o, ho', rfl⟩ := yields_objectModel (inl := v.attrs.inline) (fun _ => rfl) hm₀
    refine tagged_accepts htag ⟨_, _, o, rfl, fun h => h3 hst (objectOf_keys ho' h)⟩ hm ho ?_
    exact objectDesc_accepts G (inl := v.attrs.inline) (fun _ => rfl) hm₀' (h1 hst)
      (fun a h => ha a (by simpa [RefExpr.asked, ModelExpr.asked, objectModel] using h)) hw

theorem enum_accepts (G : Grounds S reg) {i vs v c j m o input} (hder : Derived o S.env i input)
    (hr : S.reached (.named i)) (hh : S.hand i = none) (hdoc : DocumentedDecl S.docs d i)
    (hd : (S.env.decl i).data = .enum vs) (hs : d.repr i = none) (hv : v ∈ vs) (hsk : d.skipsVariant i v = false)
    (hc : ContentConforms S d reg i v c)
    (hj : TaggedAs false (S.env.decl i).attrs.tagType (d.variantKey i v) j c)
    (hm : S.docs.schema (.named i) m) : ValidModel false reg m j := by
  obtain ⟨body, hb, he, hy⟩ := G.named hm (not_byHand hh)
  have ha := G.asked _ _ hr (not_byHand hh) he
  obtain ⟨hmt1, hmt2⟩ := derived_enum hder hd
  simp only [DocumentedDecl, hd] at hdoc
  obtain ⟨hvk, hf1, hf2⟩ := hdoc
  obtain ⟨hvw, hkey⟩ := hvk v hv hsk
  rw [hkey] at hj
  simp only [serializeBody, hd] at hb
  by_cases hu : ∀ v ∈ vs, v.style = .unit
  · have hf1 := hf1 hu
    split at hf1
    · rw [hs] at hf1; cases hf1.1
    · rename_i hrep
      simp only [serializeEnum, hmt1 hu, serializeNewtypeEnum, hrep, Except.ok.injEq] at hb
      subst hb
      obtain ⟨td, htd, rfl⟩ := yields_single hy
      have := yields_string htd
      subst this
      have hcn : c = none := by
        have := hu v hv
        cases hc with
        | unit => rfl
        | newtype h => rw [this] at h; cases h
        | tuple h => rw [this] at h; cases h
        | struct h => rw [this] at h; cases h
      subst hcn
      rw [hf1.2] at hj
      cases hj with
      | externalNull h => cases h
      | externalUnit =>
      refine .string ?_
      intro vs' hvs'
      cases hvs'
      exact List.mem_map_of_mem (f := fun v => v.attrs.name.serialized) hvw
  · have hu' : ∃ v ∈ vs, v.style ≠ .unit := by simpa using hu
    have hfv := (hf2 hu').2 v hvw
    have hmt := hmt2 hu'
    simp only [serializeEnum, hmt] at hb
    cases ht : (S.env.decl i).attrs.tagType with
    | external =>
      simp only [ht, serializeExternalEnum] at hb hfv hj
      split at hb
      · cases hb
      rename_i es hes
      cases hb
      obtain ⟨td, htd, rfl⟩ := yields_single hy
      obtain ⟨r, hr1, rfl⟩ := yields_dictionary htd
      obtain ⟨m', hm', rfl⟩ := yields_inline hr1
      obtain ⟨rs, hrs, rfl⟩ := yields_oneOf hm'
      obtain ⟨e, r, hve, hrm, her, hea⟩ := alternative hes hrs hvw (by simpa [ModelExpr.asked, TypeExpr.asked, RefExpr.asked] using ha)
      obtain ⟨j', rfl, hval⟩ := external_accepts G hve her hea hfv hc
      cases hj
      refine .object (by simp) (by simp) ?_
      intro k x r' hx _ hr'
      simp only [List.mem_singleton, Prod.mk.injEq] at hx
      obtain ⟨rfl, rfl⟩ := hx
      cases hr'
      exact .inline (valid_oneOf hrm hval)
    | none =>
      simp only [ht, serializeUntaggedEnum] at hb hfv hj
      split at hb
      · cases hb
      rename_i es hes
      cases hb
      obtain ⟨rs, hrs, rfl⟩ := yields_oneOf hy
      obtain ⟨e, r, hve, hrm, her, hea⟩ := alternative hes hrs hvw (by simpa [ModelExpr.asked] using ha)
      obtain ⟨j', rfl, hval⟩ := untagged_accepts G hve her hea hfv hc
      cases hj
      exact valid_oneOf hrm hval
    | internal t =>
      simp only [ht, serializeInternalEnum] at hb hfv hj
      split at hb
      · cases hb
      rename_i es hes
      cases hb
      obtain ⟨rs, hrs, rfl⟩ := yields_oneOf hy
      obtain ⟨e, r, hve, hrm, her, hea⟩ := alternative hes hrs hvw (by simpa [ModelExpr.asked] using ha)
      exact valid_oneOf hrm (internal_accepts G hve her hea hfv hc hj)
    | adjacent t cn =>
      simp only [ht, serializeAdjacentEnum] at hb hfv hj
      split at hb
      · cases hb
      rename_i es hes
      cases hb
      obtain ⟨td, htd, rfl⟩ := yields_single hy
      obtain ⟨rs₂, hrs₂, rfl⟩ := yields_object htd
      have hne : t ≠ cn := hfv.2.2
      cases hrs₂ with
      | cons h1 h2 => cases h2 with
        | cons h2 h3 =>
          cases h3
          simp only [PropExpr.rf] at h1 h2
          obtain ⟨m1, hm1, rfl⟩ := yields_inline h1
          obtain ⟨td1, htd1, rfl⟩ := yields_single hm1
          have := yields_string htd1
          subst this
          obtain ⟨m2, hm2, rfl⟩ := yields_inline h2
          obtain ⟨rs, hrs, rfl⟩ := yields_oneOf hm2
          obtain ⟨e, r, hve, hrm, her, hea⟩ := alternative hes hrs hvw (by
            intro x hx
            exact ha x (by simp [ModelExpr.asked, TypeExpr.asked, RefExpr.asked, PropExpr.askedList, hx]))
          obtain ⟨j', rfl, hval⟩ := adjacent_accepts G hve her hea hfv hc
          cases hj with
          | adjacent hmt' hmc hot hoc =>
          refine .object ?_ ?_ (by simp)
          · intro k hk
            have hk' : k ∈ [t, cn] := hk
            simp only [List.mem_cons, List.not_mem_nil, or_false] at hk'
            rcases hk' with rfl | rfl
            · exact List.mem_map.2 ⟨_, hmt', rfl⟩
            · exact List.mem_map.2 ⟨_, hmc, rfl⟩
          · intro k x r' hx hg
            simp only [PropExpr.nm, List.map_cons, List.map_nil, List.zip_cons_cons, List.zip_nil_left, BMap.get_insertAll,
              List.reverse_cons, List.reverse_nil, List.nil_append, List.singleton_append, BMap.get_cons, BMap.get_nil] at hg
            by_cases hkc : k = cn
            · subst hkc
              simp at hg
              subst hg
              cases eq_of_once hoc hx hmc
              exact .inline (valid_oneOf hrm hval)
            · by_cases hkt : k = t
              · subst hkt
                simp [hne] at hg
                subst hg
                cases eq_of_once hot hx hmt'
                refine .inline (.string ?_)
                intro vs' hvs'
                cases hvs'
                exact List.mem_map_of_mem (f := fun v => v.attrs.name.serialized) hvw
              · simp [hkc, hkt] at hg

theorem scalar_accepts (G : Grounds S reg) {t : Ty} {m j} (ht : t.IsScalar) (hm : S.docs.schema t m) (hj : ScalarForm t j) :
    ValidModel false reg m j := by
  cases t <;> first | exact ht.elim | skip
  · rename_i p
    refine simple_valid (G.yields hm rfl) ?_
    cases p <;> exact hj
  all_goals
    obtain ⟨t, rfl⟩ := hj
    exact string_valid (G.yields hm rfl) rfl

/-- What is needed for values that are accepted. -/
structure Acceptable (d : Reader) (S : Setting) (reg : List (String × Model)) : Prop extends Grounds S reg where
  strict : d.lenient = false
  documented : ∀ t, S.reached t → ¬ ByHand S.hand t → Documented S.docs d t
  byHand : ∀ i v, S.reached (.named i) → S.hand i = some v → ∀ j, v j → ∀ m, S.docs.schema (.named i) m →
    ValidModel false reg m j

theorem readsBy_conforms (A : Acceptable d S reg) {t j} (h : ReadsBy S.env d S.hand t j) : ConformsAt false S reg t j := by
  have G := A.toGrounds
  have strict := A.strict
  have nb : ∀ {t : Ty}, (∀ i, t ≠ .named i) → ¬ ByHand S.hand t := by rintro t h ⟨i, _, rfl, _⟩; exact h i rfl
  have documented := A.documented
  induction h with
  | byHand hh hv => exact fun hr m hm => A.byHand _ _ hr hh _ hv m hm
  | @scalar t j ht hj =>
    intro hr m hm
    have hp := documented _ hr (nb (by rintro i rfl; exact ht))
    refine scalar_accepts G ht hm ?_
    cases t <;> first | exact ht.elim | exact hp _ hj
  | @wrap w t j hw _ ih =>
    intro hr m hm
    have hs := G.asked _ (.getSchema t) hr (nb (by simp)) rfl (t, false) (by simp [ModelExpr.asked])
    exact ih hs.1 m (yields_getSchema (G.yields hm rfl))
  | tuple1 => intro hr; exact (documented _ hr (nb (by simp))).elim
  | @none t =>
    intro hr m hm
    obtain ⟨m₀, hm₀, rfl⟩ := yields_getSchemaWithParams (G.yields hm rfl)
    obtain ⟨d, ty, rfl⟩ := documented _ hr (nb (by simp)) m₀ hm₀
    exact .null
  | @some t j _ ih =>
    intro hr m hm
    have hs := G.asked _ (.getSchemaWithParams t { nullable := some true }) hr (nb (by simp)) rfl (t, false) (by simp [ModelExpr.asked])
    obtain ⟨m₀, hm₀, rfl⟩ := yields_getSchemaWithParams (G.yields hm rfl)
    exact valid_applyParams (benign_eval _ (by simp)) (ih hs.1 m₀ hm₀)
  | @tuple ts xs hl _ ih =>
    intro hr m hm
    have ha := G.asked _ _ hr (nb (by simp)) rfl
    obtain ⟨td, htd, rfl⟩ := yields_single (G.yields hm rfl)
    obtain ⟨r, hr', rfl⟩ := yields_array htd
    obtain ⟨m', hm', rfl⟩ := yields_inline hr'
    obtain ⟨rs, hrs, rfl⟩ := yields_oneOf hm'
    refine .array ?_
    intro x hx
    obtain ⟨k, hk⟩ := List.getElem?_of_mem hx
    have hlt : k < ts.length := by
      have := (List.getElem?_eq_some_iff.1 hk).1
      omega
    have hk' : ts[k]? = some ts[k] := List.getElem?_eq_getElem hlt
    obtain ⟨r, hrk, hy⟩ := (Pointwise.map_left hrs).get hk'
    refine .inline (valid_oneOf (List.mem_of_getElem? hrk) ?_)
    refine mention_valid G (benign_eval _ (by simp)) (yields_mention hy) (ha _ ?_) (ih k _ x hk' hk)
    simp only [ModelExpr.asked, TypeExpr.asked, RefExpr.asked]
    exact mem_askedTypes (List.mem_map.2 ⟨ts[k], List.getElem_mem hlt, rfl⟩) (by simp [RefExpr.asked])
  | @seq k t xs _ _ ih =>
    intro hr m hm
    have ha := G.asked _ _ hr (nb (by simp)) rfl
    obtain ⟨td, htd, rfl⟩ := yields_single (G.yields hm rfl)
    obtain ⟨r, hr', rfl⟩ := yields_array htd
    refine .array ?_
    intro x hx
    exact mention_valid G (benign_eval _ (by simp)) (yields_mention hr')
      (ha _ (by simp [ModelExpr.asked, TypeExpr.asked, RefExpr.asked])) (ih x hx)
  | @dict k t es _ ih =>
    intro hr m hm
    have ha := G.asked _ _ hr (nb (by simp)) rfl
    obtain ⟨td, htd, rfl⟩ := yields_single (G.yields hm rfl)
    obtain ⟨r, hr', rfl⟩ := yields_dictionary htd
    refine .object (by simp) (by simp) ?_
    intro k j r' hx _ hadd
    cases hadd
    exact mention_valid G (benign_eval _ (by simp)) (yields_mention hr')
      (ha _ (by simp [ModelExpr.asked, TypeExpr.asked, RefExpr.asked])) (ih _ hx)
  | unit =>
    intro hr m hm
    obtain ⟨td, htd, rfl⟩ := yields_single (G.yields hm rfl)
    exact .null
  | unitStruct hh hd =>
    intro hr m hm
    obtain ⟨body, hb, hex, hy⟩ := G.named hm (not_byHand hh)
    simp only [serializeBody, hd] at hb
    cases hb
  | @struct i fs es hh hd ht hg hf _ ih =>
    intro hr m hm
    obtain ⟨body, hb, hex, hy⟩ := G.named hm (not_byHand hh)
    have ha := G.asked _ _ hr (not_byHand hh) hex
    have hdoc := documented _ hr (not_byHand hh)
    simp only [Documented, DocumentedDecl, hd] at hdoc
    simp only [serializeBody, hd, serializeStruct, Except.ok.injEq] at hb
    subst hb
    exact objectDesc_accepts G (inl := false) (fun f => by simp) hy hdoc ha ⟨hf, ih⟩
  | structSeq _ hl => rw [strict] at hl; cases hl
  | @tupleStruct i fs xs hh hd ht hf _ ih =>
    intro hr m hm
    obtain ⟨body, hb, hex, hy⟩ := G.named hm (not_byHand hh)
    have ha := G.asked _ _ hr (not_byHand hh) hex
    simp only [serializeBody, hd, serializeTupleStruct, Except.ok.injEq] at hb
    subst hb
    obtain ⟨td, htd, rfl⟩ := yields_single hy
    exact tupleDesc_accepts G (inl := false) (fun f => by simp) htd ha ⟨hf, ih⟩
  | @newtypeStruct i f rest j hh hd hc hk he _ ih =>
    intro hr m hm
    obtain ⟨body, hb, hex, hy⟩ := G.named hm (not_byHand hh)
    have ha := G.asked _ _ hr (not_byHand hh) hex
    have hdoc := documented _ hr (not_byHand hh)
    simp only [Documented, DocumentedDecl, hd] at hdoc
    have hfn := hdoc hc f (by simp)
    simp only [serializeBody, hd, serializeNewtypeStruct, hc, Except.ok.injEq] at hb
    subst hb
    obtain ⟨m₀, hm₀, rfl⟩ := yields_getSchemaWithParams hy
    refine valid_applyParams (benign_eval _ ?_) (ih hfn (ha (f.ty, false) (by simp [ModelExpr.asked])).1 m₀ hm₀)
    simp only [ParamsExpr.or, FieldAttrs.params]; split <;> simp
  | @explicitNewtype i fs t j hh hd hc he =>
    intro hr m hm
    obtain ⟨body, hb, hex, hy⟩ := G.named hm (not_byHand hh)
    cases fs with
    | nil => simp only [serializeBody, hd] at hb; cases hb
    | cons f rest =>
      simp only [serializeBody, hd, serializeNewtypeStruct, hc] at hb
      split at hb
      · cases hb
      · rename_i t' hne htt
        cases htt
        cases hb
        rw [yields_newtypeModel hy]
        exact explicit_valid (by rintro rfl; exact hne rfl) he
      · rename_i h; cases h
  | @repr i vs P n hh hd hs hn =>
    intro hr m hm
    obtain ⟨body, hb, hex, hy⟩ := G.named hm (not_byHand hh)
    obtain ⟨o, input, hder⟩ := G.derived i hr (not_byHand hh)
    obtain ⟨hmt1, _⟩ := derived_enum hder hd
    have hdoc := documented _ hr (not_byHand hh)
    simp only [Documented, DocumentedDecl, hd] at hdoc
    obtain ⟨_, hf1, hf2⟩ := hdoc
    have hu : ∀ v ∈ vs, v.style = .unit := by
      refine Classical.byContradiction fun hu => ?_
      have := (hf2 (by simpa using hu)).1
      rw [hs] at this; cases this
    have hf := hf1 hu
    split at hf
    · rename_i hrep
      simp only [serializeBody, hd, serializeEnum, hmt1 hu, serializeNewtypeEnum, hrep, if_true, Except.ok.injEq] at hb
      subst hb
      obtain ⟨rs, hrs, rfl⟩ := yields_oneOf hy
      obtain ⟨_, v, hv, hdis⟩ := hf
      obtain ⟨dd, hdd⟩ := Option.isSome_iff_exists.1 hdis
      have hmem : RefExpr.inline (.single (some (v.attrs.name.serialized ++ " variant")) false (.integer none (some (.lit dd)))) ∈
          (serialVariants vs).filterMap reprAlternative :=
        List.mem_filterMap.2 ⟨v, hv, by simp [reprAlternative, hdd]⟩
      obtain ⟨r, hrm, hry⟩ := hrs.mem_left hmem
      refine valid_oneOf hrm ?_
      obtain ⟨m', hm', rfl⟩ := yields_inline hry
      obtain ⟨td, htd, rfl⟩ := yields_single hm'
      rw [yields_integer htd]
      exact .inline .integer
    · rw [hs] at hf; cases hf.1
  | unitVariant hh hd hrp hv hk hst hj =>
    intro hr m hm
    obtain ⟨o, input, hder⟩ := G.derived _ hr (not_byHand hh)
    exact enum_accepts G hder hr hh (documented _ hr (not_byHand hh)) hd hrp hv hk (.unit hst) (strict ▸ hj) hm
  | newtypeVariant hh hd hrp hv hk hst hf hs hj he _ ih =>
    intro hr m hm
    obtain ⟨o, input, hder⟩ := G.derived _ hr (not_byHand hh)
    exact enum_accepts G hder hr hh (documented _ hr (not_byHand hh)) hd hrp hv hk (.newtype hst hf he ih) (strict ▸ hj) hm
  | tupleVariant hh hd hrp hv hk hst hj hf _ ih =>
    intro hr m hm
    obtain ⟨o, input, hder⟩ := G.derived _ hr (not_byHand hh)
    exact enum_accepts G hder hr hh (documented _ hr (not_byHand hh)) hd hrp hv hk (.tuple hst ⟨hf, ih⟩) (strict ▸ hj) hm
  | structVariant hh hd hrp hv hk hst hj hf _ ih =>
    intro hr m hm
    obtain ⟨o, input, hder⟩ := G.derived _ hr (not_byHand hh)
    exact enum_accepts G hder hr hh (documented _ hr (not_byHand hh)) hd hrp hv hk (.struct hst ⟨hf, ih⟩) (strict ▸ hj) hm
  | structVariantSeq _ hl => rw [strict] at hl; cases hl

end Verif
