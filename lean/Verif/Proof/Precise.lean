import Verif.Spec.Precise
import Verif.Proof.Neutral
/-!
# Accepted values are values: proofs
-/

namespace Verif

variable {x : Bool} {s : Serde} {S : Setting} {reg : List (String × Model)}

theorem valid_applyParams_inv {m j p} (hv : p.variants = none) (h : ValidModel x reg (m.applyParams p) j) :
    (p.nullable = some true ∧ j = .null) ∨ ValidModel x reg m j := by
  obtain ⟨d, data⟩ := m
  cases data with
  | single t =>
    obtain ⟨n, td⟩ := t
    have key : ∃ d' n', (⟨d, .single ⟨n, td⟩⟩ : Model).applyParams p = ⟨d', .single ⟨n', td.applyParams p⟩⟩ ∧
        (n' = true → p.nullable = some true ∨ n = true) := by
      cases hp : p.nullable with
      | none => exact ⟨overrideOpt p.description d, n, by simp only [Model.applyParams, ModelData.applyParams, ModelType.applyParams, hp], .inr⟩
      | some b =>
        exact ⟨overrideOpt p.description d, b, by simp only [Model.applyParams, ModelData.applyParams, ModelType.applyParams, hp], fun h => .inl (by rw [h])⟩
    obtain ⟨d', n', he, hn'⟩ := key
    rw [he] at h
    have null : n' = true → j = .null → (p.nullable = some true ∧ j = .null) ∨ ValidModel x reg ⟨d, .single ⟨n, td⟩⟩ j := by
      rintro ht rfl
      rcases hn' ht with h | rfl
      · exact .inl ⟨h, rfl⟩
      · exact .inr .null
    clear hn' he
    cases td with
    | string v f e =>
      simp only [TypeDesc.applyParams, hv, overrideOpt] at h
      cases h with
      | null => exact null rfl rfl
      | string h => exact .inr (.string h)
    | number f e =>
      cases h with
      | null => exact null rfl rfl
      | number => exact .inr .number
      | numberInt => exact .inr .numberInt
    | integer f e =>
      cases h with
      | null => exact null rfl rfl
      | integer => exact .inr .integer
    | boolean =>
      cases h with
      | null => exact null rfl rfl
      | boolean => exact .inr .boolean
    | array r =>
      cases h with
      | null => exact null rfl rfl
      | array h => exact .inr (.array h)
    | object o =>
      cases h with
      | null => exact null rfl rfl
      | object a b c => exact .inr (.object a b c)
  | oneOf rs =>
    cases h with
    | oneOf a b c => exact .inr (.oneOf a b c)
  | anyOf rs =>
    cases h with
    | anyOf a b => exact .inr (.anyOf a b)
  | allOf rs =>
    cases h with
    | allOf a => exact .inr (.allOf a)

/-- Accepted values of a type are values. -/
abbrev Admits (x : Bool) (S : Setting) (s : Serde) (reg : List (String × Model)) (t : Ty) : Prop :=
  ∀ m j, S.docs.schema t m → ValidModel x reg m j → ∃ j', SerBy S.env s S.hand t j' ∧ Covers S.env t j' j

theorem mention_admits (G : Grounds S reg) {t i p r j} (hv : p.variants = none) (hn : p.nullable = none)
    (hm : S.docs.mention t i p r) (hs : S.Seen (t, !i)) (ha : Admits x S s reg t) (h : Valid x reg r j) :
    ∃ j', SerBy S.env s S.hand t j' ∧ Covers S.env t j' j := by
  rcases G.mention t i p r hm hs with ⟨l, m₀, rfl, hm₀, hg⟩ | ⟨m₀, hm₀, rfl⟩
  · cases h with
    | link hg' hv =>
      rw [hg] at hg'
      cases hg'
      exact ha m₀ j hm₀ hv
  · cases h with
    | inline h =>
      rcases valid_applyParams_inv hv h with ⟨h, _⟩ | h
      · rw [hn] at h; cases h
      · exact ha m₀ j hm₀ h

theorem explicit_back {t n doc j} (ht : t ≠ .any) (h : ValidModel x reg (explicitModel t n doc) j) : ExplicitJson t n j := by
  cases t with
  | any => exact absurd rfl ht
  | string => cases h with
    | null => exact .inl ⟨rfl, rfl⟩
    | string => exact .inr ⟨_, rfl⟩
  | integer => cases h with
    | null => exact .inl ⟨rfl, rfl⟩
    | integer => exact .inr ⟨_, rfl⟩
  | number => cases h with
    | null => exact .inl ⟨rfl, rfl⟩
    | number => exact .inr (.inl ⟨_, rfl⟩)
    | numberInt => exact .inr (.inr ⟨_, rfl⟩)
  | boolean => cases h with
    | null => exact .inl ⟨rfl, rfl⟩
    | boolean => exact .inr ⟨_, rfl⟩

/-- A value of a field. -/
structure FieldValue (S : Setting) (s : Serde) (f : Field Ty) (j : Json) : Prop where
  explicit : ∀ t, f.attrs.explicitModelType = some t → ExplicitJson t f.attrs.nullable j
  ser : f.attrs.explicitModelType = none → SerBy S.env s S.hand f.ty j

theorem fieldRef_admits (G : Grounds S reg) {doc inl f r j} (hb : doc.variants = none)
    (hn : f.attrs.explicitModelType = none → doc.nullable = none) (hr : FieldRef S.docs doc inl f r)
    (hs : f.attrs.explicitModelType = none → S.Seen (f.ty, !inl) ∧ Admits x S s reg f.ty)
    (h : Valid x reg r j) : ∃ j', FieldValue S s f j' ∧ Covers S.env f.ty j' j := by
  unfold FieldRef at hr
  split at hr
  · rename_i he
    refine ⟨j, ⟨?_, ?_⟩, .refl⟩
    · intro t ht; rw [he] at ht; cases ht; exact .inr trivial
    · intro ht; rw [he] at ht; cases ht
  · rename_i t hne he
    subst hr
    cases h with
    | inline h =>
      refine ⟨j, ⟨?_, ?_⟩, .refl⟩
      · intro t' ht; rw [he] at ht; cases ht; exact explicit_back hne h
      · intro ht; rw [he] at ht; cases ht
  · rename_i he
    obtain ⟨h1, h2⟩ := hs he
    obtain ⟨j', h3, h4⟩ := mention_admits G hb (hn he) hr h1 h2 h
    exact ⟨j', ⟨fun t ht => absurd (he.symm.trans ht) (by simp), fun _ => h3⟩, h4⟩

/-- The fields present in an object. -/
theorem fields_admits {es : List (String × Json)} : ∀ {fs : List (Field Ty)},
    (∀ f ∈ serialFields fs, f.attrs.optional = false → f.key ∈ BMap.keys es) →
    (∀ f ∈ serialFields fs, ∀ y, (f.key, y) ∈ es → ∃ j, FieldValue S s f j ∧ Covers S.env f.ty j y) →
    ∃ ps : List (Field Ty × Json), Kept fs (ps.map Prod.fst) ∧ (∀ p ∈ ps, FieldValue S s p.1 p.2) ∧
      ∀ p ∈ ps, ∃ y, (p.1.key, y) ∈ es ∧ Covers S.env p.1.ty p.2 y
  | [], _, _ => ⟨[], .nil, by simp, by simp⟩
  | f :: fs, hr, hv => by
    have sub : ∀ g, g ∈ serialFields fs → g ∈ serialFields (f :: fs) := by
      intro g hg
      obtain ⟨a, b⟩ := List.mem_filter.1 hg
      exact List.mem_filter.2 ⟨.tail _ a, b⟩
    obtain ⟨ps, h1, h2, h3⟩ := fields_admits (fs := fs) (fun g hg => hr g (sub g hg)) (fun g hg => hv g (sub g hg))
    by_cases hs : f.attrs.skipSerializing = true
    · exact ⟨ps, .drop (.inl hs) h1, h2, h3⟩
    · have hs : f.attrs.skipSerializing = false := by simpa using hs
      have hf : f ∈ serialFields (f :: fs) := List.mem_filter.2 ⟨.head _, by simp [hs]⟩
      by_cases hk : f.key ∈ BMap.keys es
      · obtain ⟨e, he, hek⟩ := List.mem_map.1 hk
        obtain ⟨k, y⟩ := e
        simp only at hek
        subst hek
        obtain ⟨j, hj, hc⟩ := hv f hf y he
        refine ⟨(f, j) :: ps, .keep hs h1, ?_, ?_⟩
        · intro p hp
          rcases List.mem_cons.1 hp with rfl | hp
          · exact hj
          · exact h2 p hp
        · intro p hp
          rcases List.mem_cons.1 hp with rfl | hp
          · exact ⟨y, he, hc⟩
          · exact h3 p hp
      · have ho : f.attrs.optional = true := by
          cases h : f.attrs.optional with
          | true => rfl
          | false => exact absurd (hr f hf h) hk
        exact ⟨ps, .drop (.inr ho) h1, h2, h3⟩

/-- Entries of written fields are covered if each field is. -/
theorem covers_fields {es : List (String × Json)} {fs : List (Field Ty)} {ps : List (Field Ty × Json)}
    (hp : PlainFields fs) (hk : Kept fs (ps.map Prod.fst)) (h : ∀ p ∈ ps, ∃ y, (p.1.key, y) ∈ es ∧ Covers S.env p.1.ty p.2 y)
    {k j} (hm : (k, j) ∈ fieldEntries ps) : ∃ y, (k, y) ∈ es ∧ ∃ f ∈ fs, f.key = k ∧ Covers S.env f.ty j y := by
  obtain ⟨p, hpp, hm⟩ := List.mem_flatMap.1 hm
  have hmem := hk.mem (List.mem_map_of_mem hpp)
  have hf := hp.1 p.1 hmem
  rw [hf] at hm
  simp only [Bool.false_eq_true, if_false, List.mem_singleton, Prod.mk.injEq] at hm
  obtain ⟨rfl, rfl⟩ := hm
  obtain ⟨y, hy, hc⟩ := h p hpp
  exact ⟨y, hy, p.1, (List.mem_filter.1 hmem).1, rfl, hc⟩

/-- Some field, for entries that need none. -/
def someField : Field Ty := ⟨⟨⟨"", "", false⟩, false, false, false, none, none, none, false, false, none⟩, .unit⟩

theorem covers_obj {i} {es es' : List (String × Json)} (h : ∀ k j, (k, j) ∈ es → (k, j) ∈ es' ∨
    ∃ y, (k, y) ∈ es' ∧ ∃ f ∈ (S.env.decl i).allFields, f.key = k ∧ Covers S.env f.ty j y) :
    Covers S.env (.named i) (.obj es) (.obj es') := by
  have h' : ∀ e : String × Json, ∃ (y : Json) (f : Field Ty), e ∈ es → (e.1, y) ∈ es' ∧
      (y ≠ e.2 → f ∈ (S.env.decl i).allFields ∧ f.key = e.1 ∧ Covers S.env f.ty e.2 y) := by
    intro e
    by_cases he : e ∈ es
    · rcases h e.1 e.2 he with h | ⟨y, hy, f, h1, h2, h3⟩
      · exact ⟨e.2, someField, fun _ => ⟨h, fun h => absurd rfl h⟩⟩
      · exact ⟨y, f, fun _ => ⟨hy, fun _ => ⟨h1, h2, h3⟩⟩⟩
    · exact ⟨.null, someField, fun h => absurd h he⟩
  refine .struct (fun e => (h' e).choose) (fun e he => ((h' e).choose_spec.choose_spec he).1)
    (fun e => (h' e).choose_spec.choose) ?_ ?_
  · intro e he hn
    have := ((h' e).choose_spec.choose_spec he).2 hn
    exact ⟨this.1, this.2.1⟩
  · intro e he hn
    exact (((h' e).choose_spec.choose_spec he).2 hn).2.2

/-- An object of fields. -/
theorem object_admits (G : Grounds S reg) {fs : List (Field Ty)} {inl : Bool} {o : ModelObject} {d n}
    {es : List (String × Json)} (ho : ObjectOf S.docs inl fs o) (hf : PreciseFields fs)
    (ha : ∀ f ∈ serialFields fs, f.attrs.explicitModelType = none →
      S.Seen (f.ty, !(inl || f.attrs.inline)) ∧ Admits x S s reg f.ty)
    (h : ValidModel x reg (objectSchema d n o) (.obj es)) :
    ∃ ps : List (Field Ty × Json), Kept fs (ps.map Prod.fst) ∧ (∀ p ∈ ps, FieldValue S s p.1 p.2) ∧
      ∀ p ∈ ps, ∃ y, (p.1.key, y) ∈ es ∧ Covers S.env p.1.ty p.2 y := by
  cases h with
  | object hr hp _ =>
    apply fields_admits
    · intro f hm hopt
      apply hr
      rw [ho.required]
      exact List.mem_map.2 ⟨f, List.mem_filter.2 ⟨hm, by simp [hopt]⟩, rfl⟩
    · intro f hm y hy
      obtain ⟨r, hg⟩ := Option.isSome_iff_exists.1 (BMap.get_isSome_iff.2 ((ho.names f.key).2 ⟨f, hm, rfl⟩))
      obtain ⟨pre, g, post, he, hk, _, hfr⟩ := ho.refs _ _ hg
      have hgm : g ∈ serialFields fs := by rw [he]; simp
      have := key_inj hf.1.2 hgm hm hk
      subst this
      refine fieldRef_admits G rfl ?_ hfr (ha g hgm) (hp _ _ _ hy hg)
      intro hex
      simp only [Field.doc]
      split
      · rename_i hnul
        have := hf.2 g hgm hnul
        rw [hex] at this; cases this
      · rfl

/-- The reference of a list of alternatives that accepts a value. -/
theorem oneOf_back {d rs j} (h : ValidModel x reg ⟨d, .oneOf rs⟩ j) : ∃ r ∈ rs, Valid x reg r j := by
  cases h with
  | oneOf e hv => exact ⟨_, by rw [e]; simp, hv⟩

theorem Pointwise.mem_rightP {α β : Type} {R : α → β → Prop} {as bs} (h : Pointwise R as bs) {b} (hb : b ∈ bs) :
    ∃ a ∈ as, R a b := by
  induction h with
  | nil => cases hb
  | cons hr _ ih =>
    rcases List.mem_cons.1 hb with rfl | hb
    · exact ⟨_, .head _, hr⟩
    · obtain ⟨a, ha, hr⟩ := ih hb
      exact ⟨a, .tail _ ha, hr⟩

/-- The alternative a reference comes from. -/
theorem alternative_back {docs : Docs} {alt : Variant Ty → Except MacroPanic (RefExpr Ty)} {vs : List (Variant Ty)} {es rs r}
    (hm : mapExcept alt vs = .ok es) (hy : Pointwise (RefExpr.Yields docs) es rs) (hr : r ∈ rs) :
    ∃ e, ∃ v ∈ vs, alt v = .ok e ∧ e.Yields docs r ∧ ∀ x ∈ e.asked, x ∈ RefExpr.askedList es := by
  obtain ⟨e, he, hyr⟩ := hy.mem_rightP hr
  obtain ⟨v, hv, hav⟩ := (mapExcept_ok hm).mem_rightP he
  exact ⟨e, v, hv, hav, hyr, fun x hx => mem_askedTypes he hx⟩

/-- What is known about the types a piece of code asks for. -/
abbrev AskedOk (x : Bool) (S : Setting) (s : Serde) (reg : List (String × Model))
    (as : List (Ty × Bool)) : Prop := ∀ a ∈ as, S.Seen a ∧ Admits x S s reg a.1

theorem newtypeRef_admits (G : Grounds S reg) {v : Variant Ty} {f : Field Ty} {b r j}
    (hy : (fieldModelReference (f.attrs.params.or v.attrs.params) f b).Yields S.docs r)
    (ha : AskedOk x S s reg (fieldModelReference (f.attrs.params.or v.attrs.params) f b).asked)
    (hn : f.attrs.nullable = true → f.attrs.explicitModelType.isSome) (h : Valid x reg r j) :
    ∃ j', FieldValue S s f j' ∧ Covers S.env f.ty j' j := by
  refine fieldRef_admits G (doc := (f.attrs.params.or v.attrs.params).eval S.env) rfl ?_ (yields_fieldRef hy)
    (fun he => ha _ (asked_field he)) h
  intro he
  have : f.attrs.nullable = false := by
    cases hc : f.attrs.nullable with
    | false => rfl
    | true => have := hn hc; rw [he] at this; cases this
  simp [ParamsExpr.eval, ParamsExpr.or, FieldAttrs.params, this]

theorem objectDesc_admits (G : Grounds S reg) {fs : List (Field Ty)} {pred : Field Ty → Bool} {inl d n m} {es : List (String × Json)}
    (hp : ∀ f, pred f = (inl || f.attrs.inline)) (hy : (objectModel n d fs pred).Yields S.docs m) (hf : PreciseFields fs)
    (ha : AskedOk x S s reg (objectTypeDescription fs pred).asked) (h : ValidModel x reg m (.obj es)) :
    ∃ ps : List (Field Ty × Json), Kept fs (ps.map Prod.fst) ∧ (∀ p ∈ ps, FieldValue S s p.1 p.2) ∧
      ∀ p ∈ ps, ∃ y, (p.1.key, y) ∈ es ∧ Covers S.env p.1.ty p.2 y := by
  obtain ⟨o, ho, rfl⟩ := yields_objectModel (inl := inl) hp hy
  refine object_admits G ho hf ?_ h
  intro f hf he
  have := ha _ (asked_object (pred := pred) hf he)
  rwa [hp] at this

theorem objectModel_shape {docs : Docs} {fs : List (Field Ty)} {pred : Field Ty → Bool} {inl d m j}
    (hp : ∀ f, pred f = (inl || f.attrs.inline)) (hy : (objectModel false d fs pred).Yields docs m)
    (h : ValidModel x reg m j) : ∃ es, j = .obj es := by
  obtain ⟨o, ho, rfl⟩ := yields_objectModel (inl := inl) hp hy
  cases h with
  | object => exact ⟨_, rfl⟩

/-- The content of a variant. -/
inductive VariantValue (S : Setting) (s : Serde) (v : Variant Ty) : Option Json → Prop
  | unit (h : v.style = .unit) : VariantValue S s v none
  | newtype {f rest c} (hst : v.style = .newType) (hf : v.fields = f :: rest) (hk : f.attrs.skipSerializing = false)
      (h : FieldValue S s f c) : VariantValue S s v (some c)
  | struct {ps : List (Field Ty × Json)} (hst : v.style = .struct) (hk : Kept v.fields (ps.map Prod.fst))
      (h : ∀ p ∈ ps, FieldValue S s p.1 p.2) : VariantValue S s v (some (.obj (fieldEntries ps)))

theorem VariantValue.ser {i vs} {v : Variant Ty} {c j} (h : VariantValue S s v c) (hh : S.hand i = none)
    (hd : (S.env.decl i).data = .enum vs)
    (hr : s.asRepr i = false) (hv : v ∈ writtenVariants vs) (hj : tagJson (S.env.decl i).attrs.tagType v.key c = some j) :
    SerBy S.env s S.hand (.named i) j := by
  cases h with
  | unit h => exact .unitVariant hh hd hr hv (.inl h) hj
  | newtype hst hf hk h => exact .newtypeVariant hh hd hr hv hst hf hk h.explicit h.ser hj
  | struct hst hk h => exact .structVariant hh hd hr hv hst hk (fun p hp => (h p hp).explicit) (fun p hp => (h p hp).ser) hj

theorem untagged_admits (G : Grounds S reg) {i} {v : Variant Ty} {e r j}
    (hfs : ∀ f ∈ v.fields, f ∈ (S.env.decl i).allFields) (he : untaggedAlternative v = .ok e)
    (hy : e.Yields S.docs r) (ha : AskedOk x S s reg e.asked) (hp : PreciseVariant S.docs .none v) (h : Valid x reg r j) :
    ∃ c, VariantValue S s v (some c) ∧ Covers S.env (.named i) c j := by
  obtain ⟨h1, h2, -⟩ := hp
  unfold untaggedAlternative at he
  split at he
  · rename_i hst
    unfold newtypeVariantReference at he
    split at he
    · cases he
    · rename_i f rest hvf
      cases he
      have hmem : f ∈ v.fields := by rw [hvf]; simp
      obtain ⟨hsk, hn⟩ := h2 hst f hmem
      obtain ⟨c, hc, hcov⟩ := newtypeRef_admits G hy ha hn h
      exact ⟨c, .newtype hst hvf hsk hc, .newtype (hfs f hmem) hcov⟩
  · rename_i hst
    cases he
    obtain ⟨m, hm, rfl⟩ := yields_inline hy
    cases h with
    | inline h =>
      obtain ⟨es, rfl⟩ := objectModel_shape (inl := v.attrs.inline) (fun _ => rfl) hm h
      obtain ⟨ps, hk, hv, hc⟩ := objectDesc_admits G (inl := v.attrs.inline) (fun _ => rfl) hm (h1 hst) ha h
      refine ⟨_, .struct hst hk hv, covers_obj fun k j hm => .inr ?_⟩
      obtain ⟨y, hy, f, hf, hk, hc⟩ := covers_fields (h1 hst).1 hk hc hm
      exact ⟨y, hy, f, hfs f hf, hk, hc⟩
  · cases he

/-- Removing the tag from the entries. -/
def untag (t : String) (es : List (String × Json)) : List (String × Json) := es.filter fun e => e.1 ≠ t

theorem mem_untag {t k j} {es : List (String × Json)} : (k, j) ∈ untag t es ↔ (k, j) ∈ es ∧ k ≠ t := by
  simp [untag, List.mem_filter]

/-- What a tagged object accepts. -/
theorem tagged_back {t de value d o m j} (ht : Tagged t de value (objectSchema d false o) m) (hk : t ∉ BMap.keys o.properties)
    (hr : t ∉ o.required) (h : ValidModel x reg m j) :
    ∃ es, j = .obj es ∧ (t, .str value) ∈ es ∧ ValidModel x reg (objectSchema d false o) (.obj (untag t es)) := by
  cases ht with
  | added d' n' o' e hn hm =>
    cases e
    subst hm
    cases h with
    | @object _ _ _ es ar ap aa =>
      have ht : t ∈ BMap.keys es := ar t (by simp)
      obtain ⟨e, he, hek⟩ := List.mem_map.1 ht
      obtain ⟨k, y⟩ := e
      simp only at hek
      subst hek
      have hv := ap k y _ he (BMap.get_insert_self ..)
      have hy : y = .str value := by
        cases hv with
        | inline hv =>
          cases hv with
          | string h => simpa using h _ rfl
      subst hy
      refine ⟨es, rfl, he, .object ?_ ?_ ?_⟩
      · intro k' hk'
        have hne : k' ≠ k := fun h => hr (h ▸ hk')
        obtain ⟨e, he, hek⟩ := List.mem_map.1 (ar k' (by simp [hk']))
        obtain ⟨k2, y⟩ := e
        simp only at hek
        subst hek
        exact List.mem_map.2 ⟨(k2, y), mem_untag.2 ⟨he, hne⟩, rfl⟩
      · intro k' y r hm hg
        obtain ⟨hm, hne⟩ := mem_untag.1 hm
        exact ap k' y r hm (by rw [BMap.get_insert, if_neg hne]; exact hg)
      · intro k' y r hm hg hadd
        obtain ⟨hm, hne⟩ := mem_untag.1 hm
        exact aa k' y r hm (by rw [BMap.get_insert, if_neg hne]; exact hg) hadd
  | clash d' n' o' e hn => cases e; exact absurd hn hk
  | notObject h => exact absurd rfl (h _ _ _)

theorem covers_to_obj {t} {c : Json} {es : List (String × Json)} (h : Covers S.env t c (.obj es)) : ∃ es', c = .obj es' := by
  generalize hj : Json.obj es = j at h
  induction h with
  | refl => exact ⟨es, hj.symm⟩
  | int | seq => cases hj
  | wrap _ ih | option _ ih | newtype _ _ ih => exact ih hj
  | dict | struct | tagged => exact ⟨_, rfl⟩

theorem covers_tagged {i t value} {es es' : List (String × Json)} (ht : (t, .str value) ∈ es)
    (h : ∀ k j, (k, j) ∈ es' → ∃ y, (k, y) ∈ untag t es ∧ ∃ f ∈ (S.env.decl i).allFields, f.key = k ∧ Covers S.env f.ty j y) :
    Covers S.env (.named i) (.obj ((t, .str value) :: es')) (.obj es) := by
  refine covers_obj ?_
  intro k j hm
  rcases List.mem_cons.1 hm with hm | hm
  · cases hm; exact .inl ht
  · obtain ⟨y, hy, hc⟩ := h k j hm
    exact .inr ⟨y, (mem_untag.1 hy).1, hc⟩

theorem internal_admits (G : Grounds S reg) {i} {t : String} {v : Variant Ty} {e r j}
    (hfs : ∀ f ∈ v.fields, f ∈ (S.env.decl i).allFields) (htt : (S.env.decl i).attrs.tagType = .internal t)
    (he : internalAlternative (S.env.decl i) t v = .ok e) (hy : e.Yields S.docs r) (ha : AskedOk x S s reg e.asked)
    (hp : PreciseVariant S.docs (.internal t) v) (h : Valid x reg r j) :
    ∃ c j', VariantValue S s v c ∧ tagJson (.internal t) v.key c = some j' ∧ Covers S.env (.named i) j' j := by
  obtain ⟨h1, h2, h3, h4⟩ := hp
  unfold internalAlternative at he
  split at he
  · cases he
  rename_i e' hin
  cases he
  obtain ⟨m', hm', rfl⟩ := yields_inline hy
  obtain ⟨m₀, hm₀, rfl⟩ := yields_tagged hm'
  have htag := tagged_tryMerge m₀ (S.env.decl i).ident t v.key (S.env.decl i).attrs.nullable
  cases h with
  | inline h =>
  unfold internalInner at hin
  split at hin
  · rename_i hst
    cases hin
    obtain ⟨o, ho, rfl⟩ := yields_objectModel (inl := false) (pred := fun f => false || f.attrs.inline)
      (fs := []) (d := v.attrs.description) (b := false) (m := m₀) (fun _ => rfl) hm₀
    have hk : t ∉ BMap.keys o.properties := fun h => by simpa [serialFields] using objectOf_keys ho h
    obtain ⟨es, rfl, hm, _⟩ := tagged_back htag hk (by rw [ho.required]; simp [serialFields]) h
    exact ⟨none, _, .unit hst, rfl, covers_tagged hm (by simp)⟩
  · rename_i hst
    split at hin
    · cases hin
    rename_i f rest hvf
    cases hin
    have hmem : f ∈ v.fields := by rw [hvf]; simp
    obtain ⟨hsk, hn⟩ := h2 hst f hmem
    obtain ⟨hex, hobj⟩ := h4 hst f hmem
    obtain ⟨m₁, hm₁, rfl⟩ := yields_getSchemaWithParams hm₀
    obtain ⟨d, o, rfl, hk, hr⟩ := hobj m₁ hm₁
    have hnul : f.attrs.nullable = false := by
      cases hc : f.attrs.nullable with
      | false => rfl
      | true => have := hn hc; rw [hex] at this; cases this
    have heq : ∃ d', (objectSchema d false o).applyParams ((f.attrs.params.or v.attrs.params).eval S.env) =
        objectSchema d' false o := by
      refine ⟨overrideOpt ((f.attrs.params.or v.attrs.params).eval S.env).description d, ?_⟩
      simp [objectSchema, Model.applyParams, ModelData.applyParams, ModelType.applyParams, TypeDesc.applyParams,
        ParamsExpr.eval, ParamsExpr.or, FieldAttrs.params, hnul]
    obtain ⟨d', heq⟩ := heq
    rw [heq] at htag
    simp only [heq] at h
    obtain ⟨es, rfl, hm, hv⟩ := tagged_back htag hk hr h
    have hv' : ValidModel x reg (objectSchema d false o) (.obj (untag t es)) := by
      cases hv with
      | object a b c => exact .object a b c
    obtain ⟨c, hc, hcov⟩ := (ha (f.ty, false) (by simp [RefExpr.asked, ModelExpr.asked])).2 _ _ hm₁ hv'
    obtain ⟨es', rfl⟩ := covers_to_obj hcov
    exact ⟨some (.obj es'), _, .newtype hst hvf hsk ⟨fun t ht => absurd (hex.symm.trans ht) (by simp), fun _ => hc⟩, rfl,
      .tagged (hfs f hmem) htt hm hcov⟩
  · rename_i hst
    cases hin
    have hm₀' := hm₀
    obtain ⟨o, ho, rfl⟩ := yields_objectModel (inl := v.attrs.inline) (fun _ => rfl) hm₀
    have hk : t ∉ BMap.keys o.properties := fun h => h3 hst (objectOf_keys ho h)
    have hr : t ∉ o.required := by
      rw [ho.required]
      intro h
      obtain ⟨f, hf, he⟩ := List.mem_map.1 h
      exact h3 hst (List.mem_map.2 ⟨f, (List.mem_filter.1 hf).1, he⟩)
    obtain ⟨es, rfl, hm, hv⟩ := tagged_back htag hk hr h
    obtain ⟨ps, hkept, hvs, hc⟩ := objectDesc_admits G (inl := v.attrs.inline) (fun _ => rfl) hm₀' (h1 hst)
      (fun a h => ha a (by simpa [RefExpr.asked, ModelExpr.asked, objectModel] using h)) hv
    refine ⟨_, _, .struct hst hkept hvs, rfl, covers_tagged hm fun k j hm => ?_⟩
    obtain ⟨y, hy, f, hf, hk, hc⟩ := covers_fields (h1 hst).1 hkept hc hm
    exact ⟨y, hy, f, hfs f hf, hk, hc⟩
  · cases hin

/-! ## All types -/

theorem simple_back {docs : Docs} {k f d m j} (hy : (ModelExpr.single d false (simpleExpr k f) : ModelExpr Ty).Yields docs m)
    (h : ValidModel x reg m j) :
    match k with
      | .string => ∃ t, j = .str t
      | .number => (∃ t, j = .num t) ∨ ∃ i, j = .int i
      | .integer => ∃ i, j = .int i
      | .boolean => ∃ b, j = .bool b := by
  obtain ⟨td, htd, rfl⟩ := yields_single hy
  cases k with
  | string => rw [yields_string htd] at h; cases h; exact ⟨_, rfl⟩
  | number =>
    rw [yields_number htd] at h
    cases h
    · exact .inl ⟨_, rfl⟩
    · exact .inr ⟨_, rfl⟩
  | integer => rw [yields_integer htd] at h; cases h; exact ⟨_, rfl⟩
  | boolean => rw [yields_boolean htd] at h; cases h; exact ⟨_, rfl⟩

theorem string_back {docs : Docs} {d v f e m j} (hy : (ModelExpr.single d false (.string v f e) : ModelExpr Ty).Yields docs m)
    (h : ValidModel x reg m j) : ∃ t, j = .str t := by
  obtain ⟨td, htd, rfl⟩ := yields_single hy
  rw [yields_string htd] at h
  cases h
  exact ⟨_, rfl⟩

theorem prim_admits (G : Grounds S reg) {p m j} (hp : p ≠ .char) (hm : S.docs.schema (.prim p) m) (h : ValidModel x reg m j) :
    ∃ j', SerBy S.env s S.hand (.prim p) j' ∧ Covers S.env (.prim p) j' j := by
  have hb := simple_back (G.yields hm rfl) h
  have exact' : PrimJson s p j → ∃ j', SerBy S.env s S.hand (.prim p) j' ∧ Covers S.env (.prim p) j' j := fun h => ⟨j, .prim h, .refl⟩
  cases p <;> simp only [Prim.schema] at hb <;>
    first
    | exact absurd rfl hp
    | exact exact' hb
    | (rcases hb with hb | ⟨i, rfl⟩
       · exact exact' (.inl hb)
       · exact ⟨_, .prim (.inl ⟨_, rfl⟩), .int (by simp)⟩)

/-- Values chosen element by element. -/
theorem choose_list {α : Type} {P : α → Prop} {R : α → α → Prop} : ∀ {ys : List α}, (∀ y ∈ ys, ∃ x, P x ∧ R x y) →
    ∃ xs : List α, (∀ x ∈ xs, P x) ∧ xs.length = ys.length ∧
      ∀ (k : Nat) x y, xs[k]? = some x → ys[k]? = some y → R x y
  | [], _ => ⟨[], by simp, rfl, by simp⟩
  | y :: ys, h => by
    obtain ⟨xs, h1, h2, h3⟩ := choose_list (ys := ys) fun y hy => h y (.tail _ hy)
    obtain ⟨x, hx, hc⟩ := h y (.head _)
    refine ⟨x :: xs, ?_, by simp [h2], ?_⟩
    · intro a ha
      rcases List.mem_cons.1 ha with rfl | ha
      · exact hx
      · exact h1 a ha
    · intro k a b ha hb
      cases k with
      | zero => simp at ha hb; subst ha hb; exact hc
      | succ k => exact h3 k a b (by simpa using ha) (by simpa using hb)

theorem enum_admits (G : Grounds S reg) {i vs m j} {o input}
    (hd : (S.env.decl i).data = .enum vs) (hh : S.hand i = none) (hder : Derived o S.env i input) (hp : PreciseDecl S.docs s i)
    {body} (hb : serializeBody (S.env.decl i) = .ok body) (hy : body.Yields S.docs m) (ha : AskedOk x S s reg body.asked)
    (h : ValidModel x reg m j) : ∃ j', SerBy S.env s S.hand (.named i) j' ∧ Covers S.env (.named i) j' j := by
  obtain ⟨hmt1, hmt2⟩ := derived_enum hder hd
  simp only [PreciseDecl, hd] at hp
  obtain ⟨hf1, hf2⟩ := hp
  simp only [serializeBody, hd] at hb
  by_cases hu : ∀ v ∈ vs, v.style = .unit
  · have hf1 := hf1 hu
    simp only [serializeEnum, hmt1 hu, Except.ok.injEq] at hb
    subst hb
    split at hf1
    · rename_i hrep
      simp only [serializeNewtypeEnum, hrep, if_true] at hy
      obtain ⟨rs, hrs, rfl⟩ := yields_oneOf hy
      obtain ⟨r, hr, hv⟩ := oneOf_back h
      obtain ⟨e, he, hyr⟩ := hrs.mem_rightP hr
      obtain ⟨v, hvm, hev⟩ := List.mem_filterMap.1 he
      unfold reprAlternative at hev
      obtain ⟨dd, _, rfl⟩ := Option.map_eq_some_iff.1 hev
      obtain ⟨m', hm', rfl⟩ := yields_inline hyr
      obtain ⟨td, htd, rfl⟩ := yields_single hm'
      rw [yields_integer htd] at hv
      cases hv with
      | inline hv => cases hv; exact ⟨_, .repr hh hd hf1 hu hvm, .refl⟩
    · rename_i hrep
      simp only [serializeNewtypeEnum, hrep] at hy
      obtain ⟨td, htd, rfl⟩ := yields_single hy
      rw [yields_string htd] at h
      cases h with
      | string h =>
        obtain ⟨v, hvm, rfl⟩ := List.mem_map.1 (h _ rfl)
        refine ⟨_, .unitVariant hh hd hf1.1 hvm (.inl (hu v (List.mem_filter.1 hvm).1)) ?_, .refl⟩
        rw [hf1.2]; rfl
  · have hu' : ∃ v ∈ vs, v.style ≠ .unit := by simpa using hu
    obtain ⟨hrp, htag, hfv⟩ := hf2 hu'
    have hmt := hmt2 hu'
    simp only [serializeEnum, hmt] at hb
    have hmf : ∀ v ∈ serialVariants vs, ∀ f ∈ v.fields, f ∈ (S.env.decl i).allFields := by
      intro v hv f hf
      simp only [Container.allFields, hd]
      exact List.mem_flatMap.2 ⟨v, (List.mem_filter.1 hv).1, hf⟩
    rcases htag with ht | ⟨t, ht⟩
    · simp only [ht, serializeUntaggedEnum] at hb hfv
      split at hb
      · cases hb
      rename_i es hes
      cases hb
      obtain ⟨rs, hrs, rfl⟩ := yields_oneOf hy
      obtain ⟨r, hr, hv⟩ := oneOf_back h
      obtain ⟨e, v, hvm, hve, her, hea⟩ := alternative_back hes hrs hr
      obtain ⟨c, hc, hcov⟩ := untagged_admits G (hmf v hvm) hve her
        (fun a h => ha a (by simpa [ModelExpr.asked] using hea a h)) (hfv v hvm) hv
      exact ⟨c, hc.ser hh hd hrp hvm (by rw [ht]; rfl), hcov⟩
    · simp only [ht, serializeInternalEnum] at hb hfv
      split at hb
      · cases hb
      rename_i es hes
      cases hb
      obtain ⟨rs, hrs, rfl⟩ := yields_oneOf hy
      obtain ⟨r, hr, hv⟩ := oneOf_back h
      obtain ⟨e, v, hvm, hve, her, hea⟩ := alternative_back hes hrs hr
      obtain ⟨c, j', hc, hj, hcov⟩ := internal_admits G (hmf v hvm) ht hve her
        (fun a h => ha a (by simpa [ModelExpr.asked] using hea a h)) (hfv v hvm) hv
      exact ⟨j', hc.ser hh hd hrp hvm (by rw [ht]; exact hj), hcov⟩

theorem struct_admits (G : Grounds S reg) {i style fs m j}
    (hd : (S.env.decl i).data = .struct style fs) (hh : S.hand i = none) (hp : PreciseDecl S.docs s i)
    {body} (hb : serializeBody (S.env.decl i) = .ok body) (hy : body.Yields S.docs m) (ha : AskedOk x S s reg body.asked)
    (h : ValidModel x reg m j) : ∃ j', SerBy S.env s S.hand (.named i) j' ∧ Covers S.env (.named i) j' j := by
  simp only [PreciseDecl, hd] at hp
  cases style with
  | struct =>
    obtain ⟨htr, hnul, hf, htag⟩ := hp
    simp only [serializeBody, hd, serializeStruct, hnul, Except.ok.injEq] at hb
    subst hb
    obtain ⟨es, rfl⟩ := objectModel_shape (inl := false) (pred := fun f => f.attrs.inline) (fun f => by simp) hy h
    obtain ⟨ps, hk, hv, hc⟩ := objectDesc_admits G (inl := false) (pred := fun f => f.attrs.inline) (fun f => by simp) hy hf
      (by simpa [ModelExpr.asked] using ha) h
    have hst : structTag (S.env.decl i) = [] := by
      unfold structTag
      split
      · rename_i t ht; exact absurd ht (htag t)
      · rfl
    refine ⟨_, .struct hh hd htr hk (fun p hp => (hv p hp).explicit) (fun p hp => (hv p hp).ser), ?_⟩
    rw [hst]
    refine covers_obj fun k j hm => .inr ?_
    obtain ⟨y, hy, f, hfm, hk, hc⟩ := covers_fields hf.1 hk hc hm
    exact ⟨y, hy, f, by simpa [Container.allFields, hd] using hfm, hk, hc⟩
  | tuple => exact hp.elim
  | unit => simp only [serializeBody, hd] at hb; cases hb
  | newType =>
    cases fs with
    | nil => simp only [serializeBody, hd] at hb; cases hb
    | cons f rest =>
      simp only [serializeBody, hd, serializeNewtypeStruct] at hb
      split at hb
      · cases hb
      · rename_i t hne hc
        cases hb
        rw [yields_newtypeModel hy] at h
        exact ⟨j, .explicitNewtype hh hd hc (explicit_back (by rintro rfl; exact hne rfl) h), .refl⟩
      · rename_i hc
        cases hb
        obtain ⟨hex, hnul⟩ := hp hc f (by simp)
        obtain ⟨m₀, hm₀, rfl⟩ := yields_getSchemaWithParams hy
        rcases valid_applyParams_inv rfl h with ⟨hn, _⟩ | h
        · simp [ParamsExpr.eval, ParamsExpr.or, FieldAttrs.params, hnul] at hn
        · obtain ⟨j', hs, hcov⟩ := (ha (f.ty, false) (by simp [ModelExpr.asked])).2 m₀ j hm₀ h
          exact ⟨j', .newtypeStruct hh hd hc (fun t ht => absurd (hex.symm.trans ht) (by simp)) (fun _ => hs),
            .newtype (by simp [Container.allFields, hd]) hcov⟩

/-- The types that a derived schema leads to, down to those documented by hand, form a tree. -/
inductive Deep (S : Setting) : Ty → Prop
  | intro {t e} (he : schemaExpr S.env t = some e) (h : ∀ a ∈ e.asked, ¬ ByHand S.hand a.1 → Deep S a.1) : Deep S t

theorem Expands.deep {env : Env} {roots : List (Ty × Bool)} {t} (h : Expands env t) : Deep (derivedSetting env roots) t := by
  induction h with
  | intro he _ ih => exact .intro he fun a ha _ => ih a.1 a.2 ha

/-- What is needed for values that are accepted. -/
structure Exacting (x : Bool) (s : Serde) (S : Setting) (reg : List (String × Model)) : Prop extends Grounds S reg where
  precise : ∀ t, S.reached t → ¬ ByHand S.hand t → Precise S.docs s t
  deep : ∀ t, S.reached t → ¬ ByHand S.hand t → Deep S t
  byHand : ∀ i v, S.reached (.named i) → S.hand i = some v → ∀ m j, S.docs.schema (.named i) m → ValidModel x reg m j → v j

theorem admits_deep (E : Exacting x s S reg) {t} (hx : Deep S t) : S.reached t → ¬ ByHand S.hand t → Admits x S s reg t := by
  induction hx with
  | @intro t e he h ih =>
    intro hr nb m j hm hv
    have G := E.toGrounds
    have hy := G.yields hm he nb
    have ha : AskedOk x S s reg e.asked := by
      intro a h
      have hs := G.asked t e hr nb he a h
      refine ⟨hs, ?_⟩
      by_cases hb : ByHand S.hand a.1
      · obtain ⟨i, v, ei, hv⟩ := hb
        intro m j hm hok
        rw [ei] at hm ⊢
        exact ⟨j, .byHand hv (E.byHand i v (ei ▸ hs.1) hv m j hm hok), .refl⟩
      · exact ih a h hb hs.1 hb
    have hp := E.precise t hr nb
    cases t with
    | prim p => exact prim_admits G (by rintro rfl; exact hp) hm hv
    | wrap w t =>
      cases he
      obtain ⟨j', hs, hc⟩ := (ha (t, false) (by simp [ModelExpr.asked])).2 m j (yields_getSchema hy) hv
      exact ⟨j', .wrap (by rintro rfl; exact hp) hs, .wrap hc⟩
    | option t =>
      cases he
      obtain ⟨m₀, hm₀, rfl⟩ := yields_getSchemaWithParams hy
      rcases valid_applyParams_inv rfl hv with ⟨_, rfl⟩ | hv
      · exact ⟨_, .none, .refl⟩
      · obtain ⟨j', hs, hc⟩ := (ha (t, false) (by simp [ModelExpr.asked])).2 m₀ j hm₀ hv
        exact ⟨j', .some hs, .option hc⟩
    | tuple => exact hp.elim
    | seq k t =>
      cases he
      obtain ⟨td, htd, rfl⟩ := yields_single hy
      obtain ⟨r, hr', rfl⟩ := yields_array htd
      have hat := ha (t, true) (by simp [ModelExpr.asked, TypeExpr.asked, RefExpr.asked])
      cases hv with
      | array hv =>
        obtain ⟨xs, h1, h2, h3⟩ := choose_list fun y hy => mention_admits G rfl rfl (yields_mention hr') hat.1 hat.2 (hv y hy)
        exact ⟨_, .seq h1, .seq h2 h3⟩
    | dict k t =>
      cases he
      obtain ⟨td, htd, rfl⟩ := yields_single hy
      obtain ⟨r, hr', rfl⟩ := yields_dictionary htd
      have hat := ha (t, true) (by simp [ModelExpr.asked, TypeExpr.asked, RefExpr.asked])
      cases hv with
      | object _ _ hv =>
        obtain ⟨xs, h1, h2, h3⟩ := choose_list (α := String × Json) (P := fun e => SerBy S.env s S.hand t e.2)
          (R := fun a b => a.1 = b.1 ∧ Covers S.env t a.2 b.2) (ys := _) fun y hy => by
            obtain ⟨j', hs, hc⟩ := mention_admits G rfl rfl (yields_mention hr') hat.1 hat.2 (hv y.1 y.2 r hy rfl rfl)
            exact ⟨(y.1, j'), hs, rfl, hc⟩
        refine ⟨_, .dict h1, .dict ?_ fun k x y hx hy => (h3 k x y hx hy).2⟩
        apply List.ext_getElem?
        intro k
        simp only [List.getElem?_map]
        cases hx : xs[k]? with
        | none =>
          rw [List.getElem?_eq_none_iff, h2, ← List.getElem?_eq_none_iff] at hx
          rw [hx]
        | some a =>
          have hlt := (List.getElem?_eq_some_iff.1 hx).1
          rw [h2] at hlt
          rw [List.getElem?_eq_getElem hlt]
          simp [(h3 k _ _ hx (List.getElem?_eq_getElem hlt)).1]
    | unit => exact hp.elim
    | uuid => cases he; obtain ⟨t, rfl⟩ := string_back hy hv; exact ⟨_, .uuid t, .refl⟩
    | naiveDateTime => cases he; obtain ⟨t, rfl⟩ := string_back hy hv; exact ⟨_, .naiveDateTime t, .refl⟩
    | dateTime => cases he; obtain ⟨t, rfl⟩ := string_back hy hv; exact ⟨_, .dateTime t, .refl⟩
    | naiveDate => cases he; obtain ⟨t, rfl⟩ := string_back hy hv; exact ⟨_, .naiveDate t, .refl⟩
    | named i =>
      have hh : S.hand i = none := by
        cases hc : S.hand i with
        | none => rfl
        | some v => exact absurd ⟨i, v, rfl, hc⟩ nb
      obtain ⟨body, hb, hex, -⟩ := G.named hm nb
      rw [he] at hex; cases hex
      obtain ⟨o, input, hder⟩ := E.derived i hr nb
      cases hdata : (S.env.decl i).data with
      | enum vs => exact enum_admits G hdata hh hder hp hb hy ha hv
      | struct style fs => exact struct_admits G hdata hh hp hb hy ha hv

theorem admits (E : Exacting x s S reg) {t} (hr : S.reached t) : Admits x S s reg t := by
  by_cases hb : ByHand S.hand t
  · obtain ⟨i, v, rfl, hv⟩ := hb
    exact fun m j hm hok => ⟨j, .byHand hv (E.byHand i v hr hv m j hm hok), .refl⟩
  · exact admits_deep E (E.deep t hr hb) hr hb

end Verif
