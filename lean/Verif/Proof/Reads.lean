import Verif.Spec.ReadsBy
import Verif.Proof.Precise
/-!
# Accepted values are read: proofs
-/

namespace Verif

variable {x : Bool} {S : Setting} {d : Reader} {reg : List (String × Model)}

theorem reads_null : ∀ {t : Ty}, MayMiss t → ReadsBy S.env d S.hand t .null
  | .option _, _ => .none
  | .wrap .tuple1 _, h => h.elim
  | .wrap .ref t, h => .wrap (by simp) (reads_null (t := t) h)
  | .wrap .refMut t, h => .wrap (by simp) (reads_null (t := t) h)
  | .wrap .box t, h => .wrap (by simp) (reads_null (t := t) h)
  | .wrap .rc t, h => .wrap (by simp) (reads_null (t := t) h)
  | .wrap .arc t, h => .wrap (by simp) (reads_null (t := t) h)
  | .wrap .cell t, h => .wrap (by simp) (reads_null (t := t) h)
  | .wrap .refCell t, h => .wrap (by simp) (reads_null (t := t) h)
  | .prim _, h | .tuple _, h | .seq _ _, h | .dict _ _, h | .unit, h | .uuid, h | .naiveDateTime, h | .dateTime, h
  | .naiveDate, h | .named _, h => h.elim

theorem Json.Distinct.entry {es : List (String × Json)} (h : Json.Distinct (.obj es)) {k y} (hm : (k, y) ∈ es) : y.Distinct := by
  cases h with
  | obj _ h => exact h _ hm

theorem nodup_filter {es : List (String × Json)} (p : String × Json → Bool) (h : (es.map Prod.fst).Nodup) :
    ((es.filter p).map Prod.fst).Nodup := h.sublist ((List.filter_sublist (p := p)).map _)

theorem Json.Distinct.filter {es : List (String × Json)} (h : Json.Distinct (.obj es)) (p : String × Json → Bool) :
    Json.Distinct (.obj (es.filter p)) := by
  cases h with
  | obj hk h => exact .obj (nodup_filter p hk) fun e he => h e (List.mem_filter.1 he).1

theorem once_of_nodup {k : String} : ∀ {es : List (String × Json)}, (es.map Prod.fst).Nodup →
    (es.filter fun e => e.1 == k).length ≤ 1
  | [], _ => by simp
  | e :: es, h => by
    simp only [List.map_cons, List.nodup_cons] at h
    rw [List.filter_cons]
    split
    · rename_i he
      have : es.filter (fun e => e.1 == k) = [] := by
        rw [List.filter_eq_nil_iff]
        intro a ha hk
        exact h.1 (List.mem_map.2 ⟨a, ha, by rw [eq_of_beq hk, eq_of_beq he]⟩)
      simp [this]
    · exact once_of_nodup h.2

theorem Json.Distinct.once {es : List (String × Json)} (h : Json.Distinct (.obj es)) (k : String) :
    (es.filter fun e => e.1 == k).length ≤ 1 := by
  cases h with
  | obj hk _ => exact once_of_nodup hk

/-- Accepted values of a type are read. -/
abbrev ReadsAll (x : Bool) (S : Setting) (d : Reader) (reg : List (String × Model)) (t : Ty) : Prop :=
  ∀ m j, S.docs.schema t m → ValidModel x reg m j → j.Distinct → ReadsBy S.env d S.hand t j

theorem mention_reads (G : Grounds S reg) {t i p r j} (hv : p.variants = none) (hn : p.nullable = some true → MayMiss t)
    (hm : S.docs.mention t i p r) (hs : S.Seen (t, !i)) (ha : ReadsAll x S d reg t) (h : Valid x reg r j)
    (hj : j.Distinct) : ReadsBy S.env d S.hand t j := by
  rcases G.mention t i p r hm hs with ⟨l, m₀, rfl, hm₀, hg⟩ | ⟨m₀, hm₀, rfl⟩
  · cases h with
    | link hg' hv =>
      rw [hg] at hg'
      cases hg'
      exact ha m₀ j hm₀ hv hj
  · cases h with
    | inline h =>
      rcases valid_applyParams_inv hv h with ⟨hnu, rfl⟩ | h
      · exact reads_null (hn hnu)
      · exact ha m₀ j hm₀ h hj

/-- A field reads a value. -/
structure FieldReads (S : Setting) (d : Reader) (f : Field Ty) (j : Json) : Prop where
  explicit : ∀ t, f.attrs.explicitModelType = some t → ExplicitJson t f.attrs.nullable j
  reads : f.attrs.explicitModelType = none → ReadsBy S.env d S.hand f.ty j

theorem fieldRef_reads (G : Grounds S reg) {doc inl f r j} (hb : doc.variants = none)
    (hn : f.attrs.explicitModelType = none → doc.nullable = some true → MayMiss f.ty) (hr : FieldRef S.docs doc inl f r)
    (hs : f.attrs.explicitModelType = none → S.Seen (f.ty, !inl) ∧ ReadsAll x S d reg f.ty)
    (h : Valid x reg r j) (hj : j.Distinct) : FieldReads S d f j := by
  unfold FieldRef at hr
  split at hr
  · rename_i he
    refine ⟨?_, ?_⟩
    · intro t ht; rw [he] at ht; cases ht; exact .inr trivial
    · intro ht; rw [he] at ht; cases ht
  · rename_i t hne he
    subst hr
    cases h with
    | inline h =>
      refine ⟨?_, ?_⟩
      · intro t' ht; rw [he] at ht; cases ht; exact explicit_back hne h
      · intro ht; rw [he] at ht; cases ht
  · rename_i he
    obtain ⟨h1, h2⟩ := hs he
    exact ⟨fun t ht => absurd (he.symm.trans ht) (by simp), fun _ => mention_reads G hb (hn he) hr h1 h2 h hj⟩

/-- An object is read as fields. -/
structure ObjectReads (S : Setting) (d : Reader) (i : Nat) (fs : List (Field Ty)) (es : List (String × Json)) : Prop where
  fits : Fits d i fs es
  reads : ∀ f ∈ readFields d i fs, ∀ y, (d.fieldKey i f, y) ∈ es → f.attrs.explicitModelType = none → ReadsBy S.env d S.hand f.ty y

theorem object_reads (G : Grounds S reg) {i} {fs : List (Field Ty)} {inl : Bool} {o : ModelObject} {de n}
    {es : List (String × Json)} (ho : ObjectOf S.docs inl fs o) (hf : ReadableFields d i fs)
    (ha : ∀ f ∈ serialFields fs, f.attrs.explicitModelType = none →
      S.Seen (f.ty, !(inl || f.attrs.inline)) ∧ ReadsAll x S d reg f.ty)
    (h : ValidModel x reg (objectSchema de n o) (.obj es)) (hj : Json.Distinct (.obj es)) : ObjectReads S d i fs es := by
  obtain ⟨hpl, hdeny, hfs⟩ := hf
  have serial : ∀ f, f ∈ readFields d i fs → f ∈ serialFields fs ∧ d.fieldKey i f = f.key ∧
      (f.attrs.optional = true → CanMiss d i f) ∧
      (f.attrs.nullable = true → f.attrs.explicitModelType = none → MayMiss f.ty) := by
    intro f hm
    obtain ⟨hm, hs⟩ := List.mem_filter.1 hm
    have hs : d.skips i f = false := by simpa using hs
    obtain ⟨h1, h2⟩ := hfs f hm
    refine ⟨List.mem_filter.2 ⟨hm, ?_⟩, h2 hs⟩
    cases hc : f.attrs.skipSerializing with
    | false => rfl
    | true => rw [h1 hc] at hs; cases hs
  cases h with
  | object hr hp _ =>
    have field : ∀ f ∈ readFields d i fs, ∀ y, (d.fieldKey i f, y) ∈ es → FieldReads S d f y := by
      intro f hm y hy
      obtain ⟨hm, hk, _, hnul⟩ := serial f hm
      rw [hk] at hy
      obtain ⟨r, hg⟩ := Option.isSome_iff_exists.1 (BMap.get_isSome_iff.2 ((ho.names f.key).2 ⟨f, hm, rfl⟩))
      obtain ⟨pre, g, post, he, hk, _, hfr⟩ := ho.refs _ _ hg
      have hgm : g ∈ serialFields fs := by rw [he]; simp
      have := key_inj hpl.2 hgm hm hk
      subst this
      refine fieldRef_reads G rfl ?_ hfr (ha g hgm) (hp _ _ _ hy hg) (hj.entry hy)
      intro hex
      simp only [Field.doc]
      split
      · rename_i h
        exact fun _ => hnul h hex
      · intro h; cases h
    refine ⟨⟨?_, ?_, ?_, ?_, ?_⟩, ?_⟩
    · exact fun f hm => hpl.1 f (serial f hm).1
    · exact fun f _ => hj.once _
    · intro f hm hk
      obtain ⟨hm, hke, hopt, _⟩ := serial f hm
      cases hc : f.attrs.optional with
      | true => exact hopt hc
      | false =>
        refine absurd (hr f.key ?_) (hke ▸ hk)
        rw [ho.required]
        exact List.mem_map.2 ⟨f, List.mem_filter.2 ⟨hm, by simp [hc]⟩, rfl⟩
    · exact fun f hm y t hy ht => (field f hm y hy).explicit t ht
    · intro h; rw [hdeny] at h; cases h
    · exact fun f hm y hy he => (field f hm y hy).reads he

/-- What is known about the types a piece of code asks for. -/
abbrev AskedRead (x : Bool) (S : Setting) (d : Reader) (reg : List (String × Model))
    (as : List (Ty × Bool)) : Prop := ∀ a ∈ as, S.Seen a ∧ ReadsAll x S d reg a.1

theorem newtypeRef_reads (G : Grounds S reg) {v : Variant Ty} {f : Field Ty} {b r j}
    (hy : (fieldModelReference (f.attrs.params.or v.attrs.params) f b).Yields S.docs r)
    (ha : AskedRead x S d reg (fieldModelReference (f.attrs.params.or v.attrs.params) f b).asked)
    (hn : f.attrs.nullable = true → f.attrs.explicitModelType = none → MayMiss f.ty) (h : Valid x reg r j)
    (hj : j.Distinct) : FieldReads S d f j := by
  refine fieldRef_reads G (doc := (f.attrs.params.or v.attrs.params).eval S.env) rfl ?_ (yields_fieldRef hy)
    (fun he => ha _ (asked_field he)) h hj
  intro he h
  refine hn ?_ he
  cases hc : f.attrs.nullable with
  | true => rfl
  | false => simp [ParamsExpr.eval, ParamsExpr.or, FieldAttrs.params, hc] at h

theorem objectDesc_reads (G : Grounds S reg) {i} {fs : List (Field Ty)} {pred : Field Ty → Bool} {inl de n m}
    {es : List (String × Json)} (hp : ∀ f, pred f = (inl || f.attrs.inline)) (hy : (objectModel n de fs pred).Yields S.docs m)
    (hf : ReadableFields d i fs) (ha : AskedRead x S d reg (objectTypeDescription fs pred).asked)
    (h : ValidModel x reg m (.obj es)) (hj : Json.Distinct (.obj es)) : ObjectReads S d i fs es := by
  obtain ⟨o, ho, rfl⟩ := yields_objectModel (inl := inl) hp hy
  refine object_reads G ho hf ?_ h hj
  intro f hf he
  have := ha _ (asked_object (pred := pred) hf he)
  rwa [hp] at this

/-- The content of a variant is read. -/
inductive VariantReads (S : Setting) (d : Reader) (i : Nat) (v : Variant Ty) : Option Json → Prop
  | unit (h : v.style = .unit) : VariantReads S d i v none
  | newtype {f rest c} (hst : v.style = .newType) (hf : v.fields = f :: rest) (hk : d.skips i f = false)
      (h : FieldReads S d f c) : VariantReads S d i v (some c)
  | struct {es} (hst : v.style = .struct) (h : ObjectReads S d i v.fields es) : VariantReads S d i v (some (.obj es))

theorem VariantReads.reads {i vs} {v : Variant Ty} {c j} (h : VariantReads S d i v c) (hh : S.hand i = none)
    (hd : (S.env.decl i).data = .enum vs) (hr : d.repr i = none) (hv : v ∈ vs) (hs : d.skipsVariant i v = false)
    (hj : TaggedAs d.lenient (S.env.decl i).attrs.tagType (d.variantKey i v) j c) : ReadsBy S.env d S.hand (.named i) j := by
  cases h with
  | unit h => exact .unitVariant hh hd hr hv hs h hj
  | newtype hst hf hk h => exact .newtypeVariant hh hd hr hv hs hst hf hk hj h.explicit h.reads
  | struct hst h => exact .structVariant hh hd hr hv hs hst hj h.fits h.reads

theorem untagged_reads (G : Grounds S reg) {i} {v : Variant Ty} {e r j} (he : untaggedAlternative v = .ok e)
    (hy : e.Yields S.docs r) (ha : AskedRead x S d reg e.asked) (hp : ReadableVariant S.docs d i .none v)
    (h : Valid x reg r j) (hj : j.Distinct) : VariantReads S d i v (some j) := by
  obtain ⟨h1, h2, -⟩ := hp
  unfold untaggedAlternative at he
  split at he
  · rename_i hst
    unfold newtypeVariantReference at he
    split at he
    · cases he
    · rename_i f rest hvf
      cases he
      obtain ⟨hsk, hn⟩ := h2 hst f (by rw [hvf]; simp)
      exact .newtype hst hvf hsk (newtypeRef_reads G hy ha hn h hj)
  · rename_i hst
    cases he
    obtain ⟨m, hm, rfl⟩ := yields_inline hy
    cases h with
    | inline h =>
      obtain ⟨es, rfl⟩ := objectModel_shape (inl := v.attrs.inline) (fun _ => rfl) hm h
      exact .struct hst (objectDesc_reads G (inl := v.attrs.inline) (fun _ => rfl) hm (h1 hst) ha h hj)
  · cases he

theorem internal_reads (G : Grounds S reg) {i} {t : String} {v : Variant Ty} {e r j}
    (he : internalAlternative (S.env.decl i) t v = .ok e) (hy : e.Yields S.docs r) (ha : AskedRead x S d reg e.asked)
    (hp : ReadableVariant S.docs d i (.internal t) v) (h : Valid x reg r j) (hj : j.Distinct) :
    ∃ c, VariantReads S d i v c ∧ TaggedAs d.lenient (.internal t) v.key j c := by
  obtain ⟨h1, h2, h3, h4⟩ := hp
  unfold internalAlternative at he
  split at he
  · cases he
  rename_i e' hin
  cases he
  obtain ⟨m', hm', rfl⟩ := yields_inline hy
  obtain ⟨m₀, hm₀, rfl⟩ := yields_tagged hm'
  have htag := tagged_tryMerge m₀ (S.env.decl i).ident t v.key (S.env.decl i).attrs.nullable
  cases h with
  | inline h =>
  unfold internalInner at hin
  split at hin
  · rename_i hst
    cases hin
    obtain ⟨o, ho, rfl⟩ := yields_objectModel (inl := false) (pred := fun f => false || f.attrs.inline)
      (fs := []) (d := v.attrs.description) (b := false) (m := m₀) (fun _ => rfl) hm₀
    have hk : t ∉ BMap.keys o.properties := fun h => by simpa [serialFields] using objectOf_keys ho h
    obtain ⟨es, rfl, hm, _⟩ := tagged_back htag hk (by rw [ho.required]; simp [serialFields]) h
    exact ⟨none, .unit hst, .internalUnit hm (hj.once t)⟩
  · rename_i hst
    split at hin
    · cases hin
    rename_i f rest hvf
    cases hin
    have hmem : f ∈ v.fields := by rw [hvf]; simp
    obtain ⟨hsk, _⟩ := h2 hst f hmem
    obtain ⟨hex, hnul, hobj⟩ := h4 hst f hmem
    obtain ⟨m₁, hm₁, rfl⟩ := yields_getSchemaWithParams hm₀
    obtain ⟨de, o, rfl, hk, hr⟩ := hobj m₁ hm₁
    have heq : ∃ d', (objectSchema de false o).applyParams ((f.attrs.params.or v.attrs.params).eval S.env) =
        objectSchema d' false o := by
      refine ⟨overrideOpt ((f.attrs.params.or v.attrs.params).eval S.env).description de, ?_⟩
      simp [objectSchema, Model.applyParams, ModelData.applyParams, ModelType.applyParams, TypeDesc.applyParams,
        ParamsExpr.eval, ParamsExpr.or, FieldAttrs.params, hnul]
    obtain ⟨d', heq⟩ := heq
    rw [heq] at htag
    simp only [heq] at h
    obtain ⟨es, rfl, hm, hv⟩ := tagged_back htag hk hr h
    have hv' : ValidModel x reg (objectSchema de false o) (.obj (untag t es)) := by
      cases hv with
      | object a b c => exact .object a b c
    have hc := (ha (f.ty, false) (by simp [RefExpr.asked, ModelExpr.asked])).2 _ _ hm₁ hv' (hj.filter _)
    exact ⟨some (.obj (untag t es)), .newtype hst hvf hsk ⟨fun t ht => absurd (hex.symm.trans ht) (by simp), fun _ => hc⟩,
      .internal hm (hj.once t)⟩
  · rename_i hst
    cases hin
    have hm₀' := hm₀
    obtain ⟨o, ho, rfl⟩ := yields_objectModel (inl := v.attrs.inline) (fun _ => rfl) hm₀
    have hk : t ∉ BMap.keys o.properties := fun h => h3 hst (objectOf_keys ho h)
    have hr : t ∉ o.required := by
      rw [ho.required]
      intro h
      obtain ⟨f, hf, he⟩ := List.mem_map.1 h
      exact h3 hst (List.mem_map.2 ⟨f, (List.mem_filter.1 hf).1, he⟩)
    obtain ⟨es, rfl, hm, hv⟩ := tagged_back htag hk hr h
    have hor := objectDesc_reads G (inl := v.attrs.inline) (fun _ => rfl) hm₀' (h1 hst)
      (fun a h => ha a (by simpa [RefExpr.asked, ModelExpr.asked, objectModel] using h)) hv (hj.filter _)
    exact ⟨_, .struct hst hor, .internal hm (hj.once t)⟩
  · cases hin

theorem enum_reads (G : Grounds S reg) {i vs m j} {o input}
    (hd : (S.env.decl i).data = .enum vs) (hh : S.hand i = none) (hder : Derived o S.env i input) (hp : ReadableDecl S.docs d i)
    {body} (hb : serializeBody (S.env.decl i) = .ok body) (hy : body.Yields S.docs m) (ha : AskedRead x S d reg body.asked)
    (h : ValidModel x reg m j) (hj : j.Distinct) : ReadsBy S.env d S.hand (.named i) j := by
  obtain ⟨hmt1, hmt2⟩ := derived_enum hder hd
  simp only [ReadableDecl, hd] at hp
  obtain ⟨hrep, hrp, hvk, hf1, hf2⟩ := hp
  simp only [serializeBody, hd] at hb
  have hvk : ∀ v ∈ serialVariants vs, v ∈ vs ∧ d.skipsVariant i v = false ∧ d.variantKey i v = v.key :=
    fun v hv => ⟨(List.mem_filter.1 hv).1, hvk v hv⟩
  by_cases hu : ∀ v ∈ vs, v.style = .unit
  · have hf1 := hf1 hu
    simp only [serializeEnum, hmt1 hu, Except.ok.injEq] at hb
    subst hb
    simp only [serializeNewtypeEnum, hrep] at hy
    obtain ⟨td, htd, rfl⟩ := yields_single hy
    rw [yields_string htd] at h
    cases h with
    | string h =>
      obtain ⟨v, hvm, rfl⟩ := List.mem_map.1 (h _ rfl)
      obtain ⟨h1, h2, h3⟩ := hvk v hvm
      refine .unitVariant hh hd hrp h1 h2 (hu v h1) ?_
      rw [hf1, h3]
      exact .externalUnit
  · have hu' : ∃ v ∈ vs, v.style ≠ .unit := by simpa using hu
    obtain ⟨htag, hfv⟩ := hf2 hu'
    have hmt := hmt2 hu'
    simp only [serializeEnum, hmt] at hb
    rcases htag with ht | ⟨t, ht⟩
    · simp only [ht, serializeUntaggedEnum] at hb hfv
      split at hb
      · cases hb
      rename_i es hes
      cases hb
      obtain ⟨rs, hrs, rfl⟩ := yields_oneOf hy
      obtain ⟨r, hr, hv⟩ := oneOf_back h
      obtain ⟨e, v, hvm, hve, her, hea⟩ := alternative_back hes hrs hr
      obtain ⟨h1, h2, h3⟩ := hvk v hvm
      have hc := untagged_reads G (i := i) hve her
        (fun a h => ha a (by simpa [ModelExpr.asked] using hea a h)) (hfv v hvm) hv hj
      exact hc.reads hh hd hrp h1 h2 (by rw [ht]; exact .untagged)
    · simp only [ht, serializeInternalEnum] at hb hfv
      split at hb
      · cases hb
      rename_i es hes
      cases hb
      obtain ⟨rs, hrs, rfl⟩ := yields_oneOf hy
      obtain ⟨r, hr, hv⟩ := oneOf_back h
      obtain ⟨e, v, hvm, hve, her, hea⟩ := alternative_back hes hrs hr
      obtain ⟨h1, h2, h3⟩ := hvk v hvm
      obtain ⟨c, hc, hj⟩ := internal_reads G hve her
        (fun a h => ha a (by simpa [ModelExpr.asked] using hea a h)) (hfv v hvm) hv hj
      exact hc.reads hh hd hrp h1 h2 (by rw [ht, h3]; exact hj)

theorem struct_reads (G : Grounds S reg) {i style fs m j}
    (hd : (S.env.decl i).data = .struct style fs) (hh : S.hand i = none) (hp : ReadableDecl S.docs d i)
    {body} (hb : serializeBody (S.env.decl i) = .ok body) (hy : body.Yields S.docs m) (ha : AskedRead x S d reg body.asked)
    (h : ValidModel x reg m j) (hj : j.Distinct) : ReadsBy S.env d S.hand (.named i) j := by
  simp only [ReadableDecl, hd] at hp
  cases style with
  | struct =>
    obtain ⟨htr, hnul, hf, htag⟩ := hp
    simp only [serializeBody, hd, serializeStruct, hnul, Except.ok.injEq] at hb
    subst hb
    obtain ⟨es, rfl⟩ := objectModel_shape (inl := false) (pred := fun f => f.attrs.inline) (fun f => by simp) hy h
    have hor := objectDesc_reads G (inl := false) (pred := fun f => f.attrs.inline) (fun f => by simp) hy hf
      (by simpa [ModelExpr.asked] using ha) h hj
    exact .struct hh hd htr htag hor.fits hor.reads
  | tuple => exact hp.elim
  | unit => simp only [serializeBody, hd] at hb; cases hb
  | newType =>
    cases fs with
    | nil => simp only [serializeBody, hd] at hb; cases hb
    | cons f rest =>
      simp only [serializeBody, hd, serializeNewtypeStruct] at hb
      split at hb
      · cases hb
      · rename_i t hne hc
        cases hb
        rw [yields_newtypeModel hy] at h
        exact .explicitNewtype hh hd hc (explicit_back (by rintro rfl; exact hne rfl) h)
      · rename_i hc
        cases hb
        obtain ⟨hex, hsk, hnul⟩ := hp hc f (by simp)
        obtain ⟨m₀, hm₀, rfl⟩ := yields_getSchemaWithParams hy
        refine .newtypeStruct hh hd hc hsk (fun t ht => absurd (hex.symm.trans ht) (by simp)) fun _ => ?_
        rcases valid_applyParams_inv rfl h with ⟨hn, rfl⟩ | h
        · refine reads_null (hnul ?_)
          cases hc : f.attrs.nullable with
          | true => rfl
          | false => simp [ParamsExpr.eval, ParamsExpr.or, FieldAttrs.params, hc] at hn
        · exact (ha (f.ty, false) (by simp [ModelExpr.asked])).2 m₀ j hm₀ h hj

/-- What is needed for values that are read. -/
structure Legible (x : Bool) (d : Reader) (S : Setting) (reg : List (String × Model)) : Prop extends Grounds S reg where
  readable : ∀ t, S.reached t → ¬ ByHand S.hand t → Readable S.docs d t
  deep : ∀ t, S.reached t → ¬ ByHand S.hand t → Deep S t
  byHand : ∀ i v, S.reached (.named i) → S.hand i = some v → ∀ m j, S.docs.schema (.named i) m → ValidModel x reg m j →
    j.Distinct → v j

theorem prim_reads (G : Grounds S reg) {p m j} (hm : S.docs.schema (.prim p) m) (h : ValidModel x reg m j) : ScalarForm (.prim p) j := by
  have hb := simple_back (G.yields hm rfl) h
  cases p <;> exact hb

theorem reads_deep (L : Legible x d S reg) {t} (hx : Deep S t) : S.reached t → ¬ ByHand S.hand t → ReadsAll x S d reg t := by
  induction hx with
  | @intro t e he h ih =>
    intro hr nb m j hm hv hj
    have G := L.toGrounds
    have hy := G.yields hm he nb
    have ha : AskedRead x S d reg e.asked := by
      intro a h
      have hs := G.asked t e hr nb he a h
      refine ⟨hs, ?_⟩
      by_cases hb : ByHand S.hand a.1
      · obtain ⟨i, v, ei, hv⟩ := hb
        intro m j hm hok hd
        rw [ei] at hm ⊢
        exact .byHand hv (L.byHand i v (ei ▸ hs.1) hv m j hm hok hd)
      · exact ih a h hb hs.1 hb
    have hp := L.readable t hr nb
    cases t with
    | prim p => exact .scalar trivial (hp _ (prim_reads G hm hv))
    | wrap w t =>
      cases he
      exact .wrap (by rintro rfl; exact hp) ((ha (t, false) (by simp [ModelExpr.asked])).2 m j (yields_getSchema hy) hv hj)
    | option t =>
      cases he
      obtain ⟨m₀, hm₀, rfl⟩ := yields_getSchemaWithParams hy
      rcases valid_applyParams_inv rfl hv with ⟨_, rfl⟩ | hv
      · exact .none
      · exact .some ((ha (t, false) (by simp [ModelExpr.asked])).2 m₀ j hm₀ hv hj)
    | tuple => exact hp.elim
    | seq k t =>
      cases he
      obtain ⟨td, htd, rfl⟩ := yields_single hy
      obtain ⟨r, hr', rfl⟩ := yields_array htd
      have hat := ha (t, true) (by simp [ModelExpr.asked, TypeExpr.asked, RefExpr.asked])
      cases hv with
      | array hv =>
        cases hj with
        | arr hj =>
          refine .seq (by rintro n rfl; exact hp.elim) fun y hy => ?_
          exact mention_reads G rfl (by simp [ParamsExpr.eval]) (yields_mention hr') hat.1 hat.2 (hv y hy) (hj y hy)
    | dict k t =>
      cases he
      obtain ⟨td, htd, rfl⟩ := yields_single hy
      obtain ⟨r, hr', rfl⟩ := yields_dictionary htd
      have hat := ha (t, true) (by simp [ModelExpr.asked, TypeExpr.asked, RefExpr.asked])
      cases hv with
      | object _ _ hv =>
        exact .dict fun y hy => mention_reads G rfl (by simp [ParamsExpr.eval]) (yields_mention hr') hat.1 hat.2
          (hv y.1 y.2 r hy rfl rfl) (hj.entry hy)
    | unit => exact hp.elim
    | uuid => cases he; exact .scalar trivial (hp _ (string_back hy hv))
    | naiveDateTime => cases he; exact .scalar trivial (hp _ (string_back hy hv))
    | dateTime => cases he; exact .scalar trivial (hp _ (string_back hy hv))
    | naiveDate => cases he; exact .scalar trivial (hp _ (string_back hy hv))
    | named i =>
      have hh : S.hand i = none := by
        cases hc : S.hand i with
        | none => rfl
        | some v => exact absurd ⟨i, v, rfl, hc⟩ nb
      obtain ⟨body, hb, hex, -⟩ := G.named hm nb
      rw [he] at hex; cases hex
      obtain ⟨o, input, hder⟩ := L.derived i hr nb
      cases hdata : (S.env.decl i).data with
      | enum vs => exact enum_reads G hdata hh hder hp hb hy ha hv hj
      | struct style fs => exact struct_reads G hdata hh hp hb hy ha hv hj

theorem reads_all (L : Legible x d S reg) {t} (hr : S.reached t) : ReadsAll x S d reg t := by
  by_cases hb : ByHand S.hand t
  · obtain ⟨i, v, rfl, hv⟩ := hb
    exact fun m j hm hok hd => .byHand hv (L.byHand i v hr hv m j hm hok hd)
  · exact reads_deep L (L.deep t hr hb) hr hb

theorem readsBy_none {env : Env} {t j} : ReadsBy env d (fun _ => none) t j ↔ Reads env d t j := by
  constructor
  · intro h
    induction h with
    | byHand hh => cases hh
    | scalar ht h => exact .scalar ht h
    | wrap hw _ ih => exact .wrap hw ih
    | tuple1 _ ih => exact .tuple1 ih
    | none => exact .none
    | some _ ih => exact .some ih
    | tuple hl _ ih => exact .tuple hl ih
    | seq hl _ ih => exact .seq hl ih
    | dict _ ih => exact .dict ih
    | unit => exact .unit
    | unitStruct _ hd => exact .unitStruct hd
    | struct _ hd ht hg hf _ ih => exact .struct hd ht hg hf ih
    | structSeq _ hl hd ht hg hf _ ih => exact .structSeq hl hd ht hg hf ih
    | tupleStruct _ hd ht hf _ ih => exact .tupleStruct hd ht hf ih
    | newtypeStruct _ hd hc hk he _ ih => exact .newtypeStruct hd hc hk he ih
    | explicitNewtype _ hd hc he => exact .explicitNewtype hd hc he
    | repr _ hd hr hn => exact .repr hd hr hn
    | unitVariant _ hd hr hv hk hst hj => exact .unitVariant hd hr hv hk hst hj
    | newtypeVariant _ hd hr hv hk hst hf hs hj he _ ih => exact .newtypeVariant hd hr hv hk hst hf hs hj he ih
    | tupleVariant _ hd hr hv hk hst hj hf _ ih => exact .tupleVariant hd hr hv hk hst hj hf ih
    | structVariant _ hd hr hv hk hst hj hf _ ih => exact .structVariant hd hr hv hk hst hj hf ih
    | structVariantSeq _ hl hd hr hv hk hst hj hf _ ih => exact .structVariantSeq hl hd hr hv hk hst hj hf ih
  · intro h
    induction h with
    | scalar ht h => exact .scalar ht h
    | wrap hw _ ih => exact .wrap hw ih
    | tuple1 _ ih => exact .tuple1 ih
    | none => exact .none
    | some _ ih => exact .some ih
    | tuple hl _ ih => exact .tuple hl ih
    | seq hl _ ih => exact .seq hl ih
    | dict _ ih => exact .dict ih
    | unit => exact .unit
    | unitStruct hd => exact .unitStruct rfl hd
    | struct hd ht hg hf _ ih => exact .struct rfl hd ht hg hf ih
    | structSeq hl hd ht hg hf _ ih => exact .structSeq rfl hl hd ht hg hf ih
    | tupleStruct hd ht hf _ ih => exact .tupleStruct rfl hd ht hf ih
    | newtypeStruct hd hc hk he _ ih => exact .newtypeStruct rfl hd hc hk he ih
    | explicitNewtype hd hc he => exact .explicitNewtype rfl hd hc he
    | repr hd hr hn => exact .repr rfl hd hr hn
    | unitVariant hd hr hv hk hst hj => exact .unitVariant rfl hd hr hv hk hst hj
    | newtypeVariant hd hr hv hk hst hf hs hj he _ ih => exact .newtypeVariant rfl hd hr hv hk hst hf hs hj he ih
    | tupleVariant hd hr hv hk hst hj hf _ ih => exact .tupleVariant rfl hd hr hv hk hst hj hf ih
    | structVariant hd hr hv hk hst hj hf _ ih => exact .structVariant rfl hd hr hv hk hst hj hf ih
    | structVariantSeq hl hd hr hv hk hst hj hf _ ih => exact .structVariantSeq rfl hl hd hr hv hk hst hj hf ih

end Verif
