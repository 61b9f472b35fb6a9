import Verif.Proof.Conform
import Verif.Proof.ApiDoc
/-!
# Values among alternatives: proofs
-/

namespace Verif

variable {o : Oracle} {env : Env} {s : Serde} {reg : List (String × Model)}

mutual
theorem Valid.sharpen : ∀ {r j}, Valid false reg r j → (∀ rs j', Meets reg r j rs j' → Separated reg rs j') → Valid true reg r j
  | _, _, .any, _ => .any
  | _, _, .link hg hv, h => .link hg (hv.sharpen fun rs j' hm => h rs j' (.link hg hm))
  | _, _, .inline hv, h => .inline (hv.sharpen fun rs j' hm => h rs j' (.inline hm))
termination_by structural _ _ h => h
theorem ValidModel.sharpen : ∀ {m j}, ValidModel false reg m j → (∀ rs j', MeetsModel reg m j rs j' → Separated reg rs j') →
    ValidModel true reg m j
  | _, _, .null, _ => .null
  | _, _, .string h, _ => .string h
  | _, _, .number, _ => .number
  | _, _, .numberInt, _ => .numberInt
  | _, _, .integer, _ => .integer
  | _, _, .boolean, _ => .boolean
  | _, _, .array hv, h => .array fun x hx => (hv x hx).sharpen fun rs j' hm => h rs j' (.item hx hm)
  | _, _, .object hr hp ha, h => .object hr
      (fun k j r hk hg => (hp k j r hk hg).sharpen fun rs j' hm => h rs j' (.property hk hg hm))
      fun k j r hk hg e => (ha k j r hk hg e).sharpen fun rs j' hm => h rs j' (.additional hk hg e hm)
  | _, _, .oneOf (r := r) he hv _, h =>
    have hr := by rw [he]; simp
    valid_oneOf_at (r := r) hr (hv.sharpen fun rs j' hm => h rs j' (.alternative hr hv hm)) fun _ => h _ _ .here
  | _, _, .anyOf hr hv, h => .anyOf hr (hv.sharpen fun rs j' hm => h rs j' (.anyOf hr hv hm))
  | _, _, .allOf hv, h => .allOf fun r hr => (hv r hr).sharpen fun rs j' hm => h rs j' (.allOf hr hm)
termination_by structural _ _ h => h
end

/-- The alternatives at all positions but one reject. -/
theorem settled_of {rs : List Ref} {k : Nat} {r j} (h : rs[k]? = some r)
    (hi : ∀ (l : Nat) r', l ≠ k → rs[l]? = some r' → Invalid true reg r' j) : Separated reg rs j := by
  have hk := (List.getElem?_eq_some_iff.1 h).1
  refine ⟨rs.take k, r, rs.drop (k + 1), ?_, ?_⟩
  · have := List.getElem?_eq_some_iff.1 h
    rw [← this.2, List.getElem_cons_drop, List.take_append_drop]
  · intro r' hr'
    rcases List.mem_append.1 hr' with hr' | hr'
    · obtain ⟨l, hl⟩ := List.getElem?_of_mem hr'
      rw [List.getElem?_take] at hl
      split at hl
      · exact hi l r' (by omega) hl
      · cases hl
    · obtain ⟨l, hl⟩ := List.getElem?_of_mem hr'
      rw [List.getElem?_drop] at hl
      exact hi _ r' (by omega) hl

/-! ## Schemas of enums with data -/

/-- A schema of the `i`-th type, as its derived impl builds it. -/
def Documents (k : Docs) (i : Nat) (m : Model) : Prop := ∃ body, serializeBody (k.env.decl i) = .ok body ∧ body.Yields k m

theorem documents_derived {i m} (h : HasSchema env (.named i) m) : Documents env i m := by
  obtain ⟨body, hb, _, hy⟩ := named_yields h
  exact ⟨body, hb, hy⟩

section
variable {k : Docs} {i : Nat} {input : DeriveInput Ty} {vs : List (Variant Ty)} {m : Model}

theorem enum_untagged_by (hder : Derived o k.env i input) (hd : (k.env.decl i).data = .enum vs) (hu : ∃ v ∈ vs, v.style ≠ .unit)
    (ht : (k.env.decl i).attrs.tagType = .none) (hm : Documents k i m) :
    ∃ rs, m = ⟨(k.env.decl i).attrs.description, .oneOf rs⟩ ∧
      Pointwise (fun v r => (v.style = .newType ∨ v.style = .struct) ∧ VariantContent k v r) (writtenVariants vs) rs := by
  obtain ⟨body, hb, hy⟩ := hm
  have h2 := (derived_enum hder hd).2 hu
  simp only [ht] at h2
  simp only [serializeBody, hd, serializeEnum, h2, ht, serializeUntaggedEnum] at hb
  split at hb
  · cases hb
  · rename_i es hes
    cases hb
    obtain ⟨rs, hrs, rfl⟩ := yields_oneOf hy
    exact ⟨rs, rfl, variants_yield hes hrs fun v e r h h' => yields_untagged h h'⟩

theorem enum_external_by (hder : Derived o k.env i input) (hd : (k.env.decl i).data = .enum vs) (hu : ∃ v ∈ vs, v.style ≠ .unit)
    (ht : (k.env.decl i).attrs.tagType = .external) (hm : Documents k i m) :
    ∃ rs, m = objectSchema (k.env.decl i).attrs.description (k.env.decl i).attrs.nullable
        ⟨[], some (.inline ⟨(k.env.decl i).attrs.description, .oneOf rs⟩), []⟩ ∧
      Pointwise (VariantContent k) (writtenVariants vs) rs := by
  obtain ⟨body, hb, hy⟩ := hm
  have h2 := (derived_enum hder hd).2 hu
  simp only [ht] at h2
  simp only [serializeBody, hd, serializeEnum, h2, ht, serializeExternalEnum] at hb
  split at hb
  · cases hb
  · rename_i es hes
    cases hb
    obtain ⟨td, htd, rfl⟩ := yields_single hy
    obtain ⟨r, hr, rfl⟩ := yields_dictionary htd
    obtain ⟨m', hm', rfl⟩ := yields_inline hr
    obtain ⟨rs, hrs, rfl⟩ := yields_oneOf hm'
    exact ⟨rs, rfl, variants_yield hes hrs fun v e r h h' => yields_external h h'⟩

theorem enum_internal_by (hder : Derived o k.env i input) (hd : (k.env.decl i).data = .enum vs) (hu : ∃ v ∈ vs, v.style ≠ .unit)
    {t} (ht : (k.env.decl i).attrs.tagType = .internal t) (hm : Documents k i m) :
    ∃ ms, m = ⟨(k.env.decl i).attrs.description, .oneOf (ms.map .inline)⟩ ∧
      Pointwise (fun v m => ∃ m₀, InternalContent k v m₀ ∧ Tagged t ((k.env.decl i).ident ++ " type variant") v.key m₀ m)
        (writtenVariants vs) ms := by
  obtain ⟨body, hb, hy⟩ := hm
  have h2 := (derived_enum hder hd).2 hu
  simp only [ht] at h2
  simp only [serializeBody, hd, serializeEnum, h2, ht, serializeInternalEnum] at hb
  split at hb
  · cases hb
  · rename_i es hes
    cases hb
    obtain ⟨rs, hrs, rfl⟩ := yields_oneOf hy
    have := variants_yield hes hrs fun v e r h h' => yields_internal h h'
    obtain ⟨ms, rfl, hms⟩ := this.inlines
    refine ⟨ms, rfl, hms.imp ?_⟩
    rintro v m ⟨m₀, h, rfl⟩
    exact ⟨m₀, h, tagged_tryMerge m₀ ..⟩

end

section
variable {i : Nat} {input : DeriveInput Ty} {vs : List (Variant Ty)} {m : Model}

theorem enum_untagged (hder : Derived o env i input) (hd : (env.decl i).data = .enum vs) (hu : ∃ v ∈ vs, v.style ≠ .unit)
    (ht : (env.decl i).attrs.tagType = .none) (hm : HasSchema env (.named i) m) :
    ∃ rs, m = ⟨(env.decl i).attrs.description, .oneOf rs⟩ ∧
      Pointwise (fun v r => (v.style = .newType ∨ v.style = .struct) ∧ VariantContent env v r) (writtenVariants vs) rs :=
  enum_untagged_by hder hd hu ht (documents_derived hm)

theorem enum_external (hder : Derived o env i input) (hd : (env.decl i).data = .enum vs) (hu : ∃ v ∈ vs, v.style ≠ .unit)
    (ht : (env.decl i).attrs.tagType = .external) (hm : HasSchema env (.named i) m) :
    ∃ rs, m = objectSchema (env.decl i).attrs.description (env.decl i).attrs.nullable
        ⟨[], some (.inline ⟨(env.decl i).attrs.description, .oneOf rs⟩), []⟩ ∧
      Pointwise (VariantContent env) (writtenVariants vs) rs :=
  enum_external_by hder hd hu ht (documents_derived hm)

theorem enum_internal (hder : Derived o env i input) (hd : (env.decl i).data = .enum vs) (hu : ∃ v ∈ vs, v.style ≠ .unit)
    {t} (ht : (env.decl i).attrs.tagType = .internal t) (hm : HasSchema env (.named i) m) :
    ∃ ms, m = ⟨(env.decl i).attrs.description, .oneOf (ms.map .inline)⟩ ∧
      Pointwise (fun v m => ∃ m₀, InternalContent env v m₀ ∧ Tagged t ((env.decl i).ident ++ " type variant") v.key m₀ m)
        (writtenVariants vs) ms :=
  enum_internal_by hder hd hu ht (documents_derived hm)

end

/-! ## What is written for a variant -/

/-- A value of an enum with data that is not written as a number is written for a variant, with its content. -/
theorem serBy_variant {hand : Nat → Option (Json → Prop)} {i vs j} (hh : hand i = none) (hd : (env.decl i).data = .enum vs) (hu : ∃ v ∈ vs, v.style ≠ .unit)
    (h : SerBy env s hand (.named i) j) : ∃ v ∈ writtenVariants vs, ∃ c, tagJson (env.decl i).attrs.tagType v.key c = some j ∧
      ((c = none ∧ WrittenAsUnit v) ∨
       (∃ f rest c', c = some c' ∧ v.style = .newType ∧ v.fields = f :: rest ∧ f.attrs.skipSerializing = false ∧
          (∀ t, f.attrs.explicitModelType = some t → ExplicitJson t f.attrs.nullable c') ∧
          (f.attrs.explicitModelType = none → SerBy env s hand f.ty c')) ∨
       (∃ ps : List (Field Ty × Json), v.style = .tuple ∧ Kept v.fields (ps.map Prod.fst) ∧ c = some (.arr (ps.map Prod.snd))) ∨
       (∃ ps : List (Field Ty × Json), v.style = .struct ∧ Kept v.fields (ps.map Prod.fst) ∧ c = some (.obj (fieldEntries ps)))) := by
  cases h with
  | byHand hh' => rw [hh] at hh'; cases hh'
  | struct _ hd' => rw [hd] at hd'; cases hd'
  | tupleStruct _ hd' => rw [hd] at hd'; cases hd'
  | transparent _ hd' => rw [hd] at hd'; cases hd'
  | newtypeStruct _ hd' => rw [hd] at hd'; cases hd'
  | explicitNewtype _ hd' => rw [hd] at hd'; cases hd'
  | repr _ hd' _ hu' => 
    rw [hd] at hd'; cases hd'
    obtain ⟨v, hv, hn⟩ := hu
    exact absurd (hu' v hv) hn
  | unitVariant _ hd' hr hv hu' hj => 
    rw [hd] at hd'; cases hd'
    exact ⟨_, hv, _, hj, .inl ⟨rfl, hu'⟩⟩
  | newtypeVariant _ hd' hr hv hst hf hk he hs hj =>
    rw [hd] at hd'; cases hd'
    exact ⟨_, hv, _, hj, .inr (.inl ⟨_, _, _, rfl, hst, hf, hk, he, hs⟩)⟩
  | tupleVariant _ hd' hr hv hst hk he hs hj =>
    rw [hd] at hd'; cases hd'
    exact ⟨_, hv, _, hj, .inr (.inr (.inl ⟨_, hst, hk, rfl⟩))⟩
  | structVariant _ hd' hr hv hst hk he hs hj =>
    rw [hd] at hd'; cases hd'
    exact ⟨_, hv, _, hj, .inr (.inr (.inr ⟨_, hst, hk, rfl⟩))⟩

theorem ser_variant {i vs j} (hd : (env.decl i).data = .enum vs) (hu : ∃ v ∈ vs, v.style ≠ .unit)
    (h : Ser env s (.named i) j) : ∃ v ∈ writtenVariants vs, ∃ c, tagJson (env.decl i).attrs.tagType v.key c = some j ∧
      ((c = none ∧ WrittenAsUnit v) ∨
       (∃ f rest c', c = some c' ∧ v.style = .newType ∧ v.fields = f :: rest ∧ f.attrs.skipSerializing = false ∧
          (∀ t, f.attrs.explicitModelType = some t → ExplicitJson t f.attrs.nullable c') ∧
          (f.attrs.explicitModelType = none → Ser env s f.ty c')) ∨
       (∃ ps : List (Field Ty × Json), v.style = .tuple ∧ Kept v.fields (ps.map Prod.fst) ∧ c = some (.arr (ps.map Prod.snd))) ∨
       (∃ ps : List (Field Ty × Json), v.style = .struct ∧ Kept v.fields (ps.map Prod.fst) ∧ c = some (.obj (fieldEntries ps)))) := by
  obtain ⟨v, hv, c, hj, hc⟩ := serBy_variant (hand := fun _ => none) rfl hd hu (serBy_none.2 h)
  refine ⟨v, hv, c, hj, ?_⟩
  rcases hc with hc | ⟨f, rest, c', h1, h2, h3, h4, h5, h6⟩ | hc
  · exact .inl hc
  · exact .inr (.inl ⟨f, rest, c', h1, h2, h3, h4, h5, fun h => serBy_none.1 (h6 h)⟩)
  · exact .inr (.inr hc)

/-! ## Which choices are offered -/

theorem offers_oneOf {d rs₀ j rs j'} (h : Offers reg ⟨d, .oneOf rs₀⟩ j rs j')
    (hno : ∀ d n r, .inline ⟨d, .single ⟨n, .array r⟩⟩ ∉ rs₀) : rs = rs₀ ∧ j' = j := by
  generalize hm : (⟨d, .oneOf rs₀⟩ : Model) = m at h
  induction h with
  | whole => cases hm; exact ⟨rfl, rfl⟩
  | item => cases hm
  | property => cases hm
  | additional => cases hm
  | within h hr hv hx ih =>
    obtain ⟨rfl, rfl⟩ := ih hm
    exact absurd hr (hno _ _ _)

theorem offers_map {d n d' rs₀ es rs j'}
    (h : Offers reg (objectSchema d n ⟨[], some (.inline ⟨d', .oneOf rs₀⟩), []⟩) (.obj es) rs j')
    (hno : ∀ d n r, .inline ⟨d, .single ⟨n, .array r⟩⟩ ∉ rs₀) : rs = rs₀ ∧ ∃ k, (k, j') ∈ es := by
  generalize hm : objectSchema d n ⟨[], some (.inline ⟨d', .oneOf rs₀⟩), []⟩ = m at h
  generalize hj : Json.obj es = j at h
  induction h with
  | whole => cases hm
  | item => cases hm
  | property _ hg => cases hm; cases hg
  | additional hk _ ha => cases hm; cases hj; cases ha; exact ⟨rfl, _, hk⟩
  | within h hr hv hx ih =>
    obtain ⟨rfl, _⟩ := ih hm hj
    exact absurd hr (hno _ _ _)

theorem pointwise_get_right {α β : Type} {R : α → β → Prop} {as bs} (h : Pointwise R as bs) {i : Nat} {b}
    (hb : bs[i]? = some b) : ∃ a, as[i]? = some a ∧ R a b := by
  induction h generalizing i with
  | nil => simp at hb
  | cons h _ ih =>
    cases i with
    | zero => cases hb; exact ⟨_, rfl, h⟩
    | succ i => exact ih (by simpa using hb)

theorem nodup_get {α β : Type} {f : α → β} {l : List α} (h : (l.map f).Nodup) {k k' : Nat} {a b} (ha : l[k]? = some a)
    (hb : l[k']? = some b) (hne : k' ≠ k) : f b ≠ f a := by
  intro e
  obtain ⟨hk, rfl⟩ := List.getElem?_eq_some_iff.1 ha
  obtain ⟨hk', rfl⟩ := List.getElem?_eq_some_iff.1 hb
  have := (List.nodup_iff_pairwise_ne.1 h)
  rw [List.pairwise_iff_getElem] at this
  rcases Nat.lt_or_gt_of_ne hne with hlt | hlt
  · exact this k' k (by simpa using hk') (by simpa using hk) hlt (by simpa using e)
  · exact this k k' (by simpa using hk) (by simpa using hk') hlt (by simpa using e.symm)

/-- Variants of an internally tagged enum that match their documentation are objects with the tag. -/
theorem tagged_object {k : Docs} {w : Writes} {t desc} {v : Variant Ty} {m₀ m} (hc : InternalContent k v m₀) (ht : Tagged t desc v.key m₀ m)
    (hf : FaithfulVariant k w (.internal t) v) :
    ∃ d n o, m = objectSchema d n o ∧ BMap.get t o.properties = some (.inline (stringEnum (some desc) [v.key])) := by
  obtain ⟨h1, h2, h3, h4⟩ := hf
  have key : ∃ d n o, m₀ = objectSchema d n o ∧ t ∉ BMap.keys o.properties := by
    unfold InternalContent at hc
    split at hc
    · exact ⟨_, _, _, hc, by simp [BMap.keys]⟩
    · rename_i hst
      obtain ⟨f, rest, m₁, hfs, hm₁, rfl⟩ := hc
      obtain ⟨d, n, o, rfl, hn⟩ := (h4 hst f (by rw [hfs]; simp)).2.2 m₁ hm₁
      obtain ⟨d', n', e⟩ := applyParams_object (d := d) (n := n) (o := o) (p := f.docIn k.env v.attrs)
      exact ⟨d', n', o, e, hn⟩
    · rename_i hst
      obtain ⟨o, ho, rfl⟩ := hc
      exact ⟨_, _, o, rfl, fun h => h3 hst (objectOf_keys ho h)⟩
    · exact hc.elim
  obtain ⟨d, n, o, rfl, hn⟩ := key
  cases ht with
  | added d' n' o' h _ hm => 
    cases h
    exact ⟨_, _, _, hm, by rw [BMap.get_insert]; simp⟩
  | clash d' n' o' h hn' _ => cases h; exact absurd hn' hn
  | notObject h _ => exact absurd rfl (h _ _ _)

/-- Among objects, a key that another alternative requires and the value lacks settles the matter. -/
theorem objects_settled {docs : Docs} {ws : List (Variant Ty)} {rs}
    (hp : Pointwise (fun (v : Variant Ty) r => PlainFields v.fields ∧ ∃ d o, ObjectOf docs v.attrs.inline v.fields o ∧ r = .inline (objectSchema d false o)) ws rs)
    (hk : ∀ (k l : Nat) v w, k ≠ l → ws[k]? = some v → ws[l]? = some w →
      ∃ f ∈ serialFields w.fields, f.attrs.optional = false ∧ f.key ∉ (serialFields v.fields).map Field.key)
    {v} (hv : v ∈ ws) {ps : List (Field Ty × Json)} (hkept : Kept v.fields (ps.map Prod.fst)) :
    Separated reg rs (.obj (fieldEntries ps)) := by
  obtain ⟨k, hvk⟩ := List.getElem?_of_mem hv
  obtain ⟨r, hr, hpl, _⟩ := hp.get hvk
  refine settled_of hr ?_
  intro l r' hl hr'
  obtain ⟨w, hw, _, d, ob, ho, rfl⟩ := pointwise_get_right hp hr'
  obtain ⟨f, hf, hopt, hno⟩ := hk k l v w (Ne.symm hl) hvk hw
  refine .inline (.required (k := f.key) ?_ fun h => hno (keys_fieldEntries hpl hkept h))
  rw [ho.required]
  exact List.mem_map.2 ⟨f, List.mem_filter.2 ⟨hf, by simp [hopt]⟩, rfl⟩

/-! ## Distinct types -/

section
variable {docs : Docs} {hand : Nat → Option (Json → Prop)} {i : Nat} {input : DeriveInput Ty} {vs : List (Variant Ty)}

theorem distinct_internal {t : String} (derived : Derived o docs.env i input) (built : ∀ m, docs.schema (.named i) m → Documents docs i m)
    (byDerive : hand i = none) (data : (docs.env.decl i).data = .enum vs) (some_data : ∃ v ∈ vs, v.style ≠ .unit)
    (tag : (docs.env.decl i).attrs.tagType = .internal t)
    (faithful : ∀ v ∈ writtenVariants vs, FaithfulVariant docs (s.writesBy hand) (.internal t) v)
    (names : ((writtenVariants vs).map Variant.key).Nodup) : Distinct docs (s.writesBy hand) reg (.named i) := by
  intro _ m hm j hj rs j' hoff
  obtain ⟨ms, rfl, hms⟩ := enum_internal_by derived data some_data tag (built m hm)
  have hobj : ∀ (k : Nat) v m, (writtenVariants vs)[k]? = some v → ms[k]? = some m → ∃ d n o, m = objectSchema d n o ∧
      BMap.get t o.properties = some (.inline (stringEnum (some ((docs.env.decl i).ident ++ " type variant")) [v.key])) := by
    intro k v m hv hm
    obtain ⟨m', hm', m₀, hc, ht⟩ := hms.get hv
    rw [hm] at hm'
    cases hm'
    exact tagged_object hc ht (faithful v (List.mem_of_getElem? hv))
  obtain ⟨rfl, rfl⟩ := offers_oneOf hoff (by
    intro d n r h
    obtain ⟨m, hm, he⟩ := List.mem_map.1 h
    cases he
    obtain ⟨k, hk⟩ := List.getElem?_of_mem hm
    obtain ⟨v, hv, _⟩ := pointwise_get_right hms hk
    obtain ⟨_, _, _, he, _⟩ := hobj k v _ hv hk
    cases he)
  obtain ⟨v, hv, c, hc, _⟩ := serBy_variant byDerive data some_data hj
  rw [tag] at hc
  have hes : ∃ es, j' = .obj es ∧ (t, .str v.key) ∈ es := by
    match c, hc with
    | none, hc => cases hc; exact ⟨_, rfl, List.mem_cons_self⟩
    | some (.obj es), hc => cases hc; exact ⟨_, rfl, List.mem_cons_self⟩
  obtain ⟨es, rfl, hmem⟩ := hes
  obtain ⟨k, hk⟩ := List.getElem?_of_mem hv
  obtain ⟨m, hmk, _⟩ := hms.get hk
  refine settled_of (k := k) (r := .inline m) (by simp [hmk]) ?_
  intro l r' hl hr'
  rw [List.getElem?_map] at hr'
  obtain ⟨m', hm', rfl⟩ := Option.map_eq_some_iff.1 hr'
  obtain ⟨w, hw, _⟩ := pointwise_get_right hms hm'
  obtain ⟨d, n, ob, rfl, hg⟩ := hobj l w _ hw hm'
  refine .inline (.property hmem hg (.inline (.string ?_)))
  simpa using fun h => nodup_get names hk hw hl h.symm


theorem distinct_untagged (derived : Derived o docs.env i input) (built : ∀ m, docs.schema (.named i) m → Documents docs i m)
    (byDerive : hand i = none) (data : (docs.env.decl i).data = .enum vs) (some_data : ∃ v ∈ vs, v.style ≠ .unit)
    (tag : (docs.env.decl i).attrs.tagType = .none)
    (structs : ∀ v ∈ writtenVariants vs, v.style = .struct ∧ PlainFields v.fields)
    (keys : ∀ (k l : Nat) v w, k ≠ l → (writtenVariants vs)[k]? = some v → (writtenVariants vs)[l]? = some w →
      ∃ f ∈ serialFields w.fields, f.attrs.optional = false ∧ f.key ∉ (serialFields v.fields).map Field.key) :
    Distinct docs (s.writesBy hand) reg (.named i) := by
  intro _ m hm j hj rs j' hoff
  obtain ⟨rs₀, rfl, hrs⟩ := enum_untagged_by derived data some_data tag (built m hm)
  have hp : Pointwise (fun (v : Variant Ty) r => PlainFields v.fields ∧
      ∃ d o, ObjectOf docs v.attrs.inline v.fields o ∧ r = .inline (objectSchema d false o)) (writtenVariants vs) rs₀ := by
    refine hrs.of_get ?_
    intro k v r hv hr
    obtain ⟨hst, hpl⟩ := structs v (List.mem_of_getElem? hv)
    obtain ⟨_, hc⟩ := hrs.at hv hr
    simp only [VariantContent, hst] at hc
    obtain ⟨ob, ho, rfl⟩ := hc
    exact ⟨hpl, _, ob, ho, rfl⟩
  obtain ⟨rfl, rfl⟩ := offers_oneOf hoff (by
    intro d n r h
    obtain ⟨k, hk⟩ := List.getElem?_of_mem h
    obtain ⟨v, _, _, _, _, _, he⟩ := pointwise_get_right hp hk
    cases he)
  obtain ⟨v, hv, c, hc, hcase⟩ := serBy_variant byDerive data some_data hj
  obtain ⟨hst, _⟩ := structs v hv
  rw [tag] at hc
  rcases hcase with ⟨_, hu⟩ | ⟨_, _, _, _, hn, _⟩ | ⟨_, hn, _⟩ | ⟨ps, _, hkept, rfl⟩
  · rcases hu with hu | ⟨hu, _⟩ <;> rw [hst] at hu <;> cases hu
  · rw [hst] at hn; cases hn
  · rw [hst] at hn; cases hn
  · cases hc
    exact objects_settled hp keys hv hkept


theorem distinct_external (derived : Derived o docs.env i input) (built : ∀ m, docs.schema (.named i) m → Documents docs i m)
    (byDerive : hand i = none) (data : (docs.env.decl i).data = .enum vs) (some_data : ∃ v ∈ vs, v.style ≠ .unit)
    (tag : (docs.env.decl i).attrs.tagType = .external)
    (structs : ∀ v ∈ writtenVariants vs, v.style = .struct ∧ PlainFields v.fields)
    (keys : ∀ (k l : Nat) v w, k ≠ l → (writtenVariants vs)[k]? = some v → (writtenVariants vs)[l]? = some w →
      ∃ f ∈ serialFields w.fields, f.attrs.optional = false ∧ f.key ∉ (serialFields v.fields).map Field.key) :
    Distinct docs (s.writesBy hand) reg (.named i) := by
  intro _ m hm j hj rs j' hoff
  obtain ⟨rs₀, rfl, hrs⟩ := enum_external_by derived data some_data tag (built m hm)
  have hp : Pointwise (fun (v : Variant Ty) r => PlainFields v.fields ∧
      ∃ d o, ObjectOf docs v.attrs.inline v.fields o ∧ r = .inline (objectSchema d false o)) (writtenVariants vs) rs₀ := by
    refine hrs.of_get ?_
    intro k v r hv hr
    obtain ⟨hst, hpl⟩ := structs v (List.mem_of_getElem? hv)
    have hc := hrs.at hv hr
    simp only [VariantContent, hst] at hc
    obtain ⟨ob, ho, rfl⟩ := hc
    exact ⟨hpl, _, ob, ho, rfl⟩
  obtain ⟨v, hv, c, hc, hcase⟩ := serBy_variant byDerive data some_data hj
  obtain ⟨hst, _⟩ := structs v hv
  rw [tag] at hc
  rcases hcase with ⟨_, hu⟩ | ⟨_, _, _, _, hn, _⟩ | ⟨_, hn, _⟩ | ⟨ps, _, hkept, rfl⟩
  · rcases hu with hu | ⟨hu, _⟩ <;> rw [hst] at hu <;> cases hu
  · rw [hst] at hn; cases hn
  · rw [hst] at hn; cases hn
  · cases hc
    obtain ⟨rfl, key, hmem⟩ := offers_map hoff (by
      intro d n r h
      obtain ⟨k, hk⟩ := List.getElem?_of_mem h
      obtain ⟨v, _, _, _, _, _, he⟩ := pointwise_get_right hp hk
      cases he)
    simp only [List.mem_singleton, Prod.mk.injEq] at hmem
    obtain ⟨_, rfl⟩ := hmem
    exact objects_settled hp keys hv hkept


end

end Verif
