import Verif.Spec.Choice
import Verif.Spec.ConformBy
import Verif.Proof.Validity
import Verif.Proof.Shapes
import Verif.Proof.Order
import Verif.Props.Derive
/-!
# Values conform to schemas: proofs
-/

namespace Verif

/-- A program: how its types are documented, which of them by hand, and which it asks for, and by reference. -/
structure Setting where
  docs : Docs
  hand : Nat → Option (Json → Prop)
  reached : Ty → Prop
  linked : Ty → Prop

abbrev Setting.env (S : Setting) : Env := S.docs.env
/-- Asked for, and registered if by reference. -/
def Setting.Seen (S : Setting) (x : Ty × Bool) : Prop := S.reached x.1 ∧ (x.2 = true → S.linked x.1)

variable {ex : Bool} {env : Env} {k : Docs} {s : Serde} {S : Setting} {reg : List (String × Model)}

theorem Pointwise.mem_left {α β : Type} {R : α → β → Prop} {as bs} (h : Pointwise R as bs) {a} (ha : a ∈ as) :
    ∃ b ∈ bs, R a b := by
  induction h with
  | nil => cases ha
  | cons h _ ih =>
    rcases List.mem_cons.1 ha with rfl | ha
    · exact ⟨_, List.mem_cons_self, h⟩
    · obtain ⟨b, hb, hr⟩ := ih ha
      exact ⟨b, List.mem_cons_of_mem _ hb, hr⟩

theorem benign_eval (p : ParamsExpr) (h : p.nullable ≠ some false) : (p.eval env).Benign := ⟨h, rfl⟩

theorem valid_applyParams {m j p} (hp : Params.Benign p) (h : ValidModel ex reg m j) :
    ValidModel ex reg (m.applyParams p) j := by
  obtain ⟨hn, hv⟩ := hp
  cases h with
  | null =>
    simp only [Model.applyParams, ModelData.applyParams, ModelType.applyParams]
    split
    · rename_i b hb
      cases b with
      | false => exact absurd hb hn
      | true => exact .null
    · exact .null
  | string h =>
    simp only [Model.applyParams, ModelData.applyParams, ModelType.applyParams, TypeDesc.applyParams, hv, overrideOpt]
    exact .string h
  | number => exact .number
  | numberInt => exact .numberInt
  | integer => exact .integer
  | boolean => exact .boolean
  | array h => exact .array h
  | object hr hp ha => exact .object hr hp ha
  | oneOf h hv hx => exact .oneOf h hv hx
  | anyOf h hv => exact .anyOf h hv
  | allOf h => exact .allOf h

theorem valid_oneOf {d rs r j} (h : r ∈ rs) (hv : Valid false reg r j) : ValidModel false reg ⟨d, .oneOf rs⟩ j := by
  obtain ⟨pre, post, e⟩ := List.append_of_mem h
  exact .oneOf e hv (fun h => by cases h)

/-- An alternative that accepts is the one that is left if all others but one reject. -/
theorem valid_oneOf_at {d rs r j} (h : r ∈ rs) (hv : Valid ex reg r j) (hs : ex = true → Separated reg rs j) :
    ValidModel ex reg ⟨d, .oneOf rs⟩ j := by
  cases ex with
  | false => exact valid_oneOf h hv
  | true =>
    obtain ⟨pre, r', post, rfl, hi⟩ := hs rfl
    rcases List.mem_append.1 h with h | h
    · exact absurd hv (hi r (by simp [h])).not_valid
    · rcases List.mem_cons.1 h with rfl | h
      · exact .oneOf rfl hv fun _ => hi
      · exact absurd hv (hi r (by simp [h])).not_valid

mutual
/-- What is accepted if `oneOf` means exactly one is accepted if it means at least one. -/
theorem Valid.relax : ∀ {r j}, Valid ex reg r j → Valid false reg r j
  | _, _, .any => .any
  | _, _, .link hg hv => .link hg hv.relax
  | _, _, .inline hv => .inline hv.relax
termination_by structural _ _ h => h
theorem ValidModel.relax : ∀ {m j}, ValidModel ex reg m j → ValidModel false reg m j
  | _, _, .null => .null
  | _, _, .string h => .string h
  | _, _, .number => .number
  | _, _, .numberInt => .numberInt
  | _, _, .integer => .integer
  | _, _, .boolean => .boolean
  | _, _, .array h => .array fun x hx => (h x hx).relax
  | _, _, .object hr hp ha => .object hr (fun k j r h hg => (hp k j r h hg).relax) fun k j r h hg e => (ha k j r h hg e).relax
  | _, _, .oneOf he hv _ => .oneOf he hv.relax fun h => by cases h
  | _, _, .anyOf hm hv => .anyOf hm hv.relax
  | _, _, .allOf h => .allOf fun r hr => (h r hr).relax
termination_by structural _ _ h => h
end

/-- The choices met, if they matter. -/
abbrev SettledAt (ex : Bool) (reg : List (String × Model)) (m : Model) (j : Json) : Prop :=
  ex = true → ∀ rs j', Offers reg m j rs j' → Separated reg rs j'
/-- The same for the items of an alternative that is an array of choices. -/
abbrev SettledRef (ex : Bool) (reg : List (String × Model)) (r : Ref) (j : Json) : Prop :=
  ex = true → ∀ d n d' rs xs x, r = .inline ⟨d, .single ⟨n, .array (.inline ⟨d', .oneOf rs⟩)⟩⟩ → j = .arr xs → x ∈ xs →
    Separated reg rs x

/-- The same for derived documentation. -/
def Seen (env : Env) (roots : List (Ty × Bool)) (x : Ty × Bool) : Prop :=
  Reached env roots x.1 ∧ (x.2 = true → Linked env roots x.1)

theorem seen_of_asked {roots : List (Ty × Bool)} {t e} (ht : Reached env roots t) (he : schemaExpr env t = some e) {x}
    (hx : x ∈ e.asked) : Seen env roots x := by
  obtain ⟨u, b⟩ := x
  exact ⟨.step ht ⟨e, he, hx⟩, fun h => .inr ⟨t, ht, e, he, by simp only at h; rw [← h]; exact hx⟩⟩

/-- What is needed about the program and the registry: schemas are those of derived impls, and mentions lead to them. -/
structure Grounds (S : Setting) (reg : List (String × Model)) : Prop where
  derived : ∀ i, S.reached (.named i) → ¬ ByHand S.hand (.named i) → ∃ o input, Derived o S.env i input
  schema : ∀ t m, S.docs.schema t m → ¬ ByHand S.hand t → ∃ e, schemaExpr S.env t = some e ∧ e.Yields S.docs m
  mention : ∀ t i p r, S.docs.mention t i p r → S.Seen (t, !i) →
    (∃ l m, r = .link l ∧ S.docs.schema t m ∧ BMap.get l reg = some m) ∨
    ∃ m, S.docs.schema t m ∧ r = .inline (m.applyParams p)
  asked : ∀ t e, S.reached t → ¬ ByHand S.hand t → schemaExpr S.env t = some e → ∀ x ∈ e.asked, S.Seen x

/-- What is needed for values that serde writes. -/
structure World (ex : Bool) (s : Serde) (S : Setting) (reg : List (String × Model)) : Prop extends Grounds S reg where
  faithful : ∀ t, S.reached t → ¬ ByHand S.hand t → Faithful S.docs (s.writesBy S.hand) t
  distinct : ex = true → ∀ t, S.reached t → ¬ ByHand S.hand t → Distinct S.docs (s.writesBy S.hand) reg t
  byHand : ∀ i v, S.reached (.named i) → S.hand i = some v → ∀ j, v j → ∀ m, S.docs.schema (.named i) m →
    ValidModel ex reg m j

/-- All values of the type that is meant conform. -/
abbrev ConformsAt (ex : Bool) (S : Setting) (reg : List (String × Model)) (t : Ty) (j : Json) : Prop :=
  S.reached t → ∀ m, S.docs.schema t m → ValidModel ex reg m j

/-- The same for derived documentation, `oneOf` being read as "at least one". -/
abbrev Conforms (env : Env) (roots : List (Ty × Bool)) (reg : List (String × Model)) (t : Ty) (j : Json) : Prop :=
  Reached env roots t → ∀ m, HasSchema env t m → ValidModel false reg m j

theorem mention_valid (G : Grounds S reg) {t i p r j} (hp : Params.Benign p) (hm : S.docs.mention t i p r)
    (hs : S.Seen (t, !i)) (h : ConformsAt ex S reg t j) : Valid ex reg r j := by
  rcases G.mention t i p r hm hs with ⟨l, m, rfl, hh, hg⟩ | ⟨m, hh, rfl⟩
  · exact .link hg (h hs.1 m hh)
  · exact .inline (valid_applyParams hp (h hs.1 m hh))

theorem explicit_valid {t n doc j} (ht : t ≠ .any) (h : ExplicitJson t n j) :
    ValidModel ex reg (explicitModel t n doc) j := by
  rcases h with ⟨rfl, rfl⟩ | h
  · exact .null
  · cases t with
    | string => obtain ⟨t, rfl⟩ := h; exact .string (by simp)
    | integer => obtain ⟨t, rfl⟩ := h; exact .integer
    | number => 
      rcases h with ⟨t, rfl⟩ | ⟨t, rfl⟩
      · exact .number
      · exact .numberInt
    | boolean => obtain ⟨t, rfl⟩ := h; exact .boolean
    | any => exact absurd rfl ht

theorem fieldRef_valid (G : Grounds S reg) {doc inl f r j} (hb : Params.Benign doc)
    (hr : FieldRef S.docs doc inl f r)
    (he : ∀ t, f.attrs.explicitModelType = some t → ExplicitJson t f.attrs.nullable j)
    (hs : f.attrs.explicitModelType = none → S.Seen (f.ty, !inl) ∧ ConformsAt ex S reg f.ty j) :
    Valid ex reg r j := by
  unfold FieldRef at hr
  split at hr
  · subst hr; exact .any
  · rename_i t hne h
    subst hr
    exact .inline (explicit_valid hne (he t h))
  · rename_i h
    obtain ⟨h1, h2⟩ := hs h
    exact mention_valid G hb hr h1 h2

theorem doc_benign (f : Field Ty) : (f.doc env).Benign :=
  ⟨by simp only [Field.doc]; split <;> simp, rfl⟩
theorem docIn_benign (f : Field Ty) (v : VariantAttrs) : (f.docIn env v).Benign :=
  ⟨by simp only [Field.docIn]; split <;> simp, rfl⟩
theorem docOf_benign (f : Field Ty) (c : ContainerAttrs) : (f.docOf env c).Benign :=
  ⟨by simp only [Field.docOf]; split <;> simp, rfl⟩

/-! ## Objects and tuples -/

theorem Kept.mem {fs gs} (h : Kept fs gs) {f} (hf : f ∈ gs) : f ∈ serialFields fs := by
  induction h with
  | nil => cases hf
  | keep hs _ ih =>
    simp only [serialFields, List.filter_cons, hs, Bool.not_false, if_true]
    rcases List.mem_cons.1 hf with rfl | hf
    · exact List.mem_cons_self
    · exact List.mem_cons_of_mem _ (ih hf)
  | drop hs _ ih =>
    simp only [serialFields, List.filter_cons]
    split
    · exact List.mem_cons_of_mem _ (ih hf)
    · exact ih hf

theorem Kept.required {fs gs} (h : Kept fs gs) {f} (hf : f ∈ serialFields fs) (ho : f.attrs.optional = false) :
    f ∈ gs := by
  induction h with
  | nil => cases hf
  | keep hs _ ih =>
    simp only [serialFields, List.filter_cons, hs, Bool.not_false, if_true] at hf
    rcases List.mem_cons.1 hf with rfl | hf
    · exact List.mem_cons_self
    · exact List.mem_cons_of_mem _ (ih hf)
  | drop hs _ ih =>
    simp only [serialFields, List.filter_cons] at hf
    split at hf
    · rename_i hk
      rcases List.mem_cons.1 hf with rfl | hf
      · simp at hk; rcases hs with hs | hs
        · rw [hk] at hs; cases hs
        · rw [ho] at hs; cases hs
      · exact ih hf
    · exact ih hf

theorem mem_fieldEntries {ps : List (Field Ty × Json)} {k j}
    (hfl : ∀ p ∈ ps, p.1.attrs.flatten = false) :
    (k, j) ∈ fieldEntries ps ↔ ∃ p ∈ ps, p.1.key = k ∧ p.2 = j := by
  simp only [fieldEntries, List.mem_flatMap]
  constructor
  · rintro ⟨p, hp, h⟩
    rw [hfl p hp] at h
    simp at h
    exact ⟨p, hp, h.1.symm, h.2.symm⟩
  · rintro ⟨p, hp, rfl, rfl⟩
    exact ⟨p, hp, by rw [hfl p hp]; simp⟩

theorem key_inj {fs : List (Field Ty)} (h : (fs.map Field.key).Nodup) {f g} (hf : f ∈ fs) (hg : g ∈ fs)
    (e : f.key = g.key) : f = g := by
  induction fs with
  | nil => cases hf
  | cons a fs ih =>
    simp only [List.map_cons, List.nodup_cons, List.mem_map, not_exists, not_and] at h
    rcases List.mem_cons.1 hf with hf | hf <;> rcases List.mem_cons.1 hg with hg | hg
    · rw [hf, hg]
    · rw [hf] at e; exact absurd e.symm (h.1 g hg)
    · rw [hg] at e; exact absurd e (h.1 f hf)
    · exact ih h.2 hf hg

theorem objectOf_valid {inl d n} {fs : List (Field Ty)} {o} {ps : List (Field Ty × Json)}
    (ho : ObjectOf k inl fs o) (hf : PlainFields fs) (hk : Kept fs (ps.map Prod.fst))
    (hv : ∀ p ∈ ps, ∀ r, FieldRef k (p.1.doc k.env) (inl || p.1.attrs.inline) p.1 r → Valid ex reg r p.2)
    (es : List (String × Json)) (hes : ∀ k ∈ BMap.keys es, k ∉ (serialFields fs).map Field.key) :
    ValidModel ex reg (objectSchema d n o) (.obj (es ++ fieldEntries ps)) := by
  have hmem : ∀ p ∈ ps, p.1 ∈ serialFields fs := fun p hp => hk.mem (List.mem_map_of_mem hp)
  have hfl : ∀ p ∈ ps, p.1.attrs.flatten = false := fun p hp => hf.1 _ (hmem p hp)
  refine .object ?_ ?_ ?_
  · intro k hkr
    rw [ho.required] at hkr
    obtain ⟨f, hf', rfl⟩ := List.mem_map.1 hkr
    obtain ⟨hf1, hf2⟩ := List.mem_filter.1 hf'
    obtain ⟨p, hp, hpe⟩ := List.mem_map.1 (hk.required hf1 (by simpa using hf2))
    have : (f.key, p.2) ∈ fieldEntries ps := (mem_fieldEntries hfl).2 ⟨p, hp, by rw [hpe], rfl⟩
    simp only [BMap.keys, List.map_append, List.mem_append]
    exact .inr (List.mem_map_of_mem (f := Prod.fst) this)
  · intro k j r hm hg
    obtain ⟨pre, f, post, hsp, rfl, _, hr⟩ := ho.refs k r hg
    have hfs : f ∈ serialFields fs := by rw [hsp]; simp
    rcases List.mem_append.1 hm with hm | hm
    · exact absurd (List.mem_map_of_mem hfs) (hes _ (List.mem_map_of_mem (f := Prod.fst) hm))
    · obtain ⟨p, hp, hpk, rfl⟩ := (mem_fieldEntries hfl).1 hm
      have := key_inj hf.2 (hmem p hp) hfs hpk
      subst this
      exact hv p hp r hr
  · intro k j r _ _ ha
    rw [ho.additional] at ha; cases ha

theorem refsOf_mem {inl} {fs : List (Field Ty)} {rs f} (h : RefsOf k inl fs rs) (hf : f ∈ fs) :
    ∃ r ∈ rs, FieldRef k (f.doc k.env) (inl || f.attrs.inline) f r := h.mem_left hf

theorem tuple_valid {inl d n} {fs : List (Field Ty)} {rs} {ps : List (Field Ty × Json)}
    (ho : RefsOf k inl fs rs) (hk : Kept fs (ps.map Prod.fst))
    (hv : ∀ p ∈ ps, ∀ r, FieldRef k (p.1.doc k.env) (inl || p.1.attrs.inline) p.1 r → Valid ex reg r p.2)
    (hset : SettledRef ex reg (.inline (tupleSchema d n rs)) (.arr (ps.map Prod.snd))) :
    ValidModel ex reg (tupleSchema d n rs) (.arr (ps.map Prod.snd)) := by
  refine .array ?_
  intro x hx
  have hx' := hx
  obtain ⟨p, hp, rfl⟩ := List.mem_map.1 hx
  have hm : p.1 ∈ fs := (List.mem_filter.1 (hk.mem (List.mem_map_of_mem hp))).1
  obtain ⟨r, hr, hfr⟩ := refsOf_mem ho hm
  exact .inline (valid_oneOf_at hr (hv p hp r hfr) fun h => hset h _ _ _ _ _ _ rfl rfl hx')

/-! ## What the generated code asks for -/

theorem mem_askedTypes {es : List (RefExpr Ty)} {e x} (he : e ∈ es) (hx : x ∈ e.asked) : x ∈ RefExpr.askedList es := by
  induction es with
  | nil => cases he
  | cons a es ih =>
    simp only [RefExpr.askedList, List.mem_append]
    rcases List.mem_cons.1 he with rfl | he
    · exact .inl hx
    · exact .inr (ih he)

theorem mem_askedProps {es : List (PropExpr Ty)} {n e b x} (he : .mk n e b ∈ es) (hx : x ∈ e.asked) :
    x ∈ PropExpr.askedList es := by
  induction es with
  | nil => cases he
  | cons a es ih =>
    obtain ⟨n', r', b'⟩ := a
    simp only [PropExpr.askedList, List.mem_append]
    rcases List.mem_cons.1 he with he | he
    · cases he; exact .inl hx
    · exact .inr (ih he)

theorem asked_field {p : ParamsExpr} {f : Field Ty} {b} (h : f.attrs.explicitModelType = none) :
    (f.ty, !b) ∈ (fieldModelReference p f b).asked := by
  simp [fieldModelReference, h, RefExpr.asked]

theorem asked_object {fs : List (Field Ty)} {pred f} (hf : f ∈ serialFields fs)
    (h : f.attrs.explicitModelType = none) : (f.ty, !pred f) ∈ (objectTypeDescription fs pred).asked := by
  simp only [objectTypeDescription, TypeExpr.asked]
  exact mem_askedProps (List.mem_map.2 ⟨f, hf, rfl⟩) (asked_field h)

theorem asked_tuple {fs : List (Field Ty)} {pred f} (hf : f ∈ fs)
    (h : f.attrs.explicitModelType = none) : (f.ty, !pred f) ∈ (tupleTypeDescription fs pred).asked := by
  simp only [tupleTypeDescription, TypeExpr.asked, RefExpr.asked, ModelExpr.asked]
  exact mem_askedTypes (List.mem_map.2 ⟨f, hf, rfl⟩) (asked_field h)

/-- What is known about the fields that are written. -/
structure Written (ex : Bool) (S : Setting) (reg : List (String × Model)) (fs : List (Field Ty))
    (ps : List (Field Ty × Json)) : Prop where
  kept : Kept fs (ps.map Prod.fst)
  explicit : ∀ p ∈ ps, ∀ t, p.1.attrs.explicitModelType = some t → ExplicitJson t p.1.attrs.nullable p.2
  conforms : ∀ p ∈ ps, p.1.attrs.explicitModelType = none → ConformsAt ex S reg p.1.ty p.2

theorem Written.mem {fs ps} (h : Written ex S reg fs ps) {p} (hp : p ∈ ps) : p.1 ∈ serialFields fs :=
  h.kept.mem (List.mem_map_of_mem hp)

theorem objectDesc_valid (W : World ex s S reg) {fs : List (Field Ty)} {pred : Field Ty → Bool} {inl td ps d n}
    (hp : ∀ f, pred f = (inl || f.attrs.inline)) (hy : (objectTypeDescription fs pred).Yields S.docs td)
    (ha : ∀ x ∈ (objectTypeDescription fs pred).asked, S.Seen x) (hf : PlainFields fs)
    (hw : Written ex S reg fs ps) (es : List (String × Json))
    (hes : ∀ k ∈ BMap.keys es, k ∉ (serialFields fs).map Field.key) :
    ValidModel ex reg ⟨d, .single ⟨n, td⟩⟩ (.obj (es ++ fieldEntries ps)) := by
  obtain ⟨o, ho, rfl⟩ := yields_objectTypeDescription hp hy
  refine objectOf_valid ho hf hw.kept ?_ es hes
  intro p hpp r hr
  refine fieldRef_valid W.toGrounds (doc_benign _) hr (hw.explicit p hpp) ?_
  intro h
  refine ⟨?_, hw.conforms p hpp h⟩
  have := ha _ (asked_object (hw.mem hpp) h)
  rwa [hp] at this

theorem yields_tupleDesc {fs : List (Field Ty)} {inl : Bool} {pred : Field Ty → Bool} {td}
    (hp : ∀ f, pred f = (inl || f.attrs.inline)) (h : (tupleTypeDescription fs pred).Yields k td) :
    ∃ rs, RefsOf k inl fs rs ∧ td = .array (.inline ⟨none, .oneOf rs⟩) := by
  have h' : (tupleModel false none fs pred).Yields k ⟨none, .single ⟨false, td⟩⟩ := by
    simp only [tupleModel, ModelExpr.Yields]
    exact ⟨td, h, rfl⟩
  obtain ⟨rs, hrs, e⟩ := yields_tupleModel hp h'
  refine ⟨rs, hrs, ?_⟩
  simp only [tupleSchema, Model.mk.injEq, ModelData.single.injEq, ModelType.mk.injEq, true_and] at e
  exact e

theorem tupleDesc_valid (W : World ex s S reg) {fs : List (Field Ty)} {pred : Field Ty → Bool} {inl td ps d n}
    (hp : ∀ f, pred f = (inl || f.attrs.inline)) (hy : (tupleTypeDescription fs pred).Yields S.docs td)
    (ha : ∀ x ∈ (tupleTypeDescription fs pred).asked, S.Seen x) (hw : Written ex S reg fs ps)
    (hset : SettledRef ex reg (.inline ⟨d, .single ⟨n, td⟩⟩) (.arr (ps.map Prod.snd))) :
    ValidModel ex reg ⟨d, .single ⟨n, td⟩⟩ (.arr (ps.map Prod.snd)) := by
  obtain ⟨rs, hrs, rfl⟩ := yields_tupleDesc hp hy
  refine tuple_valid hrs hw.kept ?_ hset
  intro p hpp r hr
  refine fieldRef_valid W.toGrounds (doc_benign _) hr (hw.explicit p hpp) ?_
  intro h
  refine ⟨?_, hw.conforms p hpp h⟩
  have := ha _ (asked_tuple (List.mem_filter.1 (hw.mem hpp)).1 h)
  rwa [hp] at this

/-! ## Enums -/

theorem content_newtype (W : World ex s S reg) {p : ParamsExpr} {f : Field Ty} {b r j} (hp : p.nullable ≠ some false)
    (hy : (fieldModelReference p f b).Yields S.docs r) (ha : ∀ x ∈ (fieldModelReference p f b).asked, S.Seen x)
    (he : ∀ t, f.attrs.explicitModelType = some t → ExplicitJson t f.attrs.nullable j)
    (hs : f.attrs.explicitModelType = none → ConformsAt ex S reg f.ty j) : Valid ex reg r j :=
  fieldRef_valid W.toGrounds (benign_eval p hp) (yields_fieldRef hy) he fun h => ⟨ha _ (asked_field h), hs h⟩

theorem params_or_nullable (f : Field Ty) (v : VariantAttrs) : (f.attrs.params.or v.params).nullable ≠ some false := by
  simp only [ParamsExpr.or, FieldAttrs.params]; split <;> simp

theorem content_object (W : World ex s S reg) {d n} {fs : List (Field Ty)} {pred : Field Ty → Bool} {inl r ps}
    (hp : ∀ f, pred f = (inl || f.attrs.inline)) (hy : (RefExpr.inline (objectModel n d fs pred)).Yields S.docs r)
    (ha : ∀ x ∈ (RefExpr.inline (objectModel n d fs pred)).asked, S.Seen x) (hf : PlainFields fs)
    (hw : Written ex S reg fs ps) : Valid ex reg r (.obj (fieldEntries ps)) := by
  obtain ⟨m, hm, rfl⟩ := yields_inline hy
  obtain ⟨td, htd, rfl⟩ := yields_single hm
  exact .inline (objectDesc_valid W hp htd ha hf hw [] (by simp [BMap.keys]))

theorem content_tuple (W : World ex s S reg) {d n} {fs : List (Field Ty)} {pred : Field Ty → Bool} {inl r ps}
    (hp : ∀ f, pred f = (inl || f.attrs.inline)) (hy : (RefExpr.inline (tupleModel n d fs pred)).Yields S.docs r)
    (ha : ∀ x ∈ (RefExpr.inline (tupleModel n d fs pred)).asked, S.Seen x)
    (hw : Written ex S reg fs ps) (hset : SettledRef ex reg r (.arr (ps.map Prod.snd))) :
    Valid ex reg r (.arr (ps.map Prod.snd)) := by
  obtain ⟨m, hm, rfl⟩ := yields_inline hy
  obtain ⟨td, htd, rfl⟩ := yields_single hm
  exact .inline (tupleDesc_valid W hp htd ha hw hset)

/-- An alternative of the list that is evaluated. -/
theorem alternative {alt : Variant Ty → Except MacroPanic (RefExpr Ty)} {vs : List (Variant Ty)} {es rs v}
    (hm : mapExcept alt vs = .ok es) (hy : Pointwise (RefExpr.Yields k) es rs) (hv : v ∈ vs)
    {P : Ty × Bool → Prop} (ha : ∀ x ∈ RefExpr.askedList es, P x) :
    ∃ e r, alt v = .ok e ∧ r ∈ rs ∧ e.Yields k r ∧ ∀ x ∈ e.asked, P x := by
  obtain ⟨e, he, hve⟩ := (mapExcept_ok hm).mem_left hv
  obtain ⟨r, hr, her⟩ := hy.mem_left he
  exact ⟨e, r, hve, hr, her, fun x hx => ha x (mem_askedTypes he hx)⟩

/-- What a value of an enum consists of: a variant and its content. -/
inductive Content (ex : Bool) (s : Serde) (S : Setting) (reg : List (String × Model)) (v : Variant Ty) :
    Option Json → Prop
  | unit (h : WrittenAsUnit v) : Content ex s S reg v none
  | newtype {f rest c} (hst : v.style = .newType) (hf : v.fields = f :: rest) (hk : f.attrs.skipSerializing = false)
      (he : ∀ t, f.attrs.explicitModelType = some t → ExplicitJson t f.attrs.nullable c)
      (hser : f.attrs.explicitModelType = none → SerBy S.env s S.hand f.ty c)
      (hs : f.attrs.explicitModelType = none → ConformsAt ex S reg f.ty c) : Content ex s S reg v (some c)
  | tuple {ps : List (Field Ty × Json)} (hst : v.style = .tuple) (hw : Written ex S reg v.fields ps) :
      Content ex s S reg v (some (.arr (ps.map Prod.snd)))
  | struct {ps : List (Field Ty × Json)} (hst : v.style = .struct) (hw : Written ex S reg v.fields ps) :
      Content ex s S reg v (some (.obj (fieldEntries ps)))

theorem Written.relax {fs ps} (h : Written ex S reg fs ps) : Written false S reg fs ps :=
  ⟨h.kept, h.explicit, fun p hp he hr m hm => (h.conforms p hp he hr m hm).relax⟩

theorem Content.relax {v c} (h : Content ex s S reg v c) : Content false s S reg v c := by
  cases h with
  | unit h => exact .unit h
  | newtype hst hf hk he hser hs => exact .newtype hst hf hk he hser fun h hr m hm => (hs h hr m hm).relax
  | tuple hst hw => exact .tuple hst hw.relax
  | struct hst hw => exact .struct hst hw.relax

theorem World.relax (W : World ex s S reg) : World false s S reg :=
  ⟨W.toGrounds, W.faithful, fun h => (nomatch h),
    fun i v hr hh j hj m hm => (W.byHand i v hr hh j hj m hm).relax⟩

theorem not_writtenAsUnit {v : Variant Ty} (h : v.style ≠ .unit)
    (hk : v.style = .newType → ∀ f ∈ v.fields, f.attrs.skipSerializing = false) : ¬ WrittenAsUnit v := by
  rintro (hu | ⟨hn, f, rest, hf, hs⟩)
  · exact h hu
  · rw [hk hn f (by rw [hf]; simp)] at hs; cases hs

theorem external_valid (W : World ex s S reg) {v : Variant Ty} {e r c} (he : externalAlternative v = .ok e)
    (hy : e.Yields S.docs r) (ha : ∀ x ∈ e.asked, S.Seen x) (hf : FaithfulVariant S.docs (s.writesBy S.hand) .external v)
    (hc : Content ex s S reg v c) (hset : ∀ j, c = some j → SettledRef ex reg r j) :
    ∃ j, c = some j ∧ Valid ex reg r j := by
  obtain ⟨h1, h2, h3⟩ := hf
  cases hc with
  | unit h => exact absurd h (not_writtenAsUnit h3 h2)
  | newtype hst hfs hk hex hser hs =>
    refine ⟨_, rfl, ?_⟩
    simp only [externalAlternative, hst, newtypeVariantReference, hfs, Except.ok.injEq] at he
    subst he
    exact content_newtype W (params_or_nullable _ _) hy ha hex hs
  | tuple hst hw =>
    refine ⟨_, rfl, ?_⟩
    simp only [externalAlternative, hst, Except.ok.injEq] at he
    subst he
    exact content_tuple W (inl := v.attrs.inline) (fun _ => rfl) hy ha hw (hset _ rfl)
  | struct hst hw =>
    refine ⟨_, rfl, ?_⟩
    simp only [externalAlternative, hst, Except.ok.injEq] at he
    subst he
    exact content_object W (inl := v.attrs.inline) (fun _ => rfl) hy ha (h1 hst) hw

theorem untagged_valid (W : World ex s S reg) {v : Variant Ty} {e r c} (he : untaggedAlternative v = .ok e)
    (hy : e.Yields S.docs r) (ha : ∀ x ∈ e.asked, S.Seen x) (hf : FaithfulVariant S.docs (s.writesBy S.hand) .none v)
    (hc : Content ex s S reg v c) : ∃ j, c = some j ∧ Valid ex reg r j := by
  obtain ⟨h1, h2, _⟩ := hf
  have hst := (yields_untagged he hy).1
  cases hc with
  | unit h => exact absurd h (not_writtenAsUnit (by rcases hst with h | h <;> rw [h] <;> decide) h2)
  | newtype hst hfs hk hex hser hs =>
    refine ⟨_, rfl, ?_⟩
    simp only [untaggedAlternative, hst, newtypeVariantReference, hfs, Except.ok.injEq] at he
    subst he
    exact content_newtype W (params_or_nullable _ _) hy ha hex hs
  | tuple hst' hw => rw [hst'] at hst; simp at hst
  | struct hst hw =>
    refine ⟨_, rfl, ?_⟩
    simp only [untaggedAlternative, hst, Except.ok.injEq] at he
    subst he
    exact content_object W (inl := v.attrs.inline) (fun _ => rfl) hy ha (h1 hst) hw

theorem adjacent_valid (W : World ex s S reg) {v : Variant Ty} {e r c t cn} (he : adjacentAlternative v = .ok e)
    (hy : e.Yields S.docs r) (ha : ∀ x ∈ e.asked, S.Seen x) (hf : FaithfulVariant S.docs (s.writesBy S.hand) (.adjacent t cn) v)
    (hc : Content ex s S reg v c) (hset : ∀ j, c = some j → SettledRef ex reg r j) :
    ∃ j, c = some j ∧ Valid ex reg r j := by
  obtain ⟨h1, h2, h3, _⟩ := hf
  have hst : v.style ≠ .unit := by
    intro h
    simp [adjacentAlternative, h] at he
  cases hc with
  | unit h => exact absurd h (not_writtenAsUnit hst h2)
  | newtype hst hfs hk hex hser hs =>
    refine ⟨_, rfl, ?_⟩
    simp only [adjacentAlternative, hst, newtypeVariantReference, hfs, Except.ok.injEq] at he
    subst he
    exact content_newtype W (params_or_nullable _ _) hy ha hex hs
  | tuple hst hw =>
    refine ⟨_, rfl, ?_⟩
    simp only [adjacentAlternative, hst, Except.ok.injEq] at he
    subst he
    exact content_tuple W (inl := v.attrs.inline) (fun _ => rfl) hy ha hw (hset _ rfl)
  | struct hst hw => exact absurd hst h3

/-- A tag added to an object that conforms. -/
theorem tagged_valid {tag desc value m₀ m es} (ht : Tagged tag desc value m₀ m)
    (ho : ∃ d n o, m₀ = objectSchema d n o ∧ tag ∉ BMap.keys o.properties) (hk : tag ∉ BMap.keys es)
    (hv : ValidModel ex reg m₀ (.obj es)) : ValidModel ex reg m (.obj ((tag, .str value) :: es)) := by
  obtain ⟨d', n', o', rfl, hn'⟩ := ho
  cases ht with
  | added d n o h hn hm =>
    subst hm
    simp only [objectSchema, Model.mk.injEq, ModelData.single.injEq, ModelType.mk.injEq, TypeDesc.object.injEq] at h
    obtain ⟨rfl, rfl, rfl⟩ := h
    cases hv with
    | object hr hp ha =>
      refine .object ?_ ?_ ?_
      · intro k hkr
        simp only [List.mem_append, List.mem_singleton] at hkr
        simp only [BMap.keys, List.map_cons, List.mem_cons]
        rcases hkr with hkr | rfl
        · exact .inr (hr k hkr)
        · exact .inl rfl
      · intro k j r hm hg
        rw [BMap.get_insert] at hg
        rcases List.mem_cons.1 hm with hm | hm
        · cases hm
          simp at hg
          subst hg
          exact .inline (.string (by simp))
        · have hne : k ≠ tag := fun h => hk (h ▸ List.mem_map_of_mem (f := Prod.fst) hm)
          simp [hne] at hg
          exact hp k j r hm hg
      · intro k j r hm hg hadd
        rw [BMap.get_insert] at hg
        rcases List.mem_cons.1 hm with hm | hm
        · cases hm; simp at hg
        · have hne : k ≠ tag := fun h => hk (h ▸ List.mem_map_of_mem (f := Prod.fst) hm)
          simp [hne] at hg
          exact ha k j r hm hg hadd
  | clash d n o h hn hm =>
    simp only [objectSchema, Model.mk.injEq, ModelData.single.injEq, ModelType.mk.injEq, TypeDesc.object.injEq] at h
    obtain ⟨rfl, rfl, rfl⟩ := h
    exact absurd hn hn'
  | notObject h hm => exact absurd rfl (h d' n' o')

theorem applyParams_object {d n o p} : ∃ d' n', (objectSchema d n o).applyParams p = objectSchema d' n' o :=
  ⟨_, _, rfl⟩

theorem keys_fieldEntries {fs : List (Field Ty)} {ps : List (Field Ty × Json)} (hf : PlainFields fs)
    (hk : Kept fs (ps.map Prod.fst)) {k} (h : k ∈ BMap.keys (fieldEntries ps)) : k ∈ (serialFields fs).map Field.key := by
  obtain ⟨⟨k', j⟩, hm, rfl⟩ := List.mem_map.1 h
  have hmem : ∀ p ∈ ps, p.1 ∈ serialFields fs := fun p hp => hk.mem (List.mem_map_of_mem hp)
  obtain ⟨p, hp, rfl, rfl⟩ := (mem_fieldEntries fun p hp => hf.1 _ (hmem p hp)).1 hm
  exact List.mem_map_of_mem (hmem p hp)

theorem objectOf_keys {inl} {fs : List (Field Ty)} {o} (ho : ObjectOf k inl fs o) {k} (h : k ∈ BMap.keys o.properties) :
    k ∈ (serialFields fs).map Field.key := by
  obtain ⟨f, hf, rfl⟩ := (ho.names k).1 h
  exact List.mem_map_of_mem hf

theorem internal_valid (W : World ex s S reg) {c₀ : Container Ty} {t : String} {v : Variant Ty} {e r c j}
    (he : internalAlternative c₀ t v = .ok e) (hy : e.Yields S.docs r) (ha : ∀ x ∈ e.asked, S.Seen x)
    (hf : FaithfulVariant S.docs (s.writesBy S.hand) (.internal t) v) (hc : Content ex s S reg v c)
    (hj : tagJson (.internal t) v.key c = some j) : Valid ex reg r j := by
  obtain ⟨h1, h2, h3, h4⟩ := hf
  unfold internalAlternative at he
  split at he
  · cases he
  rename_i e' hin
  cases he
  obtain ⟨m', hm', rfl⟩ := yields_inline hy
  obtain ⟨m₀, hm₀, rfl⟩ := yields_tagged hm'
  have htag := tagged_tryMerge m₀ c₀.ident t v.key c₀.attrs.nullable
  refine .inline ?_
  cases hc with
  | unit h =>
    cases hj
    rcases h with hst | ⟨hst, f, rest, hfs, hs⟩
    · simp only [internalInner, hst, Except.ok.injEq] at hin
      subst hin
      obtain ⟨o, ho, rfl⟩ := yields_objectModel (inl := false) (pred := fun f => false || f.attrs.inline)
        (fs := []) (d := v.attrs.description) (b := false) (m := m₀) (fun _ => rfl) hm₀
      exact tagged_valid htag ⟨_, _, o, rfl, fun h => by simpa [serialFields] using objectOf_keys ho h⟩ (by simp [BMap.keys])
        (objectOf_valid (ps := []) ho (by simp [PlainFields, serialFields]) .nil (by simp) [] (by simp [BMap.keys]))
    · rw [h2 hst f (by rw [hfs]; simp)] at hs; cases hs
  | @newtype f rest c hst hfs hk hex hser hs =>
    obtain ⟨hex0, hkeys, hobj⟩ := h4 hst f (by rw [hfs]; simp)
    cases c <;> simp only [tagJson] at hj <;> cases hj
    rename_i es
    simp only [internalInner, hst, hfs, Except.ok.injEq] at hin
    subst hin
    obtain ⟨m₁, hm₁, rfl⟩ := yields_getSchemaWithParams hm₀
    have hseen := ha (f.ty, false) (by simp [RefExpr.asked, ModelExpr.asked])
    have hv := valid_applyParams (benign_eval (env := S.env) _ (params_or_nullable f v.attrs)) (hs hex0 hseen.1 m₁ hm₁)
    obtain ⟨d, n, o, rfl, hno⟩ := hobj m₁ hm₁
    obtain ⟨d', n', heq⟩ := applyParams_object (d := d) (n := n) (o := o) (p := (f.attrs.params.or v.attrs.params).eval S.env)
    refine tagged_valid htag ⟨d', n', o, heq, hno⟩ (hkeys es (hser hex0)) hv
  | tuple hst hw => simp only [tagJson] at hj; cases hj
  | @struct ps hst hw =>
    cases hj
    simp only [internalInner, hst, Except.ok.injEq] at hin
    subst hin
    have hm₀' := hm₀
    obtain ⟨o, ho, rfl⟩ := yields_objectModel (inl := v.attrs.inline) (fun _ => rfl) hm₀
    obtain ⟨td, htd, htde⟩ := yields_single hm₀'
    refine tagged_valid htag ⟨_, _, o, rfl, fun h => h3 hst (objectOf_keys ho h)⟩
      (fun h => h3 hst (keys_fieldEntries (h1 hst) hw.kept h)) ?_
    rw [htde]
    exact objectDesc_valid W (inl := v.attrs.inline) (fun _ => rfl) htd ha (h1 hst) hw [] (by simp [BMap.keys])

/-! ## All types -/

theorem hasSchema_yields {t m e} (h : HasSchema env t m) (he : schemaExpr env t = some e) : e.Yields env m := by
  obtain ⟨cx, cx', h⟩ := h
  exact h.yields he

theorem named_yields {i m} (h : HasSchema env (.named i) m) :
    ∃ body, serializeBody (env.decl i) = .ok body ∧ schemaExpr env (.named i) = some body ∧ body.Yields env m := by
  obtain ⟨cx, cx', n, h'⟩ := h
  cases n with
  | zero => simp [getSchema] at h'
  | succ n =>
    cases hb : serializeBody (env.decl i) with
    | error p => simp [getSchema, schemaExpr, hb] at h'
    | ok body =>
      have he : schemaExpr env (.named i) = some body := by simp [schemaExpr, hb]
      exact ⟨body, rfl, he, hasSchema_yields ⟨cx, cx', _, h'⟩ he⟩

theorem Grounds.yields (W : Grounds S reg) {t m e} (h : S.docs.schema t m) (he : schemaExpr S.env t = some e)
    (hh : ¬ ByHand S.hand t := by rintro ⟨_, _, ⟨⟩, _⟩) : e.Yields S.docs m := by
  obtain ⟨e', he', hy⟩ := W.schema t m h hh
  rw [he] at he'
  cases he'
  exact hy

theorem Grounds.named (W : Grounds S reg) {i m} (h : S.docs.schema (.named i) m) (hh : ¬ ByHand S.hand (.named i)) :
    ∃ body, serializeBody (S.env.decl i) = .ok body ∧ schemaExpr S.env (.named i) = some body ∧ body.Yields S.docs m := by
  obtain ⟨e, he, hy⟩ := W.schema _ m h hh
  cases hb : serializeBody (S.env.decl i) with
  | error p => simp [schemaExpr, hb] at he
  | ok body =>
    have : schemaExpr S.env (.named i) = some body := by simp [schemaExpr, hb]
    rw [this] at he
    cases he
    exact ⟨_, rfl, this, hy⟩

theorem not_byHand {hand : Nat → Option (Json → Prop)} {i} (h : hand i = none) : ¬ ByHand hand (.named i) := by
  rintro ⟨_, v, ⟨⟩, hv⟩
  rw [h] at hv
  cases hv

/-- Shape of a derived enum. -/
theorem derived_enum {o i input vs} (hd : Derived o env i input) (hdata : (env.decl i).data = .enum vs) :
    ((∀ v ∈ vs, v.style = .unit) → (env.decl i).attrs.modelType = .newType) ∧
    ((∃ v ∈ vs, v.style ≠ .unit) → (env.decl i).attrs.modelType =
        match (env.decl i).attrs.tagType with
        | .none => .oneOf
        | .internal _ => .oneOf
        | .external => .dictionary
        | .adjacent _ _ => .object) := by
  obtain ⟨rule, _, h⟩ := hd.parsed.data
  cases hi : input.data with
  | struct fs =>
    rw [hi] at h
    obtain ⟨_, _, h, _⟩ := h
    rw [hdata] at h; cases h
  | union => rw [hi] at h; exact h.elim
  | enum vs₀ =>
    obtain ⟨rule, vs', _, hcd, hvs, h1, h2, _⟩ := hd.enum hi
    rw [hdata] at hcd
    cases hcd
    have key : HasData vs₀ ↔ ∃ v ∈ vs, v.style ≠ .unit := by
      clear h1 h2 hd hdata h hi
      unfold HasData
      induction hvs with
      | nil => simp
      | cons hv _ ih =>
        simp only [List.mem_cons, exists_eq_or_imp, ih]
        obtain ⟨r, _, hfp⟩ := hv.fields
        have : ∀ a b : Prop, (a ↔ b) → ∀ c : Prop, (a ∨ c ↔ b ∨ c) := by intro a b h c; rw [h]
        apply this
        have hst := hfp.style
        generalize hx : SynVariant.fields _ = x at hst
        generalize hz : Variant.style _ = z at hst
        cases hst <;> simp
    refine ⟨fun h => h1 ?_, fun h => h2 (key.2 h)⟩
    rw [key]
    rintro ⟨v, hv, hn⟩
    exact hn (h v hv)

theorem enum_valid (W : World ex s S reg) {i vs v c j m} (hr : S.reached (.named i)) (nb : ¬ ByHand S.hand (.named i))
    (hd : (S.env.decl i).data = .enum vs) (hs : s.asRepr i = false) (hv : v ∈ serialVariants vs)
    (hc : Content ex s S reg v c) (hj : tagJson (S.env.decl i).attrs.tagType v.key c = some j)
    (hm : S.docs.schema (.named i) m) (hset : SettledAt ex reg m j) : ValidModel ex reg m j := by
  obtain ⟨body, hb, he, hy⟩ := W.toGrounds.named hm nb
  have ha := W.asked _ _ hr nb he
  obtain ⟨o, input, hder⟩ := W.derived i hr nb
  obtain ⟨hmt1, hmt2⟩ := derived_enum hder hd
  have hfaith := W.faithful _ hr nb
  simp only [Faithful, FaithfulDecl, hd] at hfaith
  obtain ⟨hf1, hf2⟩ := hfaith
  simp only [serializeBody, hd] at hb
  have hvs : v ∈ vs := (List.mem_filter.1 hv).1
  by_cases hu : ∀ v ∈ vs, v.style = .unit
  · have hf1 := hf1 hu
    split at hf1
    · rw [hs] at hf1; cases hf1.1
    · rename_i hrep
      simp only [serializeEnum, hmt1 hu, serializeNewtypeEnum, hrep, Except.ok.injEq] at hb
      subst hb
      obtain ⟨td, htd, rfl⟩ := yields_single hy
      have := yields_string htd
      subst this
      have hcn : c = none := by
        have := hu v hvs
        cases hc with
        | unit => rfl
        | newtype h => rw [this] at h; cases h
        | tuple h => rw [this] at h; cases h
        | struct h => rw [this] at h; cases h
      subst hcn
      rw [hf1.2] at hj
      cases hj
      refine .string ?_
      intro vs' hvs'
      cases hvs'
      exact List.mem_map_of_mem (f := fun v => v.attrs.name.serialized) hv
  · have hu' : ∃ v ∈ vs, v.style ≠ .unit := by simpa using hu
    have hfv := hf2 hu' v hv
    have hmt := hmt2 hu'
    simp only [serializeEnum, hmt] at hb
    cases ht : (S.env.decl i).attrs.tagType with
    | external =>
      simp only [ht, serializeExternalEnum] at hb hfv hj
      split at hb
      · cases hb
      rename_i es hes
      cases hb
      obtain ⟨td, htd, rfl⟩ := yields_single hy
      obtain ⟨r, hr1, rfl⟩ := yields_dictionary htd
      obtain ⟨m', hm', rfl⟩ := yields_inline hr1
      obtain ⟨rs, hrs, rfl⟩ := yields_oneOf hm'
      obtain ⟨e, r, hve, hrm, her, hea⟩ := alternative hes hrs hv (by simpa [ModelExpr.asked, TypeExpr.asked, RefExpr.asked] using ha)
      obtain ⟨j', rfl, hval₀⟩ := external_valid W.relax hve her hea hfv hc.relax (by rintro _ _ ⟨⟩)
      cases hj
      obtain ⟨_, ⟨⟩, hval⟩ := external_valid W hve her hea hfv hc (by
        rintro _ ⟨⟩ h d n d' rs' xs x rfl rfl hx
        exact hset h rs' x (.within (.additional List.mem_cons_self rfl rfl) hrm hval₀ hx))
      refine .object (by simp) (by simp) ?_
      intro k x r' hx _ hr'
      simp only [List.mem_singleton, Prod.mk.injEq] at hx
      obtain ⟨rfl, rfl⟩ := hx
      cases hr'
      exact .inline (valid_oneOf_at hrm hval fun h =>
        hset h _ _ (.additional List.mem_cons_self rfl rfl))
    | none =>
      simp only [ht, serializeUntaggedEnum] at hb hfv hj
      split at hb
      · cases hb
      rename_i es hes
      cases hb
      obtain ⟨rs, hrs, rfl⟩ := yields_oneOf hy
      obtain ⟨e, r, hve, hrm, her, hea⟩ := alternative hes hrs hv (by simpa [ModelExpr.asked] using ha)
      obtain ⟨j', rfl, hval⟩ := untagged_valid W hve her hea hfv hc
      cases hj
      exact valid_oneOf_at hrm hval fun h => hset h _ _ .whole
    | internal t =>
      simp only [ht, serializeInternalEnum] at hb hfv hj
      split at hb
      · cases hb
      rename_i es hes
      cases hb
      obtain ⟨rs, hrs, rfl⟩ := yields_oneOf hy
      obtain ⟨e, r, hve, hrm, her, hea⟩ := alternative hes hrs hv (by simpa [ModelExpr.asked] using ha)
      exact valid_oneOf_at hrm (internal_valid W hve her hea hfv hc hj) fun h => hset h _ _ .whole
    | adjacent t cn =>
      simp only [ht, serializeAdjacentEnum] at hb hfv hj
      split at hb
      · cases hb
      rename_i es hes
      cases hb
      obtain ⟨td, htd, rfl⟩ := yields_single hy
      obtain ⟨rs₂, hrs₂, rfl⟩ := yields_object htd
      have hne : t ≠ cn := hfv.2.2.2
      cases hrs₂ with
      | cons h1 h2 => cases h2 with
        | cons h2 h3 =>
          cases h3
          simp only [PropExpr.rf] at h1 h2
          obtain ⟨m1, hm1, rfl⟩ := yields_inline h1
          obtain ⟨td1, htd1, rfl⟩ := yields_single hm1
          have := yields_string htd1
          subst this
          obtain ⟨m2, hm2, rfl⟩ := yields_inline h2
          obtain ⟨rs, hrs, rfl⟩ := yields_oneOf hm2
          obtain ⟨e, r, hve, hrm, her, hea⟩ := alternative hes hrs hv (by
            intro x hx
            exact ha x (by simp [ModelExpr.asked, TypeExpr.asked, RefExpr.asked, PropExpr.askedList, hx]))
          obtain ⟨j', rfl, hval₀⟩ := adjacent_valid W.relax hve her hea hfv hc.relax (by rintro _ _ ⟨⟩)
          cases hj
          obtain ⟨_, ⟨⟩, hval⟩ := adjacent_valid W hve her hea hfv hc (by
            rintro _ ⟨⟩ h d n d' rs' xs x rfl rfl hx
            refine hset h rs' x (.within (.property (k := cn) (d' := (S.env.decl i).attrs.description) ?_ ?_) hrm hval₀ hx)
            · exact List.mem_cons_of_mem _ List.mem_cons_self
            · simp [PropExpr.nm, BMap.get_insertAll, BMap.get_cons])
          refine .object ?_ ?_ (by simp)
          · intro k hk
            have hk' : k ∈ [t, cn] := hk
            simpa [BMap.keys] using hk'
          · intro k x r' hx hg
            have hx₀ := hx
            have hg₀ := hg
            simp only [PropExpr.nm, List.map_cons, List.map_nil, List.zip_cons_cons, List.zip_nil_left, BMap.get_insertAll,
              List.reverse_cons, List.reverse_nil, List.nil_append, List.singleton_append, BMap.get_cons, BMap.get_nil] at hg
            simp only [List.mem_cons, Prod.mk.injEq, List.not_mem_nil, or_false] at hx
            rcases hx with ⟨rfl, rfl⟩ | ⟨rfl, rfl⟩
            · simp [hne, Ne.symm hne] at hg
              subst hg
              refine .inline (.string ?_)
              intro vs' hvs'
              cases hvs'
              exact List.mem_map_of_mem (f := fun v => v.attrs.name.serialized) hv
            · simp [hne, Ne.symm hne] at hg
              subst hg
              exact .inline (valid_oneOf_at hrm hval fun h => hset h _ _ (.property hx₀ hg₀))

theorem simple_valid {kd f d n m j} (hy : (ModelExpr.single d n (simpleExpr kd f) : ModelExpr Ty).Yields k m)
    (hj : match kd with
      | .string => ∃ t, j = .str t
      | .number => (∃ t, j = .num t) ∨ ∃ i, j = .int i
      | .integer => ∃ i, j = .int i
      | .boolean => ∃ b, j = .bool b) : ValidModel ex reg m j := by
  obtain ⟨td, htd, rfl⟩ := yields_single hy
  cases kd with
  | string =>
    obtain ⟨t, rfl⟩ := hj
    rw [yields_string htd]; exact .string (by simp)
  | number =>
    rw [yields_number htd]
    rcases hj with ⟨t, rfl⟩ | ⟨t, rfl⟩
    · exact .number
    · exact .numberInt
  | integer =>
    obtain ⟨t, rfl⟩ := hj
    rw [yields_integer htd]; exact .integer
  | boolean =>
    obtain ⟨t, rfl⟩ := hj
    rw [yields_boolean htd]; exact .boolean

theorem string_valid {d n v f e m t} (hy : (ModelExpr.single d n (.string v f e) : ModelExpr Ty).Yields k m)
    (hv : v = none) : ValidModel ex reg m (.str t) := by
  obtain ⟨td, htd, rfl⟩ := yields_single hy
  rw [yields_string htd]
  exact .string (by simp [hv])

theorem not_byHand_of {hand : Nat → Option (Json → Prop)} {t} (h : ∀ i, t ≠ .named i) : ¬ ByHand hand t := by
  rintro ⟨i, _, e, _⟩
  exact h i e

theorem serBy_conforms (W : World ex s S reg) (hfin : s.nonFinite = false) {t j} (h : SerBy S.env s S.hand t j) :
    ConformsAt ex S reg t j := by
  induction h with
  | byHand hh hv => intro hr m hm; exact W.byHand _ _ hr hh _ hv m hm
  | @prim p j hj =>
    intro _ m hm
    refine simple_valid (W.yields hm rfl) ?_
    cases p <;> simp only [Prim.schema] <;> simp only [PrimJson, hfin, Bool.false_eq_true, false_and, or_false] at hj <;>
      first | exact hj | exact .inl hj | (obtain ⟨c, rfl⟩ := hj; exact ⟨_, rfl⟩)
  | @wrap w t j hw _ ih =>
    intro hr m hm
    have nb : ¬ ByHand S.hand _ := not_byHand_of (t := .wrap w t) (fun _ => nofun)
    have hs := W.asked _ (.getSchema t) hr nb rfl (t, false) (by simp [ModelExpr.asked])
    exact ih hs.1 m (yields_getSchema (W.yields hm rfl))
  | @tuple1 t j => intro hr; exact (W.faithful (.wrap .tuple1 t) hr (not_byHand_of fun _ => nofun)).elim
  | @none t =>
    intro hr m hm
    have nb : ¬ ByHand S.hand _ := not_byHand_of (t := .option t) (fun _ => nofun)
    obtain ⟨m₀, hm₀, rfl⟩ := yields_getSchemaWithParams (W.yields hm rfl)
    obtain ⟨d, ty, rfl⟩ := W.faithful _ hr nb m₀ hm₀
    exact .null
  | @some t j _ ih =>
    intro hr m hm
    have nb : ¬ ByHand S.hand _ := not_byHand_of (t := .option t) (fun _ => nofun)
    have hs := W.asked _ (.getSchemaWithParams t { nullable := some true }) hr nb rfl (t, false)
      (by simp [ModelExpr.asked])
    obtain ⟨m₀, hm₀, rfl⟩ := yields_getSchemaWithParams (W.yields hm rfl)
    exact valid_applyParams (benign_eval _ (by simp)) (ih hs.1 m₀ hm₀)
  | @tuple ts xs hl hser ih =>
    intro hr m hm
    have nb : ¬ ByHand S.hand _ := not_byHand_of (t := .tuple ts) (fun _ => nofun)
    have ha := W.asked _ _ hr nb rfl
    obtain ⟨td, htd, rfl⟩ := yields_single (W.yields hm rfl)
    obtain ⟨r, hr', rfl⟩ := yields_array htd
    obtain ⟨m', hm', rfl⟩ := yields_inline hr'
    obtain ⟨rs, hrs, rfl⟩ := yields_oneOf hm'
    refine .array ?_
    intro x hx
    obtain ⟨k, hk⟩ := List.getElem?_of_mem hx
    have hlt : k < ts.length := by
      have := (List.getElem?_eq_some_iff.1 hk).1
      omega
    have hk' : ts[k]? = some ts[k] := List.getElem?_eq_getElem hlt
    obtain ⟨r, hrk, hy⟩ := (Pointwise.map_left hrs).get hk'
    refine .inline (valid_oneOf_at (List.mem_of_getElem? hrk) ?_ fun h =>
      W.distinct h _ hr nb trivial _ hm _ (.tuple hl hser) _ _ (.item hx))
    refine mention_valid W.toGrounds (benign_eval _ (by simp)) (yields_mention hy) (ha _ ?_) (ih k _ x hk' hk)
    simp only [ModelExpr.asked, TypeExpr.asked, RefExpr.asked]
    exact mem_askedTypes (List.mem_map.2 ⟨ts[k], List.getElem_mem hlt, rfl⟩) (by simp [RefExpr.asked])
  | @seq k t xs _ ih =>
    intro hr m hm
    have nb : ¬ ByHand S.hand _ := not_byHand_of (t := .seq k t) (fun _ => nofun)
    have ha := W.asked _ _ hr nb rfl
    obtain ⟨td, htd, rfl⟩ := yields_single (W.yields hm rfl)
    obtain ⟨r, hr', rfl⟩ := yields_array htd
    refine .array ?_
    intro x hx
    exact mention_valid W.toGrounds (benign_eval _ (by simp)) (yields_mention hr')
      (ha _ (by simp [ModelExpr.asked, TypeExpr.asked, RefExpr.asked])) (ih x hx)
  | @dict k t es _ ih =>
    intro hr m hm
    have nb : ¬ ByHand S.hand _ := not_byHand_of (t := .dict k t) (fun _ => nofun)
    have ha := W.asked _ _ hr nb rfl
    obtain ⟨td, htd, rfl⟩ := yields_single (W.yields hm rfl)
    obtain ⟨r, hr', rfl⟩ := yields_dictionary htd
    refine .object (by simp) (by simp) ?_
    intro k j r' hx _ hadd
    cases hadd
    exact mention_valid W.toGrounds (benign_eval _ (by simp)) (yields_mention hr')
      (ha _ (by simp [ModelExpr.asked, TypeExpr.asked, RefExpr.asked])) (ih _ hx)
  | unit =>
    intro hr m hm
    obtain ⟨td, htd, rfl⟩ := yields_single (W.yields hm rfl)
    exact .null
  | uuid t => intro hr m hm; exact string_valid (W.yields hm rfl) rfl
  | naiveDateTime t => intro hr m hm; exact string_valid (W.yields hm rfl) rfl
  | dateTime t => intro hr m hm; exact string_valid (W.yields hm rfl) rfl
  | naiveDate t => intro hr m hm; exact string_valid (W.yields hm rfl) rfl
  | @struct i fs ps hh hd ht hk he _ ih =>
    intro hr m hm
    have nb := not_byHand hh
    obtain ⟨body, hb, hex, hy⟩ := W.toGrounds.named hm nb
    have ha := W.asked _ _ hr nb hex
    have hf := W.faithful _ hr nb
    simp only [Faithful, FaithfulDecl, hd] at hf
    simp only [serializeBody, hd, serializeStruct, Except.ok.injEq] at hb
    subst hb
    obtain ⟨td, htd, rfl⟩ := yields_single hy
    refine objectDesc_valid W (inl := false) (fun f => by simp) htd ha hf.2.1 ⟨hk, he, ih⟩ _ ?_
    intro k hkk
    unfold structTag at hkk
    split at hkk
    · rename_i t htg
      simp [BMap.keys] at hkk
      subst hkk
      exact hf.2.2 _ htg
    · simp [BMap.keys] at hkk
  | @tupleStruct i fs ps hh hd ht hk he hser ih =>
    intro hr m hm
    have nb := not_byHand hh
    obtain ⟨body, hb, hex, hy⟩ := W.toGrounds.named hm nb
    have ha := W.asked _ _ hr nb hex
    simp only [serializeBody, hd, serializeTupleStruct, Except.ok.injEq] at hb
    subst hb
    obtain ⟨td, htd, rfl⟩ := yields_single hy
    exact tupleDesc_valid W (inl := false) (fun f => by simp) htd ha ⟨hk, he, ih⟩ (by
      rintro h d n d' rs xs x ⟨⟩ ⟨⟩ hx
      exact W.distinct h _ hr nb (by simp [HasChoices, hd]) _ hm _ (.tupleStruct hh hd ht hk he hser) _ _ (.item hx))
  | @transparent i style fs f j hh hd hn ht hf he _ ih =>
    intro hr m hm
    have nb := not_byHand hh
    have hfa := W.faithful _ hr nb
    simp only [Faithful, FaithfulDecl, hd] at hfa
    cases style with
    | struct => rw [hfa.1] at ht; cases ht
    | tuple => rw [hfa] at ht; cases ht
    | newType => exact absurd rfl hn
    | unit =>
      obtain ⟨body, hb, hex, hy⟩ := W.toGrounds.named hm nb
      simp only [serializeBody, hd] at hb
      cases hb
  | @newtypeStruct i f rest j hh hd hc he _ ih =>
    intro hr m hm
    have nb := not_byHand hh
    obtain ⟨body, hb, hex, hy⟩ := W.toGrounds.named hm nb
    have ha := W.asked _ _ hr nb hex
    have hfa := W.faithful _ hr nb
    simp only [Faithful, FaithfulDecl, hd] at hfa
    have hfn := hfa hc f (by simp)
    simp only [serializeBody, hd, serializeNewtypeStruct, hc, Except.ok.injEq] at hb
    subst hb
    obtain ⟨m₀, hm₀, rfl⟩ := yields_getSchemaWithParams hy
    refine valid_applyParams (benign_eval _ ?_) (ih hfn (ha (f.ty, false) (by simp [ModelExpr.asked])).1 m₀ hm₀)
    simp only [ParamsExpr.or, FieldAttrs.params]; split <;> simp
  | @explicitNewtype i fs t j hh hd hc he =>
    intro hr m hm
    have nb := not_byHand hh
    obtain ⟨body, hb, hex, hy⟩ := W.toGrounds.named hm nb
    cases fs with
    | nil => simp only [serializeBody, hd] at hb; cases hb
    | cons f rest =>
      simp only [serializeBody, hd, serializeNewtypeStruct, hc] at hb
      split at hb
      · cases hb
      · rename_i t' hne htt
        cases htt
        cases hb
        rw [yields_newtypeModel hy]
        exact explicit_valid (by rintro rfl; exact hne rfl) he
      · rename_i h; cases h
  | @repr i vs v n hh hd hs hu hv =>
    intro hr m hm
    have nb := not_byHand hh
    obtain ⟨body, hb, hex, hy⟩ := W.toGrounds.named hm nb
    obtain ⟨o, input, hder⟩ := W.derived i hr nb
    obtain ⟨hmt1, _⟩ := derived_enum hder hd
    have hf := W.faithful _ hr nb
    simp only [Faithful, FaithfulDecl, hd] at hf
    have hf := hf.1 hu
    split at hf
    · rename_i hrep
      simp only [serializeBody, hd, serializeEnum, hmt1 hu, serializeNewtypeEnum, hrep, if_true, Except.ok.injEq] at hb
      subst hb
      obtain ⟨rs, hrs, rfl⟩ := yields_oneOf hy
      obtain ⟨d, hdd⟩ := Option.isSome_iff_exists.1 (hf.2 v hv)
      have hmem : RefExpr.inline (.single (some (v.attrs.name.serialized ++ " variant")) false (.integer none (some (.lit d)))) ∈
          (serialVariants vs).filterMap reprAlternative :=
        List.mem_filterMap.2 ⟨v, hv, by simp [reprAlternative, hdd]⟩
      obtain ⟨r, hrm, hry⟩ := hrs.mem_left hmem
      refine valid_oneOf_at hrm ?_ fun h => W.distinct h _ hr nb (by simp [HasChoices, hd]) _ hm _ (.repr hh hd hs hu hv) _ _ .whole
      obtain ⟨m', hm', rfl⟩ := yields_inline hry
      obtain ⟨td, htd, rfl⟩ := yields_single hm'
      rw [yields_integer htd]
      exact .inline .integer
    · rw [hs] at hf; cases hf.1
  | unitVariant hh hd hrp hv hu hj =>
    intro hr m hm
    have nb := not_byHand hh
    exact enum_valid W hr nb hd hrp hv (.unit hu) hj hm fun h => W.distinct h _ hr nb (by simp [HasChoices, hd]) _ hm _ (.unitVariant hh hd hrp hv hu hj)
  | newtypeVariant hh hd hrp hv hst hf hk he hs hj ih =>
    intro hr m hm
    have nb := not_byHand hh
    exact enum_valid W hr nb hd hrp hv (.newtype hst hf hk he hs ih) hj hm fun h =>
      W.distinct h _ hr nb (by simp [HasChoices, hd]) _ hm _ (.newtypeVariant hh hd hrp hv hst hf hk he hs hj)
  | tupleVariant hh hd hrp hv hst hk he hser hj ih =>
    intro hr m hm
    have nb := not_byHand hh
    exact enum_valid W hr nb hd hrp hv (.tuple hst ⟨hk, he, ih⟩) hj hm fun h =>
      W.distinct h _ hr nb (by simp [HasChoices, hd]) _ hm _ (.tupleVariant hh hd hrp hv hst hk he hser hj)
  | structVariant hh hd hrp hv hst hk he hser hj ih =>
    intro hr m hm
    have nb := not_byHand hh
    exact enum_valid W hr nb hd hrp hv (.struct hst ⟨hk, he, ih⟩) hj hm fun h =>
      W.distinct h _ hr nb (by simp [HasChoices, hd]) _ hm _ (.structVariant hh hd hrp hv hst hk he hser hj)

theorem serBy_none {t j} : SerBy env s (fun _ => none) t j ↔ Ser env s t j := by
  constructor
  · intro h
    induction h with
    | byHand hh => cases hh
    | prim h => exact .prim h
    | wrap hw _ ih => exact .wrap hw ih
    | tuple1 _ ih => exact .tuple1 ih
    | none => exact .none
    | some _ ih => exact .some ih
    | tuple hl _ ih => exact .tuple hl ih
    | seq _ ih => exact .seq ih
    | dict _ ih => exact .dict ih
    | unit => exact .unit
    | uuid t => exact .uuid t
    | naiveDateTime t => exact .naiveDateTime t
    | dateTime t => exact .dateTime t
    | naiveDate t => exact .naiveDate t
    | struct _ hd ht hk he _ ih => exact .struct hd ht hk he ih
    | tupleStruct _ hd ht hk he _ ih => exact .tupleStruct hd ht hk he ih
    | transparent _ hd hn ht hf he _ ih => exact .transparent hd hn ht hf he ih
    | newtypeStruct _ hd hc he _ ih => exact .newtypeStruct hd hc he ih
    | explicitNewtype _ hd hc he => exact .explicitNewtype hd hc he
    | repr _ hd hr hu hv => exact .repr hd hr hu hv
    | unitVariant _ hd hr hv hu hj => exact .unitVariant hd hr hv hu hj
    | newtypeVariant _ hd hr hv hst hf hk he _ hj ih => exact .newtypeVariant hd hr hv hst hf hk he ih hj
    | tupleVariant _ hd hr hv hst hk he _ hj ih => exact .tupleVariant hd hr hv hst hk he ih hj
    | structVariant _ hd hr hv hst hk he _ hj ih => exact .structVariant hd hr hv hst hk he ih hj
  · intro h
    induction h with
    | prim h => exact .prim h
    | wrap hw _ ih => exact .wrap hw ih
    | tuple1 _ ih => exact .tuple1 ih
    | none => exact .none
    | some _ ih => exact .some ih
    | tuple hl _ ih => exact .tuple hl ih
    | seq _ ih => exact .seq ih
    | dict _ ih => exact .dict ih
    | unit => exact .unit
    | uuid t => exact .uuid t
    | naiveDateTime t => exact .naiveDateTime t
    | dateTime t => exact .dateTime t
    | naiveDate t => exact .naiveDate t
    | struct hd ht hk he _ ih => exact .struct rfl hd ht hk he ih
    | tupleStruct hd ht hk he _ ih => exact .tupleStruct rfl hd ht hk he ih
    | transparent hd hn ht hf he _ ih => exact .transparent rfl hd hn ht hf he ih
    | newtypeStruct hd hc he _ ih => exact .newtypeStruct rfl hd hc he ih
    | explicitNewtype hd hc he => exact .explicitNewtype rfl hd hc he
    | repr hd hr hu hv => exact .repr rfl hd hr hu hv
    | unitVariant hd hr hv hu hj => exact .unitVariant rfl hd hr hv hu hj
    | newtypeVariant hd hr hv hst hf hk he _ hj ih => exact .newtypeVariant rfl hd hr hv hst hf hk he ih hj
    | tupleVariant hd hr hv hst hk he _ hj ih => exact .tupleVariant rfl hd hr hv hst hk he ih hj
    | structVariant hd hr hv hst hk he _ hj ih => exact .structVariant rfl hd hr hv hst hk he ih hj

theorem writesBy_none (s : Serde) : s.writesBy (fun _ => none) = s.writes := by
  simp only [Serde.writesBy, Serde.writes, Writes.mk.injEq, true_and]
  funext env t j
  exact propext serBy_none

/-- A program that derives everything. -/
abbrev derivedSetting (env : Env) (roots : List (Ty × Bool)) : Setting :=
  ⟨env, fun _ => none, Reached env roots, Linked env roots⟩

theorem ser_conforms {roots : List (Ty × Bool)} (W : World ex s (derivedSetting env roots) reg)
    (hfin : s.nonFinite = false) {t j} (h : Ser env s t j) : ConformsAt ex (derivedSetting env roots) reg t j :=
  serBy_conforms W hfin (serBy_none.2 h)

theorem grounds_of_run {calls rs cx'} (unique : NamesUnique env (rootsOf calls))
    (mentions : ∀ c ∈ calls, c.isMention = true) (run : CallsReturn env Components.empty calls rs cx')
    (derived : ∀ i, Reached env (rootsOf calls) (.named i) → ∃ o input, Derived o env i input)
    (ext : ∀ n m, BMap.get n cx'.schemas = some m → BMap.get n reg = some m) :
    Grounds (derivedSetting env (rootsOf calls)) reg ∧ ∀ t, Reached env (rootsOf calls) t → Expands env t := by
  have registered : ∀ t name m, Linked env (rootsOf calls) t → typeName env t = some name → HasSchema env t m →
      BMap.get name reg = some m := fun t name m hl hn hm =>
    ext _ _ ((registry_spec unique.consistent mentions run name m).2 ⟨t, hl, hn, hm⟩)
  have expands : ∀ t, Reached env (rootsOf calls) t → Expands env t := by
    intro t hr
    have hx := grounded_calls unique.agree run mentions (fun _ h => h) grounded_empty
    induction hr with
    | root h => exact hx _ h
    | step _ ha ih =>
      obtain ⟨e, he, hm⟩ := ha
      exact (expands_iff he).1 ih _ _ hm
  refine ⟨⟨fun i hr _ => derived i hr, ?_, ?_, fun t e hr _ he x hx => seen_of_asked hr he hx⟩, expands⟩
  · rintro t m ⟨cx, cx', n, h⟩ _
    cases n with
    | zero => simp [getSchema] at h
    | succ n =>
      cases he : schemaExpr env t with
      | none => simp [getSchema, he] at h
      | some e => exact ⟨e, rfl, hasSchema_yields ⟨cx, cx', _, h⟩ he⟩
  · rintro t i p r ⟨cx, cx', hm⟩ ⟨hr, hl⟩
    rcases mentionReturns_iff.1 hm with ⟨l, hln, rfl, _⟩ | ⟨_, m, hsr, rfl⟩
    · obtain ⟨rfl, hn⟩ := linkName_some hln
      obtain ⟨m, cx1, hsr⟩ := expands_returns (expands t hr) cx
      have hh : HasSchema env t m := ⟨_, _, hsr⟩
      exact .inl ⟨l, m, rfl, hh, registered t l m (hl rfl) hn hh⟩
    · exact .inr ⟨m, ⟨_, _, hsr⟩, rfl⟩

theorem world_of_run {calls rs cx'} (unique : NamesUnique env (rootsOf calls))
    (mentions : ∀ c ∈ calls, c.isMention = true) (run : CallsReturn env Components.empty calls rs cx')
    (derived : ∀ i, Reached env (rootsOf calls) (.named i) → ∃ o input, Derived o env i input)
    (faithful : ∀ t, Reached env (rootsOf calls) t → Faithful env s t)
    (ext : ∀ n m, BMap.get n cx'.schemas = some m → BMap.get n reg = some m)
    (distinct : ex = true → ∀ t, Reached env (rootsOf calls) t → Distinct env s reg t) :
    World ex s (derivedSetting env (rootsOf calls)) reg where
  toGrounds := (grounds_of_run unique mentions run derived ext).1
  faithful t hr _ := by
    have := faithful t hr
    rw [← writesBy_none] at this
    exact this
  distinct h t hr _ hc m hm j hj := distinct h t hr hc m hm j (serBy_none.1 hj)
  byHand _ _ _ h := nomatch h

theorem linked_reached {roots : List (Ty × Bool)} {t} (h : Linked env roots t) : Reached env roots t := by
  rcases h with h | ⟨u, hu, ha⟩
  · exact .root h
  · exact .step hu ha

end Verif
