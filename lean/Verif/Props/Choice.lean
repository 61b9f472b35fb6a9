import Verif.Proof.Choice
import Verif.Props.Exclusive
import Verif.Props.Precise
/-!
# C93: values meet exactly one alternative
-/

namespace Verif

variable {env : Env} {s : Serde} {reg : List (String × Model)}

/-- **C93**, the two readings of `oneOf`.  What is accepted if `oneOf` means "exactly one" is accepted if it means "at
least one"; conversely a value that is accepted under the second reading is accepted under the first if, wherever it
or a part of it is compared with alternatives, all but one of them reject it. -/
theorem c93_readings (reg : List (String × Model)) (r : Ref) (j : Json) :
    (Valid true reg r j → Valid false reg r j) ∧
    (Valid false reg r j → (∀ rs j', Meets reg r j rs j' → Separated reg rs j') → Valid true reg r j) :=
  ⟨Valid.relax, Valid.sharpen⟩

/-- **C93** for types whose alternatives tell their values apart: in addition to what C40 asks for, the tuples, tuple
structs and enums that are reached are `Distinct`.  Then every value serde writes for a mentioned type is accepted by
the reference that the mention returned, `oneOf` being read as "exactly one".  Missing: types that are not distinct,
see `c93_is_false`; which types are, see below. -/
theorem c93_conforms_partial (env : Env) (s : Serde) (calls : List Call) (rs : List Ref) (cx' : Components)
    (unique : NamesUnique env (rootsOf calls)) (mentions : ∀ c ∈ calls, c.isMention = true)
    (run : CallsReturn env Components.empty calls rs cx')
    (derived : ∀ i, Reached env (rootsOf calls) (.named i) → ∃ o input, Derived o env i input)
    (faithful : ∀ t, Reached env (rootsOf calls) t → Faithful env s t)
    (finite : s.nonFinite = false)
    (reg : List (String × Model)) (ext : ∀ n m, BMap.get n cx'.schemas = some m → BMap.get n reg = some m)
    (distinct : ∀ t, Reached env (rootsOf calls) t → Distinct env s reg t)
    (t : Ty) (inline : Bool) (p : Params) (r : Ref) (called : .mention t inline p ∈ calls) (benign : p.Benign)
    (mentioned : Mentions env t inline p r) (j : Json) (written : Ser env s t j) : Valid true reg r j := by
  have W := world_of_run (ex := true) unique mentions run derived faithful ext fun _ => distinct
  have hmem : (t, !inline) ∈ rootsOf calls := by
    rw [rootsOf_eq]
    exact List.mem_filterMap.2 ⟨_, called, rfl⟩
  exact mention_valid W.toGrounds benign mentioned ⟨.root hmem, fun h => .inl (by simp only at h; rw [← h]; exact hmem)⟩
    (ser_conforms W finite written)

/-! ## Which types are distinct -/

/-- Internally tagged enums whose variants match their documentation and have different serialized names are
distinct, whatever their content: the tag decides. -/
theorem c93_internal (o : Oracle) (env : Env) (s : Serde) (reg : List (String × Model)) (i : Nat)
    (input : DeriveInput Ty) (vs : List (Variant Ty)) (t : String) (derived : Derived o env i input)
    (data : (env.decl i).data = .enum vs) (some_data : ∃ v ∈ vs, v.style ≠ .unit)
    (tag : (env.decl i).attrs.tagType = .internal t)
    (faithful : ∀ v ∈ writtenVariants vs, FaithfulVariant env s (.internal t) v)
    (names : ((writtenVariants vs).map Variant.key).Nodup) : Distinct env s reg (.named i) := by
  have faithful : ∀ v ∈ writtenVariants vs, FaithfulVariant env (s.writesBy fun _ => none) (.internal t) v := by
    rw [writesBy_none]; exact faithful
  have := distinct_internal (reg := reg) derived (fun _ => documents_derived) rfl data some_data tag faithful names
  rw [writesBy_none] at this
  exact this

/-- Untagged enums of struct variants are distinct if each variant has a field that is always written and whose name
no field of any other variant has. -/
theorem c93_untagged (o : Oracle) (env : Env) (s : Serde) (reg : List (String × Model)) (i : Nat)
    (input : DeriveInput Ty) (vs : List (Variant Ty)) (derived : Derived o env i input)
    (data : (env.decl i).data = .enum vs) (some_data : ∃ v ∈ vs, v.style ≠ .unit)
    (tag : (env.decl i).attrs.tagType = .none)
    (structs : ∀ v ∈ writtenVariants vs, v.style = .struct ∧ PlainFields v.fields)
    (keys : ∀ (k l : Nat) v w, k ≠ l → (writtenVariants vs)[k]? = some v → (writtenVariants vs)[l]? = some w →
      ∃ f ∈ serialFields w.fields, f.attrs.optional = false ∧ f.key ∉ (serialFields v.fields).map Field.key) :
    Distinct env s reg (.named i) := by
  have := distinct_untagged (s := s) (reg := reg) (docs := env) derived (fun _ => documents_derived) (hand := fun _ => none) rfl data some_data tag
    structs keys
  rw [writesBy_none] at this
  exact this

/-- The same for externally tagged enums of struct variants: the name of the variant does not help, the names of the
fields must. -/
theorem c93_external (o : Oracle) (env : Env) (s : Serde) (reg : List (String × Model)) (i : Nat)
    (input : DeriveInput Ty) (vs : List (Variant Ty)) (derived : Derived o env i input)
    (data : (env.decl i).data = .enum vs) (some_data : ∃ v ∈ vs, v.style ≠ .unit)
    (tag : (env.decl i).attrs.tagType = .external)
    (structs : ∀ v ∈ writtenVariants vs, v.style = .struct ∧ PlainFields v.fields)
    (keys : ∀ (k l : Nat) v w, k ≠ l → (writtenVariants vs)[k]? = some v → (writtenVariants vs)[l]? = some w →
      ∃ f ∈ serialFields w.fields, f.attrs.optional = false ∧ f.key ∉ (serialFields v.fields).map Field.key) :
    Distinct env s reg (.named i) := by
  have := distinct_external (s := s) (reg := reg) (docs := env) derived (fun _ => documents_derived) (hand := fun _ => none) rfl data some_data tag
    structs keys
  rw [writesBy_none] at this
  exact this

/-! ## Enums of scalars -/

/-- A reference that documents a scalar, apart from `null`. -/
def ScalarRef (reg : List (String × Model)) (p : Prim) (r : Ref) : Prop :=
  ∀ j, j ≠ .null → (ScalarJson p.family j → Valid true reg r j) ∧ (¬ ScalarJson p.family j → Invalid true reg r j)

theorem applyParams_empty (m : Model) : m.applyParams {} = m := by
  obtain ⟨d, data⟩ := m
  cases data with
  | single t =>
    obtain ⟨n, td⟩ := t
    cases td <;> rfl
  | _ => rfl

theorem ofType_applyParams {td p j} : OfType (TypeDesc.applyParams td p) j ↔ OfType td j := by
  cases td <;> cases j <;> simp [TypeDesc.applyParams, OfType]

theorem field_scalar {p : Prim} {inl} {doc : Params} {r} (hb : doc.Benign) (h : Mentions env (.prim p) inl doc r) :
    ScalarRef reg p r := by
  obtain ⟨cx, cx', h⟩ := h
  rcases mentionReturns_iff.1 h with ⟨l, hl, _⟩ | ⟨_, m, hs, rfl⟩
  · have := (linkName_some hl).2; simp [typeName] at this
  · have h0 : Mentions env (.prim p) false {} (.inline m) :=
      ⟨cx, cx', mentionReturns_iff.2 (.inr ⟨by simp [linkName, typeName], m, hs, by rw [applyParams_empty]⟩)⟩
    intro j hj
    obtain ⟨td, hm, _, hty⟩ := prim_mention h0
    refine ⟨fun hsc => ?_, fun hsc => ?_⟩
    · have := (scalar_ref (x := true) (reg := reg) h0 j).1 hsc
      cases this with
      | inline hv => exact .inline (valid_applyParams hb hv)
    · cases hm
      refine .inline (.type (fun _ => hj) ?_)
      rw [ofType_applyParams]
      exact fun h => hsc ((hty j).1 h)

theorem scalarJson_not_null {k} : ¬ ScalarJson k .null := by
  cases k <;> simp [ScalarJson]

/-- Scalars in a choice: exactly one alternative accepts each of their values iff their JSON types differ. -/
theorem scalars_exactly_one (hf : s.nonFinite = false) {ps : List Prim} {rs}
    (hrs : Pointwise (ScalarRef reg) ps rs) :
    (∀ p ∈ ps, ∀ j, PrimJson s p j → ExactlyOne reg rs j) ↔ ps.Pairwise fun p q => ¬ Share p.family q.family := by
  have share_symm : ∀ a b, Share a b → Share b a := by intro a b; cases a <;> cases b <;> simp [Share]
  have nn : ∀ {p j}, PrimJson s p j → j ≠ .null := by
    rintro p j h rfl
    exact scalarJson_not_null (primJson_scalar hf h)
  constructor
  · intro h
    rw [List.pairwise_iff_getElem]
    intro k l hk hl hkl hsh
    obtain ⟨r, hr, hrm⟩ := hrs.get (List.getElem?_eq_getElem hk)
    obtain ⟨r', hr', hrm'⟩ := hrs.get (List.getElem?_eq_getElem hl)
    have wk := someJson_written (s := s) ps[k]
    have wl := someJson_written (s := s) ps[l]
    have ownk := primJson_scalar hf wk
    have ownl := primJson_scalar hf wl
    by_cases hint : ps[k].family = .number ∧ ps[l].family = .integer
    · refine not_exactlyOne hr hr' hkl ((hrm _ (nn wl)).1 ?_) ((hrm' _ (nn wl)).1 ownl) (h _ (List.getElem_mem hl) _ wl)
      rw [hint.1]
      rw [hint.2] at ownl
      exact .inr ownl
    · refine not_exactlyOne hr hr' hkl ((hrm _ (nn wk)).1 ownk) ((hrm' _ (nn wk)).1 ?_) (h _ (List.getElem_mem hk) _ wk)
      revert ownk hsh hint
      cases ps[k].family <;> cases ps[l].family <;> simp [Share, ScalarJson]
      intro i hi
      exact .inr ⟨i, hi⟩
  · intro hp p hpm j hj
    obtain ⟨k, hk⟩ := List.getElem?_of_mem hpm
    obtain ⟨r, hr, hrm⟩ := hrs.get hk
    refine exactlyOne_of hr ((hrm j (nn hj)).1 (primJson_scalar hf hj)) ?_
    intro l r' hl hr'
    obtain ⟨q, hq, hrm'⟩ := pointwise_get_right hrs hr'
    refine (hrm' j (nn hj)).2 (primJson_disjoint hf hj ?_)
    obtain ⟨hk', rfl⟩ := List.getElem?_eq_some_iff.1 hk
    obtain ⟨hl', rfl⟩ := List.getElem?_eq_some_iff.1 hq
    rw [List.pairwise_iff_getElem] at hp
    rcases Nat.lt_or_gt_of_ne hl with h | h
    · intro hs; exact hp l k hl' hk' h (share_symm _ _ hs)
    · exact hp k l hk' hl' h

/-- A newtype variant around a scalar, without attributes that change what is written. -/
def ScalarVariant (v : Variant Ty) (p : Prim) : Prop :=
  v.style = .newType ∧ ∃ f, v.fields = [f] ∧ f.ty = .prim p ∧ f.attrs.explicitModelType = none ∧
    f.attrs.skipSerializing = false

theorem scalarVariant_ref {v p r} (h : ScalarVariant v p) (hc : VariantContent env v r) : ScalarRef reg p r := by
  obtain ⟨hst, f, hf, hty, hex, _⟩ := h
  simp only [VariantContent, hst] at hc
  obtain ⟨f', rest, hf', hr⟩ := hc
  rw [hf] at hf'
  cases hf'
  simp only [FieldRef, hex, hty] at hr
  exact field_scalar (docIn_benign f v.attrs) hr

theorem scalarVariant_refs {ws : List (Variant Ty)} {ps rs} (h : Pointwise ScalarVariant ws ps)
    (hc : Pointwise (VariantContent env) ws rs) : Pointwise (ScalarRef reg) ps rs := by
  induction h generalizing rs with
  | nil => cases hc; exact .nil
  | cons h _ ih =>
    cases hc with
    | cons hc ht => exact .cons (scalarVariant_ref h hc) (ih ht)

theorem pointwise_length {α β : Type} {R : α → β → Prop} {as : List α} {bs : List β} (h : Pointwise R as bs) :
    as.length = bs.length := by
  induction h with
  | nil => rfl
  | cons _ _ ih => simp [ih]

theorem ser_prim {p j} (h : Ser env s (.prim p) j) : PrimJson s p j := by
  cases h with
  | prim h => exact h

/-- Externally tagged enums of newtype variants around scalars, exactly: all values are accepted under the exclusive
reading iff the JSON types of the scalars are pairwise different, integers counting as numbers.  The names of the
variants play no role. -/
theorem c93_scalars_external (o : Oracle) (env : Env) (s : Serde) (reg : List (String × Model)) (i : Nat)
    (input : DeriveInput Ty) (vs : List (Variant Ty)) (ps : List Prim) (m : Model) (derived : Derived o env i input)
    (data : (env.decl i).data = .enum vs) (some_data : ∃ v ∈ vs, v.style ≠ .unit)
    (tag : (env.decl i).attrs.tagType = .external) (not_repr : s.asRepr i = false) (finite : s.nonFinite = false)
    (scalars : Pointwise ScalarVariant (writtenVariants vs) ps) (schema : HasSchema env (.named i) m) :
    (∀ j, Ser env s (.named i) j → ValidModel true reg m j) ↔ ps.Pairwise fun p q => ¬ Share p.family q.family := by
  obtain ⟨rs, rfl, hrs⟩ := enum_external derived data some_data tag schema
  have href : Pointwise (ScalarRef reg) ps rs := scalarVariant_refs scalars hrs
  rw [← scalars_exactly_one (s := s) (reg := reg) finite href]
  constructor
  · intro h p hp j hj
    obtain ⟨k, hk⟩ := List.getElem?_of_mem hp
    obtain ⟨v, hv, hst, f, hf, hty, hex, hskip⟩ := pointwise_get_right scalars hk
    have := h (.obj [(v.key, j)]) (.newtypeVariant data not_repr (List.mem_of_getElem? hv) hst hf hskip (by simp [hex])
      (by intro _; rw [hty]; exact .prim hj) (by rw [tag]; rfl))
    simp only [objectSchema] at this
    generalize (env.decl i).attrs.nullable = n at this
    cases this with
    | object _ _ ha =>
      cases ha v.key j _ List.mem_cons_self rfl rfl with
      | inline hv =>
        cases hv with
        | oneOf he hv hx => exact ⟨_, _, _, he, hv, hx rfl⟩
  · intro h j hj
    obtain ⟨v, hv, c, hc, hcase⟩ := ser_variant data some_data hj
    obtain ⟨k, hk⟩ := List.getElem?_of_mem hv
    obtain ⟨p, hp, hst, f, hf, hty, hex, hskip⟩ := scalars.get hk
    rw [tag] at hc
    rcases hcase with ⟨_, hu⟩ | ⟨f', rest, c', rfl, _, hf', _, _, hser⟩ | ⟨_, hn, _⟩ | ⟨_, hn, _⟩
    · rcases hu with hu | ⟨_, f', rest, hf', hs⟩
      · rw [hst] at hu; cases hu
      · rw [hf] at hf'; cases hf'; rw [hskip] at hs; cases hs
    · rw [hf] at hf'
      cases hf'
      cases hc
      obtain ⟨pre, r, post, he, hv, hx⟩ := h p (List.mem_of_getElem? hp) c' (ser_prim (hty ▸ hser hex))
      refine .object (by simp) (by simp) ?_
      intro k j r' hm _ hr'
      simp only [List.mem_singleton, Prod.mk.injEq] at hm
      obtain ⟨_, rfl⟩ := hm
      cases hr'
      exact .inline (.oneOf he hv fun _ => hx)
    · rw [hst] at hn; cases hn
    · rw [hst] at hn; cases hn

/-- The same for untagged enums. -/
theorem c93_scalars_untagged (o : Oracle) (env : Env) (s : Serde) (reg : List (String × Model)) (i : Nat)
    (input : DeriveInput Ty) (vs : List (Variant Ty)) (ps : List Prim) (m : Model) (derived : Derived o env i input)
    (data : (env.decl i).data = .enum vs) (some_data : ∃ v ∈ vs, v.style ≠ .unit)
    (tag : (env.decl i).attrs.tagType = .none) (not_repr : s.asRepr i = false) (finite : s.nonFinite = false)
    (scalars : Pointwise ScalarVariant (writtenVariants vs) ps) (schema : HasSchema env (.named i) m) :
    (∀ j, Ser env s (.named i) j → ValidModel true reg m j) ↔ ps.Pairwise fun p q => ¬ Share p.family q.family := by
  obtain ⟨rs, rfl, hrs⟩ := enum_untagged derived data some_data tag schema
  have href : Pointwise (ScalarRef reg) ps rs := scalarVariant_refs scalars (hrs.imp fun _ _ h => h.2)
  rw [← scalars_exactly_one (s := s) (reg := reg) finite href]
  constructor
  · intro h p hp j hj
    obtain ⟨k, hk⟩ := List.getElem?_of_mem hp
    obtain ⟨v, hv, hst, f, hf, hty, hex, hskip⟩ := pointwise_get_right scalars hk
    have := h j (.newtypeVariant data not_repr (List.mem_of_getElem? hv) hst hf hskip (by simp [hex])
      (by intro _; rw [hty]; exact .prim hj) (by rw [tag]; rfl))
    cases this with
    | oneOf he hv hx => exact ⟨_, _, _, he, hv, hx rfl⟩
  · intro h j hj
    obtain ⟨v, hv, c, hc, hcase⟩ := ser_variant data some_data hj
    obtain ⟨k, hk⟩ := List.getElem?_of_mem hv
    obtain ⟨p, hp, hst, f, hf, hty, hex, hskip⟩ := scalars.get hk
    rw [tag] at hc
    rcases hcase with ⟨_, hu⟩ | ⟨f', rest, c', rfl, _, hf', _, _, hser⟩ | ⟨_, hn, _⟩ | ⟨_, hn, _⟩
    · rcases hu with hu | ⟨_, f', rest, hf', hs⟩
      · rw [hst] at hu; cases hu
      · rw [hf] at hf'; cases hf'; rw [hskip] at hs; cases hs
    · rw [hf] at hf'
      cases hf'
      cases hc
      obtain ⟨pre, r, post, he, hv, hx⟩ := h p (List.mem_of_getElem? hp) j (ser_prim (hty ▸ hser hex))
      exact .oneOf he hv fun _ => hx
    · rw [hst] at hn; cases hn
    · rw [hst] at hn; cases hn

/-! ## Enums of numbers -/

/-- Enums documented as numbers (`#[repr(..)]`): if at least two variants have a discriminant, then no value at all is
accepted under the exclusive reading, since every alternative accepts every integer. -/
theorem c93_repr_rejects (o : Oracle) (env : Env) (reg : List (String × Model)) (i : Nat) (input : DeriveInput Ty)
    (vs : List (Variant Ty)) (m : Model) (derived : Derived o env i input) (data : (env.decl i).data = .enum vs)
    (units : ∀ v ∈ vs, v.style = .unit) (numbers : (env.decl i).attrs.hasRepr = true)
    (two : 2 ≤ ((writtenVariants vs).filter fun v => v.discriminant.isSome).length) (schema : HasSchema env (.named i) m)
    (j : Json) : ¬ ValidModel true reg m j := by
  obtain ⟨body, hb, _, hy⟩ := named_yields schema
  have hmt := (derived_enum derived data).1 units
  simp only [serializeBody, data, serializeEnum, hmt, serializeNewtypeEnum, numbers, if_true, Except.ok.injEq] at hb
  subst hb
  obtain ⟨rs, hrs, rfl⟩ := yields_oneOf hy
  have hint : ∀ r ∈ rs, ∃ d f e, r = .inline ⟨d, .single ⟨false, .integer f e⟩⟩ := by
    intro r hr
    obtain ⟨k, hk⟩ := List.getElem?_of_mem hr
    obtain ⟨e, he, her⟩ := pointwise_get_right hrs hk
    obtain ⟨v, _, hv⟩ := List.mem_filterMap.1 (List.mem_of_getElem? he)
    simp only [reprAlternative, Option.map_eq_some_iff] at hv
    obtain ⟨d, _, rfl⟩ := hv
    obtain ⟨m', hm', rfl⟩ := yields_inline her
    obtain ⟨td, htd, rfl⟩ := yields_single hm'
    rw [yields_integer htd]
    exact ⟨_, _, _, rfl⟩
  have hlen : 2 ≤ rs.length := by
    have h1 : ((serialVariants vs).filterMap reprAlternative).length = rs.length := pointwise_length hrs
    have h2 : ∀ l : List (Variant Ty), (l.filterMap reprAlternative).length = (l.filter fun v => v.discriminant.isSome).length := by
      intro l
      induction l with
      | nil => rfl
      | cons v l ih =>
        cases hd : v.discriminant <;> simp [List.filterMap_cons, List.filter_cons, reprAlternative, hd, ih]
    rw [← h1, h2]
    exact two
  intro h
  cases h with
  | @oneOf _ _ pre r post _ he hv hx =>
    obtain ⟨d, f, e, rfl⟩ := hint r (by rw [he]; simp)
    have hj : ∃ n, j = .int n := by
      cases hv with
      | inline hv =>
        cases hv with
        | integer => exact ⟨_, rfl⟩
    obtain ⟨n, rfl⟩ := hj
    have : ∃ r', r' ∈ pre ++ post := by
      rw [he] at hlen
      cases hpre : pre with
      | cons a _ => exact ⟨a, by simp⟩
      | nil =>
        cases hpost : post with
        | cons a _ => exact ⟨a, by simp⟩
        | nil => rw [hpre, hpost] at hlen; simp at hlen
    obtain ⟨r', hr'⟩ := this
    obtain ⟨d', f', e', rfl⟩ := hint r' (by
      rw [he]
      rcases List.mem_append.1 hr' with h | h
      · simp [h]
      · simp [h])
    exact (hx rfl _ hr').not_valid (.inline .integer)

namespace Sample

/-- `#[serde(tag = "kind")] enum Action { Draw { figure: Figure }, Stop }` -/
def actionInput : DeriveInput Ty := ⟨"Action", [attr "serde" [nv "tag" "kind"]], .enum [
  var "Draw" (.named [fld "figure" (.named 1)]), var "Stop"]⟩
def action : Container Ty := container "Action" (fun a => { a with tagType := .internal "kind", modelType := .oneOf }) (.enum [
  variantAs "Draw" "Draw" .struct [field "figure" (.named 1)], variantAs "Stop" "Stop" .unit []])

/-- `#[serde(untagged)] enum Figure { Circle { r: f64 }, Rect { w: f64, h: f64 } }` -/
def figureInput : DeriveInput Ty := ⟨"Figure", [attr "serde" [word "untagged"]], .enum [
  var "Circle" (.named [fld "r" (.prim .f64)]), var "Rect" (.named [fld "w" (.prim .f64), fld "h" (.prim .f64)])]⟩
def figure : Container Ty := container "Figure" (fun a => { a with tagType := .none, modelType := .oneOf }) (.enum [
  variantAs "Circle" "Circle" .struct [field "r" (.prim .f64)],
  variantAs "Rect" "Rect" .struct [field "w" (.prim .f64), field "h" (.prim .f64)]])

def drawing : Env := ⟨fun i => match i with | 0 => action | _ => figure, fun s => s⟩
def drawingCalls : List Call := [.mention (.named 0) false {}]
def drawingTypes : List Ty := [.named 0, .named 1, .prim .f64]

theorem drawing_derived : ∀ i, ∃ input, Derived oracle drawing i input
  | 0 => ⟨actionInput, _, rfl⟩
  | _ + 1 => ⟨figureInput, _, rfl⟩

theorem drawing_closed : closedList drawing (rootsOf drawingCalls) drawingTypes = true := by decide +kernel

theorem drawing_faithful {t} (h : Reached drawing (rootsOf drawingCalls) t) : Faithful drawing serde t := by
  have := h.mem_closed drawing_closed
  simp only [drawingTypes, List.mem_cons, List.not_mem_nil, or_false] at this
  rcases this with rfl | rfl | rfl <;>
    simp [Faithful, FaithfulDecl, FaithfulVariant, drawing, action, figure, container, variantAs, variantAttrs, PlainFields,
      serialFields, writtenVariants, field, containerAttrs, Field.key, Variant.key]

theorem drawing_distinct (reg) {t} (h : Reached drawing (rootsOf drawingCalls) t) : Distinct drawing serde reg t := by
  have := h.mem_closed drawing_closed
  simp only [drawingTypes, List.mem_cons, List.not_mem_nil, or_false] at this
  rcases this with rfl | rfl | rfl
  · refine c93_internal oracle drawing serde reg 0 actionInput _ "kind" ⟨_, rfl⟩ rfl ?_ rfl ?_ ?_ <;>
      simp [FaithfulVariant, variantAs, variantAttrs, PlainFields, serialFields, writtenVariants, field, Field.key, Variant.key]
  · refine c93_untagged oracle drawing serde reg 1 figureInput _ ⟨_, rfl⟩ rfl ?_ rfl ?_ ?_
    · simp [variantAs]
    · simp [variantAs, variantAttrs, PlainFields, serialFields, writtenVariants, field, Field.key, Variant.key]
    · intro k l v w hkl hv hw
      match k, l with
      | 0, 0 => exact absurd rfl hkl
      | 1, 1 => exact absurd rfl hkl
      | 0, 1 => cases hv; cases hw; exact ⟨field "w" (.prim .f64), List.mem_cons_self, rfl, by simp [serialFields, field, variantAs, Field.key]⟩
      | 1, 0 => cases hv; cases hw; exact ⟨field "r" (.prim .f64), List.mem_cons_self, rfl, by simp [serialFields, field, variantAs, Field.key]⟩
      | k + 2, _ => simp [writtenVariants, variantAs, variantAttrs] at hv
      | _, l + 2 => simp [writtenVariants, variantAs, variantAttrs] at hw
  · intro h; exact h.elim

theorem circle_written (t : String) : Ser drawing serde (.named 1) (.obj [("r", .num t)]) :=
  .structVariant (v := variantAs "Circle" "Circle" .struct [field "r" (.prim .f64)]) rfl rfl
    (by simp [writtenVariants, variantAs, variantAttrs]) rfl
    (ps := [(field "r" (.prim .f64), .num t)]) (.keep rfl .nil) (by simp [field])
    (by simp only [List.mem_singleton]; rintro p rfl _; exact .prim (.inl ⟨t, rfl⟩)) rfl

theorem draw_written (t : String) : Ser drawing serde (.named 0)
    (.obj [("kind", .str "Draw"), ("figure", .obj [("r", .num t)])]) :=
  .structVariant (v := variantAs "Draw" "Draw" .struct [field "figure" (.named 1)]) rfl rfl
    (by simp [writtenVariants, variantAs, variantAttrs]) rfl
    (ps := [(field "figure" (.named 1), .obj [("r", .num t)])]) (.keep rfl .nil) (by simp [field])
    (by simp only [List.mem_singleton]; rintro p rfl _; exact circle_written t) rfl

/-- The hypotheses of C93 hold of a program with an internally tagged and an untagged enum. -/
example (t : String) : ∃ rs cx, CallsReturn drawing Components.empty drawingCalls rs cx ∧
    Valid true cx.schemas (.link "Action") (.obj [("kind", .str "Draw"), ("figure", .obj [("r", .num t)])]) := by
  refine ⟨_, _, .mention ⟨10, rfl⟩ (.nil _), ?_⟩
  exact c93_conforms_partial drawing serde drawingCalls _ _ (namesUnique_of_closed drawing_closed (by decide +kernel))
    (by simp [drawingCalls, Call.isMention]) (.mention ⟨10, rfl⟩ (.nil _)) (fun i _ => ⟨_, drawing_derived i⟩)
    (fun _ => drawing_faithful) rfl _ (fun _ _ h => h) (fun _ => drawing_distinct _) (.named 0) false {} _
    (by simp [drawingCalls]) ⟨by simp, rfl⟩ ⟨Components.empty, _, 10, rfl⟩ _ (draw_written t)

/-- `enum Key { Name(String), Title(String) }` -/
def keyInput : DeriveInput Ty := ⟨"Key", [], .enum [
  var "Name" (.unnamed [tfld (.prim .string)]), var "Title" (.unnamed [tfld (.prim .string)])]⟩
def keyC : Container Ty := container "Key" (fun a => { a with modelType := .dictionary }) (.enum [
  variantAs "Name" "Name" .newType [field "0" (.prim .string)], variantAs "Title" "Title" .newType [field "0" (.prim .string)]])

theorem key_scalars : Pointwise ScalarVariant (writtenVariants [
    variantAs "Name" "Name" .newType [field "0" (.prim .string)], variantAs "Title" "Title" .newType [field "0" (.prim .string)]])
    [.string, .string] :=
  .cons ⟨rfl, _, rfl, rfl, rfl, rfl⟩ (.cons ⟨rfl, _, rfl, rfl, rfl, rfl⟩ .nil)

end Sample

open Sample

/-- C93 is false: the value `{"Name": "x"}` of `enum Key { Name(String), Title(String) }` is accepted if `oneOf` means
"at least one", but not if it means "exactly one", because the schema does not relate the name of a variant to its
content. -/
theorem c93_is_false : ∃ env m, Derived oracle env 0 keyInput ∧ HasSchema env (.named 0) m ∧
    (∀ t, Ser env serde (.named 0) (.obj [("Name", .str t)]) ∧ ValidModel false [] m (.obj [("Name", .str t)]) ∧
      ¬ ValidModel true [] m (.obj [("Name", .str t)])) := by
  have hr : ∀ x t, Valid x [] (.inline str) (.str t) := fun x t => .inline (.string (by simp))
  refine ⟨program [keyC], _, ⟨_, rfl⟩, ⟨Components.empty, _, 5, rfl⟩, fun t => ⟨?_, ?_, ?_⟩⟩
  · exact .newtypeVariant (v := variantAs "Name" "Name" .newType [field "0" (.prim .string)]) rfl rfl
      (by simp [writtenVariants, variantAs, variantAttrs]) rfl rfl rfl (by simp [field]) (fun _ => .prim ⟨t, rfl⟩) rfl
  · refine .object (by simp) (by simp [BMap.get]) ?_
    intro k j r hm _ hadd
    simp only [List.mem_singleton, Prod.mk.injEq] at hm
    obtain ⟨_, rfl⟩ := hm
    cases hadd
    exact .inline (valid_oneOf List.mem_cons_self (hr false t))
  · intro h
    cases h with
    | object _ _ ha =>
      cases ha "Name" (.str t) _ List.mem_cons_self rfl rfl with
      | inline h =>
        cases h with
        | oneOf he hv hx =>
          exact not_exactlyOne (reg := []) (k := 0) (l := 1) rfl rfl (by omega) (hr true t) (hr true t)
            ⟨_, _, _, he, hv, hx rfl⟩

/-- The same enum does not satisfy the criterion of `c93_scalars_external`. -/
example (reg) : ∃ m, HasSchema (program [keyC]) (.named 0) m ∧
    ¬ ∀ j, Ser (program [keyC]) serde (.named 0) j → ValidModel true reg m j := by
  refine ⟨_, ⟨Components.empty, _, 5, rfl⟩, ?_⟩
  rw [c93_scalars_external oracle (program [keyC]) serde reg 0 keyInput _ [.string, .string] _ ⟨_, rfl⟩ rfl
    (by simp [variantAs]) rfl rfl rfl key_scalars ⟨Components.empty, _, 5, rfl⟩]
  simp [Prim.family, Share]

/-- `#[repr(u8)] enum E { A = 1, B = 2 }` accepts nothing. -/
example (reg j) : ∃ m, HasSchema (program [e30c]) (.named 0) m ∧ ¬ ValidModel true reg m j :=
  ⟨_, ⟨Components.empty, _, 5, rfl⟩, c93_repr_rejects oracle (program [e30c]) reg 0 e30 _ _ ⟨_, rfl⟩ rfl
    (by simp [variantAs]) rfl (by simp [writtenVariants, variantAs, variantAttrs]) ⟨Components.empty, _, 5, rfl⟩ j⟩

/-- `enum Plot { Circle { r: f64 }, Rect { w: f64, h: f64 } }` meets the hypotheses of `c93_external`. -/
def Sample.plotInput : DeriveInput Ty := ⟨"Plot", [], .enum [
  var "Circle" (.named [fld "r" (.prim .f64)]), var "Rect" (.named [fld "w" (.prim .f64), fld "h" (.prim .f64)])]⟩
def Sample.plotC : Container Ty := container "Plot" (fun a => { a with modelType := .dictionary }) (.enum [
  variantAs "Circle" "Circle" .struct [field "r" (.prim .f64)],
  variantAs "Rect" "Rect" .struct [field "w" (.prim .f64), field "h" (.prim .f64)]])

example (reg) : Distinct (program [plotC]) serde reg (.named 0) := by
  refine c93_external oracle (program [plotC]) serde reg 0 plotInput _ ⟨_, rfl⟩ rfl ?_ rfl ?_ ?_
  · simp [variantAs]
  · simp [variantAs, variantAttrs, PlainFields, serialFields, writtenVariants, field, Field.key]
  · intro k l v w hkl hv hw
    match k, l with
    | 0, 0 => exact absurd rfl hkl
    | 1, 1 => exact absurd rfl hkl
    | 0, 1 => cases hv; cases hw; exact ⟨field "w" (.prim .f64), List.mem_cons_self, rfl, by simp [serialFields, field, variantAs, Field.key]⟩
    | 1, 0 => cases hv; cases hw; exact ⟨field "r" (.prim .f64), List.mem_cons_self, rfl, by simp [serialFields, field, variantAs, Field.key]⟩
    | k + 2, _ => simp [writtenVariants, variantAs, variantAttrs] at hv
    | _, l + 2 => simp [writtenVariants, variantAs, variantAttrs] at hw

/-- `#[serde(untagged)] enum Value { Text(String), Flag(bool), Count(u32) }`: every value matches exactly one
alternative. -/
def Sample.valueInput : DeriveInput Ty := ⟨"Value", [attr "serde" [word "untagged"]], .enum [
  var "Text" (.unnamed [tfld (.prim .string)]), var "Flag" (.unnamed [tfld (.prim .bool)]),
  var "Count" (.unnamed [tfld (.prim .u32)])]⟩
def Sample.valueC : Container Ty := container "Value" (fun a => { a with tagType := .none, modelType := .oneOf }) (.enum [
  variantAs "Text" "Text" .newType [field "0" (.prim .string)], variantAs "Flag" "Flag" .newType [field "0" (.prim .bool)],
  variantAs "Count" "Count" .newType [field "0" (.prim .u32)]])

example (reg) : ∃ m, HasSchema (program [valueC]) (.named 0) m ∧
    ∀ j, Ser (program [valueC]) serde (.named 0) j → ValidModel true reg m j := by
  refine ⟨_, ⟨Components.empty, _, 5, rfl⟩, ?_⟩
  rw [c93_scalars_untagged oracle (program [valueC]) serde reg 0 valueInput _ [.string, .bool, .u32] _ ⟨_, rfl⟩ rfl
    (by simp [variantAs]) rfl rfl rfl
    (.cons ⟨rfl, _, rfl, rfl, rfl, rfl⟩ (.cons ⟨rfl, _, rfl, rfl, rfl, rfl⟩ (.cons ⟨rfl, _, rfl, rfl, rfl, rfl⟩ .nil)))
    ⟨Components.empty, _, 5, rfl⟩]
  simp [Prim.family, Share]

end Verif
