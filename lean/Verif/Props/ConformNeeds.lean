import Verif.Proof.Choice
import Verif.Props.ConformFalse
/-!
# C40: the conditions are needed

Where the types of C40 are left out, there is a witness in `Props.ConformFalse`.  Here: whole classes of such types.
-/

namespace Verif

variable {o : Oracle} {env : Env} {s : Serde} {ex : Bool} {reg : List (String × Model)} {i : Nat}
  {input : DeriveInput Ty} {vs : List (Variant Ty)} {m : Model}

theorem units_strings (derived : Derived o env i input) (data : (env.decl i).data = .enum vs)
    (units : ∀ v ∈ vs, v.style = .unit) (h : (env.decl i).attrs.hasRepr = false) (schema : HasSchema env (.named i) m) :
    m = stringEnum (env.decl i).attrs.description ((writtenVariants vs).map Variant.key) := by
  obtain ⟨body, hb, _, hy⟩ := named_yields schema
  have hmt := (derived_enum derived data).1 units
  simp only [serializeBody, data, serializeEnum, hmt, serializeNewtypeEnum, h, Bool.false_eq_true, if_false,
    Except.ok.injEq] at hb
  subst hb
  obtain ⟨td, htd, rfl⟩ := yields_single hy
  rw [yields_string htd]
  simp only [stringEnum, writtenVariants, serialVariants]
  congr
  cases (vs.filter fun v => !v.attrs.skipSerializing) <;> rfl

theorem units_numbers (derived : Derived o env i input) (data : (env.decl i).data = .enum vs)
    (units : ∀ v ∈ vs, v.style = .unit) (h : (env.decl i).attrs.hasRepr = true) (schema : HasSchema env (.named i) m) :
    ∃ rs, m = ⟨(env.decl i).attrs.description, .oneOf rs⟩ ∧
      (∀ r ∈ rs, ∃ d f e, r = .inline ⟨d, .single ⟨false, .integer f e⟩⟩) ∧
      (rs ≠ [] ↔ ∃ v ∈ writtenVariants vs, v.discriminant.isSome) := by
  obtain ⟨body, hb, _, hy⟩ := named_yields schema
  have hmt := (derived_enum derived data).1 units
  simp only [serializeBody, data, serializeEnum, hmt, serializeNewtypeEnum, h, if_true, Except.ok.injEq] at hb
  subst hb
  obtain ⟨rs, hrs, rfl⟩ := yields_oneOf hy
  refine ⟨rs, rfl, ?_, ?_⟩
  · intro r hr
    obtain ⟨k, hk⟩ := List.getElem?_of_mem hr
    obtain ⟨e, he, her⟩ := pointwise_get_right hrs hk
    obtain ⟨v, _, hv⟩ := List.mem_filterMap.1 (List.mem_of_getElem? he)
    simp only [reprAlternative, Option.map_eq_some_iff] at hv
    obtain ⟨d, _, rfl⟩ := hv
    obtain ⟨m', hm', rfl⟩ := yields_inline her
    obtain ⟨td, htd, rfl⟩ := yields_single hm'
    rw [yields_integer htd]
    exact ⟨_, _, _, rfl⟩
  · have h1 : ((serialVariants vs).filterMap reprAlternative).length = rs.length := hrs.length_eq.symm
    have h2 : rs ≠ [] ↔ ∃ e, e ∈ (serialVariants vs).filterMap reprAlternative := by
      constructor
      · intro h
        apply List.exists_mem_of_ne_nil
        intro h'
        rw [h'] at h1
        exact h (List.length_eq_zero_iff.1 h1.symm)
      · rintro ⟨e, he⟩ h'
        rw [h'] at h1
        rw [List.length_eq_zero_iff.1 h1] at he
        cases he
    rw [h2]
    simp only [List.mem_filterMap, reprAlternative, Option.map_eq_some_iff, writtenVariants, serialVariants]
    constructor
    · rintro ⟨_, v, hv, d, hd, _⟩
      exact ⟨v, hv, by rw [hd]; rfl⟩
    · rintro ⟨v, hv, hd⟩
      obtain ⟨d, hd⟩ := Option.isSome_iff_exists.1 hd
      exact ⟨_, v, hv, d, hd, rfl⟩

/-- What is written for an enum without data. -/
theorem units_written {j} (data : (env.decl i).data = .enum vs) (units : ∀ v ∈ vs, v.style = .unit)
    (h : Ser env s (.named i) j) : (s.asRepr i = true ∧ ∃ n, j = .int n) ∨
      (s.asRepr i = false ∧ ∃ v ∈ writtenVariants vs, tagJson (env.decl i).attrs.tagType v.key none = some j) := by
  have hmem : ∀ v ∈ writtenVariants vs, v.style = .unit := fun v hv => units v (List.mem_filter.1 hv).1
  cases h with
  | struct hd' => rw [data] at hd'; cases hd'
  | tupleStruct hd' => rw [data] at hd'; cases hd'
  | transparent hd' => rw [data] at hd'; cases hd'
  | newtypeStruct hd' => rw [data] at hd'; cases hd'
  | explicitNewtype hd' => rw [data] at hd'; cases hd'
  | repr hd' hr => exact .inl ⟨hr, _, rfl⟩
  | unitVariant hd' hr hv hu hj => rw [data] at hd'; cases hd'; exact .inr ⟨hr, _, hv, hj⟩
  | newtypeVariant hd' hr hv hst => rw [data] at hd'; cases hd'; rw [hmem _ hv] at hst; cases hst
  | tupleVariant hd' hr hv hst => rw [data] at hd'; cases hd'; rw [hmem _ hv] at hst; cases hst
  | structVariant hd' hr hv hst => rw [data] at hd'; cases hd'; rw [hmem _ hv] at hst; cases hst

/-- C40, exactly, for enums without data: their values are accepted if and only if an enum with `#[repr(..)]` is
serialized by `serde_repr` and has a discriminant written out, and one without it is serialized by the ordinary derive
and not tagged. -/
theorem c40_units_exact (o : Oracle) (env : Env) (s : Serde) (reg : List (String × Model)) (i : Nat)
    (input : DeriveInput Ty) (vs : List (Variant Ty)) (m : Model) (derived : Derived o env i input)
    (data : (env.decl i).data = .enum vs) (units : ∀ v ∈ vs, v.style = .unit) (inhabited : writtenVariants vs ≠ [])
    (schema : HasSchema env (.named i) m) :
    (∀ j, Ser env s (.named i) j → ValidModel false reg m j) ↔
      if (env.decl i).attrs.hasRepr then s.asRepr i = true ∧ ∃ v ∈ writtenVariants vs, v.discriminant.isSome
      else s.asRepr i = false ∧ (env.decl i).attrs.tagType = .external := by
  obtain ⟨v, hv⟩ := List.exists_mem_of_ne_nil _ inhabited
  have hu : WrittenAsUnit v := .inl (units v (List.mem_filter.1 hv).1)
  have hwr : s.asRepr i = false → ∃ j, tagJson (env.decl i).attrs.tagType v.key none = some j ∧ Ser env s (.named i) j := by
    intro hr
    have : ∃ j, tagJson (env.decl i).attrs.tagType v.key none = some j := by
      cases (env.decl i).attrs.tagType <;> exact ⟨_, rfl⟩
    obtain ⟨j, hj⟩ := this
    exact ⟨j, hj, .unitVariant data hr hv hu hj⟩
  cases hrep : (env.decl i).attrs.hasRepr with
  | true =>
    obtain ⟨rs, rfl, hint, hne⟩ := units_numbers derived data units hrep schema
    simp only [if_true]
    rw [← hne]
    have haccepts : ∀ j, ValidModel false reg ⟨(env.decl i).attrs.description, .oneOf rs⟩ j → rs ≠ [] ∧ ∃ n, j = .int n := by
      intro j h
      cases h with
      | @oneOf _ _ pre r post _ he hv hx =>
        obtain ⟨d, f, e, rfl⟩ := hint r (by rw [he]; simp)
        refine ⟨by rw [he]; simp, ?_⟩
        cases hv with
        | inline hv => cases hv with
          | integer => exact ⟨_, rfl⟩
    constructor
    · intro h
      cases hr : s.asRepr i with
      | true => exact ⟨rfl, (haccepts _ (h (.int 0) (.repr data hr units hv))).1⟩
      | false =>
        obtain ⟨j, hj, hs⟩ := hwr hr
        obtain ⟨_, n, rfl⟩ := haccepts j (h j hs)
        cases htag : (env.decl i).attrs.tagType <;> rw [htag] at hj <;> cases hj
    · rintro ⟨hr, hne⟩ j hj
      rcases units_written data units hj with ⟨_, n, rfl⟩ | ⟨hr', _⟩
      · obtain ⟨r, hr'⟩ := List.exists_mem_of_ne_nil _ hne
        obtain ⟨d, f, e, rfl⟩ := hint r hr'
        exact valid_oneOf hr' (.inline .integer)
      · rw [hr] at hr'; cases hr'
  | false =>
    obtain rfl := units_strings derived data units hrep schema
    simp only [Bool.false_eq_true, if_false]
    constructor
    · intro h
      have hstr : ∀ j, Ser env s (.named i) j → ∃ t, j = .str t := by
        intro j hj
        cases h j hj with
        | string => exact ⟨_, rfl⟩
      have hr : s.asRepr i = false := by
        cases hr : s.asRepr i with
        | false => rfl
        | true =>
          obtain ⟨t, ht⟩ := hstr (.int 0) (.repr data hr units hv)
          cases ht
      refine ⟨hr, ?_⟩
      obtain ⟨j, hj, hs⟩ := hwr hr
      obtain ⟨t, rfl⟩ := hstr j hs
      cases htag : (env.decl i).attrs.tagType <;> rw [htag] at hj <;> first | rfl | cases hj
    · rintro ⟨hr, htag⟩ j hj
      rcases units_written data units hj with ⟨hr', _⟩ | ⟨_, w, hw, hj⟩
      · rw [hr] at hr'; cases hr'
      · rw [htag] at hj
        cases hj
        refine .string fun ws hws => ?_
        cases hws
        exact List.mem_map.2 ⟨w, hw, rfl⟩

/-- C40 fails for every externally tagged enum that has data and a variant without: what is written for that variant is
rejected. -/
theorem c40_unit_variants_rejected (o : Oracle) (env : Env) (s : Serde) (ex : Bool) (reg : List (String × Model)) (i : Nat)
    (input : DeriveInput Ty) (vs : List (Variant Ty)) (m : Model) (derived : Derived o env i input)
    (data : (env.decl i).data = .enum vs) (some_data : ∃ v ∈ vs, v.style ≠ .unit)
    (tag : (env.decl i).attrs.tagType = .external) (not_repr : s.asRepr i = false) (v : Variant Ty)
    (hv : v ∈ writtenVariants vs) (unit : WrittenAsUnit v) (schema : HasSchema env (.named i) m) :
    Ser env s (.named i) (.str v.key) ∧ ¬ ValidModel ex reg m (.str v.key) := by
  obtain ⟨rs, rfl, _⟩ := enum_external derived data some_data tag schema
  exact ⟨.unitVariant data not_repr hv unit (by rw [tag]; rfl),
    not_valid_type (fun h => h) (fun _ h => nomatch h)⟩

theorem enum_adjacent {t cn} (derived : Derived o env i input) (data : (env.decl i).data = .enum vs)
    (some_data : ∃ v ∈ vs, v.style ≠ .unit) (tag : (env.decl i).attrs.tagType = .adjacent t cn)
    (schema : HasSchema env (.named i) m) :
    ∃ rs, m = objectSchema (env.decl i).attrs.description (env.decl i).attrs.nullable
        ⟨BMap.insert cn (.inline ⟨(env.decl i).attrs.description, .oneOf rs⟩)
          (BMap.insert t (.inline (stringEnum (some ((env.decl i).ident ++ " type variant"))
            ((writtenVariants vs).map Variant.key))) []), none, [t, cn]⟩ ∧
      Pointwise (AdjacentContent env) (writtenVariants vs) rs := by
  obtain ⟨body, hb, _, hy⟩ := named_yields schema
  have h2 := (derived_enum derived data).2 some_data
  simp only [tag] at h2
  simp only [serializeBody, data, serializeEnum, h2, tag, serializeAdjacentEnum] at hb
  split at hb
  · cases hb
  · rename_i es hes
    cases hb
    obtain ⟨td, htd, rfl⟩ := yields_single hy
    obtain ⟨rs', hrs', rfl⟩ := yields_object htd
    cases hrs' with
    | cons hx ht1 =>
    cases ht1 with
    | cons hz ht2 =>
    cases ht2
    obtain ⟨m1, hm1, rfl⟩ := yields_inline hx
    obtain ⟨td1, htd1, rfl⟩ := yields_single hm1
    obtain ⟨m2, hm2, rfl⟩ := yields_inline hz
    obtain ⟨rs, hrs, rfl⟩ := yields_oneOf hm2
    refine ⟨rs, ?_, variants_yield hes hrs fun v e r h h' => yields_adjacent h h'⟩
    rw [yields_string htd1]
    have : ∀ l : List String, (l.head?.map Example.lit).map (Example.eval env) = l.head? := by
      intro l; cases l <;> rfl
    rw [this]
    rfl

/-- C40 fails for every adjacently tagged enum of struct variants: whatever is written is rejected. -/
theorem c40_adjacent_structs_rejected (o : Oracle) (env : Env) (s : Serde) (ex : Bool) (reg : List (String × Model))
    (i : Nat) (input : DeriveInput Ty) (vs : List (Variant Ty)) (m : Model) (t c : String)
    (derived : Derived o env i input) (data : (env.decl i).data = .enum vs)
    (some_data : ∃ v ∈ vs, v.style ≠ .unit) (tag : (env.decl i).attrs.tagType = .adjacent t c)
    (structs : ∀ v ∈ writtenVariants vs, v.style = .struct) (schema : HasSchema env (.named i) m) (j : Json)
    (written : Ser env s (.named i) j) : ¬ ValidModel ex reg m j := by
  obtain ⟨rs, rfl, hrs⟩ := enum_adjacent derived data some_data tag schema
  obtain ⟨v, hv, c', hj, hc⟩ := ser_variant data some_data written
  have hst := structs v hv
  have hc : ∃ es, c' = some (.obj es) := by
    rcases hc with ⟨_, h | ⟨h, _⟩⟩ | ⟨_, _, _, _, h, _⟩ | ⟨_, h, _⟩ | ⟨ps, _, _, h⟩
    · rw [hst] at h; cases h
    · rw [hst] at h; cases h
    · rw [hst] at h; cases h
    · rw [hst] at h; cases h
    · exact ⟨_, h⟩
  obtain ⟨es, rfl⟩ := hc
  rw [tag] at hj
  cases hj
  generalize (env.decl i).attrs.nullable = n
  intro h
  cases h with
  | object _ hp _ =>
    cases hp c (.obj es) _ (.tail _ (.head _)) (by rw [BMap.get_insert, if_pos rfl]) with
    | inline h =>
      cases h with
      | @oneOf _ _ pre r post _ he hv' _ =>
        obtain ⟨k, hk⟩ := List.getElem?_of_mem (show r ∈ rs by rw [he]; simp)
        obtain ⟨w, hw, hr⟩ := pointwise_get_right hrs hk
        simp only [AdjacentContent, structs w (List.mem_of_getElem? hw)] at hr
        obtain ⟨_, _, rfl⟩ := hr
        refine not_valid_inline ?_ hv'
        exact not_valid_type (fun h => h) (fun _ h => nomatch h)

theorem struct_schema {fs} (data : (env.decl i).data = .struct .struct fs) (schema : HasSchema env (.named i) m) :
    ∃ ob, ObjectOf env false fs ob ∧ m = objectSchema (env.decl i).attrs.description (env.decl i).attrs.nullable ob := by
  obtain ⟨body, hb, _, hy⟩ := named_yields schema
  simp only [serializeBody, data, Except.ok.injEq] at hb
  subst hb
  obtain ⟨ob, ho, rfl⟩ := yields_objectModel (inl := false) (fun _ => rfl) hy
  exact ⟨ob, ho, rfl⟩

/-- What the schema of a struct accepts has an entry under the name of every field that is not optional, flattened or
not. -/
theorem c40_struct_needs (env : Env) (ex : Bool) (reg : List (String × Model)) (i : Nat) (fs : List (Field Ty)) (m : Model)
    (data : (env.decl i).data = .struct .struct fs) (schema : HasSchema env (.named i) m) (f : Field Ty)
    (hf : f ∈ serialFields fs) (required : f.attrs.optional = false) (j : Json) (accepted : ValidModel ex reg m j) :
    (j = .null ∧ (env.decl i).attrs.nullable = true) ∨ ∃ es, j = .obj es ∧ f.key ∈ BMap.keys es := by
  obtain ⟨ob, ho, rfl⟩ := struct_schema data schema
  generalize hn : (env.decl i).attrs.nullable = n at accepted
  cases accepted with
  | null => exact .inl ⟨rfl, rfl⟩
  | object hr _ _ =>
    refine .inr ⟨_, rfl, hr f.key ?_⟩
    rw [ho.required]
    exact List.mem_map.2 ⟨f, List.mem_filter.2 ⟨hf, by simp [required]⟩, rfl⟩

open Sample

/-- `#[serde(tag = "kind")] enum E { A, B }` does not meet the criterion. -/
example (reg) : ∃ m, HasSchema (program [taggedC]) (.named 0) m ∧
    ¬ ∀ j, Ser (program [taggedC]) serde (.named 0) j → ValidModel false reg m j := by
  refine ⟨_, ⟨Components.empty, _, 5, rfl⟩, ?_⟩
  rw [c40_units_exact oracle (program [taggedC]) serde reg 0 tagged _ _ ⟨_, rfl⟩ rfl (by simp [variantAs])
    (by simp [writtenVariants, variantAs, variantAttrs]) ⟨Components.empty, _, 5, rfl⟩]
  intro h
  cases h.2

/-- `#[repr(u8)] enum E { A = 1, B = 2 }` serialized by `serde_repr` does. -/
example (reg) : ∃ m, HasSchema (program [e30c]) (.named 0) m ∧
    ∀ j, Ser (program [e30c]) ⟨false, fun _ => true⟩ (.named 0) j → ValidModel false reg m j := by
  refine ⟨_, ⟨Components.empty, _, 5, rfl⟩, ?_⟩
  rw [c40_units_exact oracle (program [e30c]) ⟨false, fun _ => true⟩ reg 0 e30 _ _ ⟨_, rfl⟩ rfl (by simp [variantAs])
    (by simp [writtenVariants, variantAs, variantAttrs]) ⟨Components.empty, _, 5, rfl⟩]
  exact ⟨rfl, _, List.mem_cons_self, rfl⟩

example (reg) : ∃ m, HasSchema (program [mixedC]) (.named 0) m ∧ Ser (program [mixedC]) serde (.named 0) (.str "A") ∧
    ¬ ValidModel false reg m (.str "A") :=
  ⟨_, ⟨Components.empty, _, 5, rfl⟩, c40_unit_variants_rejected oracle (program [mixedC]) serde false reg 0 mixed _ _ ⟨_, rfl⟩
    rfl (by simp [variantAs]) rfl rfl (variantAs "A" "A" .unit []) (by simp [writtenVariants, variantAs, variantAttrs])
    (.inl rfl) ⟨Components.empty, _, 5, rfl⟩⟩

example (reg j) (h : Ser (program [adjacentSC]) serde (.named 0) j) : ∃ m, HasSchema (program [adjacentSC]) (.named 0) m ∧
    ¬ ValidModel false reg m j :=
  ⟨_, ⟨Components.empty, _, 5, rfl⟩, c40_adjacent_structs_rejected oracle (program [adjacentSC]) serde false reg 0 adjacentS _ _
    "t" "c" ⟨_, rfl⟩ rfl (by simp [variantAs]) rfl (by simp [writtenVariants, variantAs, variantAttrs])
    ⟨Components.empty, _, 5, rfl⟩ j h⟩

/-- The flattened field of `struct S { #[serde(flatten)] pet: Pet }` is asked for under its name. -/
example (reg j) : ∃ m, HasSchema (program [flatC]) (.named 0) m ∧ (ValidModel false reg m j →
    (j = .null ∧ false = true) ∨ ∃ es, j = .obj es ∧ "pet" ∈ BMap.keys es) :=
  ⟨_, ⟨Components.empty, _, 5, rfl⟩, c40_struct_needs (program [flatC]) false reg 0 _ _ rfl ⟨Components.empty, _, 5, rfl⟩
    (fieldAs "pet" "pet" (.named 1) fun f => { f with flatten := true }) (by simp [serialFields, fieldAs, field]) rfl j⟩

end Verif
