import Verif.Props.Precise
import Verif.Props.ReadsNeeds
import Verif.Props.Generation
/-!
# C79: the conditions are needed

Where types are left out in C79, there is a witness in `Props.Precise`.  Here: whole classes of such types.
-/

namespace Verif
open Sample

/-- Nothing that serde writes for the type is `j`, up to further entries, order and integers for floats. -/
def Unwritten (env : Env) (s : Serde) (t : Ty) (j : Json) : Prop := ¬ ∃ j', Ser env s t j' ∧ Covers env t j' j

/-- Which values cover which. -/
inductive SameKind : Json → Json → Prop
  | refl {j} : SameKind j j
  | int {t i} : SameKind (.num t) (.int i)
  | arr {xs ys : List Json} (h : xs.length = ys.length) : SameKind (.arr xs) (.arr ys)
  | obj {es es' : List (String × Json)} (h : es' = [] → es = []) : SameKind (.obj es) (.obj es')

theorem Covers.kind {env : Env} {t j j'} (h : Covers env t j j') : SameKind j j' := by
  induction h with
  | refl => exact .refl
  | int => exact .int
  | wrap _ ih => exact ih
  | option _ ih => exact ih
  | seq hl => exact .arr hl
  | dict hk => exact .obj fun e => by subst e; simpa using hk
  | newtype _ _ ih => exact ih
  | @struct _ es _ y hm =>
    refine .obj fun e => ?_
    subst e
    cases es with
    | nil => rfl
    | cons e _ => exact absurd (hm e (.head _)) (by simp)
  | tagged _ _ hv => exact .obj fun e => by subst e; cases hv

theorem SameKind.empty {xs : List Json} (h : SameKind (.arr xs) (.arr [])) : xs = [] := by
  cases h with
  | refl => rfl
  | arr h => simpa using h

/-- C79 fails for every tuple and tuple struct with a component that is always written: the empty array is accepted. -/
theorem c79_tuple_always (env : Env) (s : Serde) (x : Bool) (reg : List (String × Model)) (t : Ty) (m : Model)
    (tuple : (∃ ts, t = .tuple ts ∧ ts ≠ []) ∨ ∃ i fs, t = .named i ∧ (env.decl i).data = .struct .tuple fs ∧
      (env.decl i).attrs.transparent = false ∧ ∃ f ∈ serialFields fs, f.attrs.optional = false)
    (schema : HasSchema env t m) : ValidModel x reg m (.arr []) ∧ Unwritten env s t (.arr []) := by
  rcases tuple with ⟨ts, rfl, hn⟩ | ⟨i, fs, rfl, hd, ht, f, hf, ho⟩
  · obtain ⟨td, htd, rfl⟩ := yields_single (hasSchema_yields schema rfl)
    obtain ⟨r, -, rfl⟩ := yields_array htd
    refine ⟨.array (by simp), ?_⟩
    rintro ⟨j, hs, hc⟩
    have hk := hc.kind
    cases hs with
    | tuple hl =>
      rw [hk.empty] at hl
      exact hn (List.length_eq_zero_iff.1 hl.symm)
  · obtain ⟨body, hb, _, hy⟩ := named_yields schema
    simp only [serializeBody, hd, Except.ok.injEq] at hb
    subst hb
    obtain ⟨rs, -, rfl⟩ := yields_tupleModel (inl := false) (fun _ => rfl) hy
    refine ⟨.array (by simp), ?_⟩
    rintro ⟨j, hs, hc⟩
    have hk := hc.kind
    cases hs with
    | tupleStruct hd' _ hkept =>
      rw [hd] at hd'; cases hd'
      have hm := hkept.required hf ho
      rw [List.map_eq_nil_iff.1 hk.empty] at hm
      cases hm
    | transparent _ _ h => rw [ht] at h; cases h
    | struct h => rw [hd] at h; cases h
    | newtypeStruct h | explicitNewtype h => rw [hd] at h; cases h
    | repr h => rw [hd] at h; cases h
    | unitVariant h | newtypeVariant h | tupleVariant h | structVariant h => rw [hd] at h; cases h

/-- C79 fails for every one-tuple `(T,)`: whatever the schema of `T` accepts is accepted, but only arrays are written. -/
theorem c79_one_tuple_always (env : Env) (s : Serde) (x : Bool) (reg : List (String × Model)) (t : Ty) (m : Model)
    (schema : HasSchema env t m) (j : Json) (accepted : ValidModel x reg m j) (value : ∀ xs, j ≠ .arr xs) :
    HasSchema env (.wrap .tuple1 t) m ∧ ValidModel x reg m j ∧ Unwritten env s (.wrap .tuple1 t) j := by
  obtain ⟨cx, cx', h⟩ := schema
  refine ⟨⟨cx, cx', ((c35_wrappers_transparent env .tuple1 t cx cx').2.1 m).2 h⟩, accepted, ?_⟩
  rintro ⟨j', hs, hc⟩
  have hk := hc.kind
  cases hs with
  | wrap hw => exact hw rfl
  | tuple1 =>
    cases hk with
    | refl => exact value _ rfl
    | arr => exact value _ rfl

/-- C79 fails for `char` and `()`: all strings are accepted, those of one character are written, or none. -/
theorem c79_texts_always (env : Env) (s : Serde) (x : Bool) (reg : List (String × Model)) (t : Ty) (m : Model)
    (schema : HasSchema env t m) (text : String)
    (other : t = .unit ∨ (t = .prim .char ∧ ∀ c : Char, text ≠ c.toString)) :
    ValidModel x reg m (.str text) ∧ Unwritten env s t (.str text) := by
  rcases other with rfl | ⟨rfl, hc⟩
  · obtain ⟨td, htd, rfl⟩ := yields_single (hasSchema_yields schema rfl)
    rw [yields_string htd]
    refine ⟨.string nofun, ?_⟩
    rintro ⟨j, hs, hc⟩
    cases hs
    cases hc.kind
  · refine ⟨simple_valid (hasSchema_yields schema rfl) ⟨_, rfl⟩, ?_⟩
    rintro ⟨j, hs, hc'⟩
    cases hs with
    | prim h =>
      obtain ⟨c, rfl⟩ := h
      cases hc'.kind
      exact hc c rfl

/-- C79 fails for every struct with `#[opg(nullable)]`: `null` is accepted, and an object is written. -/
theorem c79_null_always (env : Env) (s : Serde) (x : Bool) (reg : List (String × Model)) (i : Nat) (fs : List (Field Ty)) (m : Model)
    (data : (env.decl i).data = .struct .struct fs) (transparent : (env.decl i).attrs.transparent = false)
    (nullable : (env.decl i).attrs.nullable = true) (schema : HasSchema env (.named i) m) :
    ValidModel x reg m .null ∧ Unwritten env s (.named i) .null := by
  obtain ⟨ob, -, rfl⟩ := struct_schema data schema
  rw [nullable]
  refine ⟨.null, ?_⟩
  rintro ⟨j, hs, hc⟩
  have hk := hc.kind
  cases hs with
  | struct => cases hk
  | transparent _ _ h => rw [transparent] at h; cases h
  | tupleStruct h => cases hk
  | newtypeStruct h | explicitNewtype h => rw [data] at h; cases h
  | repr h => cases hk
  | unitVariant h | newtypeVariant h | tupleVariant h | structVariant h => rw [data] at h; cases h

/-- C79 fails for every externally tagged enum with data: the empty object is accepted, and an object with one entry or a string is
written. -/
theorem c79_external_always (o : Oracle) (env : Env) (s : Serde) (x : Bool) (reg : List (String × Model)) (i : Nat)
    (input : DeriveInput Ty) (vs : List (Variant Ty)) (m : Model) (derived : Derived o env i input)
    (data : (env.decl i).data = .enum vs) (some_data : ∃ v ∈ vs, v.style ≠ .unit)
    (external : (env.decl i).attrs.tagType = .external) (schema : HasSchema env (.named i) m) :
    ValidModel x reg m (.obj []) ∧ Unwritten env s (.named i) (.obj []) := by
  obtain ⟨rs, rfl, -⟩ := enum_external derived data some_data external schema
  refine ⟨.object nofun (by simp) (by simp), ?_⟩
  rintro ⟨j, hs, hc⟩
  have hj : j = .obj [] := by
    have hk := hc.kind
    generalize hj' : Json.obj [] = j' at hk
    cases hk with
    | refl => rfl
    | int => cases hj'
    | arr => cases hj'
    | obj h => cases hj'; rw [h rfl]
  subst hj
  have hno : ∀ k c, tagJson (env.decl i).attrs.tagType k c ≠ some (.obj []) := by
    intro k c h
    rw [external] at h
    cases c <;> simp [tagJson] at h
  cases hc' : s.asRepr i with
  | false =>
    obtain ⟨v, -, c, h, -⟩ := ser_enum data hc' hs
    exact hno _ _ h
  | true =>
    generalize hj' : Json.obj [] = j' at hs
    cases hs with
    | struct h | transparent h | newtypeStruct h | explicitNewtype h => rw [data] at h; cases h
    | tupleStruct h => rw [data] at h; cases h
    | repr => cases hj'
    | unitVariant _ h | newtypeVariant _ h | tupleVariant _ h | structVariant _ h => rw [hc'] at h; cases h

/-- C79, exactly, for enums without data (where `oneOf` asks for one alternative at least): what is accepted is written if and only if an
enum with `#[repr(..)]` is serialized by `serde_repr` or has no discriminant written out, and one without it is serialized by the
ordinary derive and not tagged. -/
theorem c79_units_exact (o : Oracle) (env : Env) (s : Serde) (reg : List (String × Model)) (i : Nat)
    (input : DeriveInput Ty) (vs : List (Variant Ty)) (m : Model) (derived : Derived o env i input)
    (data : (env.decl i).data = .enum vs) (units : ∀ v ∈ vs, v.style = .unit) (inhabited : writtenVariants vs ≠ [])
    (schema : HasSchema env (.named i) m) :
    (∀ j, ValidModel false reg m j → ∃ j', Ser env s (.named i) j' ∧ Covers env (.named i) j' j) ↔
      if (env.decl i).attrs.hasRepr then s.asRepr i = true ∨ ∀ v ∈ writtenVariants vs, v.discriminant = none
      else s.asRepr i = false ∧ (env.decl i).attrs.tagType = .external := by
  obtain ⟨v, hv⟩ := List.exists_mem_of_ne_nil _ inhabited
  have hu : ∀ v ∈ writtenVariants vs, WrittenAsUnit v := fun v hv => .inl (units v (List.mem_filter.1 hv).1)
  cases hrep : (env.decl i).attrs.hasRepr with
  | true =>
    obtain ⟨rs, rfl, hint, hne⟩ := units_numbers derived data units hrep schema
    simp only [if_true]
    constructor
    · intro h
      by_cases he : ∃ v ∈ writtenVariants vs, v.discriminant.isSome
      · obtain ⟨r, hr⟩ := List.exists_mem_of_ne_nil _ (hne.2 he)
        obtain ⟨d, f, e, rfl⟩ := hint r hr
        obtain ⟨j', hs, hc⟩ := h (.int 0) (valid_oneOf hr (.inline .integer))
        rcases units_written data units hs with ⟨hr, -⟩ | ⟨-, w, -, hj⟩
        · exact .inl hr
        · have hk := hc.kind
          cases htag : (env.decl i).attrs.tagType <;> rw [htag] at hj <;> cases hj <;> cases hk
      · refine .inr fun w hw => ?_
        cases hd : w.discriminant with
        | none => rfl
        | some d => exact absurd ⟨w, hw, by rw [hd]; rfl⟩ he
    · intro h j hj
      cases hj with
      | @oneOf _ _ pre r post _ he hv' hx =>
        have hr : r ∈ rs := by rw [he]; simp
        obtain ⟨d, f, e, rfl⟩ := hint r hr
        cases hv' with
        | inline hv' => cases hv' with
          | integer =>
            rcases h with h | h
            · exact ⟨_, .repr data h units hv, .refl⟩
            · obtain ⟨w, hw, hd⟩ := hne.1 (List.ne_nil_of_mem hr)
              rw [h w hw] at hd
              cases hd
  | false =>
    obtain rfl := units_strings derived data units hrep schema
    simp only [Bool.false_eq_true, if_false]
    have hacc : ∀ w ∈ writtenVariants vs, ValidModel false reg
        (stringEnum (env.decl i).attrs.description ((writtenVariants vs).map Variant.key)) (.str w.key) := by
      intro w hw
      refine .string fun ks e => ?_
      cases e
      exact List.mem_map.2 ⟨w, hw, rfl⟩
    constructor
    · intro h
      obtain ⟨j', hs, hc⟩ := h _ (hacc v hv)
      have hk := hc.kind
      rcases units_written data units hs with ⟨-, n, rfl⟩ | ⟨hr, w, -, hj⟩
      · cases hk
      · refine ⟨hr, ?_⟩
        cases htag : (env.decl i).attrs.tagType <;> rw [htag] at hj <;> cases hj <;> first | rfl | cases hk
    · rintro ⟨hr, ht⟩ j hj
      cases hj with
      | string hs =>
        obtain ⟨w, hw, rfl⟩ := List.mem_map.1 (hs _ rfl)
        exact ⟨_, .unitVariant data hr hw (hu w hw) (by rw [ht]; rfl), .refl⟩

/-- C79 fails for every adjacently tagged enum whose variants have different contents: what is accepted under the tag of one variant is
accepted under the tag of every other. -/
theorem c79_adjacent_always (o : Oracle) (env : Env) (x : Bool) (reg : List (String × Model)) (i : Nat)
    (input : DeriveInput Ty) (vs : List (Variant Ty)) (m : Model) (t c : String) (derived : Derived o env i input)
    (data : (env.decl i).data = .enum vs) (some_data : ∃ v ∈ vs, v.style ≠ .unit)
    (adjacent : (env.decl i).attrs.tagType = .adjacent t c) (different : t ≠ c) (schema : HasSchema env (.named i) m)
    (v w : Variant Ty) (hw : w ∈ writtenVariants vs) (y : Json) (accepted : ValidModel x reg m (.obj [(t, .str v.key), (c, y)])) :
    ValidModel x reg m (.obj [(t, .str w.key), (c, y)]) := by
  obtain ⟨rs, rfl, -⟩ := enum_adjacent derived data some_data adjacent schema
  generalize (env.decl i).attrs.nullable = n at accepted ⊢
  cases accepted with
  | object hr hp ha =>
    refine .object (fun k hk => ?_) (fun k j r' hm hg => ?_) (by simp)
    · have : k ∈ [t, c] := hk
      simpa [BMap.keys] using this
    · simp only [List.mem_cons, Prod.mk.injEq, List.not_mem_nil, or_false] at hm
      rcases hm with ⟨rfl, rfl⟩ | ⟨rfl, rfl⟩
      · rw [BMap.get_insert_ne different, BMap.get_insert_self] at hg
        cases hg
        refine .inline (.string fun ks e => ?_)
        cases e
        exact List.mem_map.2 ⟨w, hw, rfl⟩
      · exact hp _ _ _ (by simp) hg

/-! ## Cases -/

example (s : Serde) (x : Bool) (reg : List (String × Model)) : ∃ m, HasSchema shop (.tuple [.prim .u8, .prim .string]) m ∧
    ValidModel x reg m (.arr []) ∧ Unwritten shop s (.tuple [.prim .u8, .prim .string]) (.arr []) :=
  ⟨_, ⟨Components.empty, _, 5, rfl⟩, c79_tuple_always shop s x reg _ _ (.inl ⟨_, rfl, by simp⟩) ⟨Components.empty, _, 5, rfl⟩⟩

/-- `(u8,)` is documented as `u8` and written as `[7]`. -/
example (s : Serde) (x : Bool) (reg : List (String × Model)) : ∃ m, HasSchema shop (.wrap .tuple1 (.prim .u8)) m ∧
    ValidModel x reg m (.int 7) ∧ Unwritten shop s (.wrap .tuple1 (.prim .u8)) (.int 7) :=
  ⟨_, c79_one_tuple_always shop s x reg (.prim .u8) _ ⟨Components.empty, _, 5, rfl⟩ (.int 7) .integer nofun⟩

example (s : Serde) (x : Bool) (reg : List (String × Model)) : ∃ m, HasSchema shop (.prim .char) m ∧
    ValidModel x reg m (.str "ab") ∧ Unwritten shop s (.prim .char) (.str "ab") := by
  refine ⟨_, ⟨Components.empty, _, 5, rfl⟩, c79_texts_always shop s x reg _ _ ⟨Components.empty, _, 5, rfl⟩ "ab" (.inr ⟨rfl, fun c h => ?_⟩)⟩
  have := congrArg String.length h
  simp only [Char.length_toString] at this
  exact absurd this (by decide)

example (s : Serde) (x : Bool) (reg : List (String × Model)) : ∃ m, HasSchema (program [mixedC]) (.named 0) m ∧
    ValidModel x reg m (.obj []) ∧ Unwritten (program [mixedC]) s (.named 0) (.obj []) :=
  ⟨_, ⟨Components.empty, _, 5, rfl⟩, c79_external_always oracle (program [mixedC]) s x reg 0 mixed _ _ ⟨_, rfl⟩ rfl
    ⟨variantAs "B" "B" .newType [field "0" (.prim .u8)], by simp, by simp [variantAs]⟩ rfl ⟨Components.empty, _, 5, rfl⟩⟩

example (reg : List (String × Model)) : ∃ m, HasSchema park (.named 0) m ∧
    ∀ j, ValidModel false reg m j → ∃ j', Ser park parkSerde (.named 0) j' ∧ Covers park (.named 0) j' j :=
  ⟨_, ⟨Components.empty, _, 5, rfl⟩, (c79_units_exact oracle park parkSerde reg 0 colorInput _ _ ⟨_, rfl⟩ rfl
    (by simp [variantAs]) (by simp [writtenVariants, variantAs, variantAttrs]) ⟨Components.empty, _, 5, rfl⟩).2 ⟨rfl, rfl⟩⟩

/-- `#[opg(nullable)] struct Author { name: String }` -/
example (s : Serde) (x : Bool) (reg : List (String × Model)) :
    ∃ m, HasSchema (program [{ author with attrs := { author.attrs with nullable := true } }]) (.named 0) m ∧
    ValidModel x reg m .null ∧ Unwritten (program [{ author with attrs := { author.attrs with nullable := true } }]) s (.named 0) .null :=
  ⟨_, ⟨Components.empty, _, 5, rfl⟩, c79_null_always (program [{ author with attrs := { author.attrs with nullable := true } }]) s x reg 0
    _ _ rfl rfl rfl ⟨Components.empty, _, 5, rfl⟩⟩

/-- What is accepted as content of `A(u8)` is accepted as content of `B(String)`. -/
example (x : Bool) (reg : List (String × Model)) (y : Json) : ∃ m, HasSchema (program [adjacentNC]) (.named 0) m ∧
    (ValidModel x reg m (.obj [("t", .str "A"), ("c", y)]) → ValidModel x reg m (.obj [("t", .str "B"), ("c", y)])) :=
  ⟨_, ⟨Components.empty, _, 5, rfl⟩, c79_adjacent_always oracle (program [adjacentNC]) x reg 0 adjacentN _ _ "t" "c" ⟨_, rfl⟩ rfl
    ⟨_, .head _, nofun⟩ rfl (by decide) ⟨Components.empty, _, 5, rfl⟩ (variantAs "A" "A" .newType [field "0" (.prim .u8)])
    (variantAs "B" "B" .newType [field "0" (.prim .string)]) (.tail _ (.head _)) y⟩

end Verif
