import Verif.Props.Conform
/-!
# C40 is false of the code in general: types whose values their documentation rejects

Each theorem gives a type the derive macro accepts (or a built-in one), a value serde writes for it, and the reference
a mention returns; the reference rejects the value even if `oneOf` is read as "at least one".
-/

namespace Verif

open Sample

/-- Mentioning the type of a derived item returns a reference that does not accept a value serde writes for it. -/
structure Disagrees (env : Env) (s : Serde) (i : Nat) (input : DeriveInput Ty) (j : Json) : Prop where
  derived : Derived oracle env i input
  written : Ser env s (.named i) j
  rejected : ∃ r cx, MentionReturns env (.named i) false {} Components.empty r cx ∧ ¬ Valid false cx.schemas r j

namespace Sample

/-- `struct Visit { pet: Pet, other: Option<Pet> }` -/
def visit : DeriveInput Ty := ⟨"Visit", [], .struct (.named [fld "pet" (.named 1), fld "other" (.option (.named 1))])⟩
def visitC : Container Ty := struct "Visit" [field "pet" (.named 1), field "other" (.option (.named 1))]

theorem pet_written {env : Env} (h : env.decl 1 = decl 1) (n : String) :
    Ser env serde (.named 1) (.obj [("name", .str n)]) := by
  have h' : structTag (env.decl 1) = [] := by rw [h]; rfl
  have := Ser.struct (env := env) (s := serde) (i := 1) (ps := [(field "name" (.prim .string), .str n)])
    (fs := [field "name" (.prim .string)]) (by rw [h]; rfl) (by rw [h]; rfl) (.keep rfl .nil) (by simp [field])
    (by simp only [List.mem_singleton]; rintro p rfl _; exact .prim ⟨n, rfl⟩)
  rw [h'] at this
  exact this

end Sample

/-- C40 is false: next to a field of type `Pet`, the value `null` of a field of type `Option<Pet>`. -/
theorem c40_option_is_false : ∃ env, Disagrees env serde 0 visit
    (.obj [("pet", .obj [("name", .str "Rex")]), ("other", .null)]) := by
  refine ⟨program [visitC], ⟨_, rfl⟩, ?_, _, _, ⟨10, rfl⟩, ?_⟩
  · refine .struct (ps := [(field "pet" (.named 1), .obj [("name", .str "Rex")]), (field "other" (.option (.named 1)), .null)])
      rfl rfl (.keep rfl (.keep rfl .nil)) (by simp [field]) ?_
    intro p hp _
    simp only [List.mem_cons, List.not_mem_nil, or_false] at hp
    rcases hp with rfl | rfl
    · exact pet_written rfl _
    · exact .none
  · refine not_valid_link rfl ?_
    intro h
    cases h with
    | object _ hp _ =>
      have h := hp "other" .null (.link "Pet") (.tail _ (.head _)) rfl
      refine not_valid_link rfl ?_ h
      exact not_valid_type (fun h => h) (fun h => nomatch h)

/-- C40 is false: one-element tuples are written as arrays and documented as their component. -/
theorem c40_tuple1_is_false : ∃ env s r cx, MentionReturns env (.wrap .tuple1 (.prim .u8)) false {} Components.empty r cx ∧
    Ser env s (.wrap .tuple1 (.prim .u8)) (.arr [.int 1]) ∧ ¬ Valid false cx.schemas r (.arr [.int 1]) :=
  ⟨env, serde, _, _, ⟨10, rfl⟩, .tuple1 (.prim ⟨1, rfl⟩),
    not_valid_inline (not_valid_type (fun h => h) (fun h => nomatch h))⟩

/-- C40 is false: `NaN` is written as `null`. -/
theorem c40_nan_is_false : ∃ env s r cx, MentionReturns env (.prim .f64) false {} Components.empty r cx ∧
    Ser env s (.prim .f64) .null ∧ ¬ Valid false cx.schemas r .null :=
  ⟨env, ⟨true, fun _ => false⟩, _, _, ⟨10, rfl⟩, .prim (.inr ⟨rfl, rfl⟩),
    not_valid_inline (not_valid_type (fun h => h) (fun h => nomatch h))⟩

/-- `enum E { A, B(u8) }` -/
def Sample.mixed : DeriveInput Ty := ⟨"E", [], .enum [var "A", var "B" (.unnamed [tfld (.prim .u8)])]⟩
def Sample.mixedC : Container Ty := container "E" (fun a => { a with modelType := .dictionary }) (.enum [
  variantAs "A" "A" .unit [], variantAs "B" "B" .newType [field "0" (.prim .u8)]])

/-- C40 is false: unit variants of an enum with other variants are written as strings. -/
theorem c40_unit_variant_is_false : ∃ env, Disagrees env serde 0 mixed (.str "A") := by
  refine ⟨program [mixedC], ⟨_, rfl⟩, ?_, _, _, ⟨10, rfl⟩, not_valid_link rfl (not_valid_type (fun h => h) (fun h => nomatch h))⟩
  exact .unitVariant (v := variantAs "A" "A" .unit []) rfl rfl (by simp [writtenVariants, variantAs, variantAttrs]) (.inl rfl) rfl

/-- `#[serde(tag = "kind")] enum E { A, B }` -/
def Sample.tagged : DeriveInput Ty := ⟨"E", [attr "serde" [nv "tag" "kind"]], .enum [var "A", var "B"]⟩
def Sample.taggedC : Container Ty := container "E" (fun a => { a with tagType := .internal "kind", modelType := .newType })
  (.enum [variantAs "A" "A" .unit [], variantAs "B" "B" .unit []])

/-- C40 is false: enums of unit variants with a tag are written as objects and documented as strings. -/
theorem c40_tagged_units_is_false : ∃ env, Disagrees env serde 0 tagged (.obj [("kind", .str "A")]) := by
  refine ⟨program [taggedC], ⟨_, rfl⟩, ?_, _, _, ⟨10, rfl⟩, not_valid_link rfl (not_valid_type (fun h => h) (fun h => nomatch h))⟩
  exact .unitVariant (v := variantAs "A" "A" .unit []) rfl rfl (by simp [writtenVariants, variantAs, variantAttrs]) (.inl rfl) rfl

/-- `#[serde(tag = "t", content = "c")] enum E { A { x: bool } }` -/
def Sample.adjacentS : DeriveInput Ty := ⟨"E", [attr "serde" [nv "tag" "t", nv "content" "c"]], .enum [
  var "A" (.named [fld "x" (.prim .bool)])]⟩
def Sample.adjacentSC : Container Ty := container "E"
  (fun a => { a with tagType := .adjacent "t" "c", modelType := .object }) (.enum [
    variantAs "A" "A" .struct [field "x" (.prim .bool)]])

/-- C40 is false: struct variants of adjacently tagged enums are written as objects and documented as arrays. -/
theorem c40_adjacent_struct_is_false : ∃ env, Disagrees env serde 0 adjacentS
    (.obj [("t", .str "A"), ("c", .obj [("x", .bool true)])]) := by
  refine ⟨program [adjacentSC], ⟨_, rfl⟩, ?_, _, _, ⟨10, rfl⟩, not_valid_link rfl ?_⟩
  · refine .structVariant (v := variantAs "A" "A" .struct [field "x" (.prim .bool)]) rfl rfl
      (by simp [writtenVariants, variantAs, variantAttrs]) rfl
      (ps := [(field "x" (.prim .bool), .bool true)]) (.keep rfl .nil) (by simp [field]) ?_ rfl
    simp only [List.mem_singleton]; rintro p rfl _; exact .prim ⟨true, rfl⟩
  · intro h
    cases h with
    | object _ hp _ =>
      have h := hp "c" _ _ (.tail _ (.head _)) rfl
      cases h with
      | inline h =>
        cases h with
        | @oneOf _ _ pre r post _ h hv _ =>
          cases pre with
          | nil =>
            simp only [List.nil_append, List.cons.injEq] at h
            obtain ⟨rfl, rfl⟩ := h
            refine not_valid_inline ?_ hv
            exact not_valid_type (fun h => h) (fun h => nomatch h)
          | cons a pre => simp at h

/-- `struct S { #[serde(flatten)] pet: Pet }` -/
def Sample.flat : DeriveInput Ty := ⟨"S", [], .struct (.named [fld "pet" (.named 1) [attr "serde" [word "flatten"]]])⟩
def Sample.flatC : Container Ty := container "S" (fun a => { a with hasFlatten := true }) (.struct .struct
  [fieldAs "pet" "pet" (.named 1) fun f => { f with flatten := true }])

/-- C40 is false: a flattened field is documented as a required property of its name. -/
theorem c40_flatten_is_false : ∃ env, Disagrees env serde 0 flat (.obj [("name", .str "Rex")]) := by
  refine ⟨program [flatC], ⟨_, rfl⟩, ?_, _, _, ⟨10, rfl⟩, not_valid_link rfl ?_⟩
  · refine .struct (ps := [(fieldAs "pet" "pet" (.named 1) (fun f => { f with flatten := true }), .obj [("name", .str "Rex")])])
      rfl rfl (.keep rfl .nil) (by simp [fieldAs, field]) ?_
    simp only [List.mem_singleton]; rintro p rfl _; exact pet_written rfl _
  · intro h
    cases h with
    | object hr _ _ => exact absurd (hr "pet" (List.mem_singleton.2 rfl)) (by simp [BMap.keys])

/-- `#[serde(transparent)] struct S { x: u8 }` -/
def Sample.transp : DeriveInput Ty := ⟨"S", [attr "serde" [word "transparent"]], .struct (.named [fld "x" (.prim .u8)])⟩
def Sample.transpC : Container Ty := container "S" (fun a => { a with transparent := true }) (.struct .struct [field "x" (.prim .u8)])

/-- C40 is false: a transparent struct with a named field is documented as an object. -/
theorem c40_transparent_is_false : ∃ env, Disagrees env serde 0 transp (.int 1) := by
  refine ⟨program [transpC], ⟨_, rfl⟩, ?_, _, _, ⟨10, rfl⟩, not_valid_link rfl (not_valid_type (fun h => h) (fun h => nomatch h))⟩
  exact .transparent (f := field "x" (.prim .u8)) (style := .struct) rfl (by decide) rfl rfl (by simp [field])
    (fun _ => .prim ⟨1, rfl⟩)

/-- `struct S(#[opg(string)] u8);` -/
def Sample.explicitN : DeriveInput Ty := ⟨"S", [], .struct (.unnamed [tfld (.prim .u8) [attr "opg" [word "string"]]])⟩
def Sample.explicitNC : Container Ty := newtype "S" (fieldAs "0" "0" (.prim .u8) fun f => { f with explicitModelType := some .string })

/-- C40 is false: the explicit type on the field of a newtype struct (here for a field written as a string, for
example by `serialize_with`) is ignored. -/
theorem c40_newtype_explicit_is_false : ∃ env, Disagrees env serde 0 explicitN (.str "1") := by
  refine ⟨program [explicitNC], ⟨_, rfl⟩, ?_, _, _, ⟨10, rfl⟩,
    not_valid_link rfl (not_valid_type (fun h => h) (fun h => nomatch h))⟩
  exact .newtypeStruct (f := fieldAs "0" "0" (.prim .u8) fun f => { f with explicitModelType := some .string }) rfl rfl
    (by intro t h; cases h; exact .inr ⟨"1", rfl⟩) (by intro h; cases h)

/-- `#[repr(u8)] enum E { A = 1 }`, serialized by the ordinary derive. -/
def Sample.reprU : DeriveInput Ty := ⟨"E", [attr "repr" [word "u8"]], .enum [varD "A" "1"]⟩
def Sample.reprUC : Container Ty := container "E" (fun a => { a with hasRepr := true, modelType := .newType }) (.enum [
  variantAs "A" "A" .unit [] id (some "1")])

/-- C40 is false: an enum with `#[repr(..)]` that is not serialized by `serde_repr` is documented as integers. -/
theorem c40_repr_is_false : ∃ env, Disagrees env serde 0 reprU (.str "A") := by
  refine ⟨program [reprUC], ⟨_, rfl⟩, ?_, _, _, ⟨10, rfl⟩, not_valid_link rfl ?_⟩
  · exact .unitVariant (v := variantAs "A" "A" .unit [] id (some "1")) rfl rfl
      (by simp [writtenVariants, variantAs, variantAttrs]) (.inl rfl) rfl
  · intro h
    cases h with
    | @oneOf _ _ pre r post _ h hv _ =>
      cases pre with
      | nil =>
        simp only [List.nil_append, List.cons.injEq] at h
        obtain ⟨rfl, rfl⟩ := h
        refine not_valid_inline ?_ hv
        exact not_valid_type (fun h => h) (fun h => nomatch h)
      | cons a pre => simp at h

/-- `struct S { e: Option<U> }` with `#[serde(untagged)] enum U { A(u8) }` and `#[opg(inline)]` nowhere. -/
def Sample.optU : DeriveInput Ty := ⟨"S", [], .struct (.named [fld "e" (.option (.named 1))])⟩
def Sample.optUC : Container Ty := struct "S" [field "e" (.option (.named 1))]
def Sample.untaggedU : DeriveInput Ty := ⟨"U", [attr "serde" [word "untagged"]], .enum [var "A" (.unnamed [tfld (.prim .u8)])]⟩
def Sample.untaggedUC : Container Ty := container "U" (fun a => { a with tagType := .none, modelType := .oneOf }) (.enum [
  variantAs "A" "A" .newType [field "0" (.prim .u8)]])

/-- C40 is false: `Option` of a type with alternatives is documented like the type itself. -/
theorem c40_option_oneOf_is_false : ∃ env, Derived oracle env 1 untaggedU ∧ Disagrees env serde 0 optU (.obj [("e", .null)]) := by
  refine ⟨program [optUC, untaggedUC], ⟨_, rfl⟩, ⟨_, rfl⟩, ?_, _, _, ⟨10, rfl⟩, not_valid_link rfl ?_⟩
  · refine .struct (ps := [(field "e" (.option (.named 1)), .null)]) rfl rfl (.keep rfl .nil) (by simp [field]) ?_
    simp only [List.mem_singleton]; rintro p rfl _; exact .none
  · intro h
    cases h with
    | object _ hp _ =>
      refine not_valid_link (n := "U") rfl ?_ (hp "e" .null _ (.head _) rfl)
      intro h
      cases h with
      | @oneOf _ _ pre r post _ h hv _ =>
        cases pre with
        | nil =>
          simp only [List.nil_append, List.cons.injEq] at h
          obtain ⟨rfl, rfl⟩ := h
          refine not_valid_inline ?_ hv
          exact not_valid_type (fun h => h) (fun h => nomatch h)
        | cons a pre => simp at h

end Verif
