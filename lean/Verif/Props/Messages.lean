import Verif.Model.Messages
import Verif.Props.DeriveMore
/-!
# Messages tell mistakes apart (C89)
-/

namespace Verif

open Sample

/-- Enough of a message to know the kind of the mistake. -/
def kindOfText (l : List Char) : Nat :=
  if l[0]? = some 'd' then (if l[23]? = none then 1 else 0)
  else if l[0]? = some 'u' then
    if l[2]? = some 'k' then (if l[8]? = some 'a' then 2 else 3)
    else if l[3]? = some 't' then (if l[5]? = some 'e' then 9 else 10)
    else if l[5]? = some 's' then 11 else 12
  else if l[0]? = some 'e' then (if l.getLast? = some ']' then 7 else 4)
  else if l[0]? = some 'f' then (if l[16]? = some 'e' then 5 else 6)
  else 13

def DErr.kind : DErr → Nat
  | .duplicate _ => 0 | .duplicateModelType => 1 | .unknownWord _ => 2 | .unknownMeta _ => 3 | .expectedString _ => 4
  | .badExpr _ => 5 | .badPath _ => 6 | .expectedList _ => 7 | .syn => 8 | .untaggedUnitEnum => 9 | .unitStruct => 10
  | .union => 11 | .unionType => 12 | .inconsistentDiscriminants => 13

theorem text_duplicate (x : Texts) (n) : (DErr.duplicate n).text x = "duplicate opg attribute `" ++ n ++ "`" := rfl
theorem text_duplicateModelType (x : Texts)  : (DErr.duplicateModelType).text x = "duplicate opg attribute" := rfl
theorem text_unknownWord (x : Texts) (n) : (DErr.unknownWord n).text x = "unknown attribute" := rfl
theorem text_unknownMeta (x : Texts) (n) : (DErr.unknownMeta n).text x = "unknown opg variant attribute `" ++ n ++ "`" := rfl
theorem text_expectedString (x : Texts) (n) : (DErr.expectedString n).text x = "expected " ++ n ++ " attribute to be a string: `" ++ n ++ " = \"...\"`" := rfl
theorem text_badExpr (x : Texts) (n) : (DErr.badExpr n).text x = "failed to parse expr: " ++ x.debug n := rfl
theorem text_badPath (x : Texts) (n) : (DErr.badPath n).text x = "failed to parse path expr: " ++ x.debug n := rfl
theorem text_expectedList (x : Texts) (n) : (DErr.expectedList n).text x = "expected #[" ++ n ++ "(...)]" := rfl
theorem text_untaggedUnitEnum (x : Texts)  : (DErr.untaggedUnitEnum).text x = "unit enums are not supported for untagged" := rfl
theorem text_unitStruct (x : Texts)  : (DErr.unitStruct).text x = "unit structs are not supported" := rfl
theorem text_union (x : Texts)  : (DErr.union).text x = "unions are not supported" := rfl
theorem text_unionType (x : Texts)  : (DErr.unionType).text x = "union types are not supported" := rfl
theorem text_inconsistentDiscriminants (x : Texts)  : (DErr.inconsistentDiscriminants).text x = "varant discriminants are not consistent" := rfl

theorem getLast?_append_string (s t : String) (c : Char) (h : t.toList.getLast? = some c) : (s ++ t).toList.getLast? = some c := by
  rw [String.toList_append, List.getLast?_append, h]; rfl

theorem kindOfText_text (x : Texts) (e : DErr) (h : e ≠ .syn) : kindOfText (e.text x).toList = e.kind := by
  cases e with
  | syn => exact absurd rfl h
  | duplicate => rw [text_duplicate]; simp [kindOfText, DErr.kind]
  | duplicateModelType => rw [text_duplicateModelType]; simp [kindOfText, DErr.kind]
  | unknownWord => rw [text_unknownWord]; simp [kindOfText, DErr.kind]
  | unknownMeta => rw [text_unknownMeta]; simp [kindOfText, DErr.kind]
  | badExpr => rw [text_badExpr]; simp [kindOfText, DErr.kind]
  | badPath => rw [text_badPath]; simp [kindOfText, DErr.kind]
  | untaggedUnitEnum => rw [text_untaggedUnitEnum]; simp [kindOfText, DErr.kind]
  | unitStruct => rw [text_unitStruct]; simp [kindOfText, DErr.kind]
  | union => rw [text_union]; simp [kindOfText, DErr.kind]
  | unionType => rw [text_unionType]; simp [kindOfText, DErr.kind]
  | inconsistentDiscriminants => rw [text_inconsistentDiscriminants]; simp [kindOfText, DErr.kind]
  | expectedString n =>
    have := getLast?_append_string ("expected " ++ n ++ " attribute to be a string: `" ++ n) " = \"...\"`" '`' (by simp)
    rw [text_expectedString, kindOfText, this]
    simp [DErr.kind]
  | expectedList n =>
    have := getLast?_append_string ("expected #[" ++ n) "(...)]" ']' (by simp)
    rw [text_expectedList, kindOfText, this]
    simp [DErr.kind]

theorem wrapped_inj {a b s t : String} (h : a ++ s ++ b = a ++ t ++ b) : s = t := by
  have h := congrArg String.toList h
  simp only [String.toList_append] at h
  exact String.toList_inj.1 (List.append_cancel_left (List.append_cancel_right h))

theorem prefixed_inj {a s t : String} (h : a ++ s = a ++ t) : s = t := by
  have h := congrArg String.toList h
  simp only [String.toList_append] at h
  exact String.toList_inj.1 (List.append_cancel_left h)

theorem twice_inj {a b c s t : String} (h : a ++ s ++ b ++ s ++ c = a ++ t ++ b ++ t ++ c) : s = t := by
  have h := congrArg String.toList h
  simp only [String.toList_append, List.append_assoc] at h
  have hl := congrArg List.length h
  simp only [List.length_append] at hl
  exact String.toList_inj.1 (List.append_inj_left (List.append_cancel_left h) (by omega))

/-- C89: the message of a mistake determines it, except that all unknown words have the same message, and as far as
`syn`'s own texts go. -/
theorem c89_distinct_partial (x : Texts) (debug : ∀ s t, x.debug s = x.debug t → s = t) (e e' : DErr) (h : e ≠ .syn) (h' : e' ≠ .syn)
    (same : e.text x = e'.text x) : e = e' ∨ ∃ p q, e = .unknownWord p ∧ e' = .unknownWord q := by
  have hk : e.kind = e'.kind := by rw [← kindOfText_text x e h, ← kindOfText_text x e' h', same]
  cases e <;> cases e' <;> first
    | (simp [DErr.kind] at hk; done)
    | exact .inl rfl
    | exact .inr ⟨_, _, rfl, rfl⟩
    | skip
  · rw [text_duplicate, text_duplicate] at same
    exact .inl (congrArg _ (wrapped_inj same))
  · rw [text_unknownMeta, text_unknownMeta] at same
    exact .inl (congrArg _ (wrapped_inj same))
  · rw [text_expectedString, text_expectedString] at same
    exact .inl (congrArg _ (twice_inj same))
  · rw [text_badExpr, text_badExpr] at same
    exact .inl (congrArg _ (debug _ _ (prefixed_inj same)))
  · rw [text_badPath, text_badPath] at same
    exact .inl (congrArg _ (debug _ _ (prefixed_inj same)))
  · rw [text_expectedList, text_expectedList] at same
    exact .inl (congrArg _ (wrapped_inj same))

/-- C89: a message names what it is about, wherever this is given by a name; for a text that can not be parsed, it shows
the text. -/
theorem c89_names (x : Texts) (e : DErr) :
    (∀ n, e = .duplicate n ∨ e = .unknownMeta n ∨ e = .expectedString n ∨ e = .expectedList n → n.toList <:+: (e.text x).toList) ∧
    (∀ s, e = .badExpr s ∨ e = .badPath s → (x.debug s).toList <:+: (e.text x).toList) := by
  have mid : ∀ a n b : String, n.toList <:+: (a ++ n ++ b).toList := fun a n b =>
    ⟨a.toList, b.toList, by simp [String.toList_append]⟩
  refine ⟨?_, ?_⟩
  · rintro n (rfl | rfl | rfl | rfl)
    · exact mid _ n _
    · exact mid _ n _
    · exact mid ("expected " ++ n ++ " attribute to be a string: `") n _
    · exact mid _ n _
  · rintro s (rfl | rfl)
    · exact ⟨"failed to parse expr: ".toList, [], by rw [text_badExpr, String.toList_append]; simp⟩
    · exact ⟨"failed to parse path expr: ".toList, [], by rw [text_badPath, String.toList_append]; simp⟩

/-- The messages of a refused item. -/
def DeriveOutcome.messages {τ : Type} (x : Texts) : DeriveOutcome τ → List String
  | .errors es => es.map (·.text x)
  | _ => []

/-- C89 is false of unknown words: `#[opg(inlined)] struct S { x: bool }` and `#[opg(nulable)] struct S { x: bool }` have the
same message. -/
theorem c89_word_is_false (x : Texts) : ∃ (o : Oracle) (i j : DeriveInput Ty), i.attrs = [attr "opg" [word "inlined"]] ∧
    j.attrs = [attr "opg" [word "nulable"]] ∧ (derive o i).messages x = ["unknown attribute"] ∧
    (derive o j).messages x = ["unknown attribute"] :=
  ⟨oracle, ⟨"S", [attr "opg" [word "inlined"]], .struct (.named [fld "x" (.prim .bool)])⟩,
    ⟨"S", [attr "opg" [word "nulable"]], .struct (.named [fld "x" (.prim .bool)])⟩, rfl, rfl, rfl, rfl⟩

/-- C89 is false of the place: an unknown attribute of a struct, or of a field, is called one of a variant. -/
theorem c89_place_is_false (x : Texts) : ∃ (o : Oracle) (i j : DeriveInput Ty), i.attrs = [attr "opg" [nv "title" "t"]] ∧
    (∀ vs, i.data ≠ .enum vs ∧ j.data ≠ .enum vs) ∧ j.attrs = [] ∧
    (derive o i).messages x = ["unknown opg variant attribute `title`"] ∧
    (derive o j).messages x = ["unknown opg variant attribute `title`"] :=
  ⟨oracle, ⟨"S", [attr "opg" [nv "title" "t"]], .struct (.named [fld "x" (.prim .bool)])⟩,
    ⟨"S", [], .struct (.named [⟨some "x", [attr "opg" [nv "title" "t"]], .prim .bool⟩])⟩, rfl, fun _ => ⟨nofun, nofun⟩, rfl, rfl, rfl⟩

/-- The messages of an item with three mistakes. -/
example (x : Texts) : (derive oracle (⟨"S", [attr "opg" [nv "title" "t"]], .struct (.named [
      ⟨some "x", [attr "opg" [.item (.nameValue "format" .other)], ⟨"serde", .other⟩], .prim .bool⟩])⟩ : DeriveInput Ty)).messages x =
    ["unknown opg variant attribute `title`", "expected format attribute to be a string: `format = \"...\"`",
      "expected #[serde(...)]"] := rfl

end Verif
