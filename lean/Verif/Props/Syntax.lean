import Verif.Proof.Trim
import Verif.Check.Tokens
import Verif.Props.Samples
/-!
# C73, C74, C75: what the macros accept
-/

namespace Verif

/-! ## C73 -/

/-- `describe_api!` expands to a document exactly if its input is a description written by the grammar, and then the
document is the one described. -/
theorem c73_reads {κ : Type} [Mentioner κ] (c : κ) (sc : Scope) (ts : List TT) (d : Opg) :
    describeApiTokens c sc ts = some d ↔ ∃ api, ApiSpelled sc api ts ∧ describeApi c api = some d := by
  simp only [describeApiTokens, Option.bind_eq_some_iff, readApi_iff]

/-- No input can be read in two ways. -/
theorem c73_unambiguous (sc : Scope) (ts : List TT) (a b : Api) (ha : ApiSpelled sc a ts) (hb : ApiSpelled sc b ts) : a = b := by
  have h1 := readApi_iff.2 ha
  have h2 := readApi_iff.2 hb
  rw [h1] at h2
  exact Option.some.inj h2

section
open Suite

/-- The test suite's description. -/
theorem Sample.suite_spelled : ApiSpelled apiScope api apiTokens := readApi_iff.1 suite_reads
example : ∃ d, describeApiTokens (⟨program apiItems, 9, fun c => if c = 200 then some "OK" else none⟩ : Ctx) apiScope apiTokens = some d ∧
    d.ser = Suite.expectedExpandsNormally := by
  have h := suite_expands
  cases hd : describeApi (⟨program apiItems, 9, fun c => if c = 200 then some "OK" else none⟩ : Ctx) api with
  | none => rw [hd] at h; cases h
  | some d =>
    rw [hd] at h
    exact ⟨d, (c73_reads ..).2 ⟨api, Sample.suite_spelled, hd⟩, Option.some.inj h⟩

/-- Not descriptions: an unknown section, a section without braces, a separator before the first or after the last part of
a path, a summary of a path that is not a literal. -/
example : ¬∃ a, ApiSpelled apiScope a (key "infos" (braces [])) := by
  simp only [← readApi_iff]; simp [key, braces, readApi, readSections, readSection, List.intercalate]
example : ¬∃ a, ApiSpelled apiScope a (key "info" (text "My super API")) := by
  simp only [← readApi_iff]; simp [key, text, readApi, readSections]
example : ¬∃ a, ApiSpelled apiScope a [] := by
  simp only [← readApi_iff]; simp [readApi, readSections]
example : ¬∃ a, ApiSpelled apiScope a (key "paths" (braces [[parens [.slash, text "users"], .colon, braces []]])) := by
  simp only [← readApi_iff]
  simp [key, text, parens, braces, List.intercalate, List.intersperse, readApi, readSections, readSection, readPaths, readPathList, readUrl, readSeg, TT.type]
example : ¬∃ a, ApiSpelled apiScope a (key "paths" (braces [[parens [text "users", .slash], .colon, braces []]])) := by
  simp only [← readApi_iff]
  simp [key, text, parens, braces, List.intercalate, List.intersperse, readApi, readSections, readSection, readPaths, readPathList, readUrl, readSeg, TT.type]
example : ¬∃ a, ApiSpelled apiScope a (key "paths" (braces [[parens [text "users"], .colon, braces [key "summary" (.ident "title_as_variable")]]])) := by
  simp only [← readApi_iff]
  simp [key, text, parens, braces, List.intercalate, List.intersperse, readApi, readSections, readSection, readPaths, readPathList, readUrl, readSeg,
    readItemProps, readItemProp]

end

/-! ## C74 -/

/-- Trailing commas can be left out, anywhere, without a change of the document. -/
theorem c74_omit {κ : Type} [Mentioner κ] (c : κ) (sc : Scope) (ts : List TT) (d : Opg) (h : describeApiTokens c sc ts = some d) :
    describeApiTokens c sc (trimmed ts) = some d := by
  obtain ⟨api, ha, hd⟩ := (c73_reads ..).1 h
  exact (c73_reads ..).2 ⟨api, api_trim ha, hd⟩

/-- Two accepted inputs that differ in trailing commas only give the same document. -/
theorem c74_same_partial {κ : Type} [Mentioner κ] (c : κ) (sc : Scope) (ts ts' : List TT) (d d' : Opg) (h : describeApiTokens c sc ts = some d)
    (h' : describeApiTokens c sc ts' = some d') (ht : trimmed ts = trimmed ts') : d = d' := by
  have h1 := c74_omit c sc ts d h
  have h2 := c74_omit c sc ts' d' h'
  rw [ht, h2] at h1
  exact (Option.some.inj h1).symm

section
open Suite

/-- The test suite's input has trailing commas. -/
example : trimmed apiTokens ≠ apiTokens := by
  intro h
  have := congrArg List.head? (congrArg (List.drop 2) h)
  simp [apiTokens, key, braces, bracesComma, parens, text, types, vecString, List.intercalate, List.intersperse, trimmed, trimAll,
    TT.trim, dropComma] at this

/-- A callback with one path, without and with a comma after it, as in the lists of paths outside of callbacks. -/
def callbackTokens (trailing : Bool) : List TT :=
  let path : List TT := [parens [text "done"], .colon, braces [key "POST" (braces [[.lit (.num 200), .colon, .ident "None"]])]]
  key "paths" (braces [[parens [text "start"], .colon, braces [
    key "POST" (braces [key "callbacks" (braces [key "done" (.group .brace (path ++ if trailing then [.comma] else []))])])]]])

end

/-- A trailing comma can not always be added: none is accepted after the last path of a callback. -/
theorem c74_add_is_false : ∃ (sc : Scope) (ts ts' : List TT), trimmed ts = trimmed ts' ∧
    (∃ (c : Ctx) (d : Opg), describeApiTokens c sc ts = some d) ∧ ∀ c : Ctx, describeApiTokens c sc ts' = none := by
  refine ⟨Suite.apiScope, callbackTokens false, callbackTokens true, ?_, ?_, ?_⟩
  · simp [callbackTokens, Suite.key, Suite.braces, Suite.parens, Suite.text, List.intercalate, List.intersperse, trimmed, trimAll, TT.trim, dropComma]
  · refine ⟨⟨Sample.env, 10, fun _ => some "OK"⟩, _, (c73_reads ..).2 ⟨[.paths [⟨[.literal "start"], [.operation .post
      [.callbacks [.ident "done" [⟨[.literal "done"], [.operation .post [.response 200 none .absent]]⟩]]]]⟩]], readApi_iff.1 ?_, rfl⟩⟩
    simp [callbackTokens, Suite.key, Suite.braces, Suite.parens, Suite.text, List.intercalate, List.intersperse, readApi, readSections, readSection,
      readPaths, readPathList, readUrl, readSeg, readItemProps, readItemProp, methodOf, readOpProps, readOpProp, readCallbacks, readResponse]
  · intro c
    have : readApi Suite.apiScope (callbackTokens true) = none := by
      simp [callbackTokens, Suite.key, Suite.braces, Suite.parens, Suite.text, List.intercalate, List.intersperse, readApi, readSections, readSection,
        readPaths, readPathList, readUrl, readSeg, readItemProps, readItemProp, methodOf, readOpProps, readOpProp, readCallbacks, readResponse]
    rw [describeApiTokens, this]; rfl

/-! ## C75 -/

/-- `describe_type!` expands exactly if its input is written by the grammar, to the model described. -/
theorem c75_reads (sc : Scope) (ts : List TT) (m : Model) :
    describeTypeTokens sc ts = some m ↔ ∃ d : TypeDecl, d.Spelled sc ts ∧ d.model = m := by
  simp only [describeTypeTokens, Option.map_eq_some_iff, readType_iff]

theorem c75_unambiguous (sc : Scope) (ts : List TT) (a b : TypeDecl) (ha : a.Spelled sc ts) (hb : b.Spelled sc ts) : a = b := by
  have h1 := readType_iff.2 ha
  have h2 := readType_iff.2 hb
  rw [h1] at h2
  exact Option.some.inj h2

example : ∃ m, describeTypeTokens Suite.typeScope Suite.typeTokens = some m ∧ m.ser = Suite.expectedDescribeTypeMacro :=
  ⟨_, (c75_reads ..).2 ⟨_, readType_iff.1 Suite.type_reads, rfl⟩, Suite.type_expands⟩

/-- The parts of a type have a fixed order and no commas between them. -/
example : describeTypeTokens Suite.typeScope (Suite.typed "string" (Suite.fields [Suite.key "format" (Suite.text "uuid"),
    Suite.key "description" (Suite.text "Id")])) = none := by
  simp [describeTypeTokens, Suite.typed, Suite.fields, Suite.key, Suite.text, readType, readLeaf, optLit, readVariants]
example : describeTypeTokens Suite.typeScope (Suite.typed "string" (Suite.braces [Suite.key "description" (Suite.text "Id"),
    Suite.key "format" (Suite.text "uuid")])) = none := by
  simp [describeTypeTokens, Suite.typed, Suite.braces, List.intercalate, List.intersperse, Suite.key, Suite.text, readType, readLeaf, optLit, readVariants]

end Verif
