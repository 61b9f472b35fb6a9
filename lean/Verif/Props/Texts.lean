import Verif.Proof.TextsValid
import Verif.Proof.Stripped
import Verif.Props.Neutral
import Verif.Props.Api
/-!
# C106: descriptions, formats and examples are only texts
-/

namespace Verif

/-- **C106**, calls: two programs differ only in descriptions, formats and examples, and so do the calls that are made on a
registry.  If they return in one program they do in the other; the references that they return, and the registries that they
leave, are the same but for descriptions, formats and examples: in particular the same names are registered. -/
theorem c106_calls (env env' : Env) (same : SameButWords env env') (calls calls' : List Call)
    (sameCalls : calls.map Call.wordless = calls'.map Call.wordless) (start start' : Components)
    (sameStart : start.wordless = start'.wordless) (rs : List Ref) (cx : Components) (run : CallsReturn env start calls rs cx) :
    ∃ rs' cx', CallsReturn env' start' calls' rs' cx' ∧ rs.map Ref.wordless = rs'.map Ref.wordless ∧ cx.wordless = cx'.wordless :=
  calls_words same run sameCalls sameStart

/-- **C106**, documents: a description of an API gives in both programs the same document, but for descriptions, formats and
examples in schemas. -/
theorem c106_documents (env env' : Env) (same : SameButWords env env') (reason : Nat → Option String) (api : Api) (d : Opg)
    (described : Describes env reason api d) :
    ∃ d', Describes env' reason api d' ∧ d.Along (fun r r' => r.wordless = r'.wordless) d' ∧
      d.components.wordless = d'.components.wordless := by
  obtain ⟨n, hd⟩ := described
  obtain ⟨d', hd', ha, hc⟩ := describeApi_to (askTo_words same n reason) rfl
    (fun _ _ h => (congrArg Components.securitySchemes h :)) api ⟨fun _ _ => trivial, fun _ _ => trivial⟩ hd
  exact ⟨d', ⟨n, hd'⟩, ha, hc⟩

/-- **C106**, meaning: references and registries that are the same but for descriptions, formats and examples accept the same
values and reject the same values, whether `oneOf` is read as exactly one or as at least one. -/
theorem c106_values (excl : Bool) (cx cx' : Components) (registries : cx.wordless = cx'.wordless) (r r' : Ref)
    (same : r.wordless = r'.wordless) (j : Json) :
    (Valid excl cx.schemas r j ↔ Valid excl cx'.schemas r' j) ∧ (Invalid excl cx.schemas r j ↔ Invalid excl cx'.schemas r' j) :=
  have R : wordlessSchemas cx.schemas = wordlessSchemas cx'.schemas := congrArg Components.schemas registries
  ⟨⟨fun h => words_valid R h same, fun h => words_valid R.symm h same.symm⟩,
   ⟨fun h => words_invalid R h same, fun h => words_invalid R.symm h same.symm⟩⟩

/-- **C106**, registered names: they are the same, in the same order. -/
theorem c106_names (cx cx' : Components) (registries : cx.wordless = cx'.wordless) :
    BMap.keys cx.schemas = BMap.keys cx'.schemas ∧ cx.securitySchemes = cx'.securitySchemes := by
  have R : wordlessSchemas cx.schemas = wordlessSchemas cx'.schemas := congrArg Components.schemas registries
  have e : ∀ l : List (String × Model), BMap.keys l = BMap.keys (wordlessSchemas l) := by
    intro l
    simp only [BMap.keys, wordlessSchemas, List.map_map]
    rfl
  exact ⟨by rw [e, R, ← e], (congrArg Components.securitySchemes registries :)⟩

/-- **C106**, the macro: if an item is accepted, then so is what is left of it without the literals, `format`, `example` and
`example_with` in its `#[opg(..)]` attributes, and the declaration is the same but for descriptions, formats and examples.  Two
accepted items of which the same is left are such declarations of each other. -/
theorem c106_macro (o : Oracle) (item : DeriveInput Ty) (c : Container Ty) (b : ModelExpr Ty) (accepted : derive o item = .code c b) :
    (∃ b', derive o item.stripped = .code c.wordless b') ∧
      ∀ item' c' b', derive o item' = .code c' b' → item.stripped = item'.stripped → c.wordless = c'.wordless := by
  obtain ⟨b1, h1⟩ := derive_stripped accepted
  refine ⟨⟨b1, h1⟩, fun item' c' b' h e => ?_⟩
  obtain ⟨b2, h2⟩ := derive_stripped h
  rw [e, h2] at h1
  injection h1 with hc
  exact hc.symm

namespace Sample

/-- `struct Pair { a: Option<Leaf>, b: Leaf }` and `struct Leaf { n: u32 }` with other descriptions, formats and examples; the
value of the example is computed. -/
def wordyPair : Env := ⟨fun
  | 0 => { struct "Pair" [⟨{ (field "a" (.option (.named 1))).attrs with description := some "the first" }, .option (.named 1)⟩,
        field "b" (.named 1)] with
      attrs := { containerAttrs "Pair" with description := some "two leaves" } }
  | _ => struct "Leaf" [⟨{ (field "n" (.prim .u32)).attrs with format := some "odd", ex := some (.expr "6 + 1") }, .prim .u32⟩],
  fun _ => "7"⟩

theorem wordy_same : SameButWords (docPair false) wordyPair
  | 0 => rfl
  | _ + 1 => rfl

/-- The programs of the example register different schemas, and two types of one name are referred to. -/
example : ∃ rs cx, CallsReturn (docPair false) Components.empty [.mention (.named 0) false {}] rs cx ∧
    ∃ rs' cx', CallsReturn wordyPair Components.empty [.mention (.named 0) false {}] rs' cx' ∧ cx.schemas ≠ cx'.schemas ∧
      rs.map Ref.wordless = rs'.map Ref.wordless ∧ cx.wordless = cx'.wordless := by
  refine ⟨_, _, .mention ⟨10, rfl⟩ (.nil _), _, _, .mention ⟨10, rfl⟩ (.nil _), ?_, rfl, rfl⟩
  intro h
  have := congrArg (fun s => (BMap.get "Pair" s).map Model.description) h
  exact absurd this (by decide)

/-- `#[opg("two", example = "x")] #[serde(rename_all = "UPPERCASE")] struct A { #[opg("one", optional, format = "f")] n: u32 }`. -/
def wordyItem : DeriveInput Ty :=
  ⟨"A", [⟨"opg", .list [.lit (.str "two"), .item (.nameValue "example" (.str "x"))]⟩,
    ⟨"serde", .list [.item (.nameValue "rename_all" (.str "UPPERCASE"))]⟩],
    .struct (.named [⟨some "n", [⟨"opg", .list [.lit (.str "one"), .item (.path "optional"), .item (.nameValue "format" (.str "f"))]⟩],
      .prim .u32⟩])⟩

/-- It is accepted, its texts are used, and what is left still has the other attributes. -/
example : (∃ c b, derive oracle wordyItem = .code c b ∧ c.attrs.description = some "two" ∧ c.wordless.attrs.description = none) ∧
    wordyItem.stripped = ⟨"A", [⟨"opg", .list []⟩, ⟨"serde", .list [.item (.nameValue "rename_all" (.str "UPPERCASE"))]⟩],
      .struct (.named [⟨some "n", [⟨"opg", .list [.item (.path "optional")]⟩], .prim .u32⟩])⟩ :=
  ⟨⟨_, _, rfl, rfl, rfl⟩, rfl⟩

end Sample

end Verif
