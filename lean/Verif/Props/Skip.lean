import Verif.Proof.Skip
import Verif.Proof.Positional
import Verif.Proof.MixedSame
import Verif.Props.Mixed
import Verif.Props.Published
/-!
# C101: skipped fields and variants leave no trace
-/

namespace Verif

/-- The enum is adjacently tagged. -/
def AdjacentlyTagged {τ : Type} (o : Oracle) (item : DeriveInput τ) : Prop :=
  ∃ tag content, Tagging (ContainerGives o item.data.kind) item.attrs (.adjacent tag content)

/-- **C101**, the macro: if an item is accepted, it is without the skipped named fields of a struct, without skipped
variants, and without the skipped named fields of variants; the generated code is the same.  Excepted are the fields of
variants in adjacently tagged enums, and skipped variants if no others have fields.  Missing: these, and the skipped
fields of tuple structs and tuple variants, for which the claim is false (below). -/
theorem c101_macro_partial {τ : Type} (o : Oracle) (inside : Bool) (item item' : DeriveInput τ) (c : Container τ) (body : ModelExpr τ)
    (accepted : derive o item = .code c body) (without : ItemWithout o inside item item')
    (tags : inside = true → ¬AdjacentlyTagged o item) :
    ∃ c', derive o item' = .code c' body ∧ c'.typeName = c.typeName := by
  obtain ⟨c', h1, h2, -⟩ := derive_thin without accepted fun hi tag content ht =>
    tags hi ⟨tag, content, ((container_parsed accepted).tag _).1 ht⟩
  exact ⟨c', h1, h2⟩

/-- The types are derived from items that are the same but for such skipped parts. -/
def SameBarSkipped (env env' : Env) (i : Nat) : Prop :=
  ∃ o inside item item' common, Derived o env i item ∧ Derived o env' i item' ∧
    ItemWithout o inside item common ∧ ItemWithout o inside item' common ∧
    (inside = true → ¬AdjacentlyTagged o item ∧ ¬AdjacentlyTagged o item')

theorem SameBarSkipped.code {env env' : Env} {i : Nat} (h : SameBarSkipped env env' i) :
    (env'.decl i).typeName = (env.decl i).typeName ∧ serializeBody (env'.decl i) = serializeBody (env.decl i) := by
  obtain ⟨o, inside, item, item', t, ⟨b, h1⟩, ⟨b', h1'⟩, h2, h2', h3⟩ := h
  obtain ⟨c, h4, h5⟩ := c101_macro_partial o inside item t _ _ h1 h2 fun hi => (h3 hi).1
  obtain ⟨c', h4', h5'⟩ := c101_macro_partial o inside item' t _ _ h1' h2' fun hi => (h3 hi).2
  rw [h4] at h4'
  cases h4'
  exact ⟨h5'.symm.trans h5, (derive_code h1').2.trans (derive_code h1).2.symm⟩

/-- **C101**: programs that differ in such skipped parts only have the same schemas, registered and returned by mentions,
and the same documents.  Missing: the exceptions of `c101_macro_partial`. -/
theorem c101_documents_partial (env env' : Env) (exprs : env'.evalExpr = env.evalExpr) (same : ∀ i, SameBarSkipped env env' i) :
    (∀ t cx m cx', SchemaReturns env' t cx m cx' ↔ SchemaReturns env t cx m cx') ∧
    (∀ t inline p cx r cx', MentionReturns env' t inline p cx r cx' ↔ MentionReturns env t inline p cx r cx') ∧
    ∀ reason api d, Describes env' reason api d ↔ Describes env reason api d := by
  have ha := agree_of_code exprs fun i => (same i).code
  refine ⟨fun t cx m cx' => ?_, fun t inline p cx r cx' => ?_, fun reason api d => ha.describes reason api (fun _ _ => trivial) d⟩
  · exact exists_congr fun n => by rw [getSchema_same ha n t trivial]
  · refine exists_congr fun n => ?_
    unfold mentionSchema
    rw [mentionWith_same ha (getSchema_same ha n) trivial]

/-- **C101**, where some types are documented by hand: it is enough that the others are the same but for such skipped parts.
Missing: as in `c101_macro_partial`. -/
theorem c101_mixed_partial (env env' : Env) (custom : Nat → Option (Impl Ty)) (exprs : env'.evalExpr = env.evalExpr)
    (same : ∀ i, custom i = none → SameBarSkipped env env' i) :
    (∀ (α : Type) (code : Prog Ty α) cx a cx', ProgReturns (impls env' custom) code cx a cx' ↔ ProgReturns (impls env custom) code cx a cx') ∧
    ∀ reason api d, DescribesVia (impls env' custom) reason api d ↔ DescribesVia (impls env custom) reason api d := by
  rw [impls_env exprs fun i h => (same i h).code]
  exact ⟨fun _ _ _ _ _ => Iff.rfl, fun _ _ _ => Iff.rfl⟩

namespace Sample

def skip : Attribute := attr "serde" [word "skip"]

/-- `struct Leaf { n: u32, #[serde(skip)] cache: Left }` -/
def cachedLeaf : DeriveInput Ty := ⟨"Leaf", [], .struct (.named [fld "n" (.prim .u32), fld "cache" (.named 0) [skip]])⟩
def bareLeaf : DeriveInput Ty := ⟨"Leaf", [], .struct (.named [fld "n" (.prim .u32)])⟩
def leftItem : DeriveInput Ty := ⟨"Left", [], .struct (.named [fld "leaf" (.named 2)])⟩
def rightItem : DeriveInput Ty := ⟨"Right", [], .struct (.named [fld "leaf" (.wrap .box (.named 2))])⟩
def cachedLeafType : Container Ty :=
  struct "Leaf" [field "n" (.prim .u32), fieldAs "cache" "cache" (.named 0) fun a => { a with skipSerializing := true }]
def caching : Env := ⟨fun
  | 0 => struct "Left" [field "leaf" (.named 2)]
  | 1 => struct "Right" [field "leaf" (.wrap .box (.named 2))]
  | _ => cachedLeafType, id⟩

theorem gives_skip {τ : Type} (f : SynField τ) (h : f.attrs = [skip]) : Gives (FieldGives oracle) f.attrs .skipSerializing .unit :=
  ⟨[(.serde, word "skip")], by rw [h]; rfl, _, List.mem_singleton.2 rfl, .skip⟩
theorem variant_gives_skip {τ : Type} (v : SynVariant τ) (h : v.attrs = [skip]) :
    Gives (VariantGives oracle) v.attrs .skipSerializing .unit :=
  ⟨[(.serde, word "skip")], by rw [h]; rfl, _, List.mem_singleton.2 rfl, .skip⟩

theorem caching_same (i : Nat) : SameBarSkipped diamond caching i := by
  match i with
  | 0 => exact ⟨oracle, false, leftItem, leftItem, leftItem, ⟨_, rfl⟩, ⟨_, rfl⟩, ⟨rfl, rfl, .same _⟩, ⟨rfl, rfl, .same _⟩, nofun⟩
  | 1 => exact ⟨oracle, false, rightItem, rightItem, rightItem, ⟨_, rfl⟩, ⟨_, rfl⟩, ⟨rfl, rfl, .same _⟩, ⟨rfl, rfl, .same _⟩, nofun⟩
  | n + 2 =>
    exact ⟨oracle, false, bareLeaf, cachedLeaf, bareLeaf, ⟨_, rfl⟩, ⟨_, rfl⟩, ⟨rfl, rfl, .same _⟩,
      ⟨rfl, rfl, .struct (.keep (by simp [fld]) (.drop (gives_skip _ rfl) .nil))⟩, nofun⟩

example : Describes caching reason publishedApi published :=
  ((c101_documents_partial diamond caching rfl caching_same).2.2 _ _ _).2 published_described

/-- `Left` is documented by hand, and is another type in the second program. -/
def handedLeft : Nat → Option (Impl Ty)
  | 0 => some petImpl
  | _ => none
def cachingOther : Env := ⟨fun
  | 0 => struct "Other" []
  | 1 => struct "Right" [field "leaf" (.wrap .box (.named 2))]
  | _ => cachedLeafType, id⟩

example (reason api d) : DescribesVia (impls cachingOther handedLeft) reason api d ↔ DescribesVia (impls diamond handedLeft) reason api d :=
  (c101_mixed_partial diamond cachingOther handedLeft rfl fun i h => by
    match i with
    | 0 => cases h
    | 1 => exact ⟨oracle, false, rightItem, rightItem, rightItem, ⟨_, rfl⟩, ⟨_, rfl⟩, ⟨rfl, rfl, .same _⟩, ⟨rfl, rfl, .same _⟩, nofun⟩
    | n + 2 => exact ⟨oracle, false, bareLeaf, cachedLeaf, bareLeaf, ⟨_, rfl⟩, ⟨_, rfl⟩, ⟨rfl, rfl, .same _⟩,
        ⟨rfl, rfl, .struct (.keep (by simp [fld]) (.drop (gives_skip _ rfl) .nil))⟩, nofun⟩).2 _ _ _

/-- `enum E { A(u8), B { a: u8, #[serde(skip)] b: bool }, #[serde(skip)] C }` -/
def skippingInput : DeriveInput Ty := ⟨"E", [], .enum [var "A" (.unnamed [tfld (.prim .u8)]),
  var "B" (.named [fld "a" (.prim .u8), fld "b" (.prim .bool) [skip]]), var "C" .unit [skip]]⟩
/-- `enum E { A(u8), B { a: u8 } }` -/
def skippedInput : DeriveInput Ty := ⟨"E", [], .enum [var "A" (.unnamed [tfld (.prim .u8)]), var "B" (.named [fld "a" (.prim .u8)])]⟩

example : ∃ c c' body, derive oracle skippingInput = .code c body ∧ derive oracle skippedInput = .code c' body := by
  obtain ⟨c, body, h⟩ : ∃ c body, derive oracle skippingInput = .code c body ∧ c.attrs.tagType = .external := ⟨_, _, rfl, rfl⟩
  obtain ⟨c', h', -⟩ := c101_macro_partial oracle true skippingInput skippedInput c body h.1
    ⟨rfl, rfl, .enum (.keep (.same _) (.keep (.named rfl (.keep (by simp [fld]) (.drop (gives_skip _ rfl) .nil)))
      (.drop (variant_gives_skip _ rfl) .nil))) fun hu => by
        have := hu _ List.mem_cons_self
        cases this⟩
    (by
      rintro - ⟨t, k, ht⟩
      have := ((container_parsed h.1).tag _).2 ht
      rw [h.2] at this
      cases this)
  exact ⟨c, c', body, h.1, h'⟩

/-- `struct P(u8, #[serde(skip)] bool);` and `struct P(u8, #[serde(skip)] String);` -/
def skippedPair (t : Ty) : DeriveInput Ty := ⟨"P", [], .struct (.unnamed [tfld (.prim .u8), tfld t [skip]])⟩

/-- `enum E { A, #[serde(skip)] B(u8) }` -/
def skippedData : DeriveInput Ty := ⟨"E", [], .enum [var "A", var "B" (.unnamed [tfld (.prim .u8)]) [skip]]⟩
def onlyUnit : DeriveInput Ty := ⟨"E", [], .enum [var "A"]⟩

/-- `#[serde(tag = "t", content = "c")] enum E { A { a: u8, #[serde(skip)] b: bool } }` -/
def skippedInside : DeriveInput Ty := ⟨"E", [attr "serde" [nv "tag" "t", nv "content" "c"]],
  .enum [var "A" (.named [fld "a" (.prim .u8), fld "b" (.prim .bool) [skip]])]⟩
def nothingSkipped : DeriveInput Ty := ⟨"E", [attr "serde" [nv "tag" "t", nv "content" "c"]],
  .enum [var "A" (.named [fld "a" (.prim .u8)])]⟩

def pairType (t : Ty) : Container Ty := container "P" (fun a => { a with modelType := .newType })
  (.struct .tuple [fieldAs "0" "0" (.prim .u8), fieldAs "1" "1" t fun a => { a with skipSerializing := true }])

end Sample

/-- **C101** is false of tuples: the types of skipped fields are documented, and registered. -/
theorem c101_is_false_tuple : ∃ env env', Derived Sample.oracle env 0 (Sample.skippedPair (.prim .bool)) ∧
    Derived Sample.oracle env' 0 (Sample.skippedPair (.prim .string)) ∧
    ∃ m m', HasSchema env (.named 0) m ∧ HasSchema env' (.named 0) m' ∧ m ≠ m' := by
  refine ⟨Sample.program [Sample.pairType (.prim .bool)], Sample.program [Sample.pairType (.prim .string)], ⟨_, rfl⟩, ⟨_, rfl⟩,
    _, _, ⟨.empty, .empty, 5, rfl⟩, ⟨.empty, .empty, 5, rfl⟩, ?_⟩
  intro h
  cases h

open Sample in
/-- **C101** is false if the skipped variants are all that have fields: the others are not documented as in an enum of unit
variants. -/
theorem c101_is_false_variant : ∃ env env', Derived oracle env 0 skippedData ∧ Derived oracle env' 0 onlyUnit ∧
    ∃ m m', HasSchema env (.named 0) m ∧ HasSchema env' (.named 0) m' ∧ m ≠ m' := by
  refine ⟨program [container "E" (fun a => { a with modelType := .dictionary }) (.enum [variantAs "A" "A" .unit [],
      variantAs "B" "B" .newType [fieldAs "0" "0" (.prim .u8)] fun a => { a with skipSerializing := true }])],
    program [container "E" (fun a => { a with modelType := .newType }) (.enum [variantAs "A" "A" .unit []])],
    ⟨_, rfl⟩, ⟨_, rfl⟩, _, _, ⟨.empty, .empty, 5, rfl⟩, ⟨.empty, .empty, 5, rfl⟩, ?_⟩
  intro h
  cases h

open Sample in
/-- **C101** is false of variants in adjacently tagged enums: their skipped fields are documented. -/
theorem c101_is_false_adjacent : ∃ env env', Derived oracle env 0 skippedInside ∧ Derived oracle env' 0 nothingSkipped ∧
    ∃ m m', HasSchema env (.named 0) m ∧ HasSchema env' (.named 0) m' ∧ m ≠ m' := by
  refine ⟨program [container "E" (fun a => { a with tagType := .adjacent "t" "c", modelType := .object }) (.enum [variantAs "A" "A" .struct
      [fieldAs "a" "a" (.prim .u8), fieldAs "b" "b" (.prim .bool) fun a => { a with skipSerializing := true }]])],
    program [container "E" (fun a => { a with tagType := .adjacent "t" "c", modelType := .object }) (.enum [variantAs "A" "A" .struct
      [fieldAs "a" "a" (.prim .u8)]])],
    ⟨_, rfl⟩, ⟨_, rfl⟩, _, _, ⟨.empty, .empty, 5, rfl⟩, ⟨.empty, .empty, 5, rfl⟩, ?_⟩
  intro h
  cases h

/-- **C101** fails wherever fields are not named, and for all fields of adjacently tagged enums: two items which are the
same but for `skip` on such fields are documented by the same code. -/
theorem c101_positional {τ : Type} (o : Oracle) (item item' : DeriveInput τ) (c c' : Container τ) (body body' : ModelExpr τ)
    (accepted : derive o item = .code c body) (accepted' : derive o item' = .code c' body')
    (same : c.unskipped = c'.unskipped) : body = body' := by
  have h := serializeBody_unskipped (derive_shaped accepted)
  have h' := serializeBody_unskipped (derive_shaped accepted')
  rw [same, h', (derive_code accepted).2, (derive_code accepted').2] at h
  cases h
  rfl

open Sample in
/-- `struct P(u8, #[serde(skip)] bool);` is documented as `struct P(u8, bool);`. -/
example : ∃ c c' body body', derive oracle (skippedPair (.prim .bool)) = .code c body ∧
    derive oracle ⟨"P", [], .struct (.unnamed [tfld (.prim .u8), tfld (.prim .bool)])⟩ = .code c' body' ∧
    c.unskipped = c'.unskipped ∧ c ≠ c' := by
  refine ⟨_, _, _, _, rfl, rfl, rfl, ?_⟩
  intro h
  cases h

end Verif
