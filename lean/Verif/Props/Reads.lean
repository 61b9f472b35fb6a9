import Verif.Proof.Accepts
import Verif.Props.Precise
/-!
# C86: accepted values are read; C87: values that are read are accepted
-/

namespace Verif

open Sample

/-- **C86**, for readable types.  A program mentions some types, and the mentions return.  Each name is used by
reference for one type only; the derived types come out of the derive macro; all types reached are `Readable`.  Then
serde reads, as a value of the mentioned type, every JSON value without repeated keys that is accepted by a reference
which a mention returned.  This holds for both readings of `oneOf`.  Missing: types that are not readable (the
property is false of them, see below), and the metadata `nullable` and `variants` at the mention. -/
theorem c86_accepted_is_read_partial (x : Bool) (env : Env) (d : Reader) (calls : List Call) (rs : List Ref) (cx' : Components)
    (unique : NamesUnique env (rootsOf calls)) (mentions : ∀ c ∈ calls, c.isMention = true)
    (run : CallsReturn env Components.empty calls rs cx')
    (derived : ∀ i, Reached env (rootsOf calls) (.named i) → ∃ o input, Derived o env i input)
    (readable : ∀ t, Reached env (rootsOf calls) t → Readable env d t)
    (reg : List (String × Model)) (ext : ∀ n m, BMap.get n cx'.schemas = some m → BMap.get n reg = some m)
    (t : Ty) (inline : Bool) (p : Params) (r : Ref) (called : .mention t inline p ∈ calls)
    (nullable : p.nullable = none) (variants : p.variants = none)
    (mentioned : Mentions env t inline p r) (j : Json) (distinct : j.Distinct) (accepted : Valid x reg r j) :
    Reads env d t j := by
  obtain ⟨G, expands⟩ := grounds_of_run unique mentions run derived ext
  have hmem : (t, !inline) ∈ rootsOf calls := by
    rw [rootsOf_eq]
    exact List.mem_filterMap.2 ⟨_, called, rfl⟩
  have L : Legible x d (derivedSetting env (rootsOf calls)) reg :=
    ⟨G, fun t hr _ => readable t hr, fun t hr _ => (expands t hr).deep, fun _ _ _ h => nomatch h⟩
  exact readsBy_none.1 (mention_reads G variants (by rw [nullable]; exact fun h => nomatch h) mentioned
    ⟨.root hmem, fun h => .inl (by simp only at h; rw [← h]; exact hmem)⟩ (reads_all L (.root hmem)) accepted distinct)

/-- **C87**, for documented types.  A program mentions some types, and the mentions return.  Each name is used by
reference for one type only; the derived types come out of the derive macro; all types reached are `Documented`.  Then
every JSON value that serde reads as a value of the mentioned type is accepted by each reference a mention of it
returned, if `oneOf` is read as at least one.  Missing: types that are not documented in this sense (the property is
false of them, see below), and the other forms that `serde_json` reads (it is false of these too). -/
theorem c87_read_is_accepted_partial (env : Env) (d : Reader) (calls : List Call) (rs : List Ref) (cx' : Components)
    (unique : NamesUnique env (rootsOf calls)) (mentions : ∀ c ∈ calls, c.isMention = true)
    (run : CallsReturn env Components.empty calls rs cx')
    (derived : ∀ i, Reached env (rootsOf calls) (.named i) → ∃ o input, Derived o env i input)
    (documented : ∀ t, Reached env (rootsOf calls) t → Documented env d t) (strict : d.lenient = false)
    (reg : List (String × Model)) (ext : ∀ n m, BMap.get n cx'.schemas = some m → BMap.get n reg = some m)
    (t : Ty) (inline : Bool) (p : Params) (r : Ref) (called : .mention t inline p ∈ calls) (benign : p.Benign)
    (mentioned : Mentions env t inline p r) (j : Json) (read : Reads env d t j) : Valid false reg r j := by
  obtain ⟨G, -⟩ := grounds_of_run unique mentions run derived ext
  have hmem : (t, !inline) ∈ rootsOf calls := by
    rw [rootsOf_eq]
    exact List.mem_filterMap.2 ⟨_, called, rfl⟩
  have A : Acceptable d (derivedSetting env (rootsOf calls)) reg :=
    ⟨G, strict, fun t hr _ => documented t hr, fun _ _ _ h => nomatch h⟩
  exact mention_valid G benign mentioned ⟨.root hmem, fun h => .inl (by simp only at h; rw [← h]; exact hmem)⟩
    (readsBy_conforms A (readsBy_none.2 read))

namespace Sample

/-- `enum Cover { Hard, Soft }` -/
def coverInput : DeriveInput Ty := ⟨"Cover", [], .enum [var "Hard", var "Soft"]⟩
def cover : Container Ty := container "Cover" (fun a => { a with modelType := .newType }) (.enum [
  variantAs "Hard" "Hard" .unit [], variantAs "Soft" "Soft" .unit []])

/-- `#[serde(tag = "kind")] enum Format { Plain, Sized { width: f64 }, By(Author) }` -/
def formatInput : DeriveInput Ty := ⟨"Format", [attr "serde" [nv "tag" "kind"]], .enum [
  var "Plain", var "Sized" (.named [fld "width" (.prim .f64)]), var "By" (.unnamed [tfld (.named 3)])]⟩
def format : Container Ty := container "Format" (fun a => { a with tagType := .internal "kind", modelType := .oneOf }) (.enum [
  variantAs "Plain" "Plain" .unit [], variantAs "Sized" "Sized" .struct [field "width" (.prim .f64)],
  variantAs "By" "By" .newType [field "0" (.named 3)]])

/-- `struct Author { name: String }` -/
def authorInput : DeriveInput Ty := ⟨"Author", [], .struct (.named [fld "name" (.prim .string)])⟩
def author : Container Ty := struct "Author" [field "name" (.prim .string)]

/-- `struct Book { title: String, cover: Cover, formats: Vec<Format>, sold: HashMap<String, bool>,
#[serde(skip_serializing_if = "Option::is_none")] note: Option<String> }` -/
def bookInput : DeriveInput Ty := ⟨"Book", [], .struct (.named [fld "title" (.prim .string), fld "cover" (.named 1),
  fld "formats" (.seq .vec (.named 2)), fld "sold" (.dict .hashMap (.prim .bool)),
  fld "note" (.option (.prim .string)) [attr "serde" [nv "skip_serializing_if" "Option::is_none"]]])⟩
def book : Container Ty := struct "Book" [field "title" (.prim .string), field "cover" (.named 1),
  field "formats" (.seq .vec (.named 2)), field "sold" (.dict .hashMap (.prim .bool)),
  fieldAs "note" "note" (.option (.prim .string)) (fun f => { f with optional := true })]

def shop : Env := program [book, cover, format, author]
def shopCalls : List Call := [.mention (.named 0) false {}]
def shopTypes : List Ty := [.named 0, .named 1, .named 2, .named 3, .seq .vec (.named 2), .dict .hashMap (.prim .bool),
  .option (.prim .string), .prim .string, .prim .bool, .prim .f64]

theorem shop_closed : closedList shop (rootsOf shopCalls) shopTypes = true := by decide +kernel

theorem shop_derived {i} (h : .named i ∈ shopTypes) : ∃ o input, Derived o shop i input := by
  simp only [shopTypes, List.mem_cons, Ty.named.injEq, reduceCtorEq, List.not_mem_nil, or_false] at h
  rcases h with rfl | rfl | rfl | rfl
  · exact ⟨oracle, bookInput, _, rfl⟩
  · exact ⟨oracle, coverInput, _, rfl⟩
  · exact ⟨oracle, formatInput, _, rfl⟩
  · exact ⟨oracle, authorInput, _, rfl⟩

/-- The ranges of the integer types (64 bits for `isize` and `usize`). -/
def intRange : Prim → Int × Int
  | .i8 | .atomicI8 => (-128, 127)
  | .u8 | .atomicU8 => (0, 255)
  | .i16 | .atomicI16 => (-32768, 32767)
  | .u16 | .atomicU16 => (0, 65535)
  | .i32 | .atomicI32 => (-2147483648, 2147483647)
  | .u32 | .atomicU32 => (0, 4294967295)
  | .i64 | .isize | .atomicI64 | .atomicIsize => (-9223372036854775808, 9223372036854775807)
  | _ => (0, 18446744073709551615)

/-- What scalars read (formats of dates and identifiers are not checked here). -/
def rustScalar : Ty → Json → Prop
  | .prim p, j =>
    match p with
    | .char => ∃ c : Char, j = .str c.toString
    | .str | .string => ∃ t, j = .str t
    | .bool | .atomicBool => ∃ b, j = .bool b
    | .f32 | .f64 => (∃ t, j = .num t) ∨ ∃ i, j = .int i
    | p => ∃ i, j = .int i ∧ (intRange p).1 ≤ i ∧ i ≤ (intRange p).2
  | _, j => ∃ t, j = .str t

/-- A program without attributes that only serde reads: fields and variants are skipped both on writing and reading. -/
def rust (lenient : Bool) : Reader where
  scalar := rustScalar
  fieldKey _ f := f.key
  variantKey _ v := v.key
  hasDefault _ _ := false
  skips _ f := f.attrs.skipSerializing
  skipsVariant _ v := v.attrs.skipSerializing
  denyUnknown _ := false
  repr _ := none
  lenient := lenient

theorem author_object {m} (hm : HasSchema shop (.named 3) m) : ∃ d o, m = objectSchema d false o ∧
    "kind" ∉ BMap.keys o.properties ∧ "kind" ∉ o.required := by
  obtain ⟨body, hb, _, hy⟩ := named_yields hm
  cases hb
  obtain ⟨o, ho, rfl⟩ := yields_objectModel (inl := false) (pred := fun f => f.attrs.inline) (fun f => by simp) hy
  refine ⟨_, o, rfl, fun h => ?_, fun h => ?_⟩
  · simpa [serialFields, field, Field.key] using objectOf_keys ho h
  · rw [ho.required] at h
    simp [serialFields, field, Field.key] at h

theorem shop_readable {l t} (h : t ∈ shopTypes) : Readable shop (rust l) t := by
  simp only [shopTypes, List.mem_cons, List.not_mem_nil, or_false] at h
  rcases h with rfl | rfl | rfl | rfl | rfl | rfl | rfl | rfl | rfl | rfl <;>
    simp [Readable, ReadableDecl, ReadableFields, ReadableVariant, shop, program, book, cover, format, author, struct,
      container, containerAttrs, PlainFields, serialFields, field, fieldAs, variantAs, variantAttrs, writtenVariants, rust,
      Field.key, Variant.key, CanMiss, MayMiss, ScalarForm, rustScalar, Prim.family]
  exact fun m hm => author_object hm

theorem shop_documented {l t} (h : t ∈ shopTypes) : Documented shop (rust l) t := by
  simp only [shopTypes, List.mem_cons, List.not_mem_nil, or_false] at h
  rcases h with rfl | rfl | rfl | rfl | rfl | rfl | rfl | rfl | rfl | rfl <;>
    simp [Documented, DocumentedDecl, DocumentedFields, DocumentedVariant, shop, program, book, cover, format, author, struct,
      container, containerAttrs, PlainFields, serialFields, field, fieldAs, variantAs, variantAttrs, writtenVariants, rust,
      Field.key, Variant.key, CanMiss, MayMiss, ScalarForm, rustScalar, Prim.family]
  · intro m hm
    obtain ⟨d, o, rfl, h, _⟩ := author_object hm
    exact ⟨d, .inl ⟨o, rfl, h⟩⟩
  · intro m hm
    obtain ⟨td, _, rfl⟩ := yields_single (hasSchema_yields hm rfl)
    exact ⟨_, _, rfl⟩

/-- The hypotheses of both hold of a program with structs, enums and optional fields: without the other forms that
`serde_json` reads, the values it reads are those its documentation accepts. -/
example : ∃ rs cx, CallsReturn shop Components.empty shopCalls rs cx ∧
    (∀ x j, j.Distinct → Valid x cx.schemas (.link "Book") j → Reads shop (rust true) (.named 0) j) ∧
    ∀ j, j.Distinct → (Valid false cx.schemas (.link "Book") j ↔ Reads shop (rust false) (.named 0) j) := by
  refine ⟨_, _, .mention ⟨10, rfl⟩ (.nil _), ?_, ?_⟩
  · exact fun x j => c86_accepted_is_read_partial x shop (rust true) shopCalls _ _
      (namesUnique_of_closed shop_closed (by decide +kernel)) (by simp [shopCalls, Call.isMention])
      (.mention ⟨10, rfl⟩ (.nil _)) (fun i h => shop_derived (h.mem_closed shop_closed))
      (fun t h => shop_readable (h.mem_closed shop_closed))
      _ (fun _ _ h => h) (.named 0) false {} _ (by simp [shopCalls]) rfl rfl ⟨Components.empty, _, 10, rfl⟩ j
  · exact fun j hj => ⟨c86_accepted_is_read_partial false shop (rust false) shopCalls _ _
      (namesUnique_of_closed shop_closed (by decide +kernel)) (by simp [shopCalls, Call.isMention])
      (.mention ⟨10, rfl⟩ (.nil _)) (fun i h => shop_derived (h.mem_closed shop_closed))
      (fun t h => shop_readable (h.mem_closed shop_closed))
      _ (fun _ _ h => h) (.named 0) false {} _ (by simp [shopCalls]) rfl rfl ⟨Components.empty, _, 10, rfl⟩ j hj,
      c87_read_is_accepted_partial shop (rust false) shopCalls _ _
      (namesUnique_of_closed shop_closed (by decide +kernel)) (by simp [shopCalls, Call.isMention])
      (.mention ⟨10, rfl⟩ (.nil _)) (fun i h => shop_derived (h.mem_closed shop_closed))
      (fun t h => shop_documented (h.mem_closed shop_closed)) rfl
      _ (fun _ _ h => h) (.named 0) false {} _ (by simp [shopCalls]) ⟨by simp, rfl⟩ ⟨Components.empty, _, 10, rfl⟩ j⟩

end Sample

/-! ## C86 is false of the code in general -/

/-- Mentioning a type returns a reference that accepts a value which serde does not read. -/
def Unread (env : Env) (d : Reader) (t : Ty) (j : Json) : Prop :=
  ∃ r cx, MentionReturns env t false {} Components.empty r cx ∧ Valid true cx.schemas r j ∧ j.Distinct ∧ ¬ Reads env d t j

/-- C86 is false: no bounds are documented for integers. -/
theorem c86_range_is_false : ∃ env, Unread env (rust true) (.prim .u8) (.int 300) := by
  refine ⟨env, _, _, ⟨10, rfl⟩, .inline .integer, .int, ?_⟩
  intro h
  cases h with
  | scalar _ h =>
    obtain ⟨i, h1, h2, h3⟩ := h
    cases h1
    simp [intRange] at h3

/-- C86 is false: no length is documented for arrays. -/
theorem c86_length_is_false : ∃ env, Unread env (rust true) (.seq (.array 2) (.prim .u8)) (.arr []) := by
  refine ⟨env, _, _, ⟨10, rfl⟩, .inline (.array (by simp)), .arr (by simp), ?_⟩
  intro h
  cases h with
  | scalar h => exact h
  | seq hl => simpa using hl 2 rfl

/-- What is read for a struct is read field by field, from an object or from an array. -/
theorem reads_struct_obj {env : Env} {d : Reader} {i fs es} (hd : (env.decl i).data = .struct .struct fs)
    (h : Reads env d (.named i) (.obj es)) : Fits d i fs es := by
  cases h with
  | scalar h => exact h.elim
  | struct hd' _ _ hf => rw [hd] at hd'; cases hd'; exact hf
  | newtypeStruct hd' => rw [hd] at hd'; cases hd'
  | explicitNewtype hd' => rw [hd] at hd'; cases hd'
  | unitVariant hd' => rw [hd] at hd'; cases hd'
  | newtypeVariant hd' => rw [hd] at hd'; cases hd'
  | tupleVariant hd' => rw [hd] at hd'; cases hd'
  | structVariant hd' => rw [hd] at hd'; cases hd'
  | structVariantSeq _ hd' => rw [hd] at hd'; cases hd'

/-- `struct S { #[serde(skip_serializing_if = "String::is_empty")] x: String }` -/
def Sample.skipIf : DeriveInput Ty := ⟨"S", [], .struct (.named [
  fld "x" (.prim .string) [attr "serde" [nv "skip_serializing_if" "String::is_empty"]]])⟩
def Sample.skipIfC : Container Ty := struct "S" [fieldAs "x" "x" (.prim .string) (fun f => { f with optional := true })]

/-- C86 is false: a field that may be left out on writing is documented as optional, although it has no default to
read. -/
theorem c86_optional_is_false : ∃ env, Derived oracle env 0 skipIf ∧ Unread env (rust true) (.named 0) (.obj []) := by
  refine ⟨program [skipIfC], ⟨_, rfl⟩, _, _, ⟨10, rfl⟩, .link rfl (.object ?_ (by simp) (by simp)), .obj (by simp) (by simp), ?_⟩
  · intro k hk; exact nomatch hk
  · intro h
    have := (reads_struct_obj rfl h).missing (fieldAs "x" "x" (.prim .string) (fun f => { f with optional := true }))
      (by simp [readFields, rust, fieldAs, field]) (by simp)
    rcases this with h | ⟨_, h⟩
    · cases h
    · exact h

/-- `struct S { #[serde(skip_serializing)] x: String }` -/
def Sample.writeSkip : DeriveInput Ty := ⟨"S", [], .struct (.named [
  fld "x" (.prim .string) [attr "serde" [word "skip_serializing"]]])⟩
def Sample.writeSkipC : Container Ty := struct "S" [fieldAs "x" "x" (.prim .string) (fun f => { f with skipSerializing := true })]

/-- C86 is false: a field that is only skipped on writing is not documented, although reading needs it. -/
theorem c86_skipped_is_false : ∃ env, Derived oracle env 0 writeSkip ∧
    Unread env { rust true with skips := fun _ _ => false } (.named 0) (.obj []) := by
  refine ⟨program [writeSkipC], ⟨_, rfl⟩, _, _, ⟨10, rfl⟩, .link rfl (.object ?_ (by simp) (by simp)), .obj (by simp) (by simp), ?_⟩
  · intro k hk; exact nomatch hk
  · intro h
    have := (reads_struct_obj rfl h).missing (fieldAs "x" "x" (.prim .string) (fun f => { f with skipSerializing := true }))
      (by simp [readFields]) (by simp)
    rcases this with h | ⟨_, h⟩
    · cases h
    · exact h

/-- C86 is false: `#[serde(deny_unknown_fields)]` is not documented. -/
theorem c86_unknown_is_false : ∃ env, Derived oracle env 0 authorInput ∧
    Unread env { rust true with denyUnknown := fun _ => true } (.named 0) (.obj [("name", .str "a"), ("more", .null)]) := by
  refine ⟨program [author], ⟨_, rfl⟩, _, _, ⟨10, rfl⟩, .link rfl (.object ?_ ?_ (by simp)), .obj (by simp) ?_, ?_⟩
  · intro k hk
    obtain rfl : k = "name" := by simpa using (show k ∈ ["name"] from hk)
    simp [BMap.keys]
  · intro k j r hm hg
    simp only [List.mem_cons, Prod.mk.injEq, List.not_mem_nil, or_false] at hm
    rcases hm with ⟨rfl, rfl⟩ | ⟨rfl, rfl⟩
    · obtain rfl := Option.some.inj hg
      exact .inline (.string (fun _ h => nomatch h))
    · exact nomatch hg
  · intro e he
    simp only [List.mem_cons, List.not_mem_nil, or_false] at he
    rcases he with rfl | rfl
    · exact .str
    · exact .null
  · intro h
    obtain ⟨f, hf, hk⟩ := (reads_struct_obj rfl h).unknown rfl ("more", .null) (by simp)
    simp only [readFields, rust, List.mem_filter, List.mem_singleton] at hf
    obtain ⟨rfl, _⟩ := hf
    simp [rust, Field.key, field] at hk

/-- What is read for an enum is one of its variants. -/
theorem reads_enum {env : Env} {d : Reader} {i vs j} (hd : (env.decl i).data = .enum vs) (hr : d.repr i = none)
    (h : Reads env d (.named i) j) : ∃ v ∈ vs, ∃ c, TaggedAs d.lenient (env.decl i).attrs.tagType (d.variantKey i v) j c := by
  cases h with
  | scalar h => exact h.elim
  | unitStruct hd' => rw [hd] at hd'; cases hd'
  | struct hd' => rw [hd] at hd'; cases hd'
  | structSeq _ hd' => rw [hd] at hd'; cases hd'
  | tupleStruct hd' => rw [hd] at hd'; cases hd'
  | newtypeStruct hd' => rw [hd] at hd'; cases hd'
  | explicitNewtype hd' => rw [hd] at hd'; cases hd'
  | repr _ h => rw [hr] at h; cases h
  | unitVariant hd' _ hv _ _ hj => rw [hd] at hd'; cases hd'; exact ⟨_, hv, _, hj⟩
  | newtypeVariant hd' _ hv _ _ _ _ hj => rw [hd] at hd'; cases hd'; exact ⟨_, hv, _, hj⟩
  | tupleVariant hd' _ hv _ _ hj => rw [hd] at hd'; cases hd'; exact ⟨_, hv, _, hj⟩
  | structVariant hd' _ hv _ _ hj => rw [hd] at hd'; cases hd'; exact ⟨_, hv, _, hj⟩
  | structVariantSeq _ hd' _ hv _ _ hj => rw [hd] at hd'; cases hd'; exact ⟨_, hv, _, hj⟩

theorem TaggedAs.key_of_single {l k k' y c} (h : TaggedAs l .external k (.obj [(k', y)]) c) : k = k' := by
  generalize hj : Json.obj [(k', y)] = j at h
  generalize ht : TagType.external = t at h
  cases h <;> first | (cases ht; done) | (cases hj; done) | skip
  · injection hj with hj; injection hj with hj; injection hj with hj; exact hj.symm
  · injection hj with hj; injection hj with hj; injection hj with hj; exact hj.symm

/-- C86 is false: the documentation of an enum with data and without `tag` accepts objects with any keys. -/
theorem c86_external_is_false : ∃ env, Derived oracle env 0 mixed ∧
    Unread env (rust true) (.named 0) (.obj [("nobody", .int 1)]) := by
  refine ⟨program [mixedC], ⟨_, rfl⟩, _, _, ⟨10, rfl⟩, ?_, .obj (by simp) (by simp [Json.Distinct.int]), ?_⟩
  · refine .link rfl (.object (by simp) (by simp) ?_)
    intro k j r hm _ hr
    simp only [List.mem_singleton, Prod.mk.injEq] at hm
    obtain ⟨rfl, rfl⟩ := hm
    obtain rfl := Option.some.inj hr
    refine .inline (.oneOf (pre := [_]) (post := []) rfl (.inline .integer) ?_)
    intro _ r' hr'
    simp only [List.append_nil, List.mem_singleton] at hr'
    subst hr'
    exact .inline (.type (fun h => nomatch h) (fun h => h))
  · intro h
    obtain ⟨v, hv, c, hc⟩ := reads_enum rfl rfl h
    have hk : v.key = "nobody" := hc.key_of_single
    simp only [List.mem_cons, List.not_mem_nil, or_false] at hv
    rcases hv with rfl | rfl <;> simp [variantAs, variantAttrs, Variant.key] at hk

/-! ## C87 is false of the code in general -/

/-- Mentioning a type returns a reference that refuses a value which serde reads. -/
def Refused (env : Env) (d : Reader) (t : Ty) (j : Json) : Prop :=
  ∃ r cx, MentionReturns env t false {} Components.empty r cx ∧ Reads env d t j ∧ ¬ Valid false cx.schemas r j

/-- `struct S { x: Option<String> }` -/
def Sample.maybe : DeriveInput Ty := ⟨"S", [], .struct (.named [fld "x" (.option (.prim .string))])⟩
def Sample.maybeC : Container Ty := struct "S" [field "x" (.option (.prim .string))]

theorem refused_required {reg : List (String × Model)} {d n o k} (h : k ∈ o.required) :
    ¬ ValidModel false reg (objectSchema d n o) (.obj []) := by
  intro hv
  cases hv with
  | object hr => exact nomatch hr k h

/-- C87 is false: serde reads a missing `Option`, but it is documented as required. -/
theorem c87_option_is_false : ∃ env, Derived oracle env 0 maybe ∧ Refused env (rust false) (.named 0) (.obj []) := by
  refine ⟨program [maybeC], ⟨_, rfl⟩, _, _, ⟨10, rfl⟩, ?_, not_valid_link rfl (refused_required (k := "x") (.head _))⟩
  refine .struct (fs := [field "x" (.option (.prim .string))]) rfl rfl (fun t h => nomatch h) ⟨?_, ?_, ?_, ?_, ?_⟩ ?_
  · simp [readFields, field]
  · simp
  · intro f hf _
    simp only [readFields, List.mem_filter, List.mem_singleton] at hf
    obtain ⟨rfl, _⟩ := hf
    exact .inr ⟨rfl, trivial⟩
  · simp
  · intro h; cases h
  · simp

/-- C87 is false: a field with `#[serde(default)]` is documented as required. -/
theorem c87_default_is_false : ∃ env, Derived oracle env 0 authorInput ∧
    Refused env { rust false with hasDefault := fun _ _ => true } (.named 0) (.obj []) := by
  refine ⟨program [author], ⟨_, rfl⟩, _, _, ⟨10, rfl⟩, ?_, not_valid_link rfl (refused_required (k := "name") (.head _))⟩
  refine .struct (fs := [field "name" (.prim .string)]) rfl rfl (fun t h => nomatch h) ⟨?_, ?_, ?_, ?_, ?_⟩ ?_
  · simp [readFields, field]
  · simp
  · exact fun f _ _ => .inl rfl
  · simp
  · intro h; cases h
  · simp

/-- C87 is false: `serde_json` reads structs from arrays. -/
theorem c87_array_is_false : ∃ env, Derived oracle env 0 authorInput ∧
    Refused env (rust true) (.named 0) (.arr [.str "a"]) := by
  refine ⟨program [author], ⟨_, rfl⟩, _, _, ⟨10, rfl⟩, ?_,
    not_valid_link rfl (not_valid_type (fun h => h) (fun _ h => nomatch h))⟩
  have hread : readFields (rust true) 0 [field "name" (.prim .string)] = [field "name" (.prim .string)] := rfl
  refine .structSeq (fs := [field "name" (.prim .string)]) rfl rfl rfl (fun t h => nomatch h) ⟨?_, ?_, ?_⟩ ?_ <;> rw [hread]
  · simp
  · intro k f hf hk
    cases k with
    | zero => simp at hk
    | succ k => simp at hf
  · intro k f y t hf _ ht
    cases k with
    | zero => simp at hf; subst hf; cases ht
    | succ k => simp at hf
  · intro k f y hf hy _
    cases k with
    | zero =>
      simp at hf hy
      subst hf hy
      exact .scalar trivial ⟨_, rfl⟩
    | succ k => simp at hf

/-- C87 is false: `serde_json` reads unit variants from objects. -/
theorem c87_unit_variant_is_false : ∃ env, Derived oracle env 0 coverInput ∧
    Refused env (rust true) (.named 0) (.obj [("Hard", .null)]) := by
  refine ⟨program [cover], ⟨_, rfl⟩, _, _, ⟨10, rfl⟩, ?_,
    not_valid_link rfl (not_valid_type (fun h => h) (fun _ h => nomatch h))⟩
  exact .unitVariant (v := variantAs "Hard" "Hard" .unit []) rfl rfl (.head _) rfl rfl (.externalNull rfl)

/-- C87 is false: a one-tuple is read from an array, but documented as its component. -/
theorem c87_tuple_is_false : ∃ env, Refused env (rust false) (.wrap .tuple1 (.prim .string)) (.arr [.str "a"]) :=
  ⟨env, _, _, ⟨10, rfl⟩, .tuple1 (.scalar trivial ⟨_, rfl⟩), not_valid_inline (not_valid_type (fun h => h) (fun _ h => nomatch h))⟩

end Verif
