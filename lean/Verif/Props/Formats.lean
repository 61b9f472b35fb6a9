import Verif.Spec.Formats
import Verif.Proof.Examples
import Verif.Props.Generation
import Verif.Props.OpenApi
/-!
# C70, C71, C72: formats, examples and the documentation of fields
-/

namespace Verif

variable {env : Env}

/-! ## C70 -/

theorem around_schema {c t : Ty} {td : TypeDesc} (hc : ∀ m, HasSchema env c m → ScalarSchema m td) (h : Around c t) :
    ∀ m, HasSchema env t m → ScalarSchema m td := by
  induction h with
  | here => exact hc
  | @wrap w t _ ih =>
    rintro m ⟨cx, cx', hm⟩
    exact ih m ⟨cx, cx', ((c35_wrappers_transparent env w t cx cx').2.1 m).1 hm⟩
  | @option t _ ih =>
    rintro m ⟨cx, cx', hm⟩
    rw [schemaReturns_iff (e := .getSchemaWithParams t { nullable := some true }) rfl] at hm
    obtain ⟨n, hm⟩ := hm
    simp only [ModelExpr.eval] at hm
    cases hg : getSchema env n t cx with
    | none => simp [hg] at hm
    | some x =>
      simp only [hg, Option.some.injEq, Prod.mk.injEq] at hm
      obtain ⟨d, n', hx⟩ := ih x.1 ⟨cx, x.2, n, hg⟩
      obtain ⟨rfl, _⟩ := hm
      rw [hx]
      refine ⟨d, true, ?_⟩
      cases td <;> rfl

/-- The schema of a built-in scalar type. -/
theorem scalar_schema {c : Ty} {d n e td} (he : schemaExpr env c = some (.single d n e))
    (htd : ∀ n' cx, e.eval env (getSchema env n') cx = some (td, cx)) {m} (h : HasSchema env c m) : ScalarSchema m td := by
  obtain ⟨cx, cx', h⟩ := h
  rw [schemaReturns_iff he] at h
  obtain ⟨k, h⟩ := h
  simp only [ModelExpr.eval, htd, Option.some.injEq, Prod.mk.injEq] at h
  exact ⟨_, _, h.1.symm⟩

/-- The schema of a primitive type. -/
def primDesc (p : Prim) : TypeDesc :=
  match p.schema with
  | (.string, f) => .string none f none
  | (.number, f) => .number f none
  | (.integer, f) => .integer f none
  | (.boolean, _) => .boolean

theorem prim_schema {p : Prim} {t m} (h : Around (.prim p) t) (hm : HasSchema env t m) : ScalarSchema m (primDesc p) := by
  refine around_schema (fun m hm => ?_) h m hm
  refine scalar_schema (e := simpleExpr p.schema.1 p.schema.2) rfl (fun n' cx => ?_) hm
  cases p <;> rfl

theorem toNat_surj {n : Nat} {α : Type} (of : Nat → α) (to : α → Nat) (h : ∀ k, k < n → to (of k) = k) {i : Int}
    (h1 : 0 ≤ i) (h2 : i < n) : ∃ x, i = (to x : Int) :=
  ⟨of i.toNat, by rw [h _ (by omega)]; omega⟩

/-- The integers a fixed width type has. -/
theorem int_values {p : Prim} {f lo hi} (hs : p.schema = (.integer, some f)) (hf : formatRange f = some (lo, hi)) (j : Json) :
    p.Value j ↔ ∃ i, j = .int i ∧ lo ≤ i ∧ i ≤ hi := by
  have S : ∀ {α : Type} (to : α → Int) (lo hi : Int), (∀ x, lo ≤ to x ∧ to x ≤ hi) →
      (∀ i, lo ≤ i → i ≤ hi → ∃ x, i = to x) →
      ((∃ x, j = .int (to x)) ↔ ∃ i, j = .int i ∧ lo ≤ i ∧ i ≤ hi) := by
    intro α to lo hi h1 h2
    constructor
    · rintro ⟨x, rfl⟩; exact ⟨_, rfl, h1 x⟩
    · rintro ⟨i, rfl, h3, h4⟩
      obtain ⟨x, rfl⟩ := h2 i h3 h4
      exact ⟨x, rfl⟩
  cases p <;> simp only [Prim.schema, Prod.mk.injEq, reduceCtorEq, Option.some.injEq, false_and, and_false, true_and] at hs <;>
    subst hs <;>
    simp only [formatRange, String.reduceEq, if_true, if_false, Option.some.injEq, signedRange, unsignedRange, Prod.mk.injEq] at hf <;>
    obtain ⟨rfl, rfl⟩ := hf <;> simp only [Prim.Value]
  case i8 | atomicI8 =>
    exact S Int8.toInt _ _ (fun x => ⟨x.le_toInt, by have := x.toInt_lt; omega⟩)
      (fun i h1 h2 => ⟨.ofInt i, (Int8.toInt_ofInt_of_le h1 (by omega)).symm⟩)
  case i16 | atomicI16 =>
    exact S Int16.toInt _ _ (fun x => ⟨x.le_toInt, by have := x.toInt_lt; omega⟩)
      (fun i h1 h2 => ⟨.ofInt i, (Int16.toInt_ofInt_of_le h1 (by omega)).symm⟩)
  case i32 | atomicI32 =>
    exact S Int32.toInt _ _ (fun x => ⟨x.le_toInt, by have := x.toInt_lt; omega⟩)
      (fun i h1 h2 => ⟨.ofInt i, (Int32.toInt_ofInt_of_le h1 (by omega)).symm⟩)
  case i64 | atomicI64 =>
    exact S Int64.toInt _ _ (fun x => ⟨x.le_toInt, by have := x.toInt_lt; omega⟩)
      (fun i h1 h2 => ⟨.ofInt i, (Int64.toInt_ofInt_of_le h1 (by omega)).symm⟩)
  case u8 | atomicU8 =>
    exact S (fun x : UInt8 => (x.toNat : Int)) _ _ (fun x => ⟨by omega, by have := x.toNat_lt; omega⟩)
      (fun i h1 h2 => toNat_surj (n := 2 ^ 8) UInt8.ofNat UInt8.toNat (fun k h => UInt8.toNat_ofNat_of_lt' h) h1 (by omega))
  case u16 | atomicU16 =>
    exact S (fun x : UInt16 => (x.toNat : Int)) _ _ (fun x => ⟨by omega, by have := x.toNat_lt; omega⟩)
      (fun i h1 h2 => toNat_surj (n := 2 ^ 16) UInt16.ofNat UInt16.toNat (fun k h => UInt16.toNat_ofNat_of_lt' h) h1 (by omega))
  case u32 | atomicU32 =>
    exact S (fun x : UInt32 => (x.toNat : Int)) _ _ (fun x => ⟨by omega, by have := x.toNat_lt; omega⟩)
      (fun i h1 h2 => toNat_surj (n := 2 ^ 32) UInt32.ofNat UInt32.toNat (fun k h => UInt32.toNat_ofNat_of_lt' h) h1 (by omega))
  case u64 | atomicU64 =>
    exact S (fun x : UInt64 => (x.toNat : Int)) _ _ (fun x => ⟨by omega, by have := x.toNat_lt; omega⟩)
      (fun i h1 h2 => toNat_surj (n := 2 ^ 64) UInt64.ofNat UInt64.toNat (fun k h => UInt64.toNat_ofNat_of_lt' h) h1 (by omega))

/-- **C70**, exactly: the schema of a fixed width integer, character, string or boolean, also behind references, smart
pointers and `Option`, accepts by its type and format exactly the values of the type. -/
theorem c70_exact (env : Env) (p : Prim) (t : Ty) (around : Around (.prim p) t) (fixed : p.pointerSized = false)
    (whole : p.precision = none) (m : Model) (schema : HasSchema env t m) :
    ∃ td, ScalarSchema m td ∧ ∀ j, ScalarAccepts td j ↔ p.Value j := by
  refine ⟨_, prim_schema around schema, fun j => ?_⟩
  have I : ∀ f lo hi, p.schema = (.integer, some f) → formatRange f = some (lo, hi) →
      (ScalarAccepts (primDesc p) j ↔ p.Value j) := by
    intro f lo hi hs hf
    rw [int_values hs hf]
    simp only [primDesc, hs]
    cases j with
    | int i =>
      simp only [ScalarAccepts, Option.some.injEq, forall_eq', FormatAccepts, hf, Prod.mk.injEq, Json.int.injEq]
      constructor
      · intro h; exact ⟨i, rfl, h lo hi ⟨rfl, rfl⟩⟩
      · rintro ⟨_, rfl, h⟩ _ _ ⟨rfl, rfl⟩; exact h
    | _ => simp [ScalarAccepts]
  cases p
  case isize | usize | atomicIsize | atomicUsize => cases fixed
  case f32 | f64 => cases whole
  case char =>
    cases j <;> simp [primDesc, Prim.schema, ScalarAccepts, Prim.Value, FormatAccepts]
  case str | string | bool | atomicBool =>
    cases j <;> simp [primDesc, Prim.schema, ScalarAccepts, Prim.Value, FormatAccepts]
  all_goals exact I _ _ _ rfl rfl

/-- **C70** for the types whose range has no format: pointer sized integers are integers without format, floats are
numbers whose format is their precision; both accept all values. -/
theorem c70_accepts (env : Env) (p : Prim) (t : Ty) (around : Around (.prim p) t)
    (m : Model) (schema : HasSchema env t m) :
    (∃ td, ScalarSchema m td ∧ ∀ j, p.Value j → ScalarAccepts td j) ∧
    (p.pointerSized = true → ScalarSchema m (.integer none none)) ∧
    (∀ f, p.precision = some f → ScalarSchema m (.number (some f) none)) := by
  have h := prim_schema around schema
  refine ⟨?_, fun hp => ?_, fun f hp => ?_⟩
  · by_cases hx : p.pointerSized = false ∧ p.precision = none
    · obtain ⟨td, htd, hj⟩ := c70_exact env p t around hx.1 hx.2 m schema
      exact ⟨td, htd, fun j => (hj j).2⟩
    · refine ⟨_, h, fun j hv => ?_⟩
      cases p <;> simp only [Prim.pointerSized, Prim.precision, true_and, and_self, not_true_eq_false, reduceCtorEq, and_false, Bool.true_eq_false, false_and, not_false_eq_true] at hx <;>
        obtain ⟨x, rfl⟩ := hv <;> simp [primDesc, Prim.schema, ScalarAccepts]
  · cases p <;> first | exact h | cases hp
  · cases p <;> first | (cases hp; exact h) | cases hp

/-- `Option<Box<i16>>`: exactly the sixteen bit integers. -/
example : ∃ m, HasSchema env (.option (.wrap .box (.prim .i16))) m ∧
    m = ⟨none, .single ⟨true, .integer (some "int16") none⟩⟩ ∧
    ScalarAccepts (.integer (some "int16") none) (.int (-32768)) ∧
    ¬ ScalarAccepts (.integer (some "int16") none) (.int 32768) :=
  ⟨_, ⟨Components.empty, _, 5, rfl⟩, rfl, by simp [ScalarAccepts, FormatAccepts, formatRange, signedRange],
    by simp [ScalarAccepts, FormatAccepts, formatRange, signedRange]⟩

theorem FullDate.length {s : String} (h : FullDate s) : s.toList.length = 10 := by
  obtain ⟨y, m, d, hy, hm, hd, h⟩ := h
  rw [h]
  simp [hy.1, hm.1, hd.1]

/-- A date with a time is not a `full-date`. -/
theorem not_fullDate {s : String} (h : DateAndTime s) : ¬ FullDate s := by
  obtain ⟨date, time, hd, hs⟩ := h
  intro hf
  have h1 := hf.length
  rw [hs] at h1
  simp [hd.length] at h1

/-- **C70** for identifiers and for dates with a year of four digits.  Missing: other years and times, for which the
property is false. -/
theorem c70_text_partial (env : Env) (t : Ty) (m : Model) (schema : HasSchema env t m) :
    (Around .uuid t → ∃ td, ScalarSchema m td ∧ ∀ s, ScalarAccepts td (.str s) ↔ UuidText s) ∧
    (Around .naiveDate t → ∃ td, ScalarSchema m td ∧ ∀ s, ScalarAccepts td (.str s) ↔ FullDate s) := by
  constructor
  · intro h
    refine ⟨_, around_schema (fun m hm => scalar_schema (e := .string none (some "uuid") _) rfl (fun _ _ => rfl) hm) h m schema, ?_⟩
    simp [ScalarAccepts, FormatAccepts]
  · intro h
    refine ⟨_, around_schema (fun m hm => scalar_schema (e := .string none (some "date") _) rfl (fun _ _ => rfl) hm) h m schema, ?_⟩
    simp [ScalarAccepts, FormatAccepts]

example : HasSchema env .naiveDate ⟨some "Date without timezone", .single ⟨false, .string none (some "date") (some "2020-06-26")⟩⟩ ∧
    FullDate "2020-06-26" :=
  ⟨⟨Components.empty, _, 2, rfl⟩, "2020".toList, "06".toList, "26".toList, by unfold Digits; decide, by unfold Digits; decide, by unfold Digits; decide, by decide⟩

/-- C70 is false: dates with a time, with or without time zone, are documented as dates; none of their values, nor the
example given, is one. -/
theorem c70_times_is_false (env : Env) (t : Ty) (around : Around .naiveDateTime t ∨ Around .dateTime t) (m : Model)
    (schema : HasSchema env t m) :
    ∃ td, ScalarSchema m td ∧ (∀ s, DateAndTime s → ¬ ScalarAccepts td (.str s)) ∧
      ∃ e, td = .string none (some "date") (some e) ∧ DateAndTime e := by
  have dat : ∀ time, DateAndTime (String.ofList ("2020-06-26T".toList ++ time)) := fun time =>
    ⟨"2020-06-26", time, ⟨"2020".toList, "06".toList, "26".toList, by unfold Digits; decide, by unfold Digits; decide,
      by unfold Digits; decide, by decide⟩, by simp⟩
  rcases around with h | h
  · refine ⟨_, around_schema (fun m hm => scalar_schema (e := .string none (some "date") _) rfl (fun _ _ => rfl) hm) h m schema, ?_,
      _, rfl, dat "14:04:20.730045106".toList⟩
    intro s hs ha
    exact not_fullDate hs ((ha "date" rfl).2.1 rfl)
  · refine ⟨_, around_schema (fun m hm => scalar_schema (e := .string none (some "date") _) rfl (fun _ _ => rfl) hm) h m schema, ?_,
      _, rfl, dat "14:04:20.730045106Z".toList⟩
    intro s hs ha
    exact not_fullDate hs ((ha "date" rfl).2.1 rfl)

example : ∃ m, HasSchema env (.option .dateTime) m ∧ DateAndTime "2020-06-26T14:04:20Z" :=
  ⟨_, ⟨Components.empty, _, 5, rfl⟩, "2020-06-26", "14:04:20Z".toList, ⟨"2020".toList, "06".toList, "26".toList,
    by unfold Digits; decide, by unfold Digits; decide, by unfold Digits; decide, by decide⟩, by decide⟩

/-- C70 is false: a date with a year of five digits. -/
theorem c70_far_dates_is_false (env : Env) : ∃ m td s, HasSchema env .naiveDate m ∧ ScalarSchema m td ∧ ChronoDate s ∧
    ¬ ScalarAccepts td (.str s) := by
  refine ⟨_, _, "+12345-06-26", ⟨Components.empty, _, 2, rfl⟩, ⟨_, _, rfl⟩,
    .inr ⟨'+', 5, "12345".toList, "06".toList, "26".toList, .inl rfl, by decide, by unfold Digits; decide, by unfold Digits; decide, by unfold Digits; decide, by decide⟩, ?_⟩
  intro h
  have := ((h "date" rfl).2.1 rfl).length
  revert this; decide

/-! ## C71 -/

/-- **C71**, for programs that give examples only for what is documented as a string and number no variants.  Then every
example in every returned and registered schema, at any depth, is a value of the schema it stands in.  Missing: examples
of integers and numbers, of which it is false. -/
theorem c71_examples_partial (env : Env) (calls : List Call) (rs : List Ref) (cx' : Components)
    (mentions : ∀ c ∈ calls, c.isMention = true)
    (params : ∀ t inline p, Call.mention t inline p ∈ calls → p.ex = none ∧ p.variants = none)
    (run : CallsReturn env Components.empty calls rs cx')
    (text : ∀ i, Reached env (rootsOf calls) (.named i) → TextExamples (env.decl i)) :
    (∀ r ∈ rs, ∀ td ∈ r.scalars, ExampleFits td) ∧ ∀ b ∈ cx'.schemas, ∀ td ∈ b.2.scalars, ExampleFits td := by
  constructor
  · have key : ∀ {roots : List (Ty × Bool)} (_ : ∀ i, Reached env roots (.named i) → TextExamples (env.decl i))
        {calls cx rs cx'} (_ : CallsReturn env cx calls rs cx') (_ : ∀ x ∈ rootsOf calls, x ∈ roots)
        (_ : ∀ t inline p, Call.mention t inline p ∈ calls → p.ex = none ∧ p.variants = none), ∀ r ∈ rs, r.Fit := by
      intro roots text calls cx rs cx' run
      induction run with
      | nil => simp
      | @mention cx t i p r cx1 calls rs cx2 h _ ih =>
        intro hroots params x hx
        rcases List.mem_cons.1 hx with e | hx
        · subst e
          obtain ⟨n, h⟩ := h
          obtain ⟨h1, h2⟩ := params t i p (.head _)
          rcases mentionWith_some h with ⟨l, hl, hr, -⟩ | ⟨hl, m, h3, hr⟩
          · subst hr; intro td htd; simp [Ref.scalars] at htd
          · subst hr
            intro td htd
            exact fit_applyParams (getSchema_fit text n t (.root (hroots _ (.head _))) _ _ _ h3) h2 h1 td
              (by simpa [Ref.scalars] using htd)
        · exact ih (fun x hx => hroots x (.tail _ hx)) (fun t i p h => params t i p (.tail _ h)) x hx
      | addModel _ ih => exact fun hroots params => ih hroots fun t i p h => params t i p (.tail _ h)
      | security _ ih => exact fun hroots params => ih hroots fun t i p h => params t i p (.tail _ h)
    exact key text run (fun _ hx => hx) params
  · intro b hb
    obtain ⟨t, hl, -, cx, cx1, n, hn⟩ := named_calls run mentions (fun _ hx => hx) (fun _ hb => by cases hb) b hb
    exact getSchema_fit text n t (linked_reached hl) _ _ _ hn

namespace Sample

/-- `struct Account { #[opg(example = "5586")] number: u32 }` -/
def accountInput : DeriveInput Ty := ⟨"Account", [], .struct (.named [
  fld "number" (.prim .u32) [attr "opg" [nv "example" "5586"]]])⟩

/-- `struct Contact { #[opg(example = "a@b.c", format = "email")] mail: Option<String>, color: Color }` and `Color`. -/
def contactInput : DeriveInput Ty := ⟨"Contact", [], .struct (.named [
  fld "mail" (.option (.prim .string)) [attr "opg" [nv "example" "a@b.c", nv "format" "email"]], fld "color" (.named 1)])⟩
def contact : Env := ⟨fun
  | 0 => struct "Contact" [fieldAs "mail" "mail" (.option (.prim .string)) (fun f => { f with ex := some (.lit "a@b.c"), format := some "email" }),
      field "color" (.named 1)]
  | _ => color, id⟩

def contactTypes : List Ty := [.named 0, .named 1, .option (.prim .string), .prim .string]

theorem contact_closed : closedList contact [(.named 0, true)] contactTypes = true := by decide +kernel

end Sample

open Sample

/-- A type with an example for a string and a type with enumerated values. -/
example : Derived oracle contact 0 contactInput ∧ ∃ rs cx', CallsReturn contact Components.empty [.mention (.named 0) false {}] rs cx' ∧
    BMap.get "Contact" cx'.schemas = some (objectSchema none false ⟨[("color", .link "Color"),
      ("mail", .inline ⟨none, .single ⟨true, .string none (some "email") (some "a@b.c")⟩⟩)], none, ["mail", "color"]⟩) ∧
    BMap.get "Color" cx'.schemas = some (stringEnum none ["Red", "GREEN"]) ∧
    ∀ b ∈ cx'.schemas, ∀ td ∈ b.2.scalars, ExampleFits td := by
  refine ⟨⟨_, rfl⟩, _, _, .mention ⟨10, rfl⟩ (.nil _), rfl, rfl, ?_⟩
  refine (c71_examples_partial contact [.mention (.named 0) false {}] _ _ (by simp [Call.isMention]) (by simp)
    (.mention ⟨10, rfl⟩ (.nil _)) ?_).2
  intro i hi
  have := hi.mem_closed contact_closed
  simp only [contactTypes, List.mem_cons, Ty.named.injEq, reduceCtorEq, List.not_mem_nil, or_false] at this
  rcases this with rfl | rfl
  · intro f hf
    simp only [List.mem_cons, List.not_mem_nil, or_false] at hf
    rcases hf with rfl | rfl
    · exact .inr ⟨.prim .string, .inr (.inr (.inl rfl)), .option .here⟩
    · exact .inl rfl
  · refine ⟨fun h => by simp [contact, color, container, containerAttrs] at h, ?_⟩
    intro v hv
    simp only [contact, color, container, List.mem_cons, List.not_mem_nil, or_false] at hv
    rcases hv with rfl | rfl <;> exact fun f hf => nomatch hf

/-- An example of a schema of a type is not a value of it. -/
def BadExample (env : Env) (t : Ty) : Prop := ∃ m, HasSchema env t m ∧ ∃ td ∈ m.scalars, ¬ ExampleFits td

/-- C71 is false: the example of an integer field is written as a string. -/
theorem c71_is_false : ∃ env, Derived oracle env 0 accountInput ∧ BadExample env (.named 0) := by
  refine ⟨only accountInput, ⟨_, rfl⟩, _, ⟨Components.empty, _, 5, rfl⟩, .integer (some "uint32") (some "5586"), .head _, ?_⟩
  intro h
  have := h _ rfl
  cases this

/-- C71 is false without any example in the source: the numbers of the variants of a `repr` enum. -/
theorem c71_repr_is_false : ∃ env, Derived oracle env 0 codeInput ∧ BadExample env (.named 0) := by
  refine ⟨only codeInput, ⟨_, rfl⟩, _, ⟨Components.empty, _, 5, rfl⟩, .integer none (some "0"), .head _, ?_⟩
  intro h
  have := h _ rfl
  cases this

/-! ## C72 -/

theorem shows_applyParams (m : Model) (p : Params) : Shows p (m.applyParams p) := by
  obtain ⟨d, data⟩ := m
  cases data with
  | single t =>
    obtain ⟨n, td⟩ := t
    obtain ⟨pd, pn, pv, pf, pe⟩ := p
    cases td <;> cases pn <;> cases pf <;> cases pe <;> constructor <;>
      simp +contextual [Model.applyParams, ModelData.applyParams, ModelType.applyParams, TypeDesc.applyParams, overrideOpt]
  | _ => constructor <;> simp +contextual [Model.applyParams, ModelData.applyParams, overrideOpt]

theorem shows_explicit {t n doc} (hn : ∀ b, doc.nullable = some b → n = b) : Shows doc (explicitModel t n doc) := by
  constructor
  · simp [explicitModel]
  · intro b n' td hb h
    simp only [explicitModel, ModelData.single.injEq, ModelType.mk.injEq] at h
    exact h.1 ▸ hn b hb
  all_goals
    intros
    cases t <;> simp_all [explicitModel]

/-- **C72**, for inlined fields.  In the schema of a struct, the property of a field (the last of its name) whose type
has no component of its own, or which is marked `inline` or has an explicit type other than `any`, is an inline schema
that shows the documentation written on the field.  Missing: fields whose type is referenced, of which it is false. -/
theorem c72_field_partial {o : Oracle} (i : Nat) (input : DeriveInput Ty) (fs) (hd : Derived o env i input)
    (hi : input.data = .struct (.named fs)) (m) (hs : HasSchema env (.named i) m) :
    ∃ fs' obj, (env.decl i).data = .struct .struct fs' ∧
      m = objectSchema (env.decl i).attrs.description (env.decl i).attrs.nullable obj ∧
      ∀ pre f post, serialFields fs' = pre ++ f :: post → (∀ g ∈ post, g.key ≠ f.key) →
        f.attrs.explicitModelType ≠ some .any →
        (f.attrs.explicitModelType ≠ none ∨ typeName env f.ty = none ∨ f.attrs.inline = true) →
        ∃ m', BMap.get f.key obj.properties = some (.inline m') ∧ Shows (f.doc env) m' := by
  obtain ⟨fs', obj, hcd, ho, rfl⟩ := c27_struct i input fs hd hi m hs
  refine ⟨fs', obj, hcd, rfl, ?_⟩
  intro pre f post hser hlast hany hinl
  have hk : f.key ∈ BMap.keys obj.properties := (ho.names f.key).2 ⟨f, by rw [hser]; simp, rfl⟩
  rw [← BMap.get_isSome_iff] at hk
  obtain ⟨r, hr⟩ := Option.isSome_iff_exists.1 hk
  obtain ⟨pre', f', post', hser', hkey, hlast', href⟩ := ho.refs f.key r hr
  have : f' = f := by
    rw [hser] at hser'
    clear hser
    revert hser'
    clear hr hk ho hcd hany hinl href
    induction pre generalizing pre' with
    | nil =>
      intro h
      cases pre' with
      | nil => exact (List.cons.inj h).1.symm
      | cons a as =>
        have := (List.cons.inj h).2
        exact absurd hkey (hlast f' (by rw [this]; simp))
    | cons a as ih =>
      intro h
      cases pre' with
      | nil =>
        have := (List.cons.inj h).2
        exact absurd rfl (hlast' f (by rw [← this]; simp))
      | cons b bs => exact ih bs (List.cons.inj h).2
  subst this
  unfold FieldRef at href
  rw [hr]
  split at href
  · contradiction
  · rename_i t ht1 ht2
    subst href
    refine ⟨_, rfl, shows_explicit ?_⟩
    intro b hb
    simp only [Field.doc] at hb
    split at hb
    · cases hb; assumption
    · cases hb
  · rename_i hnone
    obtain ⟨cx, cx', hm⟩ := href
    rw [mentionReturns_iff] at hm
    rcases hm with ⟨l, hl, -⟩ | ⟨-, m', -, rfl⟩
    · obtain ⟨h1, h2⟩ := linkName_some hl
      rcases hinl with h | h | h
      · exact absurd hnone h
      · rw [h] at h2; cases h2
      · simp [h] at h1
    · exact ⟨_, rfl, shows_applyParams _ _⟩

/-- The property of a field with description, format and example. -/
example : ∃ fs' obj, (contact.decl 0).data = .struct .struct fs' ∧ HasSchema contact (.named 0) (objectSchema none false obj) ∧
    BMap.get "mail" obj.properties = some (.inline ⟨none, .single ⟨true, .string none (some "email") (some "a@b.c")⟩⟩) ∧
    typeName contact (.option (.prim .string)) = none :=
  ⟨_, _, rfl, ⟨Components.empty, _, 10, rfl⟩, rfl, rfl⟩

/-- `struct Holder { #[opg("The favourite")] pet: Pet }` -/
def Sample.holderInput : DeriveInput Ty := ⟨"Holder", [], .struct (.named [
  fld "pet" (.named 1) [attr "opg" [.lit (.str "The favourite")]]])⟩
def Sample.holder : Container Ty := struct "Holder" [
  fieldAs "pet" "pet" (.named 1) (fun f => { f with description := some "The favourite" })]

/-- C72 is false: the description of a field whose type is referenced is written nowhere in the property. -/
theorem c72_is_false : ∃ env m obj r, Derived oracle env 0 holderInput ∧ HasSchema env (.named 0) m ∧
    m = objectSchema none false obj ∧ BMap.get "pet" obj.properties = some r ∧
    r.ser = .map [(.str "$ref", .str "#/components/schemas/Pet")] :=
  ⟨program [holder], _, _, _, ⟨_, rfl⟩, ⟨Components.empty, _, 5, rfl⟩, rfl, rfl, rfl⟩

end Verif
