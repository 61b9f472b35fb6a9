import Verif.Proof.Order
import Verif.Props.Samples
/-!
# C06, C07: order of mentions, termination
-/

namespace Verif

/-! ## C06 -/

/-- **C06** (characterisation). If types mentioned by reference under one name have the same schema and mention
the same other names, then after mentions from the empty registry the registered schemas are exactly the schemas of
the types mentioned by reference, each under its name. Nothing in the right-hand side depends on the order. -/
theorem c06_registry_is_determined (env : Env) (calls : List Call) (rs : List Ref) (cx' : Components)
    (consistent : NamesConsistent env (rootsOf calls)) (mentions : ∀ c ∈ calls, c.isMention = true)
    (run : CallsReturn env Components.empty calls rs cx') (name : String) (m : Model) :
    BMap.get name cx'.schemas = some m ↔
      ∃ t, Linked env (rootsOf calls) t ∧ typeName env t = some name ∧ ∃ cx cx1, SchemaReturns env t cx m cx1 :=
  registry_spec consistent mentions run name m

theorem reached_congr {env : Env} {r r' : List (Ty × Bool)} (h : ∀ x, x ∈ r → x ∈ r') {t}
    (ht : Reached env r t) : Reached env r' t := by
  induction ht with
  | root h' => exact .root (h _ h')
  | step _ ha ih => exact .step ih ha

theorem linked_congr {env : Env} {r r' : List (Ty × Bool)} (h : ∀ x, x ∈ r → x ∈ r') {t}
    (ht : Linked env r t) : Linked env r' t := by
  rcases ht with ht | ⟨u, hu, ha⟩
  · exact .inl (h _ ht)
  · exact .inr ⟨u, reached_congr h hu, ha⟩

theorem rootsOf_eq (calls : List Call) : rootsOf calls =
    calls.filterMap fun c => match c with | .mention t i _ => some (t, !i) | _ => none := by
  induction calls with
  | nil => rfl
  | cons c calls ih => cases c <;> simp [rootsOf, ih]

theorem callsReturn_sorted {env : Env} {cx calls rs cx'} (run : CallsReturn env cx calls rs cx')
    (h : BMap.Sorted cx.schemas) : BMap.Sorted cx'.schemas := by
  induction run with
  | nil => exact h
  | mention hm _ ih => obtain ⟨k, hm⟩ := hm; exact ih (mentionSchema_sorted hm h)
  | addModel _ ih =>
    apply ih
    unfold Components.addModel
    split
    · exact h
    · exact BMap.sorted_insert h
  | security _ ih =>
    apply ih
    unfold Components.mentionSecurityScheme
    split <;> exact h

/-- **C06**, for programs whose names are consistent: two sequences of mentions of the same types (in any order,
with any repetitions and parameters) that return leave the same schemas. Missing from the full property: name
consistency is needed, see `c06_is_false`. -/
theorem c06_order_independent_partial (env : Env) (calls calls' : List Call) (rs rs' : List Ref)
    (cx cx' : Components)
    (consistent : NamesConsistent env (rootsOf calls))
    (mentions : ∀ c ∈ calls, c.isMention = true) (mentions' : ∀ c ∈ calls', c.isMention = true)
    (same : ∀ x, x ∈ rootsOf calls ↔ x ∈ rootsOf calls')
    (run : CallsReturn env Components.empty calls rs cx)
    (run' : CallsReturn env Components.empty calls' rs' cx') : cx.schemas = cx'.schemas := by
  have consistent' : NamesConsistent env (rootsOf calls') := by
    intro t t' n hl hl'
    exact consistent t t' n (linked_congr (fun x => (same x).2) hl) (linked_congr (fun x => (same x).2) hl')
  apply BMap.ext (callsReturn_sorted run BMap.sorted_nil) (callsReturn_sorted run' BMap.sorted_nil)
  intro k
  apply Option.ext
  intro m
  rw [registry_spec consistent mentions run, registry_spec consistent' mentions' run']
  constructor
  · rintro ⟨t, hl, h⟩; exact ⟨t, linked_congr (fun x => (same x).1) hl, h⟩
  · rintro ⟨t, hl, h⟩; exact ⟨t, linked_congr (fun x => (same x).2) hl, h⟩

/-- **C06**, for programs where each name is used by reference for a single type (up to pointers): if one order
of the mentions returns then so does every other, with the same schemas. -/
theorem c06_any_order_partial (env : Env) (calls calls' : List Call) (rs : List Ref) (cx : Components)
    (unique : NamesUnique env (rootsOf calls)) (mentions : ∀ c ∈ calls, c.isMention = true)
    (perm : calls.Perm calls') (run : CallsReturn env Components.empty calls rs cx) :
    ∃ rs' cx', CallsReturn env Components.empty calls' rs' cx' ∧ cx'.schemas = cx.schemas := by
  have same : ∀ x, x ∈ rootsOf calls ↔ x ∈ rootsOf calls' := by
    intro x
    rw [rootsOf_eq, rootsOf_eq]
    exact (perm.filterMap _).mem_iff
  have hx := grounded_calls unique.agree run mentions (fun _ h => h) grounded_empty
  obtain ⟨rs', cx', run'⟩ := expands_calls calls' (fun x hx' => hx x ((same x).2 hx')) Components.empty
  exact ⟨rs', cx', run', c06_order_independent_partial env calls' calls rs' rs cx' cx
    (by
      have := unique.consistent
      intro t t' n hl hl'
      exact this t t' n (linked_congr (fun x => (same x).2) hl) (linked_congr (fun x => (same x).2) hl'))
    (fun c hc => mentions c (perm.mem_iff.2 hc)) mentions (fun x => (same x).symm) run' run⟩

namespace Sample

/-- `struct Leaf { n: u32 }`, `struct Left { leaf: Leaf }`, `struct Right { leaf: Box<Leaf> }`. -/
def diamond : Env := ⟨fun
  | 0 => struct "Left" [field "leaf" (.named 2)]
  | 1 => struct "Right" [field "leaf" (.wrap .box (.named 2))]
  | _ => struct "Leaf" [field "n" (.prim .u32)], id⟩

def diamondCalls : List Call := [.mention (.named 0) false {}, .mention (.named 1) false {}]

theorem diamond_asks {t t' : Ty} {b : Bool} (h : Asks diamond t t' b)
    (ht : t = .named 0 ∨ t = .named 1 ∨ t = .named 2 ∨ t = .wrap .box (.named 2) ∨ t = .prim .u32) :
    t' = .named 2 ∨ t' = .wrap .box (.named 2) ∨ t' = .prim .u32 := by
  obtain ⟨e, he, hm⟩ := h
  rcases ht with rfl | rfl | rfl | rfl | rfl <;> cases he
  · change _ ∈ [_] at hm; simp at hm; simp [hm, field]
  · change _ ∈ [_] at hm; simp at hm; simp [hm, field]
  · change _ ∈ [_] at hm; simp at hm; simp [hm, field]
  · change _ ∈ [_] at hm; simp at hm; simp [hm, field]
  · change _ ∈ [] at hm; simp at hm

theorem diamond_reached {t : Ty} (h : Reached diamond (rootsOf diamondCalls) t) :
    t = .named 0 ∨ t = .named 1 ∨ t = .named 2 ∨ t = .wrap .box (.named 2) ∨ t = .prim .u32 := by
  induction h with
  | root h => simp [rootsOf, diamondCalls] at h; rcases h with h | h <;> simp [h.1]
  | step _ ha ih => rcases diamond_asks ha ih with h | h | h <;> simp [h]

theorem diamond_unique : NamesUnique diamond (rootsOf diamondCalls) := by
  have h : ∀ t, Linked diamond (rootsOf diamondCalls) t →
      t = .named 0 ∨ t = .named 1 ∨ t = .named 2 ∨ t = .wrap .box (.named 2) ∨ t = .prim .u32 := by
    rintro t (h | ⟨u, hu, ha⟩)
    · exact diamond_reached (.root h)
    · exact diamond_reached (.step hu ha)
  intro t t' n hl hl' hn hn'
  rcases h t hl with rfl | rfl | rfl | rfl | rfl <;> rcases h t' hl' with rfl | rfl | rfl | rfl | rfl <;>
    simp [typeName, Container.typeName, diamond, struct, containerAttrs, Ty.strip] at hn hn' ⊢ <;>
    (subst hn; simp at hn')

/-- The hypotheses of the C06 theorems hold for a program with shared and boxed types. -/
example : ∃ rs cx, CallsReturn diamond Components.empty diamondCalls rs cx ∧
    BMap.keys cx.schemas = ["Leaf", "Left", "Right"] :=
  ⟨_, _, .mention ⟨10, rfl⟩ (.mention ⟨10, rfl⟩ (.nil _)), rfl⟩

/-- Whether the schema registered under `name` is nullable. -/
def nullableAt (name : String) (cx : Components) : Option Bool :=
  match BMap.get name cx.schemas with
  | some ⟨_, .single ⟨n, _⟩⟩ => some n
  | _ => none

end Sample

/-- **C06** is false of the code: mentioning `Pet` and `Option<Pet>` by reference leaves a `Pet` schema that is
nullable or not depending on which comes first. -/
theorem c06_is_false : ∃ (env : Env) (calls calls' : List Call) (rs rs' : List Ref) (cx cx' : Components),
    (∀ c ∈ calls, c.isMention = true) ∧ calls.Perm calls' ∧
    CallsReturn env Components.empty calls rs cx ∧ CallsReturn env Components.empty calls' rs' cx' ∧
    cx.schemas ≠ cx'.schemas := by
  refine ⟨Sample.env, [.mention (.named 1) false {}, .mention (.option (.named 1)) false {}],
    [.mention (.option (.named 1)) false {}, .mention (.named 1) false {}], _, _, _, _, by simp [Call.isMention],
    List.Perm.swap _ _ _, .mention ⟨5, rfl⟩ (.mention ⟨5, rfl⟩ (.nil _)),
    .mention ⟨5, rfl⟩ (.mention ⟨5, rfl⟩ (.nil _)), ?_⟩
  intro h
  have := congrArg (fun s => Sample.nullableAt "Pet" ⟨s, []⟩) h
  exact absurd this (by decide)

/-- **C06** is also false because of equal identifiers: two different structs named `Item`. -/
theorem c06_is_false_same_identifier : ∃ (env : Env) (i j : Nat) (rs rs' : List Ref) (cx cx' : Components),
    CallsReturn env Components.empty [.mention (.named i) false {}, .mention (.named j) false {}] rs cx ∧
    CallsReturn env Components.empty [.mention (.named j) false {}, .mention (.named i) false {}] rs' cx' ∧
    cx.schemas ≠ cx'.schemas := by
  refine ⟨⟨fun | 0 => Sample.struct "Item" [] | _ => { Sample.struct "Item" [] with
      attrs := { Sample.containerAttrs "Item" with nullable := true } }, id⟩, 0, 1, _, _, _, _,
    .mention ⟨5, rfl⟩ (.mention ⟨5, rfl⟩ (.nil _)), .mention ⟨5, rfl⟩ (.mention ⟨5, rfl⟩ (.nil _)), ?_⟩
  intro h
  have := congrArg (fun s => Sample.nullableAt "Item" ⟨s, []⟩) h
  exact absurd this (by decide)

/-! ## C07 -/

/-- **C07** (sufficient condition). A type whose expansion is finite has a schema, whatever is registered. -/
theorem c07_finite_returns_partial (env : Env) (t : Ty) (finite : Expands env t) (cx : Components) :
    (∃ m cx', SchemaReturns env t cx m cx') ∧ ∀ inline p, ∃ r cx', MentionReturns env t inline p cx r cx' :=
  ⟨expands_returns finite cx, fun i p => expands_mention finite i p cx⟩

/-- **C07** (exact condition). When each name is used by reference for a single type, `get_schema::<t>` on the
empty registry returns exactly when the expansion of `t` is finite. Missing from the full property: recursive
types do not return. -/
theorem c07_returns_iff_partial (env : Env) (t : Ty) (unique : NamesUnique env [(t, false)]) :
    (∃ m cx', SchemaReturns env t Components.empty m cx') ↔ Expands env t := by
  constructor
  · rintro ⟨m, cx', n, h⟩
    exact (grounded_getSchema unique.agree n t _ m cx' grounded_empty (.root List.mem_cons_self) h).2
  · intro h; exact expands_returns h _

/-- `t` needs `t'`, through one or more calls. -/
inductive Needs (env : Env) : Ty → Ty → Prop
  | one {t t' b} (h : Asks env t t' b) : Needs env t t'
  | more {t t' b t''} (h : Asks env t t' b) (h' : Needs env t' t'') : Needs env t t''

theorem Needs.trans {env t u v} (h : Needs env t u) (h' : Needs env u v) : Needs env t v := by
  induction h with
  | one h => exact .more h h'
  | more h _ ih => exact .more h (ih h')

theorem Expands.not_needs_self {env t} (h : Expands env t) : ¬ Needs env t t := by
  induction h with
  | @intro t e he h ih =>
    intro hn
    cases hn with
    | one ha =>
      obtain ⟨e', he', hm⟩ := ha
      rw [he] at he'; cases he'
      exact ih _ _ hm (.one ⟨e, he, hm⟩)
    | more ha hn =>
      have ha' := ha
      obtain ⟨e', he', hm⟩ := ha
      rw [he] at he'; cases he'
      exact ih _ _ hm (hn.trans (.one ha'))

theorem Expands.of_needs {env t u} (h : Needs env t u) (ht : Expands env t) : Expands env u := by
  induction h with
  | one ha =>
    obtain ⟨e, he, hm⟩ := ha
    exact (expands_iff he).1 ht _ _ hm
  | more ha _ ih =>
    obtain ⟨e, he, hm⟩ := ha
    exact ih ((expands_iff he).1 ht _ _ hm)

/-- **C07** (failure). When each name is used by reference for a single type, `get_schema` of a recursive type,
or of a type needing one, never returns on the empty registry. -/
theorem c07_recursive_never_returns (env : Env) (t u : Ty) (unique : NamesUnique env [(t, false)])
    (needs : t = u ∨ Needs env t u) (recursive : Needs env u u) :
    ¬ ∃ m cx', SchemaReturns env t Components.empty m cx' := by
  rw [c07_returns_iff_partial env t unique]
  intro h
  rcases needs with rfl | hn
  · exact h.not_needs_self recursive
  · exact (h.of_needs hn).not_needs_self recursive

namespace Sample

theorem recursive_asks {t t' : Ty} {b : Bool} (h : Asks env t t' b)
    (ht : t = .named 2 ∨ t = .option (.wrap .box (.named 2)) ∨ t = .wrap .box (.named 2) ∨ t = .prim .u32) :
    (t' = .named 2 ∧ b = false) ∨ t' = .option (.wrap .box (.named 2)) ∨ (t' = .wrap .box (.named 2) ∧ b = false) ∨
      t' = .prim .u32 := by
  obtain ⟨e, he, hm⟩ := h
  rcases ht with rfl | rfl | rfl | rfl <;> cases he
  · change _ ∈ [_, _] at hm
    simp at hm
    rcases hm with h | h <;> simp [h, field]
  · change _ ∈ [_] at hm; simp at hm; simp [hm, field]
  · change _ ∈ [_] at hm; simp at hm; simp [hm, field]
  · change _ ∈ [] at hm; simp at hm

theorem recursive_reached {t : Ty} (h : Reached env [(.named 2, false)] t) :
    t = .named 2 ∨ t = .option (.wrap .box (.named 2)) ∨ t = .wrap .box (.named 2) ∨ t = .prim .u32 := by
  induction h with
  | root h => simp at h; simp [h.1]
  | step _ ha ih => rcases recursive_asks ha ih with h | h | h | h <;> simp [h]

theorem recursive_unique : NamesUnique env [(.named 2, false)] := by
  have h : ∀ t, Linked env [(.named 2, false)] t → t = .option (.wrap .box (.named 2)) ∨ t = .prim .u32 := by
    rintro t (h | ⟨u, hu, ha⟩)
    · simp at h
    · rcases recursive_asks ha (recursive_reached hu) with h | h | h | h <;> simp_all
  intro t t' n hl hl' hn hn'
  rcases h t hl with rfl | rfl <;> rcases h t' hl' with rfl | rfl <;> simp_all [typeName]

end Sample

/-- **C07** is false of the code: `struct Recursive { value: u32, next: Option<Box<Recursive>> }` has no schema:
generation does not return. -/
theorem c07_is_false : ∃ (env : Env) (t : Ty), ¬ ∃ m cx', SchemaReturns env t Components.empty m cx' := by
  refine ⟨Sample.env, .named 2, c07_recursive_never_returns _ _ (.named 2) Sample.recursive_unique (.inl rfl) ?_⟩
  have a : Asks Sample.env (.named 2) (.option (.wrap .box (.named 2))) true :=
    ⟨_, rfl, by change _ ∈ [_, _]; simp [Sample.field]⟩
  have b : Asks Sample.env (.option (.wrap .box (.named 2))) (.wrap .box (.named 2)) false :=
    ⟨_, rfl, by simp [ModelExpr.asked]⟩
  have c : Asks Sample.env (.wrap .box (.named 2)) (.named 2) false := ⟨_, rfl, by simp [ModelExpr.asked]⟩
  exact .more a (.more b (.one c))

/-- The sample type `Pet` has a finite expansion. -/
example : Expands Sample.env (.named 1) := by
  refine .intro rfl ?_
  intro t b h
  change _ ∈ [_] at h
  simp at h
  obtain ⟨rfl, _⟩ := h
  refine .intro rfl ?_
  intro t b h
  change _ ∈ [] at h
  simp at h

end Verif
