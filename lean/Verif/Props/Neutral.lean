import Verif.Proof.Neutral
import Verif.Props.ConformFalse
/-!
# C76: attributes that only document change no accepted value
-/

namespace Verif

/-! ## C76 -/

/-- **C76**, unless a field marked `nullable` is referred to in one program and inlined in the other.  Two programs differ
only in `description`, `format`, `example` and `inline` attributes; in each some types are mentioned, the mentions return,
and each name is used by reference for one type only.  Then a type mentioned in both, by reference or inline, is
documented by references that accept the same values, each in the registry of its program, under both readings of
`oneOf`.  Missing: nullable fields inlined in one program only, and names used for several types (there the property is
false, see below). -/
theorem c76_docs_neutral_partial (env env' : Env) (same : SameBarDocs env env')
    (calls calls' : List Call) (rs rs' : List Ref) (cx cx' : Components)
    (unique : NamesUnique env (rootsOf calls)) (unique' : NamesUnique env' (rootsOf calls'))
    (mentions : ∀ c ∈ calls, c.isMention = true) (mentions' : ∀ c ∈ calls', c.isMention = true)
    (run : CallsReturn env Components.empty calls rs cx) (run' : CallsReturn env' Components.empty calls' rs' cx')
    (nullable : ∀ i, Reached env (rootsOf calls) (.named i) → Reached env' (rootsOf calls') (.named i) → NullableAlike env env' i)
    (t : Ty) (inline inline' : Bool) (p p' : Params)
    (called : .mention t inline p ∈ calls) (called' : .mention t inline' p' ∈ calls')
    (free : p.nullable = none ∧ p.variants = none) (free' : p'.nullable = none ∧ p'.variants = none)
    (r r' : Ref) (gives : Mentions env t inline p r) (gives' : Mentions env' t inline' p' r')
    (exclusive : Bool) (j : Json) :
    Valid exclusive cx.schemas r j ↔ Valid exclusive cx'.schemas r' j := by
  have T := tidy_of_run unique mentions run (fun _ _ h => h)
  have T' := tidy_of_run unique' mentions' run' (fun _ _ h => h)
  have hmem : (t, !inline) ∈ rootsOf calls := by
    rw [rootsOf_eq]; exact List.mem_filterMap.2 ⟨_, called, rfl⟩
  have hmem' : (t, !inline') ∈ rootsOf calls' := by
    rw [rootsOf_eq]; exact List.mem_filterMap.2 ⟨_, called', rfl⟩
  have hs : Seen env (rootsOf calls) (t, !inline) :=
    ⟨.root hmem, fun h => .inl (by simp only at h; rw [← h]; exact hmem)⟩
  have hs' : Seen env' (rootsOf calls') (t, !inline') :=
    ⟨.root hmem', fun h => .inl (by simp only at h; rw [← h]; exact hmem')⟩
  have hx := T.expands t hs.1
  have hx' := T'.expands t hs'.1
  constructor
  · intro h
    exact sim_valid h (mention_sim T T' free.2 free'.2 (by rw [free.1, free'.1]) (.inl free.1) gives gives' hs hs'
      (alike T T' same nullable hx hs.1 hs'.1))
  · intro h
    exact sim_valid h (mention_sim T' T free'.2 free.2 (by rw [free.1, free'.1]) (.inl free'.1) gives' gives hs' hs
      (alike T' T (fun i => (same i).symm) (fun i h h' => (nullable i h' h).symm) hx' hs'.1 hs.1))

/-- **C76**, within one program: a component accepts what the schema of its type, written in place, accepts. -/
theorem c76_link_is_schema (env : Env) (calls : List Call) (rs : List Ref) (cx : Components)
    (unique : NamesUnique env (rootsOf calls)) (mentions : ∀ c ∈ calls, c.isMention = true)
    (run : CallsReturn env Components.empty calls rs cx) (t : Ty) (name : String)
    (linked : Linked env (rootsOf calls) t) (named : typeName env t = some name) (m : Model) (schema : HasSchema env t m)
    (exclusive : Bool) (j : Json) :
    Valid exclusive cx.schemas (.link name) j ↔ Valid exclusive cx.schemas (.inline m) j := by
  have hg := (tidy_of_run unique mentions run (fun _ _ h => h)).registered t name m linked named schema
  constructor
  · intro h
    cases h with
    | link hg' hv => rw [hg] at hg'; cases hg'; exact .inline hv
  · intro h
    cases h with
    | inline hv => exact .link hg hv

namespace Sample

/-- The program `diamond` with a description on `Left`, an example on `n`, and the field of `Right` inlined. -/
def diamond' : Env := ⟨fun
  | 0 => { struct "Left" [field "leaf" (.named 2)] with
      attrs := { containerAttrs "Left" with description := some "the left one" } }
  | 1 => struct "Right" [⟨{ (field "leaf" (.named 2)).attrs with inline := true }, .wrap .box (.named 2)⟩]
  | _ => struct "Leaf" [⟨{ (field "n" (.prim .u32)).attrs with ex := some (.lit "7") }, .prim .u32⟩], id⟩

theorem diamond_same : SameBarDocs diamond diamond'
  | 0 => rfl
  | 1 => rfl
  | _ + 2 => rfl

theorem diamond'_asks {t t' : Ty} {b : Bool} (h : Asks diamond' t t' b)
    (ht : t = .named 0 ∨ t = .named 1 ∨ t = .named 2 ∨ t = .wrap .box (.named 2) ∨ t = .prim .u32) :
    t' = .named 2 ∨ t' = .wrap .box (.named 2) ∨ t' = .prim .u32 := by
  obtain ⟨e, he, hm⟩ := h
  rcases ht with rfl | rfl | rfl | rfl | rfl <;> cases he
  · change _ ∈ [_] at hm; simp at hm; simp [hm, field]
  · change _ ∈ [_] at hm; simp at hm; simp [hm, field]
  · change _ ∈ [_] at hm; simp at hm; simp [hm, field]
  · change _ ∈ [_] at hm; simp at hm; simp [hm, field]
  · change _ ∈ [] at hm; simp at hm

theorem diamond'_reached {t : Ty} (h : Reached diamond' (rootsOf diamondCalls) t) :
    t = .named 0 ∨ t = .named 1 ∨ t = .named 2 ∨ t = .wrap .box (.named 2) ∨ t = .prim .u32 := by
  induction h with
  | root h => simp [rootsOf, diamondCalls] at h; rcases h with h | h <;> simp [h.1]
  | step _ ha ih => rcases diamond'_asks ha ih with h | h | h <;> simp [h]

theorem diamond'_unique : NamesUnique diamond' (rootsOf diamondCalls) := by
  have h : ∀ t, Linked diamond' (rootsOf diamondCalls) t →
      t = .named 0 ∨ t = .named 1 ∨ t = .named 2 ∨ t = .wrap .box (.named 2) ∨ t = .prim .u32 := by
    rintro t (h | ⟨u, hu, ha⟩)
    · exact diamond'_reached (.root h)
    · exact diamond'_reached (.step hu ha)
  intro t t' n hl hl' hn hn'
  rcases h t hl with rfl | rfl | rfl | rfl | rfl <;> rcases h t' hl' with rfl | rfl | rfl | rfl | rfl <;>
    simp [typeName, Container.typeName, diamond', struct, containerAttrs, Ty.strip] at hn hn' ⊢ <;>
    (subst hn; simp at hn')

theorem diamond_nullable : ∀ i, NullableAlike diamond diamond' i
  | 0 => .cons (fun _ _ h _ => by cases h) .nil
  | 1 => .cons (fun _ _ h _ => by cases h) .nil
  | _ + 2 => .cons (fun _ _ h _ => by cases h) .nil

/-- The hypotheses of C76 hold of two programs whose registries differ, and `Right` has the same values in both. -/
example : ∃ rs cx rs' cx', CallsReturn diamond Components.empty diamondCalls rs cx ∧
    CallsReturn diamond' Components.empty diamondCalls rs' cx' ∧ cx.schemas ≠ cx'.schemas ∧
    ∀ x j, Valid x cx.schemas (.link "Right") j ↔ Valid x cx'.schemas (.link "Right") j := by
  refine ⟨_, _, _, _, .mention ⟨10, rfl⟩ (.mention ⟨10, rfl⟩ (.nil _)),
    .mention ⟨10, rfl⟩ (.mention ⟨10, rfl⟩ (.nil _)), ?_, ?_⟩
  · intro h
    have := congrArg (fun s => (BMap.get "Left" s).map Model.description) h
    exact absurd this (by decide)
  · exact c76_docs_neutral_partial diamond diamond' diamond_same diamondCalls diamondCalls _ _ _ _ diamond_unique
      diamond'_unique (by simp [diamondCalls, Call.isMention]) (by simp [diamondCalls, Call.isMention])
      (.mention ⟨10, rfl⟩ (.mention ⟨10, rfl⟩ (.nil _))) (.mention ⟨10, rfl⟩ (.mention ⟨10, rfl⟩ (.nil _)))
      (fun i _ _ => diamond_nullable i) (.named 1) false false {} {} (by simp [diamondCalls])
      (by simp [diamondCalls]) ⟨rfl, rfl⟩ ⟨rfl, rfl⟩ _ _ ⟨Components.empty, _, 10, rfl⟩ ⟨Components.empty, _, 10, rfl⟩

/-- `Left` of the program `diamond` is a component. -/
example : ∃ rs cx, CallsReturn diamond Components.empty diamondCalls rs cx ∧ Linked diamond (rootsOf diamondCalls) (.named 0) ∧
    typeName diamond (.named 0) = some "Left" ∧ ∃ m, HasSchema diamond (.named 0) m :=
  ⟨_, _, .mention ⟨10, rfl⟩ (.mention ⟨10, rfl⟩ (.nil _)), .inl (by simp [rootsOf, diamondCalls]), rfl,
    _, Components.empty, _, 10, rfl⟩

/-- A nullable field of a named type whose description changes: it is referred to in both programs. -/
example (a b : Option String) :
    let env (d : Option String) : Env := ⟨fun _ => struct "Holder"
      [⟨{ (field "next" (.named 0)).attrs with nullable := true, description := d }, .named 0⟩], id⟩
    SameBarDocs (env a) (env b) ∧ ∀ i, NullableAlike (env a) (env b) i :=
  ⟨fun _ => rfl, fun _ => .cons (fun _ _ _ _ => Iff.rfl) .nil⟩

/-- `struct Holder { #[opg(nullable)] leaf: Leaf }`, the field being inlined or not. -/
def docHolder (inline : Bool) : Env := ⟨fun
  | 0 => struct "Holder" [⟨{ (field "leaf" (.named 1)).attrs with nullable := true, inline := inline }, .named 1⟩]
  | _ => struct "Leaf" [field "n" (.prim .u32)], id⟩

theorem holder_same : SameBarDocs (docHolder false) (docHolder true)
  | 0 => rfl
  | _ + 1 => rfl

end Sample

/-- **C76** is false in general: `inline` on a field of a named type that is marked `nullable` makes `null` acceptable. -/
theorem c76_is_false : ∃ (env env' : Env) (cx cx' : Components) (r r' : Ref) (j : Json), SameBarDocs env env' ∧
    MentionReturns env (.named 0) false {} Components.empty r cx ∧
    MentionReturns env' (.named 0) false {} Components.empty r' cx' ∧
    ¬ Valid false cx.schemas r j ∧ Valid false cx'.schemas r' j := by
  refine ⟨Sample.docHolder false, Sample.docHolder true, _, _, _, _, .obj [("leaf", .null)], Sample.holder_same, ⟨10, rfl⟩, ⟨10, rfl⟩, ?_, ?_⟩
  · refine not_valid_link rfl ?_
    intro h
    cases h with
    | object _ hp _ =>
      have h := hp "leaf" .null (.link "Leaf") (.head _) rfl
      refine not_valid_link rfl ?_ h
      exact not_valid_type (fun h => h) (fun h => nomatch h)
  · refine .link rfl (.object ?_ ?_ ?_)
    · intro k hk; exact hk
    · intro k j r hm hg
      simp only [List.mem_singleton, Prod.mk.injEq] at hm
      obtain ⟨rfl, rfl⟩ := hm
      have e : r = _ := (Option.some.inj hg).symm
      rw [e]
      exact .inline .null
    · intro k j r _ _ ha
      cases ha

namespace Sample

/-- `struct Pair { a: Option<Leaf>, b: Leaf }`, the first field being inlined or not. -/
def docPair (inline : Bool) : Env := ⟨fun
  | 0 => struct "Pair" [⟨{ (field "a" (.option (.named 1))).attrs with inline := inline }, .option (.named 1)⟩,
      field "b" (.named 1)]
  | _ => struct "Leaf" [field "n" (.prim .u32)], id⟩

theorem docPair_same : SameBarDocs (docPair false) (docPair true)
  | 0 => rfl
  | _ + 1 => rfl

/-- No field of it is marked `nullable`. -/
theorem docPair_nullable : ∀ i, NullableAlike (docPair false) (docPair true) i
  | 0 => .cons (fun _ _ h _ => by cases h) (.cons (fun _ _ h _ => by cases h) .nil)
  | _ + 1 => .cons (fun _ _ h _ => by cases h) .nil

end Sample

/-- **C76** is false where a name is used for several types: of `Option<Leaf>` and `Leaf` the first one to be referred to is
registered, so `inline` on a field of the first type changes what a field of the other one accepts. -/
theorem c76_is_false_names : ∃ (env env' : Env) (cx cx' : Components) (r r' : Ref) (j : Json), SameBarDocs env env' ∧
    (∀ i, NullableAlike env env' i) ∧
    MentionReturns env (.named 0) false {} Components.empty r cx ∧
    MentionReturns env' (.named 0) false {} Components.empty r' cx' ∧
    Valid false cx.schemas r j ∧ ¬ Valid false cx'.schemas r' j := by
  refine ⟨Sample.docPair false, Sample.docPair true, _, _, _, _, .obj [("a", .null), ("b", .null)], Sample.docPair_same,
    Sample.docPair_nullable, ⟨10, rfl⟩, ⟨10, rfl⟩, ?_, ?_⟩
  · refine .link rfl (.object ?_ ?_ ?_)
    · intro k hk; exact hk
    · intro k j r hm hg
      simp only [List.mem_cons, Prod.mk.injEq, List.not_mem_nil, or_false] at hm
      rcases hm with ⟨rfl, rfl⟩ | ⟨rfl, rfl⟩
      · have e : r = _ := (Option.some.inj hg).symm
        rw [e]
        exact .link rfl .null
      · have e : r = _ := (Option.some.inj hg).symm
        rw [e]
        exact .link rfl .null
    · intro k j r _ _ ha
      cases ha
  · refine not_valid_link rfl ?_
    intro h
    cases h with
    | object _ hp _ =>
      have h := hp "b" .null (.link "Leaf") (.tail _ (.head _)) rfl
      refine not_valid_link rfl ?_ h
      exact not_valid_type (fun h => h) (fun h => nomatch h)

end Verif
