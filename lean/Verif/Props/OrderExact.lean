import Verif.Proof.OrderExact
/-!
# C06: exactly when the order of mentions does not matter
-/

namespace Verif

/-- **C06**, exactly. Take the types that a program mentions by reference (from `roots`, at any depth) and let them have
finite expansions (C07). Mentioning any of them, in any two orders, leaves the same schemas if and only if those of one name
have the same schema and mention the same other names. -/
theorem c06_exact (env : Env) (roots : List (Ty × Bool)) (finite : ∀ t, Linked env roots t → Expands env t) :
    (∀ calls calls' rs rs' cx cx', (∀ c ∈ calls, ∃ t p, c = Call.mention t false p ∧ Linked env roots t) →
      calls.Perm calls' → CallsReturn env .empty calls rs cx → CallsReturn env .empty calls' rs' cx' →
      cx.schemas = cx'.schemas) ↔
    NamesConsistent env roots := by
  refine ⟨fun h => AnyOrder.consistent finite h, ?_⟩
  intro hc calls calls' rs rs' cx cx' hl perm run run'
  have hm : ∀ c ∈ calls, c.isMention = true := by
    intro c h
    obtain ⟨t, p, rfl, -⟩ := hl c h
    rfl
  have hroots : ∀ t b, (t, b) ∈ rootsOf calls → Linked env roots t := by
    intro t b h
    rw [rootsOf_eq] at h
    obtain ⟨c, hc', he⟩ := List.mem_filterMap.1 h
    obtain ⟨u, p, rfl, hu⟩ := hl c hc'
    simp only [Option.some.injEq, Prod.mk.injEq] at he
    exact he.1 ▸ hu
  refine c06_order_independent_partial env calls calls' rs rs' cx cx' ?_ hm (fun c h => hm c (perm.mem_iff.2 h)) ?_ run run'
  · intro t t' n ht ht'
    exact hc t t' n (Linked.trans hroots ht) (Linked.trans hroots ht')
  · intro x
    rw [rootsOf_eq, rootsOf_eq]
    exact (perm.filterMap _).mem_iff

open Sample

/-- Its hypothesis holds of `Left`, `Right` and the `Leaf` they share, whose order does not matter. -/
example : (∀ t, Linked diamond (rootsOf diamondCalls) t → Expands diamond t) ∧
    NamesConsistent diamond (rootsOf diamondCalls) := by
  refine ⟨fun t ht => ?_, diamond_unique.consistent⟩
  have hx : ∀ x ∈ rootsOf diamondCalls, Expands diamond x.1 := by
    have run : ∃ rs cx, CallsReturn diamond .empty diamondCalls rs cx :=
      ⟨_, _, .mention ⟨10, rfl⟩ (.mention ⟨10, rfl⟩ (.nil _))⟩
    obtain ⟨rs, cx, run⟩ := run
    exact grounded_calls diamond_unique.agree run (by simp [diamondCalls, Call.isMention]) (fun _ h => h) grounded_empty
  have hr : ∀ t, Reached diamond (rootsOf diamondCalls) t → Expands diamond t := by
    intro t ht
    induction ht with
    | root h => exact hx _ h
    | step _ ha ih => exact Expands.of_needs (.one ha) ih
  exact hr t (linked_reached ht)

/-- And of `Pet` and `Option<Pet>`, whose order matters, for they are two types of one name and different schemas. -/
example : (∀ t, Linked Sample.env [(.named 1, true), (.option (.named 1), true)] t → Expands Sample.env t) ∧
    ¬ NamesConsistent Sample.env [(.named 1, true), (.option (.named 1), true)] := by
  have hs : Expands Sample.env (.prim .string) := .intro rfl fun t b h => by cases h
  have hp : Expands Sample.env (.named 1) := .intro rfl fun t b h => by
    change _ ∈ [_] at h
    rw [List.mem_singleton] at h
    cases h
    exact hs
  have ho : Expands Sample.env (.option (.named 1)) := .intro rfl fun t b h => by
    change _ ∈ [_] at h
    rw [List.mem_singleton] at h
    cases h
    exact hp
  refine ⟨fun t ht => ?_, fun hc => ?_⟩
  · replace ht := linked_reached ht
    induction ht with
    | root h =>
      simp only [List.mem_cons, Prod.mk.injEq, List.not_mem_nil, or_false] at h
      rcases h with ⟨rfl, -⟩ | ⟨rfl, -⟩
      · exact hp
      · exact ho
    | step _ ha ih => exact Expands.of_needs (.one ha) ih
  · have h1 : ∃ m cx, SchemaReturns Sample.env (.named 1) .empty m cx ∧ nullableAt "x" ⟨[("x", m)], []⟩ = some false :=
      ⟨_, _, ⟨5, rfl⟩, rfl⟩
    have h2 : ∃ m cx, SchemaReturns Sample.env (.option (.named 1)) .empty m cx ∧ nullableAt "x" ⟨[("x", m)], []⟩ = some true :=
      ⟨_, _, ⟨5, rfl⟩, rfl⟩
    obtain ⟨m, cx, h1, e1⟩ := h1
    obtain ⟨m', cx', h2, e2⟩ := h2
    have := (hc (.named 1) (.option (.named 1)) "Pet" (.inl (by simp)) (.inl (by simp)) rfl rfl).1 _ _ _ _ _ _ h1 h2
    subst this
    rw [e1] at e2
    cases e2

end Verif
