import Verif.Proof.Same
import Verif.Props.PublishedReads
/-!
# C91: a document depends only on the types that its API leads to
-/

namespace Verif

/-! ## C91 -/

theorem mentions_reached {env : Env} {api : Api} : MentionsIn (Reached env api.roots) api.parts :=
  fun t ht => .root (b := true) (by
    rw [Api.roots, rootsOf_eq]
    exact List.mem_filterMap.2 ⟨_, mention_call ht, rfl⟩)

/-- **C91**.  Two programs declare the types that the API leads to alike, and evaluate example expressions alike;
they may differ in all other types.  Then the API has the same document in both: one is produced by the one program
exactly if it is by the other. -/
theorem c91_local (env env' : Env) (reason : Nat → Option String) (api : Api)
    (same : ∀ i, Reached env api.roots (.named i) → env'.decl i = env.decl i)
    (examples : env'.evalExpr = env.evalExpr) (d : Opg) :
    Describes env' reason api d ↔ Describes env reason api d :=
  (agree_reached same examples).describes reason api mentions_reached d

/-- **C91**, for single types: `get_schema` and `mention_schema` of a type depend only on the types it leads to, and on
what is registered. -/
theorem c91_local_types (env env' : Env) (t : Ty)
    (same : ∀ i, Reached env [(t, true)] (.named i) → env'.decl i = env.decl i)
    (examples : env'.evalExpr = env.evalExpr) (cx cx' : Components) :
    (∀ m, SchemaReturns env' t cx m cx' ↔ SchemaReturns env t cx m cx') ∧
    ∀ inline p r, MentionReturns env' t inline p cx r cx' ↔ MentionReturns env t inline p cx r cx' := by
  have h := agree_reached same examples
  have ht : Reached env [(t, true)] t := .root (List.mem_singleton.2 rfl)
  refine ⟨fun m => ?_, fun inline p r => ?_⟩
  · unfold SchemaReturns
    simp only [getSchema_same h _ t ht]
  · unfold MentionReturns mentionSchema
    simp only [mentionWith_same h (getSchema_same h _) ht]

namespace Sample

/-- The program `shop` where all other types of the program are `struct Stray { n: u32 }`. -/
def shopAndMore : Env := program [book, cover, format, author, struct "Stray" [field "n" (.prim .u32)]]

/-- The document of `shopApi` is the same in both programs, although they differ. -/
example : shopAndMore.decl 4 ≠ shop.decl 4 ∧ Describes shopAndMore reason shopApi shopDoc := by
  refine ⟨fun h => absurd (congrArg Container.ident h) (by decide), ?_⟩
  refine (c91_local shop shopAndMore reason shopApi (fun i hi => ?_) rfl shopDoc).2 shopDoc_described
  have := hi.mem_closed shopApi_closed
  simp only [shopTypes, List.mem_cons, Ty.named.injEq, reduceCtorEq, List.not_mem_nil, or_false] at this
  rcases this with rfl | rfl | rfl | rfl <;> rfl

/-- The types that `Author` leads to do not include the fifth one. -/
example : ∃ m cx, SchemaReturns shopAndMore (.named 3) .empty m cx := by
  have hc : closedList shop [(.named 3, true)] [.named 3, .prim .string] = true := by decide +kernel
  refine ⟨_, _, ((c91_local_types shop shopAndMore (.named 3) (fun i hi => ?_) rfl _ _).1 _).2 ⟨10, rfl⟩⟩
  have := hi.mem_closed hc
  simp only [List.mem_cons, Ty.named.injEq, reduceCtorEq, List.not_mem_nil, or_false] at this
  subst this
  rfl

end Sample

end Verif
