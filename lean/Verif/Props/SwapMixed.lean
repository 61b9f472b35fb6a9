import Verif.Proof.SwapMixed
import Verif.Props.Swap
import Verif.Props.Mixed
/-!
# C100 in programs with hand written impls
-/

namespace Verif

/-- **C100**, where some types are documented by hand (in both programs alike) by impls that pointers to them heed: code that
differs in interchangeable types only returns the same and registers the same. -/
theorem c100_mixed (env env' : Env) (custom : Nat → Option (Impl Ty)) (swapped : env.SwappedBut custom env')
    (heeded : ∀ i im, custom i = some im → im.Transparent) :
    (∀ (α : Type) (code code' : Prog Ty α), code.Swapped code' → ∀ cx a cx',
      ProgReturns (impls env' custom) code' cx a cx' ↔ ProgReturns (impls env custom) code cx a cx') ∧
    (∀ t u, Interchangeable t u → ∀ inline p cx r cx', ProgReturns (impls env' custom) (.mention u inline p .ret) cx r cx' ↔
      ProgReturns (impls env custom) (.mention t inline p .ret) cx r cx') ∧
    ∀ reason api d, DescribesVia (impls env' custom) reason api d ↔ DescribesVia (impls env custom) reason api d := by
  have key : ∀ (α : Type) (code code' : Prog Ty α), code.Swapped code' → ∀ cx a cx',
      ProgReturns (impls env' custom) code' cx a cx' ↔ ProgReturns (impls env custom) code cx a cx' := fun _ _ _ h _ _ _ =>
    ⟨prog_swapped swapped.symm heeded h.symm, prog_swapped swapped heeded h⟩
  refine ⟨key, fun t u h inline p cx r cx' => key _ _ _ (.mention h fun r => .ret r) _ _ _, fun reason api d => ⟨?_, ?_⟩⟩
  · exact describesVia_same (fun t cx r cx' => (key _ _ _ (.refl _) _ _ _).1) fun p cx r cx' => (key _ _ _ (.refl _) _ _ _).1
  · exact describesVia_same (fun t cx r cx' => (key _ _ _ (.refl _) _ _ _).2) fun p cx r cx' => (key _ _ _ (.refl _) _ _ _).2

namespace Sample

/-- `Right` is documented by hand, and is another type in the second program. -/
def handedRight : Nat → Option (Impl Ty)
  | 1 => some petImpl
  | _ => none
def sharedOther : Env := ⟨fun
  | 0 => struct "Left" [field "leaf" (.wrap .rc (.named 2))]
  | 1 => struct "Other" []
  | _ => struct "Leaf" [field "n" (.prim .atomicU32)], id⟩

theorem sharedOther_swapped : diamond.SwappedBut handedRight sharedOther := by
  refine ⟨rfl, fun i h => ?_⟩
  match i with
  | 0 => exact shared_swapped.2 0
  | 1 => cases h
  | n + 2 => exact shared_swapped.2 (n + 2)

theorem handedRight_heeded : ∀ i im, handedRight i = some im → im.Transparent := by
  intro i im h
  unfold handedRight at h
  split at h
  · cases h; exact ⟨rfl, .inl rfl⟩
  · cases h

/-- `Vec<Right>` and `&HashSet<Arc<Right>>`, where `Right` is documented by hand. -/
example (inline p cx r cx') : ProgReturns (impls sharedOther handedRight) (.mention (.wrap .ref (.seq .hashSet (.wrap .arc (.named 1)))) inline p .ret) cx r cx' ↔
    ProgReturns (impls diamond handedRight) (.mention (.seq .vec (.named 1)) inline p .ret) cx r cx' :=
  (c100_mixed _ _ _ sharedOther_swapped handedRight_heeded).2.1 _ _ (.right (.seq (.right (.named 1)))) _ _ _ _ _

/-- The mention returns, and registers what is documented by hand. -/
example : ∃ r cx', ProgReturns (impls diamond handedRight) (.mention (.seq .vec (.named 1)) false {} .ret) .empty r cx' ∧
    BMap.keys cx'.schemas = ["Animal", "Kind"] := ⟨_, _, ⟨10, rfl⟩, rfl⟩

example (reason api d) : DescribesVia (impls sharedOther handedRight) reason api d ↔ DescribesVia (impls diamond handedRight) reason api d :=
  (c100_mixed _ _ _ sharedOther_swapped handedRight_heeded).2.2 _ _ _

end Sample

/-- **C100** is about types whose impls pointers heed: an impl that overrides `get_schema_with_params` is not asked for what is
behind a pointer, and one that is always inlined though it has a name is not inlined there. -/
theorem c100_heeded_needed : ∃ (env : Env) (custom custom' : Nat → Option (Impl Ty)),
    env.SwappedBut custom env ∧ env.SwappedBut custom' env ∧
    (∃ r r' cx', r ≠ r' ∧ ProgReturns (impls env custom) (.mention (.option (.named 0)) true {} .ret) .empty r cx' ∧
      ProgReturns (impls env custom) (.mention (.option (.wrap .box (.named 0))) true {} .ret) .empty r' cx') ∧
    ∃ r r' cx cx', r ≠ r' ∧ ProgReturns (impls env custom') (.mention (.named 0) false {} .ret) .empty r cx ∧
      ProgReturns (impls env custom') (.mention (.wrap .box (.named 0)) false {} .ret) .empty r' cx' := by
  refine ⟨Sample.env, fun _ => some { schema := .ret Sample.str, name := some "Id", withParams := some fun _ => .ret Sample.str },
    fun _ => some Sample.inlinedImpl, ⟨rfl, nofun⟩, ⟨rfl, nofun⟩, ⟨_, _, _, ?_, ⟨5, rfl⟩, ⟨5, rfl⟩⟩, _, _, _, _, ?_, ⟨5, rfl⟩, ⟨5, rfl⟩⟩
  · intro h; cases h
  · intro h; cases h

end Verif
