import Verif.Spec.Evolve
import Verif.Spec.ConformBy
/-!
# Types that grow, some of them written by hand (specification)
-/

namespace Verif

/-- A program has grown, the values of some of whose types are written by hand: as `hand` says before, as `hand'` says after.  The same
types are written by derived code.  Each of them has grown, and what was written by hand for a value still is. -/
structure Env.GrowsBy (env : Env) (s : Serde) (hand : Nat → Option (Json → Prop)) (env' : Env)
    (hand' : Nat → Option (Json → Prop)) : Prop where
  decl : ∀ i, hand i = none → (env.decl i).Grows (env'.decl i)
  repr : ∀ i vs, hand i = none → s.asRepr i = true → (env'.decl i).data = .enum vs → ∀ v ∈ vs, v.style = .unit
  derived : ∀ i, hand i = none → hand' i = none
  byHand : ∀ i v, hand i = some v → ∃ v', hand' i = some v' ∧ ∀ j, v j → v' j

end Verif
