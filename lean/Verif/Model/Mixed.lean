import Verif.Model.Custom
import Verif.Model.Macros
/-!
# `describe_api!` in programs with hand written impls
-/

namespace Verif

/-- What the expansion of `describe_api!` depends on (macros.rs 331-748): the impls of the program, a bound on the depth of
calls, and the reasons of status codes as in `Ctx`. -/
structure MixedCtx where
  impls : Ty → Impl Ty
  fuel : Nat
  reason : Nat → Option String

/-- `$result.components.mention_schema::<T>(false, &Default::default())` (macros.rs 541, 552, 557, 596, 646-709, 744)
runs the impl of `T`. -/
instance : Mentioner MixedCtx where
  ask c t := fun cx => runProg c.impls c.fuel Ref (.mention t false {} .ret) cx
  reason := MixedCtx.reason

end Verif
