import Verif.Model.Mixed
import Verif.Spec.Custom
import Verif.Spec.Together
/-!
# Described APIs of programs with hand written impls (specification)
-/

namespace Verif

/-- `describe_api!` applied to `api` in a program with those impls produces the document `d`. -/
def DescribesVia (w : Ty → Impl Ty) (reason : Nat → Option String) (api : Api) (d : Opg) : Prop :=
  ∃ fuel, describeApi (⟨w, fuel, reason⟩ : MixedCtx) api = some d

/-- Code that mentions the types and schemes of a description, in order. -/
def partsProg : List Part → Prog Ty (List Ref)
  | [] => .ret []
  | .mention t :: ps => .mention t false {} fun r => (partsProg ps).bind fun rs => .ret (r :: rs)
  | .scheme n s :: ps => .security n s (partsProg ps)
  | .literal _ :: ps => partsProg ps
  | .raw _ :: ps => partsProg ps

/-- `mention_schema::<t>(false, &Default::default())` can answer with `r`. -/
def MentionsVia (w : Ty → Impl Ty) (t : Ty) (r : Ref) : Prop :=
  ∃ cx cx', ProgReturns w (.mention t false {} .ret) cx r cx'

end Verif
