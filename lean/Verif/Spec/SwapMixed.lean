import Verif.Spec.Swap
import Verif.Spec.Mixed
/-!
# Interchangeable types in programs with hand written impls (specification)
-/

namespace Verif

/-- An impl whose pointers are documented as its type: it does not override `get_schema_with_params`, and it overrides
`select_reference` at most to be always inlined, having no name then.  (Pointers do not heed other overrides, see C103.) -/
structure Impl.Transparent {τ : Type} (im : Impl τ) : Prop where
  withParams : im.withParams = none
  select : im.select = .default ∨ im.select = .inlined ∧ im.name = none

/-- Programs all of whose declarations, but for those of types documented by hand, differ in the types of fields only, which
are interchangeable. -/
def Env.SwappedBut (custom : Nat → Option (Impl Ty)) (env env' : Env) : Prop :=
  env'.evalExpr = env.evalExpr ∧ ∀ i, custom i = none → (env.decl i).Swapped (env'.decl i)

/-- Code that differs in the types only whose methods it calls, which are interchangeable. -/
inductive Prog.Swapped {α : Type} : Prog Ty α → Prog Ty α → Prop
  | ret (a : α) : Prog.Swapped (.ret a) (.ret a)
  | getSchema {t u k k'} (h : Interchangeable t u) (next : ∀ m, Prog.Swapped (k m) (k' m)) :
      Prog.Swapped (.getSchema t k) (.getSchema u k')
  | withParams {t u p k k'} (h : Interchangeable t u) (next : ∀ m, Prog.Swapped (k m) (k' m)) :
      Prog.Swapped (.withParams t p k) (.withParams u p k')
  | mention {t u i p k k'} (h : Interchangeable t u) (next : ∀ r, Prog.Swapped (k r) (k' r)) :
      Prog.Swapped (.mention t i p k) (.mention u i p k')
  | select {t u i p k k'} (h : Interchangeable t u) (next : ∀ r, Prog.Swapped (k r) (k' r)) :
      Prog.Swapped (.select t i p k) (.select u i p k')
  | contains {n k k'} (next : ∀ b, Prog.Swapped (k b) (k' b)) : Prog.Swapped (.contains n k) (.contains n k')
  | verify {k k'} (next : ∀ e, Prog.Swapped (k e) (k' e)) : Prog.Swapped (.verify k) (.verify k')
  | addModel {n m p p'} (next : Prog.Swapped p p') : Prog.Swapped (.addModel n m p) (.addModel n m p')
  | security {n s p p'} (next : Prog.Swapped p p') : Prog.Swapped (.security n s p) (.security n s p')

end Verif
