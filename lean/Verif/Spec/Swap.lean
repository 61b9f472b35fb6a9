import Verif.Model.Generic
import Verif.Spec.Deps
/-!
# Types that are documented the same way (specification)
-/

namespace Verif

/-- The same type but for references and smart pointers around any part of it, the kind of collections and maps, and
primitives of the same schema (as `u8` and `AtomicU8`, or `str` and `String`). -/
inductive Interchangeable : Ty → Ty → Prop
  | prim {p q : Prim} (h : p.schema = q.schema) : Interchangeable (.prim p) (.prim q)
  | left {w t u} (h : Interchangeable t u) : Interchangeable (.wrap w t) u
  | right {w t u} (h : Interchangeable t u) : Interchangeable t (.wrap w u)
  | option {t u} (h : Interchangeable t u) : Interchangeable (.option t) (.option u)
  | tuple {ts us : List Ty} (hl : ts.length = us.length)
      (h : ∀ (k : Nat) t u, ts[k]? = some t → us[k]? = some u → Interchangeable t u) : Interchangeable (.tuple ts) (.tuple us)
  | seq {k k' t u} (h : Interchangeable t u) : Interchangeable (.seq k t) (.seq k' u)
  | dict {k k' t u} (h : Interchangeable t u) : Interchangeable (.dict k t) (.dict k' u)
  | unit : Interchangeable .unit .unit
  | uuid : Interchangeable .uuid .uuid
  | naiveDateTime : Interchangeable .naiveDateTime .naiveDateTime
  | dateTime : Interchangeable .dateTime .dateTime
  | naiveDate : Interchangeable .naiveDate .naiveDate
  | named (i : Nat) : Interchangeable (.named i) (.named i)

/-- Two types that are interchangeable. -/
abbrev Swap := { p : Ty × Ty // Interchangeable p.1 p.2 }
def Swap.before (p : Swap) : Ty := p.1.1
def Swap.after (p : Swap) : Ty := p.1.2

/-- Declarations that differ in the types of fields only, which are interchangeable. -/
def Container.Swapped (c c' : Container Ty) : Prop :=
  ∃ shape : Container Swap, c = shape.map Swap.before ∧ c' = shape.map Swap.after

/-- Programs all of whose declarations are such. -/
def Env.Swapped (env env' : Env) : Prop :=
  env'.evalExpr = env.evalExpr ∧ ∀ i, (env.decl i).Swapped (env'.decl i)

/-- Calls that differ in the types mentioned only, which are interchangeable. -/
inductive Call.Swapped : Call → Call → Prop
  | mention {t u inline p} (h : Interchangeable t u) : Call.Swapped (.mention t inline p) (.mention u inline p)
  | addModel (name m) : Call.Swapped (.addModel name m) (.addModel name m)
  | security (name s) : Call.Swapped (.security name s) (.security name s)

end Verif
