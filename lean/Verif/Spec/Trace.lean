import Verif.Spec.Deps
/-!
# Which `get_schema` calls a mention makes (specification)

The asks of a piece of code are worked off in order.  An ask by reference whose name is registered makes no call; if the
name is not registered, `get_schema` is called and what it returns is registered.  All other asks call `get_schema`.
-/

namespace Verif

/-- Working off the asks on the registry `cx` makes the calls of `get_schema` at the types `ts`, in this order, and leaves
the registry `cx'`. -/
inductive Trace (env : Env) : List (Ty × Bool) → Components → List Ty → Components → Prop
  | nil (cx) : Trace env [] cx [] cx
  | known {t name asks cx ts cx'} (named : typeName env t = some name) (registered : name ∈ BMap.keys cx.schemas)
      (rest : Trace env asks cx ts cx') : Trace env ((t, true) :: asks) cx ts cx'
  | new {t name e m asks cx ts cx₁ ts' cx'} (named : typeName env t = some name)
      (unknown : name ∉ BMap.keys cx.schemas) (code : schemaExpr env t = some e) (calls : Trace env e.asked cx ts cx₁)
      (returns : SchemaReturns env t cx m cx₁)
      (rest : Trace env asks { cx₁ with schemas := BMap.insert name m cx₁.schemas } ts' cx') :
      Trace env ((t, true) :: asks) cx (t :: (ts ++ ts')) cx'
  | inPlace {t byRef e asks cx ts cx₁ ts' cx'} (here : byRef = false ∨ typeName env t = none)
      (code : schemaExpr env t = some e) (calls : Trace env e.asked cx ts cx₁) (rest : Trace env asks cx₁ ts' cx') :
      Trace env ((t, byRef) :: asks) cx (t :: (ts ++ ts')) cx'

/-- The derived types among some types. -/
def derivedOf : List Ty → List Nat
  | [] => []
  | .named i :: ts => i :: derivedOf ts
  | _ :: ts => derivedOf ts

end Verif
