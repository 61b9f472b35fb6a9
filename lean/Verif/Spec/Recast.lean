import Verif.Spec.Neutral
import Verif.Spec.Deps
/-!
# Newtypes and pointers around types (specification)
-/

namespace Verif

/-- `struct N(T)`, of whatever name and documented in whatever words, but without `nullable` on the field and without a type
given by an attribute. -/
def Container.IsNewtype (c : Container Ty) (t : Ty) : Prop :=
  ∃ f fs, c.data = .struct .newType (f :: fs) ∧ f.ty = t ∧ f.attrs.nullable = false ∧ c.attrs.explicitModelType = none

/-- The same type but for newtypes, references and smart pointers around any part of it, the kind of collections and maps, and
primitives of the same schema.  The first type is one of the program `env`, the second one of `env'`. -/
inductive Recast (env env' : Env) : Ty → Ty → Prop
  | newtypeLeft {i t u} (hn : (env.decl i).IsNewtype t) (h : Recast env env' t u) : Recast env env' (.named i) u
  | newtypeRight {i t u} (hn : (env'.decl i).IsNewtype u) (h : Recast env env' t u) : Recast env env' t (.named i)
  | pointerLeft {w t u} (h : Recast env env' t u) : Recast env env' (.wrap w t) u
  | pointerRight {w t u} (h : Recast env env' t u) : Recast env env' t (.wrap w u)
  | prim {p q : Prim} (h : p.schema = q.schema) : Recast env env' (.prim p) (.prim q)
  | option {t u} (h : Recast env env' t u) : Recast env env' (.option t) (.option u)
  | tuple {ts us : List Ty} (hl : ts.length = us.length)
      (h : ∀ (k : Nat) t u, ts[k]? = some t → us[k]? = some u → Recast env env' t u) : Recast env env' (.tuple ts) (.tuple us)
  | seq {k k' t u} (h : Recast env env' t u) : Recast env env' (.seq k t) (.seq k' u)
  | dict {k k' t u} (h : Recast env env' t u) : Recast env env' (.dict k t) (.dict k' u)
  | unit : Recast env env' .unit .unit
  | uuid : Recast env env' .uuid .uuid
  | naiveDateTime : Recast env env' .naiveDateTime .naiveDateTime
  | dateTime : Recast env env' .dateTime .dateTime
  | naiveDate : Recast env env' .naiveDate .naiveDate
  | named (i : Nat) : Recast env env' (.named i) (.named i)

/-- Two programs differ only in newtypes and pointers around the types of fields, in kinds of collections, and in attributes that
document. -/
def Env.Recasts (env env' : Env) : Prop := ∀ i, (env.decl i).Like (Recast env env') (env'.decl i)

end Verif
