import Verif.Spec.Exchange
/-!
# Whole responses (specification)

When a response is in order according to an operation of a written document, and according to its description.
-/

namespace Verif

structure Answer where
  status : Nat
  body : Option Json

/-- The operation lists the status of the response.  If it gives a schema, the body is there and accepted; if it gives
none, there is no body. -/
def Value.Answers (excl : Bool) (doc op : Value) (a : Answer) : Prop :=
  ∃ responses r, op.at "responses" = some responses ∧ responses.atCode a.status = some r ∧
    (r.jsonSchema = none ∧ a.body = none ∨ ∃ s j, r.jsonSchema = some s ∧ a.body = some j ∧ Accepts excl doc s j)

/-- The body follows what is said behind the colon of a response: none for `None`, a value of the type for a type.
`given` says what the schemas stand for that the author has written by hand. -/
inductive ResponseDecl.Allows (ok : Ty → Json → Prop) (given : Ref → Json → Prop) : ResponseDecl → Option Json → Prop
  | absent : Allows ok given .absent none
  | type {t j} (h : ok t j) : Allows ok given (.type t) (some j)
  | none : Allows ok given (.raw none) none
  | raw {r j} (h : given r j) : Allows ok given (.raw (some r)) (some j)

/-- The last declaration for the status allows the body. -/
def Answering (ok : Ty → Json → Prop) (given : Ref → Json → Prop) (ps : List OpProp) (a : Answer) : Prop :=
  ∃ description decl, lastOf (OpProp.response? a.status) ps = some (description, decl) ∧ decl.Allows ok given a.body

end Verif
