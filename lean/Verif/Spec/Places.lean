import Verif.Spec.Api
/-!
# The parameters of a request (specification)

OpenAPI identifies a parameter by its name and its place (`in`).  The parameters of an operation are its own, and those
of its path item that it does not have itself.
-/

namespace Verif

/-- Where the parameter is sent. -/
def ParamDecl.place : ParamDecl → ParameterIn
  | .header .. => .header
  | .query .. => .query

/-- The declaration, if it is one of that name and place. -/
def ParamDecl.at? (name : String) (place : ParameterIn) (d : ParamDecl) : Option ParamDecl :=
  if d.name = name ∧ d.place = place then some d else none

/-- The document says that the operation `o` of the path item `v` has the parameter `p` of that name in that place. -/
def Effective (v : PathValue) (o : Operation) (name : String) (place : ParameterIn) (p : OperationParameter) : Prop :=
  (BMap.get name o.parameters = some p ∧ p.parameterIn = place) ∨
  ((∀ q, BMap.get name o.parameters = some q → q.parameterIn ≠ place) ∧
    BMap.get name v.parameters = some p ∧ p.parameterIn = place)

/-- The author says so: the last declaration of that name and place in the operation, else in the path, else in the
segments of the path. -/
def Meant (env : Env) (decl : PathDecl) (ps : List OpProp) (name : String) (place : ParameterIn) (p : OperationParameter) : Prop :=
  match lastOf (ParamDecl.at? name place) (ps.flatMap OpProp.paramList),
    lastOf (ParamDecl.at? name place) (decl.props.flatMap ItemProp.paramList),
    lastOf (PathSeg.typeOf? name) decl.segments with
  | some d, _, _ => ParamOf env d p
  | none, some d, _ => ParamOf env d p
  | none, none, some t => place = .path ∧ UrlParam env t p
  | none, none, none => False

/-- No name is declared for two places. -/
def OnePlace (ds : List ParamDecl) : Prop := ∀ d ∈ ds, ∀ d' ∈ ds, d.name = d'.name → d.place = d'.place

/-- No name of a segment is declared as another parameter. -/
def OwnNames (decl : PathDecl) : Prop :=
  ∀ s ∈ decl.segments, ∀ d ∈ decl.props.flatMap ItemProp.paramList, ∀ t, s.typeOf? d.name ≠ some t

end Verif
