import Verif.Spec.Access
import Verif.Spec.Arrange
import Verif.Spec.Places
import Verif.Spec.Routes
import Verif.Spec.Reads
/-!
# Whole requests (specification)

When a request is in order according to a written document, and according to a description.
-/

namespace Verif

structure Request where
  method : HttpMethod
  /-- the path of its URL -/
  url : List Char
  /-- the values of its headers and query parameters -/
  sent : ParameterIn → String → Option Json
  /-- the values of the texts in its URL -/
  decode : String → Option Json
  body : Option Json
  shown : Credentials

/-- No value in the request has repeated keys. -/
structure Request.Plain (req : Request) : Prop where
  sent : ∀ place name j, req.sent place name = some j → j.Distinct
  decode : ∀ text j, req.decode text = some j → j.Distinct
  body : ∀ j, req.body = some j → j.Distinct

/-- A value is there if it has to be, and if it is there, it is accepted. -/
structure Supplied (required : Bool) (accepted : Json → Prop) (value : Option Json) : Prop where
  there : required = true → value ≠ none
  right : ∀ j, value = some j → accepted j

/-! ## According to the document -/

/-- The flag `required`, which is `false` if it is left out. -/
def Value.isRequired (v : Value) : Bool :=
  match v.at "required" with
  | some (.bool b) => b
  | _ => false

/-- The operation or path item lists the parameter under that name and place. -/
def Value.Lists (v : Value) (name : String) (place : ParameterIn) (p : Value) : Prop :=
  ∃ ps, v.at "parameters" = some (.seq ps) ∧ p ∈ ps ∧ p.at "name" = some (.str name) ∧ p.at "in" = some (.str place.asStr)

/-- The operation of the path item has the parameter: its own, or that of the item if it has none of that name and place. -/
def Value.HasParameter (item op : Value) (name : String) (place : ParameterIn) (p : Value) : Prop :=
  op.Lists name place p ∨ (∀ q, ¬ op.Lists name place q) ∧ item.Lists name place p

/-- There is a schema, and it accepts the value. -/
def Value.SchemaAccepts (excl : Bool) (doc : Value) (schema : Option Value) (j : Json) : Prop :=
  ∃ s, schema = some s ∧ Accepts excl doc s j

/-- The request is in order for the operation of the path item; `bs` are the texts of the path's parameters. -/
structure Value.Suits (excl : Bool) (doc item op : Value) (bs : List (String × String)) (req : Request) : Prop where
  security : doc.Permits op req.shown
  parameters : ∀ name place p, place ≠ .path → Value.HasParameter item op name place p →
    Supplied p.isRequired (doc.SchemaAccepts excl (p.at "schema")) (req.sent place name)
  path : ∀ name p, Value.HasParameter item op name .path p → ∀ text, (name, text) ∈ bs →
    ∃ j, req.decode text = some j ∧ doc.SchemaAccepts excl (p.at "schema") j
  body : ∀ b, op.at "requestBody" = some b → Supplied b.isRequired (doc.SchemaAccepts excl b.jsonSchema) req.body

/-- The document takes the request: it has a path that matches the URL, with an operation for the method for which the
request is in order. -/
def Value.Takes (excl : Bool) (doc : Value) (req : Request) : Prop :=
  ∃ paths template item op bs, doc.at "paths" = some paths ∧ paths.at template = some item ∧ Matches template.toList req.url bs ∧
    item.at req.method.asStr = some op ∧ doc.Suits excl item op bs req

/-! ## According to the description -/

/-- A header is required unless said otherwise, a query parameter is not. -/
def ParamDecl.isRequired (d : ParamDecl) : Bool :=
  (lastOf ParamProp.required? d.props).getD (match d with | .header .. => true | .query .. => false)

/-- The last declaration of a parameter of that name and place in the operation, else in the path. -/
def declaredFor (decl : PathDecl) (ps : List OpProp) (name : String) (place : ParameterIn) : Option ParamDecl :=
  (lastOf (ParamDecl.at? name place) (ps.flatMap OpProp.paramList)).or
    (lastOf (ParamDecl.at? name place) (decl.props.flatMap ItemProp.paramList))

/-- The request is in order for the operation declared by `ps` in the path `decl`; `bs` are the texts of the typed segments.
`ok` says which JSON values stand for values of a type. -/
structure Api.Suits (api : Api) (ok : Ty → Json → Prop) (decl : PathDecl) (ps : List OpProp) (bs : List ((String × Ty) × String))
    (req : Request) : Prop where
  security : api.Permits ps req.shown
  parameters : ∀ name place d, declaredFor decl ps name place = some d → Supplied d.isRequired (ok d.typeOf) (req.sent place name)
  path : ∀ b ∈ bs, ∃ j, req.decode b.2 = some j ∧ ok b.1.2 j
  body : ∀ b, lastOf OpProp.body? ps = some b → Supplied b.isRequired (fun j => ∃ t, b.typeOf = some t ∧ ok t j) req.body

/-- The description takes the request. -/
def Api.Takes (api : Api) (ok : Ty → Json → Prop) (req : Request) : Prop :=
  ∃ decl ∈ api.pathList, ∃ ps bs, Serves decl.segments req.url bs ∧ lastOf (ItemProp.operation? req.method) decl.props = some ps ∧
    api.Suits ok decl ps bs req

/-- A path without the traps of C94 and C111: no braces in literals, one type and one place for each name. -/
structure PathDecl.Clear (decl : PathDecl) : Prop where
  braces : ∀ s ∈ decl.segments, s.NoBraces
  types : ∀ s ∈ decl.segments, ∀ s' ∈ decl.segments, ∀ name t t', s.param? = some (name, t) → s'.param? = some (name, t') → t = t'
  own : OwnNames decl
  path : OnePlace (decl.props.flatMap ItemProp.paramList)
  operations : ∀ m ps, lastOf (ItemProp.operation? m) decl.props = some ps → OnePlace (ps.flatMap OpProp.paramList)

end Verif
