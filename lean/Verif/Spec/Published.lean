import Verif.Spec.Api
import Verif.Spec.Read
import Verif.Spec.Precise
/-!
# What a published document says about the values of an API (specification)

Everything here looks at the written document only, by the keys of the OpenAPI specification.
-/

namespace Verif

/-- The value under a status code. -/
def Value.atCode (v : Value) (code : Nat) : Option Value :=
  match v with
  | .map es => BMap.get (.num code) es
  | _ => none

/-- The schema of a request body or of a response. -/
def Value.jsonSchema (v : Value) : Option Value := do
  let content ← v.at "content"
  let media ← content.at "application/json"
  media.at "schema"

/-- The schema of an operation's response. -/
def Value.responseSchema (op : Value) (code : Nat) : Option Value := do
  let responses ← op.at "responses"
  let response ← responses.atCode code
  response.jsonSchema

/-- The schema of an operation's request body. -/
def Value.bodySchema (op : Value) : Option Value := do
  let body ← op.at "requestBody"
  body.jsonSchema

/-- An element of `parameters` with that name. -/
def Value.hasName (name : String) (p : Value) : Bool :=
  match p.at "name" with
  | some (.str n) => n == name
  | _ => false

/-- The schema of the parameter of that name of an operation or a path item. -/
def Value.parameterSchema (v : Value) (name : String) : Option Value := do
  let parameters ← v.at "parameters"
  match parameters with
  | .seq ps => do
    let p ← ps.find? (Value.hasName name)
    p.at "schema"
  | _ => none

/-- A schema of the document accepts a JSON value; references are resolved in the document's `components`. -/
def Accepts (excl : Bool) (doc schema : Value) (j : Json) : Prop :=
  ∃ c cx r, doc.at "components" = some c ∧ Read.components c = some cx ∧ Read.ref schema = some r ∧
    Valid excl cx.schemas r j

mutual
/-- The path item that the document has for a declared path: under the text of the path, in `paths` or in a callback. -/
inductive ItemWritten (api : Api) (doc : Value) : PathDecl → Value → Prop
  | top {i : Nat} {decl p paths v} (h : api.pathList[i]? = some decl) (hp : Pointwise SegOf decl.segments p)
      (hd : doc.at "paths" = some paths) (hv : paths.at (UrlPath.render p) = some v) : ItemWritten api doc decl v
  | callback {ps op name} {c : CallbackDecl} {i : Nat} {decl p callbacks paths v} (h : OpWritten api doc ps op)
      (hc : lastOf (CallbackDecl.named? name) (ps.flatMap OpProp.callbackList) = some c)
      (hi : c.paths[i]? = some decl) (hp : Pointwise SegOf decl.segments p) (hcs : op.at "callbacks" = some callbacks)
      (hd : callbacks.at name = some paths) (hv : paths.at (UrlPath.render p) = some v) : ItemWritten api doc decl v
/-- The operation that the document has for a declared operation: under its method. -/
inductive OpWritten (api : Api) (doc : Value) : List OpProp → Value → Prop
  | mk {decl v m ps op} (h : ItemWritten api doc decl v) (hm : lastOf (ItemProp.operation? m) decl.props = some ps)
      (ho : v.at m.asStr = some op) : OpWritten api doc ps op
end

/-- The type of a declared body. -/
def BodyDecl.typeOf : BodyDecl → Option Ty
  | .type t => some t
  | .props ps => lastOf BodyProp.schema? ps

/-- The type of a declared parameter. -/
def ParamDecl.typeOf (d : ParamDecl) : Ty :=
  (lastOf ParamProp.schema? d.props).getD (match d with | .header .. => .prim .string | .query _ t _ => t)

/-- Where the description has the type `t`, the document has the schema `v`. -/
inductive PlacedAt (api : Api) (doc : Value) : Ty → Value → Prop
  | response {ps op code description t v} (h : OpWritten api doc ps op)
      (hd : lastOf (OpProp.response? code) ps = some (description, .type t)) (hv : op.responseSchema code = some v) :
      PlacedAt api doc t v
  | body {ps op decl t v} (h : OpWritten api doc ps op) (hd : lastOf OpProp.body? ps = some decl)
      (ht : decl.typeOf = some t) (hv : op.bodySchema = some v) : PlacedAt api doc t v
  | parameter {ps op name decl v} (h : OpWritten api doc ps op)
      (hd : lastOf (ParamDecl.named? name) (ps.flatMap OpProp.paramList) = some decl)
      (hv : op.parameterSchema name = some v) : PlacedAt api doc decl.typeOf v
  | common {decl item name d v} (h : ItemWritten api doc decl item)
      (hd : lastOf (ParamDecl.named? name) (decl.props.flatMap ItemProp.paramList) = some d)
      (hv : item.parameterSchema name = some v) : PlacedAt api doc d.typeOf v
  | template {decl item name t v} (h : ItemWritten api doc decl item)
      (hn : lastOf (ParamDecl.named? name) (decl.props.flatMap ItemProp.paramList) = none)
      (hd : lastOf (PathSeg.typeOf? name) decl.segments = some t) (hv : item.parameterSchema name = some v) :
      PlacedAt api doc t v

/-- The types that `describe_api!` asks for, by reference. -/
def Api.roots (api : Api) : List (Ty × Bool) := rootsOf (callsOf api.parts)

end Verif
