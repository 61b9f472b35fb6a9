import Verif.Spec.Published
/-!
# Places of operations (specification)

Where an operation stands in a document or in a description, and the rules of OpenAPI that relate operations and paths to each other:
"The id MUST be unique among all operations described in the API", and "Templated paths with the same hierarchy but different
templated names MUST NOT exist as they are identical".
-/

namespace Verif

/-- The operation for a method of the path of that number, or of the path of that number of a callback of another operation. -/
inductive Spot where
  | top (path : Nat) (m : HttpMethod)
  | callback (p : Spot) (name : String) (path : Nat) (m : HttpMethod)

/-- The key and value of an entry by its number. -/
def Value.entry (v : Value) (i : Nat) : Option (Key × Value) :=
  match v with
  | .map es => es[i]?
  | _ => none

/-- The operation that stands there in a written document. -/
def Value.opAt (doc : Value) : Spot → Option Value
  | .top i m => do
    let paths ← doc.at "paths"
    let item ← paths.entry i
    item.2.at m.asStr
  | .callback p name i m => do
    let op ← doc.opAt p
    let callbacks ← op.at "callbacks"
    let callback ← callbacks.at name
    let item ← callback.entry i
    item.2.at m.asStr

/-- The paths of a callback whose name is an identifier; those of callbacks with a literal name are not written (C61). -/
def CallbackDecl.kept : CallbackDecl → List PathDecl
  | .literal .. => []
  | .ident _ ps => ps

/-- The properties of the operation that is described there, last for its method. -/
def Api.opAt (api : Api) : Spot → Option (List OpProp)
  | .top i m => do
    let decl ← api.pathList[i]?
    lastOf (ItemProp.operation? m) decl.props
  | .callback p name i m => do
    let ps ← api.opAt p
    let callback ← lastOf (CallbackDecl.named? name) (ps.flatMap OpProp.callbackList)
    let decl ← callback.kept[i]?
    lastOf (ItemProp.operation? m) decl.props

/-- No two operations of the document have the same id. -/
def Value.UniqueIds (doc : Value) : Prop :=
  ∀ p p' op op' id, doc.opAt p = some op → doc.opAt p' = some op' → op.at "operationId" = some id → op'.at "operationId" = some id → p = p'

/-- No two operations of the description are given the same id. -/
def Api.UniqueIds (api : Api) : Prop :=
  ∀ p p' ps ps' id, api.opAt p = some ps → api.opAt p' = some ps' → lastOf OpProp.operationId? ps = some id →
    lastOf OpProp.operationId? ps' = some id → p = p'

/-- A path template without the names between braces.  The flag says whether a brace is open. -/
def hollow : Bool → List Char → List Char
  | _, [] => []
  | false, c :: cs => c :: hollow (c == '{') cs
  | true, c :: cs => if c = '}' then c :: hollow false cs else hollow true cs

/-- No two paths of the document are the same up to the names in them. -/
def Value.UniqueTemplates (doc : Value) : Prop :=
  ∀ paths i i' key key' v v', doc.at "paths" = some paths → paths.entry i = some (.str key, v) → paths.entry i' = some (.str key', v') →
    hollow false key.toList = hollow false key'.toList → i = i'

/-- The text of a segment without names. -/
def PathSeg.shape : PathSeg → List Char
  | .literal s => '/' :: s.toList
  | _ => "/{}".toList

/-- No two paths of the description are the same up to the names in them. -/
def Api.UniqueTemplates (api : Api) : Prop :=
  ∀ (i i' : Nat) decl decl', api.pathList[i]? = some decl → api.pathList[i']? = some decl' →
    decl.segments.flatMap PathSeg.shape = decl'.segments.flatMap PathSeg.shape → i = i'

end Verif
