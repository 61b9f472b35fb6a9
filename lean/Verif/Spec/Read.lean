import Verif.Spec.Json
import Verif.Spec.Docs
/-!
# A reader of OpenAPI documents (specification)

Written from the OpenAPI specification 3.0: every field is looked up under its key, whatever the order of the entries,
and any other key is an error.  The reader knows nothing about how documents are written.
-/

namespace Verif

mutual
/-- The nesting of a value. -/
def Value.height : Value → Nat
  | .null => 1
  | .bool _ => 1
  | .str _ => 1
  | .seq vs => heightSeq vs + 1
  | .map es => heightMap es + 1
def heightSeq : List Value → Nat
  | [] => 0
  | v :: vs => max v.height (heightSeq vs)
def heightMap : List (Key × Value) → Nat
  | [] => 0
  | (_, v) :: es => max v.height (heightMap es)
end

namespace Read

/-! ## Generic parts -/

/-- Every element has to be readable. -/
def all {α β : Type} (f : α → Option β) : List α → Option (List β)
  | [] => some []
  | x :: xs => do
    let y ← f x
    let ys ← all f xs
    some (y :: ys)

def text : Value → Option String
  | .str s => some s
  | _ => none

/-- A field that may be absent. -/
def optional {α : Type} (f : Value → Option α) : Option Value → Option (Option α)
  | none => some none
  | some v => (f v).map some

/-- A field that may be absent, meaning `false`. -/
def flag : Option Value → Option Bool
  | none => some false
  | some (.bool b) => some b
  | _ => none

/-- A sequence that may be absent, meaning an empty one. -/
def list {α : Type} (f : Value → Option α) : Option Value → Option (List α)
  | none => some []
  | some (.seq vs) => all f vs
  | _ => none

/-- A binding whose key is a string. -/
def binding {α : Type} (f : Value → Option α) : Key × Value → Option (String × α)
  | (.str k, v) => (f v).map fun x => (k, x)
  | _ => none

/-- A map with strings as keys that may be absent, meaning an empty one. -/
def dict {α : Type} (f : Value → Option α) : Option Value → Option (List (String × α))
  | none => some []
  | some (.map es) => all (binding f) es
  | _ => none

/-- The value is a map without other keys than these. -/
def only (ks : List String) : Value → Option Unit
  | .map es => if es.all (fun e => match e.1 with | .str k => ks.contains k | .num _ => false) then some () else none
  | _ => none

/-! ## Schemas -/

/-- The name in `#/components/schemas/name`. -/
def component (s : String) : Option String :=
  let p := "#/components/schemas/".toList
  if p.isPrefixOf s.toList then some (String.ofList (s.toList.drop p.length)) else none

/-- An object schema; `f` reads schemas inside. -/
def object (f : Value → Option Ref) (v : Value) : Option ModelObject := do
  only ["description", "nullable", "type", "properties", "additionalProperties", "required"] v
  let properties ← dict f (v.at "properties")
  let additional ← optional f (v.at "additionalProperties")
  let required ← list text (v.at "required")
  some ⟨properties, additional, required⟩

/-- What depends on `type`; `f` reads schemas inside. -/
def description (f : Value → Option Ref) (v : Value) (type : String) : Option TypeDesc :=
  if type = "string" then do
    only ["description", "nullable", "type", "enum", "format", "example"] v
    let variants ← optional (fun w => list text (some w)) (v.at "enum")
    let format ← optional text (v.at "format")
    let ex ← optional text (v.at "example")
    some (.string variants format ex)
  else if type = "number" then do
    only ["description", "nullable", "type", "format", "example"] v
    let format ← optional text (v.at "format")
    let ex ← optional text (v.at "example")
    some (.number format ex)
  else if type = "integer" then do
    only ["description", "nullable", "type", "format", "example"] v
    let format ← optional text (v.at "format")
    let ex ← optional text (v.at "example")
    some (.integer format ex)
  else if type = "boolean" then do
    only ["description", "nullable", "type"] v
    some .boolean
  else if type = "array" then do
    only ["description", "nullable", "type", "items"] v
    let items ← v.at "items"
    let items ← f items
    some (.array items)
  else if type = "object" then (object f v).map .object
  else none

def single (f : Value → Option Ref) (v : Value) : Option ModelType := do
  let nullable ← flag (v.at "nullable")
  let type ← v.at "type"
  let type ← text type
  let desc ← description f v type
  some ⟨nullable, desc⟩

/-- `oneOf`, `allOf`, `anyOf` or a type; `f` reads schemas inside. -/
def data (f : Value → Option Ref) (v : Value) : Option ModelData :=
  match v.at "oneOf", v.at "allOf", v.at "anyOf" with
  | some w, none, none => do
    only ["description", "oneOf"] v
    (list f (some w)).map .oneOf
  | none, some w, none => do
    only ["description", "allOf"] v
    (list f (some w)).map .allOf
  | none, none, some w => do
    only ["description", "anyOf"] v
    (list f (some w)).map .anyOf
  | none, none, none => (single f v).map .single
  | _, _, _ => none

/-- A schema; `f` reads schemas inside. -/
def modelWith (f : Value → Option Ref) (v : Value) : Option Model := do
  let description ← optional text (v.at "description")
  let data ← data f v
  some ⟨description, data⟩

/-- A schema or a reference, up to the given depth: `{}` is the schema without constraints. -/
def refTo : Nat → Value → Option Ref
  | 0, _ => none
  | n + 1, v =>
    match v with
    | .map [] => some .any
    | v =>
      match v.at "$ref" with
      | some w => do
        only ["$ref"] v
        let s ← text w
        (component s).map .link
      | none => (modelWith (refTo n) v).map .inline

/-- A schema or a reference. -/
def ref (v : Value) : Option Ref := refTo v.height v
/-- A schema. -/
def model (v : Value) : Option Model := modelWith (refTo v.height) v

/-! ## Operations -/

/-- `{"application/json": {"schema": ...}}` -/
def content (v : Value) : Option Ref := do
  only ["application/json"] v
  let media ← v.at "application/json"
  only ["schema"] media
  let schema ← media.at "schema"
  ref schema

/-- A request body; its description may be `null`, meaning that there is none. -/
def requestBody (v : Value) : Option RequestBody := do
  only ["required", "description", "content"] v
  let required ← flag (v.at "required")
  let description ← match v.at "description" with
    | some .null => some none
    | w => optional text w
  let c ← v.at "content"
  let schema ← content c
  some ⟨description, required, schema⟩

def response (v : Value) : Option Response := do
  only ["description", "content"] v
  let description ← v.at "description"
  let description ← text description
  let schema ← optional content (v.at "content")
  some ⟨description, schema⟩

/-- Responses by status code. -/
def responses : Value → Option (List (Nat × Response))
  | .map es => all (fun
      | (.num n, v) => (response v).map fun r => (n, r)
      | _ => none) es
  | _ => none

def place (v : Value) : Option ParameterIn := do
  let s ← text v
  if s = "query" then some .query
  else if s = "header" then some .header
  else if s = "path" then some .path
  else if s = "cookie" then some .cookie
  else none

def parameter (v : Value) : Option (String × OperationParameter) := do
  only ["name", "description", "in", "required", "deprecated", "schema"] v
  let name ← v.at "name"
  let name ← text name
  let description ← optional text (v.at "description")
  let i ← v.at "in"
  let parameterIn ← place i
  let required ← flag (v.at "required")
  let deprecated ← flag (v.at "deprecated")
  let schema ← optional ref (v.at "schema")
  some (name, ⟨description, parameterIn, required, deprecated, schema⟩)

/-- The paths of a document or of a callback; `path` reads the text of a path, `f` the path items. -/
def paths (path : String → UrlPath) (f : Value → Option PathValue) (v : Option Value) : Option (List (UrlPath × PathValue)) :=
  (dict f v).map fun ps => ps.map fun p => (path p.1, p.2)

/-- An operation; `path` reads the text of a path, `f` the path items of callbacks. -/
def operation (path : String → UrlPath) (f : Value → Option PathValue) (v : Value) : Option Operation := do
  only ["tags", "summary", "operationId", "description", "deprecated", "security", "requestBody", "responses",
    "parameters", "callbacks"] v
  let tags ← list text (v.at "tags")
  let summary ← optional text (v.at "summary")
  let operationId ← optional text (v.at "operationId")
  let description ← optional text (v.at "description")
  let deprecated ← flag (v.at "deprecated")
  let security ← list (fun w => dict (fun x => list text (some x)) (some w)) (v.at "security")
  let body ← optional requestBody (v.at "requestBody")
  let rs ← v.at "responses"
  let rs ← responses rs
  let parameters ← list parameter (v.at "parameters")
  let callbacks ← dict (fun w => (paths path f (some w)).map .mk) (v.at "callbacks")
  some ⟨tags, summary, operationId, description, deprecated, security, body, rs, parameters, callbacks⟩

/-- The method that an entry of a path item describes. -/
def method (k : String) : Option HttpMethod :=
  if k = "get" then some .get
  else if k = "put" then some .put
  else if k = "post" then some .post
  else if k = "delete" then some .delete
  else if k = "options" then some .options
  else if k = "head" then some .head
  else if k = "patch" then some .patch
  else if k = "trace" then some .trace
  else none

/-- An entry of a path item whose key is a method. -/
def methodEntry : Key × Value → Option (HttpMethod × Value)
  | (.str k, v) => (method k).map fun m => (m, v)
  | _ => none

/-- The entries of a path item whose keys are methods, in order. -/
def operations (f : Value → Option Operation) : Value → Option (List (HttpMethod × Operation))
  | .map es => all (fun e : HttpMethod × Value => (f e.2).map fun o => (e.1, o)) (es.filterMap methodEntry)
  | _ => none

/-- A path item, up to the given depth; `path` reads the text of a path. -/
def itemTo (path : String → UrlPath) : Nat → Value → Option PathValue
  | 0, _ => none
  | n + 1, v => do
    only ["summary", "description", "parameters", "get", "put", "post", "delete", "options", "head", "patch", "trace"] v
    let summary ← optional text (v.at "summary")
    let description ← optional text (v.at "description")
    let os ← operations (operation path (itemTo path n)) v
    let parameters ← list parameter (v.at "parameters")
    some ⟨summary, description, os, parameters⟩

def item (path : String → UrlPath) (v : Value) : Option PathValue := itemTo path v.height v

/-! ## Documents -/

def scheme (v : Value) : Option SecurityScheme := do
  let type ← v.at "type"
  let type ← text type
  let description ← optional text (v.at "description")
  if type = "http" then do
    let s ← v.at "scheme"
    let s ← text s
    if s = "basic" then do
      only ["type", "scheme", "description"] v
      some (.http (.basic description))
    else if s = "bearer" then do
      only ["type", "scheme", "bearerFormat", "description"] v
      let format ← optional text (v.at "bearerFormat")
      some (.http (.bearer format description))
    else none
  else if type = "apiKey" then do
    only ["type", "in", "name", "description"] v
    let i ← v.at "in"
    let parameterIn ← place i
    let name ← v.at "name"
    let name ← text name
    some (.apiKey ⟨parameterIn, name, description⟩)
  else none

def components (v : Value) : Option Components := do
  only ["schemas", "securitySchemes"] v
  let schemas ← dict model (v.at "schemas")
  let securitySchemes ← dict scheme (v.at "securitySchemes")
  some ⟨schemas, securitySchemes⟩

def info (v : Value) : Option Info := do
  only ["title", "description", "version"] v
  let title ← v.at "title"
  let title ← text title
  let description ← optional text (v.at "description")
  let version ← v.at "version"
  let version ← text version
  some ⟨title, description, version⟩

def tag (v : Value) : Option (String × Tag) := do
  only ["name", "description"] v
  let name ← v.at "name"
  let name ← text name
  let description ← optional text (v.at "description")
  some (name, ⟨description⟩)

def server (v : Value) : Option Server := do
  only ["url", "description"] v
  let url ← v.at "url"
  let url ← text url
  let description ← optional text (v.at "description")
  some ⟨url, description⟩

/-- A document; `path` reads the text of a path. -/
def document (path : String → UrlPath) (v : Value) : Option Opg := do
  only ["openapi", "info", "tags", "servers", "paths", "components"] v
  let openapi ← v.at "openapi"
  let openapi ← text openapi
  let i ← v.at "info"
  let i ← info i
  let tags ← list tag (v.at "tags")
  let servers ← list server (v.at "servers")
  let ps ← paths path (item path) (v.at "paths")
  let c ← v.at "components"
  let c ← components c
  some ⟨openapi, i, tags, servers, ps, c⟩

/-! ## Paths -/

/-- A list of characters split at `/`. -/
def splitSlash : List Char → List (List Char)
  | [] => [[]]
  | c :: cs =>
    if c = '/' then [] :: splitSlash cs
    else match splitSlash cs with
      | s :: ss => (c :: s) :: ss
      | [] => [[c]]

/-- `{name}` is a parameter, anything else a literal. -/
def segment (cs : List Char) : PathElement :=
  match cs with
  | '{' :: rest =>
    if rest.getLast? = some '}' then .parameter (String.ofList rest.dropLast) else .path (String.ofList cs)
  | _ => .path (String.ofList cs)

/-- The segments of a path.  A path starts with `/`, unless it is empty. -/
def template (s : String) : UrlPath :=
  match s.toList with
  | '/' :: cs => (splitSlash cs).map segment
  | _ => []

end Read

/-! ## Documents up to their paths -/

mutual
/-- The same operation with other paths in its callbacks. -/
def Operation.repath (f : UrlPath → UrlPath) : Operation → Operation
  | ⟨tags, summary, id, desc, depr, sec, body, resp, params, callbacks⟩ =>
    ⟨tags, summary, id, desc, depr, sec, body, resp, params, repathCallbacks f callbacks⟩
def CallbackObject.repath (f : UrlPath → UrlPath) : CallbackObject → CallbackObject
  | ⟨paths⟩ => ⟨repathPaths f paths⟩
def PathValue.repath (f : UrlPath → UrlPath) : PathValue → PathValue
  | ⟨summary, description, operations, parameters⟩ => ⟨summary, description, repathOperations f operations, parameters⟩
def repathCallbacks (f : UrlPath → UrlPath) : List (String × CallbackObject) → List (String × CallbackObject)
  | [] => []
  | (k, c) :: cs => (k, c.repath f) :: repathCallbacks f cs
def repathPaths (f : UrlPath → UrlPath) : List (List PathElement × PathValue) → List (List PathElement × PathValue)
  | [] => []
  | (p, v) :: ps => (f p, v.repath f) :: repathPaths f ps
def repathOperations (f : UrlPath → UrlPath) : List (HttpMethod × Operation) → List (HttpMethod × Operation)
  | [] => []
  | (m, o) :: os => (m, o.repath f) :: repathOperations f os
end

/-- The same document with other paths, also in callbacks at any depth. -/
def Opg.repath (f : UrlPath → UrlPath) (d : Opg) : Opg := { d with paths := repathPaths f d.paths }

end Verif
