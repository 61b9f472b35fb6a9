import Verif.Spec.Docs
import Verif.Spec.Shapes
/-!
# OpenAPI 3.0.3 documents (specification)

Which serialized values are legal, from the text of the OpenAPI Specification 3.0.3 (and, for the keywords it takes
from there, of JSON Schema Wright Draft 00).  Every object is given by the fields it may have; fields that opg has no
means to write are left out, so a document that uses them counts as illegal here.  Conditions that relate distant
parts of a document (references resolve, security names are declared, templates match parameters) are separate
properties: C20, C24, C56, C60.
-/

namespace Verif

/-- Component names: "All the fixed fields declared above are objects that MUST use keys that match the regular
expression `^[a-zA-Z0-9\.\-_]+$`". -/
def LegalName (s : String) : Prop :=
  s ≠ "" ∧ ∀ ch ∈ s.toList, ch.isAlphanum = true ∨ ch ∈ ['.', '-', '_']

/-- An entry with the given key is there. -/
def HasKey (k : String) (es : List (Key × Value)) : Prop := ∃ v, (Key.str k, v) ∈ es

mutual
/-- Schema Object or Reference Object. -/
inductive LegalSchema : Value → Prop
  | ref (s : String) : LegalSchema (.map [(.str "$ref", .str s)])
  /-- an array has `items`; `nullable` needs a `type` -/
  | schema {es} (fields : ∀ e ∈ es, SchemaField e.1 e.2)
      (items : (Key.str "type", Value.str "array") ∈ es → HasKey "items" es)
      (nullable : HasKey "nullable" es → HasKey "type" es) : LegalSchema (.map es)
inductive SchemaField : Key → Value → Prop
  | description (s) : SchemaField (.str "description") (.str s)
  | format (s) : SchemaField (.str "format") (.str s)
  | example (v) : SchemaField (.str "example") v
  | nullable (b) : SchemaField (.str "nullable") (.bool b)
  | type {s} (h : s ∈ ["string", "number", "integer", "boolean", "array", "object"]) : SchemaField (.str "type") (.str s)
  /-- at least one value -/
  | enum {vs} (h : vs ≠ []) : SchemaField (.str "enum") (.seq vs)
  | items {v} (h : LegalSchema v) : SchemaField (.str "items") v
  | properties {es} (keys : ∀ e ∈ es, ∃ k, e.1 = .str k) (h : ∀ e ∈ es, LegalSchema e.2) :
      SchemaField (.str "properties") (.map es)
  | additionalProperties {v} (h : LegalSchema v) : SchemaField (.str "additionalProperties") v
  /-- at least one name, no name twice -/
  | required {ss : List String} (h : ss ≠ []) (hd : ss.Nodup) : SchemaField (.str "required") (.seq (ss.map Value.str))
  | oneOf {vs} (hn : vs ≠ []) (h : ∀ v ∈ vs, LegalSchema v) : SchemaField (.str "oneOf") (.seq vs)
  | allOf {vs} (hn : vs ≠ []) (h : ∀ v ∈ vs, LegalSchema v) : SchemaField (.str "allOf") (.seq vs)
  | anyOf {vs} (hn : vs ≠ []) (h : ∀ v ∈ vs, LegalSchema v) : SchemaField (.str "anyOf") (.seq vs)
end

/-- A map from media types to Media Type Objects. -/
inductive LegalContent : Value → Prop
  | mk {es} (h : ∀ e ∈ es, ∃ media schema, e = (.str media, .map [(.str "schema", schema)]) ∧ LegalSchema schema) :
      LegalContent (.map es)

inductive RequestBodyField : Key → Value → Prop
  | description (s) : RequestBodyField (.str "description") (.str s)
  | required (b) : RequestBodyField (.str "required") (.bool b)
  | content {v} (h : LegalContent v) : RequestBodyField (.str "content") v
/-- Request Body Object. -/
inductive LegalRequestBody : Value → Prop
  | mk {es} (fields : ∀ e ∈ es, RequestBodyField e.1 e.2) (content : HasKey "content" es) : LegalRequestBody (.map es)

inductive ResponseField : Key → Value → Prop
  | description (s) : ResponseField (.str "description") (.str s)
  | content {v} (h : LegalContent v) : ResponseField (.str "content") v
/-- Response Object. -/
inductive LegalResponse : Value → Prop
  | mk {es} (fields : ∀ e ∈ es, ResponseField e.1 e.2) (description : HasKey "description" es) : LegalResponse (.map es)

/-- Responses Object: status codes, at least one. -/
inductive LegalResponses : Value → Prop
  | mk {es} (some : es ≠ [])
      (h : ∀ e ∈ es, ∃ code r, e = (.num code, r) ∧ 100 ≤ code ∧ code ≤ 599 ∧ LegalResponse r) : LegalResponses (.map es)

inductive ParameterField : Key → Value → Prop
  | name (s) : ParameterField (.str "name") (.str s)
  | place {s} (h : s ∈ ["query", "header", "path", "cookie"]) : ParameterField (.str "in") (.str s)
  | description (s) : ParameterField (.str "description") (.str s)
  | required (b) : ParameterField (.str "required") (.bool b)
  | deprecated (b) : ParameterField (.str "deprecated") (.bool b)
  | schema {v} (h : LegalSchema v) : ParameterField (.str "schema") v
/-- Parameter Object: a name, a place and a schema; path parameters are required. -/
inductive LegalParameter : Value → Prop
  | mk {es} (fields : ∀ e ∈ es, ParameterField e.1 e.2) (name : HasKey "name" es) (place : HasKey "in" es)
      (schema : HasKey "schema" es)
      (path : (Key.str "in", Value.str "path") ∈ es → (Key.str "required", Value.bool true) ∈ es) : LegalParameter (.map es)

/-- The name and the place of a parameter. -/
def parameterId (v : Value) : Option Value × Option Value := (v.at "name", v.at "in")

/-- "The list MUST NOT include duplicated parameters. A unique parameter is defined by a combination of a name and
location." -/
inductive LegalParameters : Value → Prop
  | mk {vs} (h : ∀ v ∈ vs, LegalParameter v) (hd : (vs.map parameterId).Nodup) : LegalParameters (.seq vs)

/-- Security Requirement Object, for schemes without scopes (`http` and `apiKey`). -/
inductive LegalRequirement : Value → Prop
  | mk {es} (h : ∀ e ∈ es, ∃ name, e = (.str name, .seq [])) : LegalRequirement (.map es)

mutual
/-- Path Item Object. -/
inductive LegalPathItem : Value → Prop
  | mk {es} (fields : ∀ e ∈ es, PathItemField e.1 e.2) : LegalPathItem (.map es)
inductive PathItemField : Key → Value → Prop
  | summary (s) : PathItemField (.str "summary") (.str s)
  | description (s) : PathItemField (.str "description") (.str s)
  | operation {m v} (hm : m ∈ ["get", "put", "post", "delete", "options", "head", "patch", "trace"])
      (h : LegalOperation v) : PathItemField (.str m) v
  | parameters {v} (h : LegalParameters v) : PathItemField (.str "parameters") v
/-- Operation Object. -/
inductive LegalOperation : Value → Prop
  | mk {es} (fields : ∀ e ∈ es, OperationField e.1 e.2) (responses : HasKey "responses" es) : LegalOperation (.map es)
inductive OperationField : Key → Value → Prop
  | tags (ss : List String) : OperationField (.str "tags") (.seq (ss.map Value.str))
  | summary (s) : OperationField (.str "summary") (.str s)
  | description (s) : OperationField (.str "description") (.str s)
  | operationId (s) : OperationField (.str "operationId") (.str s)
  | deprecated (b) : OperationField (.str "deprecated") (.bool b)
  | security {vs} (h : ∀ v ∈ vs, LegalRequirement v) : OperationField (.str "security") (.seq vs)
  | requestBody {v} (h : LegalRequestBody v) : OperationField (.str "requestBody") v
  | responses {v} (h : LegalResponses v) : OperationField (.str "responses") v
  | parameters {v} (h : LegalParameters v) : OperationField (.str "parameters") v
  | callbacks {es} (keys : ∀ e ∈ es, ∃ k, e.1 = .str k) (h : ∀ e ∈ es, LegalCallback e.2) :
      OperationField (.str "callbacks") (.map es)
/-- Callback Object. -/
inductive LegalCallback : Value → Prop
  | mk {es} (keys : ∀ e ∈ es, ∃ k, e.1 = .str k) (h : ∀ e ∈ es, LegalPathItem e.2) : LegalCallback (.map es)
end

/-- Paths Object: "The field name MUST begin with a forward slash". -/
inductive LegalPaths : Value → Prop
  | mk {es} (h : ∀ e ∈ es, ∃ cs v, e = (.str (String.ofList ('/' :: cs)), v) ∧ LegalPathItem v) : LegalPaths (.map es)

inductive SchemeField : Key → Value → Prop
  | type {s} (h : s ∈ ["http", "apiKey"]) : SchemeField (.str "type") (.str s)
  | scheme (s) : SchemeField (.str "scheme") (.str s)
  | bearerFormat (s) : SchemeField (.str "bearerFormat") (.str s)
  | description (s) : SchemeField (.str "description") (.str s)
  | name (s) : SchemeField (.str "name") (.str s)
  /-- not `path` -/
  | place {s} (h : s ∈ ["query", "header", "cookie"]) : SchemeField (.str "in") (.str s)
/-- Security Scheme Object of type `http` or `apiKey`. -/
inductive LegalScheme : Value → Prop
  | mk {es} (fields : ∀ e ∈ es, SchemeField e.1 e.2) (type : HasKey "type" es)
      (http : (Key.str "type", Value.str "http") ∈ es → HasKey "scheme" es)
      (apiKey : (Key.str "type", Value.str "apiKey") ∈ es → HasKey "name" es ∧ HasKey "in" es) : LegalScheme (.map es)

inductive ComponentsField : Key → Value → Prop
  | schemas {es} (h : ∀ e ∈ es, ∃ name v, e = (.str name, v) ∧ LegalName name ∧ LegalSchema v) :
      ComponentsField (.str "schemas") (.map es)
  | securitySchemes {es} (h : ∀ e ∈ es, ∃ name v, e = (.str name, v) ∧ LegalName name ∧ LegalScheme v) :
      ComponentsField (.str "securitySchemes") (.map es)
/-- Components Object. -/
inductive LegalComponents : Value → Prop
  | mk {es} (fields : ∀ e ∈ es, ComponentsField e.1 e.2) : LegalComponents (.map es)

inductive InfoField : Key → Value → Prop
  | title (s) : InfoField (.str "title") (.str s)
  | version (s) : InfoField (.str "version") (.str s)
  | description (s) : InfoField (.str "description") (.str s)
/-- Info Object. -/
inductive LegalInfo : Value → Prop
  | mk {es} (fields : ∀ e ∈ es, InfoField e.1 e.2) (title : HasKey "title" es) (version : HasKey "version" es) :
      LegalInfo (.map es)

inductive ServerField : Key → Value → Prop
  | url (s) : ServerField (.str "url") (.str s)
  | description (s) : ServerField (.str "description") (.str s)
/-- Server Object. -/
inductive LegalServer : Value → Prop
  | mk {es} (fields : ∀ e ∈ es, ServerField e.1 e.2) (url : HasKey "url" es) : LegalServer (.map es)

inductive TagField : Key → Value → Prop
  | name (s) : TagField (.str "name") (.str s)
  | description (s) : TagField (.str "description") (.str s)
/-- Tag Object. -/
inductive LegalTag : Value → Prop
  | mk {es} (fields : ∀ e ∈ es, TagField e.1 e.2) (name : HasKey "name" es) : LegalTag (.map es)

inductive DocumentField : Key → Value → Prop
  | openapi : DocumentField (.str "openapi") (.str "3.0.3")
  | info {v} (h : LegalInfo v) : DocumentField (.str "info") v
  | servers {vs} (h : ∀ v ∈ vs, LegalServer v) : DocumentField (.str "servers") (.seq vs)
  | paths {v} (h : LegalPaths v) : DocumentField (.str "paths") v
  | components {v} (h : LegalComponents v) : DocumentField (.str "components") v
  /-- "Each tag name in the list MUST be unique." -/
  | tags {vs} (h : ∀ v ∈ vs, LegalTag v) (hd : (vs.map fun v => v.at "name").Nodup) : DocumentField (.str "tags") (.seq vs)
/-- OpenAPI Object. -/
inductive LegalDocument : Value → Prop
  | mk {es} (fields : ∀ e ∈ es, DocumentField e.1 e.2) (openapi : HasKey "openapi" es) (info : HasKey "info" es)
      (paths : HasKey "paths" es) : LegalDocument (.map es)

/-! ## The same for the data that is serialized -/

mutual
/-- Alternatives and allowed values are not empty, required names are distinct, at any depth. -/
def Ref.Legal : Ref → Prop
  | .link _ => True
  | .inline m => m.Legal
  | .any => True
def Model.Legal : Model → Prop
  | ⟨_, d⟩ => d.Legal
def ModelData.Legal : ModelData → Prop
  | .single t => t.Legal
  | .oneOf rs => rs ≠ [] ∧ legalRefs rs
  | .allOf rs => rs ≠ [] ∧ legalRefs rs
  | .anyOf rs => rs ≠ [] ∧ legalRefs rs
def ModelType.Legal : ModelType → Prop
  | ⟨_, d⟩ => d.Legal
def TypeDesc.Legal : TypeDesc → Prop
  | .string variants _ _ => variants ≠ some []
  | .number _ _ | .integer _ _ | .boolean => True
  | .array items => items.Legal
  | .object o => o.Legal
def ModelObject.Legal : ModelObject → Prop
  | ⟨properties, additional, required⟩ => required.Nodup ∧ legalProps properties ∧ legalOpt additional
def legalRefs : List Ref → Prop
  | [] => True
  | r :: rs => r.Legal ∧ legalRefs rs
def legalProps : List (String × Ref) → Prop
  | [] => True
  | (_, r) :: rs => r.Legal ∧ legalProps rs
def legalOpt : Option Ref → Prop
  | none => True
  | some r => r.Legal
end

/-- The serialized fields that are not optional have different names. -/
def DistinctRequired (fs : List (Field Ty)) : Prop :=
  (((serialFields fs).filter fun f => !f.attrs.optional).map Field.key).Nodup

/-- Declarations without degenerate parts: required names are distinct, tuples have fields, enums have serialized
variants (of which one has a discriminant, if the enum is documented by discriminants), and an adjacent tag
differs from the content key.  (Adjacently tagged struct variants are documented like tuples.) -/
structure LegalDecl (c : Container Ty) : Prop where
  structs : ∀ fs, c.data = .struct .struct fs → DistinctRequired fs
  tuples : ∀ fs, c.data = .struct .tuple fs → fs ≠ []
  variants : ∀ vs, c.data = .enum vs → ∃ v ∈ vs, v.attrs.skipSerializing = false
  codes : ∀ vs, c.data = .enum vs → c.attrs.modelType = .newType → c.attrs.hasRepr = true →
    ∃ v ∈ vs, v.attrs.skipSerializing = false ∧ v.discriminant ≠ none
  tupleVariants : ∀ vs, c.data = .enum vs → c.attrs.modelType ≠ .newType →
    ∀ v ∈ vs, v.attrs.skipSerializing = false → v.style = .tuple → v.fields ≠ []
  structVariants : ∀ vs, c.data = .enum vs → c.attrs.modelType ≠ .newType →
    ∀ v ∈ vs, v.attrs.skipSerializing = false → v.style = .struct →
      if c.attrs.modelType = .object then v.fields ≠ [] else DistinctRequired v.fields
  tags : ∀ vs, c.data = .enum vs → c.attrs.modelType = .object →
    ∀ t k, c.attrs.tagType = .adjacent t k → t ≠ k

/-- Types without degenerate parts: tuples have components, declarations are legal. -/
def LegalType (env : Env) : Ty → Prop
  | .tuple ts => ts ≠ []
  | .named i => LegalDecl (env.decl i)
  | _ => True

/-- Operations: at least one response, real status codes, parameters with schemas, path parameters required, a
description of the body, no scopes, legal schemas. -/
structure Operation.Complete (o : Operation) : Prop where
  responses : o.responses ≠ []
  codes : ∀ r ∈ o.responses, 100 ≤ r.1 ∧ r.1 ≤ 599
  schemas : ∀ p ∈ o.parameters, p.2.schema ≠ none
  path : ∀ p ∈ o.parameters, p.2.parameterIn = .path → p.2.required = true
  body : ∀ b, o.requestBody = some b → b.description ≠ none
  scopes : ∀ alt ∈ o.security, ∀ s ∈ alt, s.2 = []
  refs : ∀ r ∈ o.refs, r.Legal

structure PathValue.Complete (v : PathValue) : Prop where
  schemas : ∀ p ∈ v.parameters, p.2.schema ≠ none
  path : ∀ p ∈ v.parameters, p.2.parameterIn = .path → p.2.required = true
  refs : ∀ r ∈ v.refs, r.Legal

/-- All operations and path items are complete, all maps are in key order (as `BTreeMap`s are). -/
def docComplete : DocPred where
  op o := o.Complete ∧ BMap.Sorted o.parameters
  item v := v.Complete ∧ BMap.Sorted v.parameters

/-- API keys are not sent in the path. -/
def SecurityScheme.NotInPath : SecurityScheme → Prop
  | .http _ => True
  | .apiKey a => a.parameterIn ≠ .path

structure Components.Complete (c : Components) : Prop where
  names : ∀ b ∈ c.schemas, LegalName b.1
  models : ∀ b ∈ c.schemas, b.2.Legal
  schemeNames : ∀ b ∈ c.securitySchemes, LegalName b.1
  schemes : ∀ b ∈ c.securitySchemes, b.2.NotInPath

structure Opg.Complete (d : Opg) : Prop where
  version : d.openapi = "3.0.3"
  tags : BMap.Sorted d.tags
  paths : d.paths ≠ []
  segments : ∀ p ∈ d.paths, p.1 ≠ []
  items : forallPaths docComplete d.paths
  components : d.components.Complete

end Verif
