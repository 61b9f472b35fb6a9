import Verif.Model.Doc
/-!
# `opg/src/models.rs`: serialization

The value handed to a serde serializer, as a tree.  `derive(Serialize)` on a struct emits its fields in
declaration order under their renamed keys; `skip_serializing_if` drops a field, `flatten` splices the entries
of the field's value; an internally tagged enum emits the tag first, an untagged one only its content.
Newtype structs are transparent.  Keys are strings, or numbers for maps keyed by `u16`.
-/

namespace Verif

/-- Keys of serialized maps: strings, and the `u16` of `Operation::responses` (models.rs 275). -/
inductive Key where
  | str (s : String)
  | num (n : Nat)
  deriving DecidableEq, Repr

/-- Serialized values, the tree handed to the serializer by the `derive(Serialize)`s of models.rs 12-1130.  Documents
contain no numbers except as keys. -/
inductive Value where
  | null
  | bool (b : Bool)
  | str (s : String)
  | seq (vs : List Value)
  | map (es : List (Key × Value))

/-- The fields of a struct with `derive(Serialize)` (for example models.rs 99-110): those with value `none` are
skipped. -/
def entriesOf : List (String × Option Value) → List (Key × Value)
  | [] => []
  | (_, none) :: fs => entriesOf fs
  | (k, some v) :: fs => (.str k, v) :: entriesOf fs

/-- `skip_serializing_if = "Option::is_none"` on a string (models.rs 105, 118, 133, 180, 184, 251-259, 641, 886, 890
and others). -/
def optStr (s : Option String) : Option Value := s.map Value.str
/-- `skip_serializing_if = "is_false"` (models.rs 400-404). -/
def flag (b : Bool) : Option Value := if b then some (.bool true) else none
/-- `skip_serializing_if = "Vec::is_empty"` / `"BTreeMap::is_empty"` on a value that serializes to a sequence
(models.rs 22, 28, 193, 247, 267, 279, 941). -/
def nonEmptySeq (vs : List Value) : Option Value := if vs.isEmpty then none else some (.seq vs)
/-- `skip_serializing_if = "Vec::is_empty"` / `"BTreeMap::is_empty"` on a value that serializes to a map (models.rs
34, 285, 516, 520, 933). -/
def nonEmptyMap (es : List (Key × Value)) : Option Value := if es.isEmpty then none else some (.map es)
/-- A sequence of strings (models.rs 248, 856, 942). -/
def strs (ss : List String) : List Value := ss.map Value.str

/-- `SCHEMA_REFERENCE_PREFIX` (lib.rs 11). -/
def referencePrefix : String := "#/components/schemas/"

/-! ## Schemas -/

mutual
/-- `Serialize for ModelReference` (untagged, models.rs 1005-1019), `serialize_model_reference_link` (1021-1033),
`serialize_model_reference_any` (1035-1041). -/
def Ref.ser : Ref → Value
  | .link name => .map [(.str "$ref", .str (referencePrefix ++ name))]
  | .inline m => .map m.entries
  | .any => .map []
/-- `Serialize for Model` (models.rs 637-647): `description`, then the flattened data. -/
def Model.entries : Model → List (Key × Value)
  | ⟨description, data⟩ => entriesOf [("description", optStr description)] ++ data.entries
/-- `Serialize for ModelData` (untagged, models.rs 686-694) with `ModelOneOf`, `ModelAllOf`, `ModelAnyOf`
(`rename_all = "camelCase"`, 717-764). -/
def ModelData.entries : ModelData → List (Key × Value)
  | .single t => t.entries
  | .oneOf rs => [(.str "oneOf", .seq (serRefs rs))]
  | .allOf rs => [(.str "allOf", .seq (serRefs rs))]
  | .anyOf rs => [(.str "anyOf", .seq (serRefs rs))]
/-- `Serialize for ModelType` (models.rs 777-788): `nullable`, then the flattened description. -/
def ModelType.entries : ModelType → List (Key × Value)
  | ⟨nullable, desc⟩ => entriesOf [("nullable", flag nullable)] ++ desc.entries
/-- `Serialize for ModelTypeDescription` (`tag = "type"`, models.rs 817-829), `ModelString` (850-860),
`ModelSimple` (881-892), `ModelArray` (908-913). -/
def TypeDesc.entries : TypeDesc → List (Key × Value)
  | .string variants format ex => (.str "type", .str "string") ::
      entriesOf [("enum", variants.map fun vs => .seq (strs vs)), ("format", optStr format), ("example", optStr ex)]
  | .number format ex => (.str "type", .str "number") :: entriesOf [("format", optStr format), ("example", optStr ex)]
  | .integer format ex => (.str "type", .str "integer") :: entriesOf [("format", optStr format), ("example", optStr ex)]
  | .boolean => [(.str "type", .str "boolean")]
  | .array items => [(.str "type", .str "array"), (.str "items", items.ser)]
  | .object o => (.str "type", .str "object") :: o.entries
/-- `Serialize for ModelObject` (models.rs 928-943). -/
def ModelObject.entries : ModelObject → List (Key × Value)
  | ⟨properties, additional, required⟩ => entriesOf [
      ("properties", nonEmptyMap (serProps properties)), ("additionalProperties", serOptRef additional),
      ("required", nonEmptySeq (strs required))]
/-- A sequence of references (models.rs 720-722, 740-742, 760-762). -/
def serRefs : List Ref → List Value
  | [] => []
  | r :: rs => r.ser :: serRefs rs
/-- A map of references (models.rs 934). -/
def serProps : List (String × Ref) → List (Key × Value)
  | [] => []
  | (k, r) :: rs => (.str k, r.ser) :: serProps rs
/-- `skip_serializing_if = "Option::is_none"` on a reference (models.rs 937). -/
def serOptRef : Option Ref → Option Value
  | none => none
  | some r => some r.ser
end

/-- `Serialize for Model` (models.rs 637-647). -/
def Model.ser (m : Model) : Value := .map m.entries

/-! ## Documents -/

/-- `Serialize for PathElement` inside `serialize_path_elements` (models.rs 143-158). -/
def PathElement.render : PathElement → String
  | .path s => "/" ++ s
  | .parameter s => "/" ++ ("{" ++ s ++ "}")

/-- `serialize_path_elements` (models.rs 143-158). -/
def UrlPath.render : UrlPath → String
  | [] => ""
  | e :: es => e.render ++ UrlPath.render es

/-- `Serialize for ParameterIn` (`rename_all = "lowercase"`, models.rs 499-507). -/
def ParameterIn.asStr : ParameterIn → String
  | .query => "query" | .header => "header" | .path => "path" | .cookie => "cookie"

/-- `ResponseContent { media_type: ResponseMediaType { schema } }` (models.rs 406-412, 428-433). -/
def contentOf (schema : Ref) : Value :=
  .map [(.str "application/json", .map [(.str "schema", schema.ser)])]

/-- `Serialize for RequestBody` (models.rs 340-364); `description` has no `skip_serializing_if`. -/
def RequestBody.ser (b : RequestBody) : Value := .map (entriesOf [
  ("required", flag b.required),
  ("description", some (match b.description with | some d => .str d | none => .null)),
  ("content", some (contentOf b.schema))])

/-- `Serialize for Response` (models.rs 378-398). -/
def Response.ser (r : Response) : Value := .map (entriesOf [
  ("description", some (.str r.description)), ("content", r.schema.map contentOf)])

/-- One element of `serialize_parameters` (models.rs 444-458, 463-471). -/
def OperationParameter.ser (name : String) (p : OperationParameter) : Value := .map (entriesOf [
  ("name", some (.str name)), ("description", optStr p.description), ("in", some (.str p.parameterIn.asStr)),
  ("required", flag p.required), ("deprecated", flag p.deprecated), ("schema", p.schema.map Ref.ser)])

/-- `serialize_parameters` (models.rs 435-473). -/
def serParameters (ps : List (String × OperationParameter)) : List Value := ps.map fun p => p.2.ser p.1

/-- `BTreeMap<String, Vec<String>>` (an element of `Operation::security`, models.rs 266-268). -/
def serSecurity (s : List (String × List String)) : Value := .map (s.map fun b => (.str b.1, .seq (strs b.2)))

/-- `BTreeMap<u16, Response>` (models.rs 274-275). -/
def serResponses (rs : List (Nat × Response)) : List (Key × Value) := rs.map fun b => (.num b.1, b.2.ser)

mutual
/-- `Serialize for Operation` (`rename_all = "camelCase"`, models.rs 240-287). -/
def Operation.ser : Operation → Value
  | ⟨tags, summary, operationId, description, deprecated, security, requestBody, responses, parameters, callbacks⟩ =>
    .map (entriesOf [
      ("tags", nonEmptySeq (strs tags)), ("summary", optStr summary), ("operationId", optStr operationId),
      ("description", optStr description), ("deprecated", flag deprecated),
      ("security", nonEmptySeq (security.map serSecurity)), ("requestBody", requestBody.map RequestBody.ser),
      ("responses", some (.map (serResponses responses))), ("parameters", nonEmptySeq (serParameters parameters)),
      ("callbacks", nonEmptyMap (serCallbacks callbacks))])
/-- `Serialize for CallbackObject` (models.rs 417-426): the flattened `serialize_ordered_entries` (53-70). -/
def CallbackObject.ser : CallbackObject → Value
  | ⟨paths⟩ => .map (serPaths paths)
/-- `Serialize for PathValue` (models.rs 177-197): `operations` is flattened. -/
def PathValue.ser : PathValue → Value
  | ⟨summary, description, operations, parameters⟩ =>
    .map (entriesOf [("summary", optStr summary), ("description", optStr description)] ++
      (serOperations operations ++ entriesOf [("parameters", nonEmptySeq (serParameters parameters))]))
/-- `BTreeMap<String, CallbackObject>` (models.rs 284-286). -/
def serCallbacks : List (String × CallbackObject) → List (Key × Value)
  | [] => []
  | (k, c) :: cs => (.str k, c.ser) :: serCallbacks cs
/-- `serialize_ordered_entries` (models.rs 53-70). -/
def serPaths : List (List PathElement × PathValue) → List (Key × Value)
  | [] => []
  | (p, v) :: ps => (.str (UrlPath.render p), v.ser) :: serPaths ps
/-- `BTreeMap<HttpMethod, Operation>`, keys by `HttpMethod::as_str` (models.rs 187-189, 229-236). -/
def serOperations : List (HttpMethod × Operation) → List (Key × Value)
  | [] => []
  | (m, o) :: os => (.str m.asStr, o.ser) :: serOperations os
end

/-- `Serialize for SecurityScheme` (`tag = "type"`, models.rs 1069-1075), `HttpSecurityScheme` (`tag = "scheme"`,
1077-1094), `ApiKeySecurityScheme` (1107-1121). -/
def SecurityScheme.ser : SecurityScheme → Value
  | .http (.basic description) => .map ((.str "type", .str "http") :: (.str "scheme", .str "basic") ::
      entriesOf [("description", optStr description)])
  | .http (.bearer format description) => .map ((.str "type", .str "http") :: (.str "scheme", .str "bearer") ::
      entriesOf [("bearerFormat", optStr format), ("description", optStr description)])
  | .apiKey a => .map ((.str "type", .str "apiKey") :: entriesOf [("in", some (.str a.parameterIn.asStr)),
      ("name", some (.str a.name)), ("description", optStr a.description)])

/-- `Serialize for Components` (models.rs 512-522). -/
def Components.ser (c : Components) : Value := .map (entriesOf [
  ("schemas", nonEmptyMap (c.schemas.map fun b => (.str b.1, b.2.ser))),
  ("securitySchemes", nonEmptyMap (c.securitySchemes.map fun b => (.str b.1, b.2.ser)))])

/-- `Serialize for Info` (models.rs 98-110). -/
def Info.ser (i : Info) : Value := .map (entriesOf [
  ("title", some (.str i.title)), ("description", optStr i.description), ("version", some (.str i.version))])

/-- One element of `serialize_tags` (models.rs 77-90). -/
def Tag.ser (name : String) (t : Tag) : Value := .map (entriesOf [
  ("name", some (.str name)), ("description", optStr t.description)])

/-- `Serialize for Server` (models.rs 127-135). -/
def Server.ser (s : Server) : Value := .map (entriesOf [
  ("url", some (.str s.url)), ("description", optStr s.description)])

/-- `Serialize for Opg` (models.rs 12-40). -/
def Opg.ser (d : Opg) : Value := .map (entriesOf [
  ("openapi", some (.str d.openapi)), ("info", some d.info.ser),
  ("tags", nonEmptySeq (d.tags.map fun t => t.2.ser t.1)), ("servers", nonEmptySeq (d.servers.map Server.ser)),
  ("paths", nonEmptyMap (serPaths d.paths)), ("components", some d.components.ser)])

end Verif
