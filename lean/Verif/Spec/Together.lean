import Verif.Spec.Api
/-!
# Documents that differ in schemas only (specification)
-/

namespace Verif

/-- Both values are missing, or both are there and related. -/
inductive OptRel {α : Type} (R : α → α → Prop) : Option α → Option α → Prop
  | none : OptRel R none none
  | some {a b} (h : R a b) : OptRel R (some a) (some b)

/-- The same keys in the same order, with related values. -/
inductive Entries {κ α : Type} (R : α → α → Prop) : List (κ × α) → List (κ × α) → Prop
  | nil : Entries R [] []
  | cons {k a b as bs} (h : R a b) (t : Entries R as bs) : Entries R ((k, a) :: as) ((k, b) :: bs)

/-- Two request bodies that are the same but for their schemas, which are related. -/
structure RequestBody.Along (R : Ref → Ref → Prop) (b b' : RequestBody) : Prop where
  description : b.description = b'.description
  required : b.required = b'.required
  schema : R b.schema b'.schema

/-- Two responses that are. -/
structure Response.Along (R : Ref → Ref → Prop) (r r' : Response) : Prop where
  description : r.description = r'.description
  schema : OptRel R r.schema r'.schema

/-- Two parameters that are. -/
structure OperationParameter.Along (R : Ref → Ref → Prop) (p p' : OperationParameter) : Prop where
  description : p.description = p'.description
  parameterIn : p.parameterIn = p'.parameterIn
  required : p.required = p'.required
  deprecated : p.deprecated = p'.deprecated
  schema : OptRel R p.schema p'.schema

mutual
/-- Two operations that are. -/
inductive Operation.Along (R : Ref → Ref → Prop) : Operation → Operation → Prop
  | mk {o o' : Operation} (tags : o.tags = o'.tags) (summary : o.summary = o'.summary)
      (operationId : o.operationId = o'.operationId) (description : o.description = o'.description)
      (deprecated : o.deprecated = o'.deprecated) (security : o.security = o'.security)
      (requestBody : OptRel (RequestBody.Along R) o.requestBody o'.requestBody)
      (responses : Entries (Response.Along R) o.responses o'.responses)
      (parameters : Entries (OperationParameter.Along R) o.parameters o'.parameters)
      (callbacks : CallbacksAlong R o.callbacks o'.callbacks) : Operation.Along R o o'
/-- The same callbacks, with related paths. -/
inductive CallbacksAlong (R : Ref → Ref → Prop) : List (String × CallbackObject) → List (String × CallbackObject) → Prop
  | nil : CallbacksAlong R [] []
  | cons {n ps ps' cs cs'} (h : PathsAlong R ps ps') (t : CallbacksAlong R cs cs') :
      CallbacksAlong R ((n, ⟨ps⟩) :: cs) ((n, ⟨ps'⟩) :: cs')
/-- The same paths, with related items. -/
inductive PathsAlong (R : Ref → Ref → Prop) : List (UrlPath × PathValue) → List (UrlPath × PathValue) → Prop
  | nil : PathsAlong R [] []
  | cons {p v v' ps ps'} (h : PathValue.Along R v v') (t : PathsAlong R ps ps') : PathsAlong R ((p, v) :: ps) ((p, v') :: ps')
/-- Two path items that are the same but for schemas, which are related. -/
inductive PathValue.Along (R : Ref → Ref → Prop) : PathValue → PathValue → Prop
  | mk {v v' : PathValue} (summary : v.summary = v'.summary) (description : v.description = v'.description)
      (operations : OperationsAlong R v.operations v'.operations)
      (parameters : Entries (OperationParameter.Along R) v.parameters v'.parameters) : PathValue.Along R v v'
/-- The same methods, with related operations. -/
inductive OperationsAlong (R : Ref → Ref → Prop) : List (HttpMethod × Operation) → List (HttpMethod × Operation) → Prop
  | nil : OperationsAlong R [] []
  | cons {m o o' os os'} (h : Operation.Along R o o') (t : OperationsAlong R os os') :
      OperationsAlong R ((m, o) :: os) ((m, o') :: os')
end

/-- Two documents that are the same but for the schemas in operations, which are related, and for those that are
registered. -/
structure Opg.Along (R : Ref → Ref → Prop) (d d' : Opg) : Prop where
  openapi : d.openapi = d'.openapi
  info : d.info = d'.info
  tags : d.tags = d'.tags
  servers : d.servers = d'.servers
  paths : PathsAlong R d.paths d'.paths
  securitySchemes : d.components.securitySchemes = d'.components.securitySchemes

end Verif
