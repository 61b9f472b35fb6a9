import Verif.Spec.Api
import Verif.Spec.Together
/-!
# Descriptions that say the same (specification)

Two inputs of `describe_api!` say the same if under each key the last declaration says the same, and if lists that have an
order in a document (paths, servers, tags of an operation, alternatives of security requirements) have the same entries in the
same order.  How declarations are ordered and grouped otherwise, and what is overridden later, does not count.
-/

namespace Verif

/-! ## Parameters, bodies and templates -/

def ParamDecl.isHeader : ParamDecl → Bool
  | .header .. => true
  | .query .. => false

/-- The type of a parameter: the one given last. -/
def ParamDecl.type (d : ParamDecl) : Ty :=
  (lastOf ParamProp.schema? d.props).getD (match d with | .header .. => .prim .string | .query _ t _ => t)

/-- Two parameters with the same properties; a header is required unless said otherwise, a query parameter is not. -/
structure ParamSays (d d' : ParamDecl) : Prop where
  place : d.isHeader = d'.isHeader
  description : lastOf ParamProp.description? d.props = lastOf ParamProp.description? d'.props
  required : (lastOf ParamProp.required? d.props).getD d.isHeader = (lastOf ParamProp.required? d'.props).getD d'.isHeader
  deprecated : (lastOf ParamProp.deprecated? d.props).getD false = (lastOf ParamProp.deprecated? d'.props).getD false
  type : d.type = d'.type

def BodyDecl.text : BodyDecl → String
  | .type _ => ""
  | .props ps => (lastOf BodyProp.description? ps).getD ""
def BodyDecl.isRequired : BodyDecl → Bool
  | .type _ => true
  | .props ps => (lastOf BodyProp.required? ps).getD true
def BodyDecl.type? : BodyDecl → Option Ty
  | .type t => some t
  | .props ps => lastOf BodyProp.schema? ps

structure BodySays (b b' : BodyDecl) : Prop where
  text : b.text = b'.text
  isRequired : b.isRequired = b'.isRequired
  type : b.type? = b'.type?

/-- The element of a path that a segment of a template gives. -/
def PathSeg.element? : PathSeg → Option PathElement
  | .literal s => some (.path s)
  | .bare path _ => (bareName path.print).map .parameter
  | .named name _ => some (.parameter name)

/-- Two templates of the same path, whose parameters are of the same types. -/
structure SegmentsSay (ss ss' : List PathSeg) : Prop where
  elements : ss.map PathSeg.element? = ss'.map PathSeg.element?
  types : ∀ name, lastOf (PathSeg.typeOf? name) ss = lastOf (PathSeg.typeOf? name) ss'

/-- The same schemes, in whatever order. -/
def AlternativeSays (alt alt' : List SecurityDecl) : Prop :=
  ∀ name, (∃ s ∈ alt, s.name = name) ↔ ∃ s ∈ alt', s.name = name

/-! ## Operations, callbacks and paths -/

mutual
/-- Two operations with the same properties. -/
inductive OpSays : List OpProp → List OpProp → Prop
  | mk {ps ps'} (summary : lastOf OpProp.summary? ps = lastOf OpProp.summary? ps')
      (operationId : lastOf OpProp.operationId? ps = lastOf OpProp.operationId? ps')
      (description : lastOf OpProp.description? ps = lastOf OpProp.description? ps')
      (deprecated : (lastOf OpProp.deprecated? ps).getD false = (lastOf OpProp.deprecated? ps').getD false)
      (tags : ps.flatMap OpProp.tagList = ps'.flatMap OpProp.tagList)
      (security : Pointwise AlternativeSays (ps.flatMap OpProp.securityList) (ps'.flatMap OpProp.securityList))
      (body : OptRel BodySays (lastOf OpProp.body? ps) (lastOf OpProp.body? ps'))
      (responses : ∀ code, lastOf (OpProp.response? code) ps = lastOf (OpProp.response? code) ps')
      (parameters : ∀ name, OptRel ParamSays (lastOf (ParamDecl.named? name) (ps.flatMap OpProp.paramList))
        (lastOf (ParamDecl.named? name) (ps'.flatMap OpProp.paramList)))
      (callbacks : ∀ name, CallbackSays (lastOf (CallbackDecl.named? name) (ps.flatMap OpProp.callbackList))
        (lastOf (CallbackDecl.named? name) (ps'.flatMap OpProp.callbackList))) : OpSays ps ps'
/-- Two callbacks, if there are any.  The paths of one whose name is a string literal are dropped (C61). -/
inductive CallbackSays : Option CallbackDecl → Option CallbackDecl → Prop
  | none : CallbackSays none none
  | literal (n n' ps ps') : CallbackSays (some (.literal n ps)) (some (.literal n' ps'))
  | ident {n n' ps ps'} (h : PathsSay ps ps') : CallbackSays (some (.ident n ps)) (some (.ident n' ps'))
/-- Two lists of paths, in the same order. -/
inductive PathsSay : List PathDecl → List PathDecl → Prop
  | nil : PathsSay [] []
  | cons {segs segs' props props' ds ds'} (segments : SegmentsSay segs segs') (item : ItemSays props props') (h : PathsSay ds ds') :
      PathsSay (.mk segs props :: ds) (.mk segs' props' :: ds')
/-- Two path items with the same properties. -/
inductive ItemSays : List ItemProp → List ItemProp → Prop
  | mk {ps ps'} (summary : lastOf ItemProp.summary? ps = lastOf ItemProp.summary? ps')
      (description : lastOf ItemProp.description? ps = lastOf ItemProp.description? ps')
      (parameters : ∀ name, OptRel ParamSays (lastOf (ParamDecl.named? name) (ps.flatMap ItemProp.paramList))
        (lastOf (ParamDecl.named? name) (ps'.flatMap ItemProp.paramList)))
      (operations : ∀ m, MethodSays (lastOf (ItemProp.operation? m) ps) (lastOf (ItemProp.operation? m) ps')) : ItemSays ps ps'
/-- Two operations, if there are any. -/
inductive MethodSays : Option (List OpProp) → Option (List OpProp) → Prop
  | none : MethodSays none none
  | some {ps ps'} (h : OpSays ps ps') : MethodSays (some ps) (some ps')
end

/-! ## Descriptions -/

structure InfoSays (ps ps' : List InfoProp) : Prop where
  title : (lastOf InfoProp.title? ps).getD "" = (lastOf InfoProp.title? ps').getD ""
  version : (lastOf InfoProp.version? ps).getD "" = (lastOf InfoProp.version? ps').getD ""
  description : lastOf InfoProp.description? ps = lastOf InfoProp.description? ps'

/-- Two descriptions that say the same about everything but components. -/
structure Api.Says (api api' : Api) : Prop where
  info : InfoSays ((lastOf Section.info? api).getD []) ((lastOf Section.info? api').getD [])
  tags : ∀ name, lastOf (tagNamed? name) (api.flatMap Section.tagList) = lastOf (tagNamed? name) (api'.flatMap Section.tagList)
  servers : api.flatMap Section.serverList = api'.flatMap Section.serverList
  paths : PathsSay api.pathList api'.pathList

/-- Two descriptions with the same security schemes: under each name the last declarations describe the same scheme; if there is
none, the first scheme used under the name is the same. -/
structure Api.SameSchemes (api api' : Api) : Prop where
  declared : ∀ name, OptRel (fun d d' => ∀ s, SchemeOf d s ↔ SchemeOf d' s)
    (lastOf (SchemeDecl.named? name) (api.flatMap Section.schemeList))
    (lastOf (SchemeDecl.named? name) (api'.flatMap Section.schemeList))
  used : ∀ name, lastOf (SchemeDecl.named? name) (api.flatMap Section.schemeList) = none →
    api.parts.findSome? (Part.scheme? name) = api'.parts.findSome? (Part.scheme? name)

/-! ## Sections -/

inductive SectionKind where
  | info | tags | servers | securitySchemes | paths
deriving DecidableEq

def Section.kind : Section → SectionKind
  | .info _ => .info
  | .tags _ => .tags
  | .servers _ => .servers
  | .securitySchemes _ => .securitySchemes
  | .paths _ => .paths

/-- Lists with the same subsequence of each kind. -/
def SameByKind {α κ : Type} [DecidableEq κ] (kind : α → κ) (l l' : List α) : Prop :=
  ∀ k, l.filter (fun a => kind a = k) = l'.filter fun a => kind a = k

/-! ## Properties of an operation -/

/-- What a property of an operation is about. -/
inductive OpKind where
  | summary | operationId | description | deprecated | tags | parameters | callbacks | security | body | response (code : Nat)
deriving DecidableEq

def OpProp.kind : OpProp → OpKind
  | .summary _ => .summary
  | .operationId _ => .operationId
  | .description _ => .description
  | .deprecated _ => .deprecated
  | .tags _ => .tags
  | .parameters _ => .parameters
  | .callbacks _ => .callbacks
  | .security _ => .security
  | .body _ => .body
  | .response code _ _ => .response code

/-- What a property of a path item is about. -/
inductive ItemKind where
  | summary | description | parameters | operation (m : HttpMethod)
deriving DecidableEq

def ItemProp.kind : ItemProp → ItemKind
  | .summary _ => .summary
  | .description _ => .description
  | .parameters _ => .parameters
  | .operation m _ => .operation m

end Verif
