import Verif.Model.Macros
import Verif.Spec.Docs
import Verif.Spec.Shapes
import Verif.Spec.Attrs
/-!
# Described APIs (specification)
-/

namespace Verif

/-- `describe_api!` applied to `api` produces the document `d`.  `reason` gives the canonical reason of a status code. -/
def Describes (env : Env) (reason : Nat → Option String) (api : Api) (d : Opg) : Prop :=
  ∃ fuel, describeApi (⟨env, fuel, reason⟩ : Ctx) api = some d

/-- The last value that `f` finds in a list. -/
def lastOf {α β : Type} (f : α → Option β) (l : List α) : Option β := (l.filterMap f).getLast?

/-! ## Reading declarations -/

def ParamProp.description? : ParamProp → Option String | .description s => some s | _ => none
def ParamProp.required? : ParamProp → Option Bool | .required b => some b | _ => none
def ParamProp.deprecated? : ParamProp → Option Bool | .deprecated b => some b | _ => none
def ParamProp.schema? : ParamProp → Option Ty | .schema t => some t | _ => none

def ParamDecl.name : ParamDecl → String
  | .header n _ => n
  | .query n _ _ => n
def ParamDecl.props : ParamDecl → List ParamProp
  | .header _ ps => ps
  | .query _ _ ps => ps
/-- The declaration, if it is one of that name. -/
def ParamDecl.named? (name : String) (d : ParamDecl) : Option ParamDecl := if d.name = name then some d else none

def BodyProp.schema? : BodyProp → Option Ty | .schema t => some t | _ => none
def BodyProp.description? : BodyProp → Option String | .description s => some s | _ => none
def BodyProp.required? : BodyProp → Option Bool | .required b => some b | _ => none

def OpProp.summary? : OpProp → Option String | .summary s => some s | _ => none
def OpProp.operationId? : OpProp → Option String | .operationId s => some s | _ => none
def OpProp.description? : OpProp → Option String | .description s => some s | _ => none
def OpProp.deprecated? : OpProp → Option Bool | .deprecated b => some b | _ => none
def OpProp.tagList : OpProp → List String | .tags ts => ts | _ => []
def OpProp.paramList : OpProp → List ParamDecl | .parameters ps => ps | _ => []
def OpProp.callbackList : OpProp → List CallbackDecl | .callbacks cs => cs | _ => []
def OpProp.securityList : OpProp → List (List SecurityDecl) | .security ss => ss | _ => []
def OpProp.body? : OpProp → Option BodyDecl | .body b => some b | _ => none
/-- A response declared for that status code. -/
def OpProp.response? (code : Nat) : OpProp → Option (Option String × ResponseDecl)
  | .response c d s => if c = code then some (d, s) else none
  | _ => none

def CallbackDecl.name : CallbackDecl → String
  | .literal n _ => n
  | .ident n _ => n
def CallbackDecl.paths : CallbackDecl → List PathDecl
  | .literal _ ps => ps
  | .ident _ ps => ps
def CallbackDecl.named? (name : String) (d : CallbackDecl) : Option CallbackDecl := if d.name = name then some d else none
def CallbackDecl.IsIdent : CallbackDecl → Prop
  | .literal .. => False
  | .ident .. => True

def SecurityDecl.name : SecurityDecl → String
  | .literal n _ => n
  | .scheme n _ _ => n
def SecurityDecl.IsScheme : SecurityDecl → Prop
  | .literal .. => False
  | .scheme .. => True

def ItemProp.summary? : ItemProp → Option String | .summary s => some s | _ => none
def ItemProp.description? : ItemProp → Option String | .description s => some s | _ => none
def ItemProp.paramList : ItemProp → List ParamDecl | .parameters ps => ps | _ => []
/-- An operation declared for that method. -/
def ItemProp.operation? (method : HttpMethod) : ItemProp → Option (List OpProp)
  | .operation m ps => if m = method then some ps else none
  | _ => none

def Section.pathList : Section → List PathDecl | .paths ps => ps | _ => []
def Section.serverList : Section → List (String × Option String) | .servers ss => ss | _ => []
def Section.tagList : Section → List (String × Option String) | .tags ts => ts | _ => []
def Section.schemeList : Section → List SchemeDecl | .securitySchemes ss => ss | _ => []
def Section.info? : Section → Option (List InfoProp) | .info ps => some ps | _ => none
/-- All described paths, over all sections. -/
def Api.pathList (api : Api) : List PathDecl := api.flatMap Section.pathList
def SchemeDecl.name : SchemeDecl → String
  | .ident n _ => n
  | .http n _ => n
  | .apiKey n _ => n
def SchemeDecl.named? (name : String) (d : SchemeDecl) : Option SchemeDecl := if d.name = name then some d else none

def InfoProp.title? : InfoProp → Option String | .title s => some s | _ => none
def InfoProp.version? : InfoProp → Option String | .version s => some s | _ => none
def InfoProp.description? : InfoProp → Option String | .description s => some s | _ => none

def HttpSchemeProp.bearer? : HttpSchemeProp → Option Bool
  | .basic => some false
  | .bearer => some true
  | _ => none
def HttpSchemeProp.bearerFormat? : HttpSchemeProp → Option String | .bearerFormat s => some s | _ => none
def HttpSchemeProp.description? : HttpSchemeProp → Option String | .description s => some s | _ => none
def ApiKeyProp.parameterIn? : ApiKeyProp → Option ParameterIn | .parameterIn p => some p | _ => none
def ApiKeyProp.name? : ApiKeyProp → Option String | .name s => some s | _ => none
def ApiKeyProp.description? : ApiKeyProp → Option String | .description s => some s | _ => none

/-! ## Where the declarations end up in a document -/

mutual
/-- `(p, v)` is the path and path item that stand in the document where `decl` stands in the description: the item at
the same position of `paths`, or of the callback of the same name of an operation. -/
inductive ItemIn (api : Api) (d : Opg) : PathDecl → UrlPath × PathValue → Prop
  | top {i : Nat} {decl pv} (h : api.pathList[i]? = some decl) (h' : d.paths[i]? = some pv) : ItemIn api d decl pv
  | callback {ps o name} {c : CallbackDecl} {c' : CallbackObject} {i : Nat} {decl pv} (h : OpIn api d ps o)
      (hc : lastOf (CallbackDecl.named? name) (ps.flatMap OpProp.callbackList) = some c)
      (hc' : BMap.get name o.callbacks = some c')
      (hi : c.paths[i]? = some decl) (hi' : c'.paths[i]? = some pv) : ItemIn api d decl pv
/-- `o` is the operation that stands in the document where `ps` are declared, last for its method. -/
inductive OpIn (api : Api) (d : Opg) : List OpProp → Operation → Prop
  | mk {decl p v m ps o} (h : ItemIn api d decl (p, v)) (hm : lastOf (ItemProp.operation? m) decl.props = some ps)
      (ho : BMap.get m v.operations = some o) : OpIn api d ps o
end

/-! ## What single declarations mean -/

/-- The parameter described by `header` or `query`: defaults and overriding properties. -/
structure ParamBy (M : Ty → Ref → Prop) (d : ParamDecl) (p : OperationParameter) : Prop where
  place : p.parameterIn = (match d with | .header .. => .header | .query .. => .query)
  description : p.description = lastOf ParamProp.description? d.props
  required : p.required = (lastOf ParamProp.required? d.props).getD (match d with | .header .. => true | .query .. => false)
  deprecated : p.deprecated = (lastOf ParamProp.deprecated? d.props).getD false
  schema : ∃ r, p.schema = some r ∧ M ((lastOf ParamProp.schema? d.props).getD
    (match d with | .header .. => .prim .string | .query _ t _ => t)) r

/-- In a program of derived impls. -/
abbrev ParamOf (env : Env) := ParamBy fun t r => Mentions env t false {} r

/-- The request body described by `body`. -/
structure BodyBy (M : Ty → Ref → Prop) (b : BodyDecl) (x : RequestBody) : Prop where
  description : x.description = some (match b with | .type _ => "" | .props ps => (lastOf BodyProp.description? ps).getD "")
  required : x.required = (match b with | .type _ => true | .props ps => (lastOf BodyProp.required? ps).getD true)
  schema : ∃ t, (match b with | .type t' => some t' | .props ps => lastOf BodyProp.schema? ps) = some t ∧
    M t x.schema

abbrev BodyOf (env : Env) := BodyBy fun t r => Mentions env t false {} r

/-- The response described by a status code, an optional description and a schema. -/
structure ResponseBy (M : Ty → Ref → Prop) (reason : Nat → Option String) (code : Nat) (d : Option String × ResponseDecl)
    (r : Response) : Prop where
  description : r.description = d.1.getD ((reason code).getD "")
  schema : match d.2 with
    | .absent => r.schema = none
    | .type t => ∃ x, r.schema = some x ∧ M t x
    | .raw s => r.schema = s

abbrev ResponseOf (env : Env) := ResponseBy fun t r => Mentions env t false {} r

/-- The security scheme described by an entry of `security_schemes`. -/
def SchemeOf (d : SchemeDecl) (s : SecurityScheme) : Prop :=
  match d with
  | .ident _ _ => False
  | .http _ ps =>
    (lastOf HttpSchemeProp.bearer? ps = some false ∧ s = .http (.basic (lastOf HttpSchemeProp.description? ps))) ∨
    (lastOf HttpSchemeProp.bearer? ps = some true ∧
      s = .http (.bearer (lastOf HttpSchemeProp.bearerFormat? ps) (lastOf HttpSchemeProp.description? ps)))
  | .apiKey _ ps => ∃ name, lastOf ApiKeyProp.name? ps = some name ∧
      s = .apiKey ⟨(lastOf ApiKeyProp.parameterIn? ps).getD .header, name, lastOf ApiKeyProp.description? ps⟩

/-- The `info` described by a section. -/
structure InfoOf (ps : List InfoProp) (i : Info) : Prop where
  title : i.title = (lastOf InfoProp.title? ps).getD ""
  version : i.version = (lastOf InfoProp.version? ps).getD ""
  description : i.description = lastOf InfoProp.description? ps

/-- The tag described under that name. -/
def tagNamed? (name : String) (t : String × Option String) : Option Tag := if t.1 = name then some ⟨t.2⟩ else none

/-- The path element a segment stands for. -/
inductive SegOf : PathSeg → PathElement → Prop
  | literal (s) : SegOf (.literal s) (.path s)
  | named (name t) : SegOf (.named name t) (.parameter name)
  | bare {path t name} (h : bareName path.print = some name) : SegOf (.bare path t) (.parameter name)

/-- A name with its first letter lowered. -/
def firstLowered (s : String) : String :=
  match s.toList with
  | [] => ""
  | c :: cs => String.ofList (c.toLower :: cs)

/-- A map holds, under a key, what the declaration (if any) means; otherwise what it held before. -/
def Last {α β : Type} (P : α → β → Prop) (decl : Option α) (old new : Option β) : Prop :=
  match decl with
  | some d => ∃ v, new = some v ∧ P d v
  | none => new = old

/-- The parameter of a template segment. -/
structure UrlBy (M : Ty → Ref → Prop) (t : Ty) (p : OperationParameter) : Prop where
  place : p.parameterIn = .path
  required : p.required = true
  description : p.description = none
  deprecated : p.deprecated = false
  schema : ∃ r, p.schema = some r ∧ M t r

abbrev UrlParam (env : Env) := UrlBy fun t r => Mentions env t false {} r

/-- The name and type of the parameter a segment declares. -/
def PathSeg.param? : PathSeg → Option (String × Ty)
  | .literal _ => none
  | .bare path t => (bareName path.print).map fun n => (n, t)
  | .named n t => some (n, t)

/-- The type of the parameter of that name. -/
def PathSeg.typeOf? (name : String) (s : PathSeg) : Option Ty :=
  s.param?.bind fun p => if p.1 = name then some p.2 else none

/-- A security requirement: exactly the names of the declared schemes, at least one, without scopes. -/
structure AlternativeOf (alt : List SecurityDecl) (m : List (String × List String)) : Prop where
  someone : alt ≠ []
  names : ∀ name, BMap.get name m = some [] ↔ ∃ s ∈ alt, s.name = name
  scopes : ∀ name v, BMap.get name m = some v → v = []

/-- What the properties of an operation say about it.  Its callbacks are described by `ItemIn.callback`. -/
structure OperationBy (M : Ty → Ref → Prop) (reason : Nat → Option String) (ps : List OpProp) (o : Operation) : Prop where
  summary : o.summary = lastOf OpProp.summary? ps
  operationId : o.operationId = lastOf OpProp.operationId? ps
  description : o.description = lastOf OpProp.description? ps
  deprecated : o.deprecated = (lastOf OpProp.deprecated? ps).getD false
  tags : o.tags = ps.flatMap OpProp.tagList
  security : Pointwise AlternativeOf (ps.flatMap OpProp.securityList) o.security
  body : Last (BodyBy M) (lastOf OpProp.body? ps) none o.requestBody
  responses : ∀ code, Last (ResponseBy M reason code) (lastOf (OpProp.response? code) ps) none (BMap.get code o.responses)
  parameters : ∀ name, Last (ParamBy M) (lastOf (ParamDecl.named? name) (ps.flatMap OpProp.paramList)) none
    (BMap.get name o.parameters)
  callbacks : ∀ name, BMap.get name o.callbacks = none ↔
    lastOf (CallbackDecl.named? name) (ps.flatMap OpProp.callbackList) = none

abbrev OperationOf (env : Env) := OperationBy fun t r => Mentions env t false {} r

/-- What a path declaration says about its path item.  Its operations are described by `OpIn`. -/
structure ItemBy (M : Ty → Ref → Prop) (decl : PathDecl) (p : UrlPath) (v : PathValue) : Prop where
  path : Pointwise SegOf decl.segments p
  summary : v.summary = lastOf ItemProp.summary? decl.props
  description : v.description = lastOf ItemProp.description? decl.props
  operations : ∀ m, BMap.get m v.operations = none ↔ lastOf (ItemProp.operation? m) decl.props = none
  /-- the parameters declared in the item, and otherwise those of the path template -/
  parameters : ∀ name d, lastOf (ParamDecl.named? name) (decl.props.flatMap ItemProp.paramList) = some d →
    ∃ x, BMap.get name v.parameters = some x ∧ ParamBy M d x
  template : ∀ name, lastOf (ParamDecl.named? name) (decl.props.flatMap ItemProp.paramList) = none →
    Last (UrlBy M) (lastOf (PathSeg.typeOf? name) decl.segments) none (BMap.get name v.parameters)

abbrev ItemOf (env : Env) := ItemBy fun t r => Mentions env t false {} r

/-! ## Everything evaluated by a description -/

/-- What the evaluation of a description uses, in order. -/
inductive Part where
  /-- the schema of a type is mentioned -/
  | mention (t : Ty)
  /-- a security scheme is mentioned -/
  | scheme (name : String) (s : SecurityScheme)
  /-- a security scheme is named by a literal -/
  | literal (name : String)
  /-- a schema is given as a Rust expression -/
  | raw (r : Ref)

def ParamProp.parts : ParamProp → List Part | .schema t => [.mention t] | _ => []
def ParamDecl.parts : ParamDecl → List Part
  | .header _ ps => .mention (.prim .string) :: ps.flatMap ParamProp.parts
  | .query _ t ps => .mention t :: ps.flatMap ParamProp.parts
def PathSeg.parts : PathSeg → List Part
  | .literal _ => []
  | .bare _ t => [.mention t]
  | .named _ t => [.mention t]
def BodyProp.parts : BodyProp → List Part | .schema t => [.mention t] | _ => []
def BodyDecl.parts : BodyDecl → List Part
  | .props ps => ps.flatMap BodyProp.parts
  | .type t => [.mention t]
def ResponseDecl.parts : ResponseDecl → List Part
  | .absent => []
  | .type t => [.mention t]
  | .raw s => s.toList.map Part.raw
def SecurityDecl.parts : SecurityDecl → List Part
  | .literal n _ => [.literal n]
  | .scheme n s _ => [.scheme n s]

mutual
def opParts : List OpProp → List Part
  | [] => []
  | .summary _ :: ps => opParts ps
  | .operationId _ :: ps => opParts ps
  | .description _ :: ps => opParts ps
  | .deprecated _ :: ps => opParts ps
  | .tags _ :: ps => opParts ps
  | .parameters ds :: ps => ds.flatMap ParamDecl.parts ++ opParts ps
  | .callbacks cs :: ps => callbackParts cs ++ opParts ps
  | .security alts :: ps => alts.flatMap (fun alt => alt.flatMap SecurityDecl.parts) ++ opParts ps
  | .body b :: ps => b.parts ++ opParts ps
  | .response _ _ s :: ps => s.parts ++ opParts ps
/-- The paths of a callback with a literal name are not evaluated. -/
def callbackParts : List CallbackDecl → List Part
  | [] => []
  | .literal _ _ :: cs => callbackParts cs
  | .ident _ ps :: cs => pathParts ps ++ callbackParts cs
def pathParts : List PathDecl → List Part
  | [] => []
  | .mk segs props :: ds => segs.flatMap PathSeg.parts ++ itemParts props ++ pathParts ds
def itemParts : List ItemProp → List Part
  | [] => []
  | .summary _ :: ps => itemParts ps
  | .description _ :: ps => itemParts ps
  | .parameters ds :: ps => ds.flatMap ParamDecl.parts ++ itemParts ps
  | .operation _ os :: ps => opParts os ++ itemParts ps
end

def Api.parts (api : Api) : List Part := pathParts api.pathList

def Part.call? : Part → Option Call
  | .mention t => some (.mention t false {})
  | .scheme n s => some (.security n s)
  | _ => none
/-- The scheme mentioned under that name. -/
def Part.scheme? (name : String) : Part → Option SecurityScheme
  | .scheme n s => if n = name then some s else none
  | _ => none
/-- The registry calls among the parts. -/
def callsOf (ps : List Part) : List Call := ps.filterMap Part.call?

/-- The types mentioned by a description, in order. -/
def Api.mentions (api : Api) : List Ty := api.parts.filterMap fun p => match p with | .mention t => some t | _ => none

/-- References and security names satisfy the predicates; all maps are in key order. -/
def docAll (P : Ref → Prop) (S : String → Prop) : DocPred where
  op o := (BMap.Sorted o.responses ∧ BMap.Sorted o.parameters ∧ BMap.Sorted o.callbacks) ∧ (∀ r ∈ o.refs, P r) ∧
    ∀ m ∈ o.security, BMap.Sorted m ∧ ∀ b ∈ m, S b.1
  item v := (BMap.Sorted v.operations ∧ BMap.Sorted v.parameters) ∧ ∀ r ∈ v.refs, P r

/-! ## `describe_type!` -/

def PropDecl.named? (name : String) (p : PropDecl) : Option PropDecl := if p.name = name then some p else none

mutual
/-- The model spelled out by the input of `describe_type!`. -/
inductive SpellsModel : TypeDecl → Model → Prop
  | rawModel (m) : SpellsModel (.rawModel m) m
  | rawType (d data) : SpellsModel (.rawType d data) ⟨d, data⟩
  | string (d f e vs) : SpellsModel (.string d f e vs) ⟨d, .single ⟨false, .string vs f e⟩⟩
  | number (d f e) : SpellsModel (.number d f e) ⟨d, .single ⟨false, .number f e⟩⟩
  | integer (d f e) : SpellsModel (.integer d f e) ⟨d, .single ⟨false, .integer f e⟩⟩
  | boolean (d) : SpellsModel (.boolean d) ⟨d, .single ⟨false, .boolean⟩⟩
  | array {d items r} (h : SpellsRef items r) : SpellsModel (.array d items) ⟨d, .single ⟨false, .array r⟩⟩
  /-- An object has, under each name, the property declared last, and requires the names marked so, in order. -/
  | object {d ps properties required} (sorted : BMap.Sorted properties)
      (names : ∀ name, BMap.get name properties = none ↔ lastOf (PropDecl.named? name) ps = none)
      (values : ∀ name p r, lastOf (PropDecl.named? name) ps = some p → BMap.get name properties = some r →
        SpellsRef p.value r)
      (req : required = (ps.filter PropDecl.required).map PropDecl.name) :
      SpellsModel (.object d ps) ⟨d, .single ⟨false, .object ⟨properties, none, required⟩⟩⟩
inductive SpellsRef : RefDecl → Ref → Prop
  | link (name) : SpellsRef (.link name) (.link name)
  | inline {t m} (h : SpellsModel t m) : SpellsRef (.inline t) (.inline m)
end

end Verif
