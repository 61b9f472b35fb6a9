import Verif.Model.Doc
import Verif.Model.Eval
/-!
# `opg/src/macros.rs`: `describe_type!` and `describe_api!`

The input of a macro is a syntax tree, its expansion is given by an interpreter of that tree.  Expressions are
represented by their values (after `to_string`), type paths by the type they denote.  `none` means that no
value is produced: the expansion does not compile, a mention does not return, or the code panics.
-/

namespace Verif

/-! ## `describe_type!` -/

mutual
/-- Input of `describe_type!` (macros.rs 20-163). -/
inductive TypeDecl where
  | rawModel (m : Model)
  | rawType (description : Option String) (data : ModelData)
  | string (description format ex : Option String) (variants : Option (List String))
  | number (description format ex : Option String)
  | integer (description format ex : Option String)
  | boolean (description : Option String)
  | array (description : Option String) (items : RefDecl)
  | object (description : Option String) (properties : List PropDecl)
/-- Input of `@object_property_value` (macros.rs 152-162). -/
inductive RefDecl where
  | link (name : String)
  | inline (t : TypeDecl)
/-- `name[required]: (..)` or `name: (..)` (macros.rs 120, 142-150). -/
inductive PropDecl where
  | mk (name : String) (required : Bool) (value : RefDecl)
end

/-- `$property_name` (macros.rs 120). -/
def PropDecl.name : PropDecl → String
  | ⟨n, _, _⟩ => n
/-- Whether `[required]` is there (macros.rs 120). -/
def PropDecl.required : PropDecl → Bool
  | ⟨_, r, _⟩ => r
/-- `$property_tail` (macros.rs 120). -/
def PropDecl.value : PropDecl → RefDecl
  | ⟨_, _, v⟩ => v

mutual
/-- `describe_type!` (macros.rs 20-140). -/
def TypeDecl.model : TypeDecl → Model
  | .rawModel m => m
  | .rawType d data => ⟨d, data⟩
  | .string d f e vs => ⟨d, .single ⟨false, .string vs f e⟩⟩
  | .number d f e => ⟨d, .single ⟨false, .number f e⟩⟩
  | .integer d f e => ⟨d, .single ⟨false, .integer f e⟩⟩
  | .boolean d => ⟨d, .single ⟨false, .boolean⟩⟩
  | .array d items => ⟨d, .single ⟨false, .array items.ref⟩⟩
  | .object d ps => ⟨d, .single ⟨false, .object ⟨describeProperties ps [], none, describeRequired ps⟩⟩⟩
/-- `@object_property_value` (macros.rs 152-162). -/
def RefDecl.ref : RefDecl → Ref
  | .link name => .link name
  | .inline t => .inline t.model
/-- The `properties.insert(..)` statements (macros.rs 142-144). -/
def describeProperties : List PropDecl → List (String × Ref) → List (String × Ref)
  | [], props => props
  | .mk name _ value :: ps, props => describeProperties ps (BMap.insert name value.ref props)
/-- The `required.push(..)` statements (macros.rs 147-150). -/
def describeRequired : List PropDecl → List String
  | [] => []
  | .mk name required _ :: ps => (if required then [name] else []) ++ describeRequired ps
end

/-! ## `describe_api!`: input -/

/-- A `$type:path` (macros.rs 718, 728) as printed by `stringify!`: segments with generic arguments.  Paths are
printed without spaces except after the commas between arguments. -/
inductive TypePath where
  | mk (leading : Bool) (segments : List (String × List TypePath))

mutual
/-- `stringify!($current)` (macros.rs 721). -/
def TypePath.print : TypePath → String
  | ⟨leading, segments⟩ => (if leading then "::" else "") ++ printSegments segments
/-- `stringify!` on the segments of a path (macros.rs 721). -/
def printSegments : List (String × List TypePath) → String
  | [] => ""
  | [(name, args)] => name ++ printArgs args
  | (name, args) :: rest => name ++ printArgs args ++ "::" ++ printSegments rest
/-- `stringify!` on the arguments of a segment (macros.rs 721). -/
def printArgs : List TypePath → String
  | [] => ""
  | a :: as => "<" ++ a.print ++ printMore as ++ ">"
/-- `stringify!` on the arguments after the first one (macros.rs 721). -/
def printMore : List TypePath → String
  | [] => ""
  | a :: as => ", " ++ a.print ++ printMore as
end

/-- A segment of a path template (macros.rs 715-736). -/
inductive PathSeg where
  /-- `"literal"` -/
  | literal (s : String)
  /-- `some::Type`: the path and the type it denotes -/
  | bare (path : TypePath) (t : Ty)
  /-- `{name: some::Type}` -/
  | named (name : String) (t : Ty)

/-- A property of a parameter (macros.rs 696-712). -/
inductive ParamProp where
  | description (s : String)
  | required (b : Bool)
  | deprecated (b : Bool)
  | schema (t : Ty)

/-- `(header name): {..}` or `(query name: T): {..}`; without braces the properties are empty (macros.rs 639-693). -/
inductive ParamDecl where
  | header (name : String) (props : List ParamProp)
  | query (name : String) (t : Ty) (props : List ParamProp)

/-- A property of a request body (macros.rs 595-607). -/
inductive BodyProp where
  | schema (t : Ty)
  | description (s : String)
  | required (b : Bool)

/-- `body: {..}` or `body: T` (macros.rs 525-544). -/
inductive BodyDecl where
  | props (ps : List BodyProp)
  | type (t : Ty)

/-- What follows the colon of a response: `None`, a type (`()` included), or `{ expression }` (macros.rs 545-572). -/
inductive ResponseDecl where
  | absent
  | type (t : Ty)
  | raw (schema : Option Ref)

/-- One conjunct of a security requirement: a literal name or a variable holding a scheme, with roles
(macros.rs 576-592). -/
inductive SecurityDecl where
  | literal (name : String) (roles : List String)
  | scheme (name : String) (value : SecurityScheme) (roles : List String)

mutual
/-- A property of an operation (macros.rs 493-573). -/
inductive OpProp where
  | summary (s : String)
  | operationId (s : String)
  | description (s : String)
  | deprecated (b : Bool)
  | tags (ts : List String)
  | parameters (ps : List ParamDecl)
  | callbacks (cs : List CallbackDecl)
  | security (alternatives : List (List SecurityDecl))
  | body (b : BodyDecl)
  | response (code : Nat) (description : Option String) (schema : ResponseDecl)
/-- `"name": {..}` or `name: {..}` under `callbacks` (macros.rs 609-623).  The list is taken to be written without a
trailing comma. -/
inductive CallbackDecl where
  | literal (name : String) (paths : List PathDecl)
  | ident (name : String) (paths : List PathDecl)
/-- `(segments): {..}` (macros.rs 449-461, 625-637). -/
inductive PathDecl where
  | mk (segments : List PathSeg) (props : List ItemProp)
/-- A property of a path item (macros.rs 475-490). -/
inductive ItemProp where
  | summary (s : String)
  | description (s : String)
  | parameters (ps : List ParamDecl)
  | operation (method : HttpMethod) (props : List OpProp)
end

/-- `$path_segment` (macros.rs 449, 625). -/
def PathDecl.segments : PathDecl → List PathSeg
  | ⟨s, _⟩ => s
/-- The properties in the braces (macros.rs 449-451, 625-627). -/
def PathDecl.props : PathDecl → List ItemProp
  | ⟨_, p⟩ => p

/-- A property of `info` (macros.rs 340-349). -/
inductive InfoProp where
  | title (s : String)
  | version (s : String)
  | description (s : String)

/-- A property of an http security scheme (macros.rs 419-430). -/
inductive HttpSchemeProp where
  | basic
  | bearer
  | bearerFormat (s : String)
  | description (s : String)

/-- A property of an api key security scheme (macros.rs 434-445). -/
inductive ApiKeyProp where
  | parameterIn (p : ParameterIn)
  | name (s : String)
  | description (s : String)

/-- An entry of `security_schemes` (macros.rs 369-416). -/
inductive SchemeDecl where
  | ident (name : String) (value : SecurityScheme)
  | http (name : String) (props : List HttpSchemeProp)
  | apiKey (name : String) (props : List ApiKeyProp)

/-- A top-level section (macros.rs 333-337). -/
inductive Section where
  | info (props : List InfoProp)
  | tags (ts : List (String × Option String))
  | servers (ss : List (String × Option String))
  | securitySchemes (ss : List SchemeDecl)
  | paths (ps : List PathDecl)

/-- The input of `describe_api!` (macros.rs 333). -/
abbrev Api := List Section

/-! ## `describe_api!`: expansion -/

/-- Code with access to `result.components` (macros.rs 333-748); `none` if it produces no value. -/
abbrev Act := StateT Components Option

/-- What the expansion depends on: the program, a bound on the depth of schema generation, and
`http::StatusCode::from_u16(code).ok().and_then(|s| s.canonical_reason())` (macros.rs 563-565). -/
structure Ctx where
  env : Env
  fuel : Nat
  reason : Nat → Option String

/-- What the code of the expansion uses of that: a type gives an answer to
`$result.components.mention_schema::<T>(false, &Default::default())` (macros.rs 541, 552, 557, 744 and others), and a
status code a reason (macros.rs 563-565). -/
class Mentioner (κ : Type) where
  ask : κ → Ty → Act Ref
  reason : κ → Nat → Option String

export Mentioner (ask)

/-- Programs whose impls are derived or the library's own: `mention_schema` of models.rs 536-548. -/
instance : Mentioner Ctx where
  ask c t := fun cx => mentionSchema c.env c.fuel t false {} cx
  reason := Ctx.reason

variable {κ : Type} [Mentioner κ]

/-- `@opg_path_value_parameter_properties` (macros.rs 696-712). -/
def runParamProps (c : κ) : List ParamProp → OperationParameter → Act OperationParameter
  | [], p => pure p
  | .description s :: ps, p => runParamProps c ps { p with description := some s }
  | .required b :: ps, p => runParamProps c ps { p with required := b }
  | .deprecated b :: ps, p => runParamProps c ps { p with deprecated := b }
  | .schema t :: ps, p => do
    let r ← ask c t
    runParamProps c ps { p with schema := some r }

/-- `@opg_path_value_parameters` (macros.rs 639-693): one parameter. -/
def ParamDecl.run (c : κ) : ParamDecl → Act (String × OperationParameter)
  | .header name props => do
    let r ← ask c (.prim .string)
    let p ← runParamProps c props ⟨none, .header, true, false, some r⟩
    pure (name, p)
  | .query name t props => do
    let r ← ask c t
    let p ← runParamProps c props ⟨none, .query, false, false, some r⟩
    pure (name, p)

/-- `@opg_path_value_parameters` (macros.rs 639-693). -/
def runParameters (c : κ) : List ParamDecl → List (String × OperationParameter) → Act (List (String × OperationParameter))
  | [], ps => pure ps
  | d :: ds, ps => do
    let (name, p) ← d.run c
    runParameters c ds (BMap.insert name p ps)

/-- `to_ascii_lowercase` of a one-byte string (macros.rs 723). -/
def asciiLowerChar (ch : Char) : Char := if 'A' ≤ ch ∧ ch ≤ 'Z' then Char.ofNat (ch.toNat + 32) else ch

/-- The characters after the last `:` (macros.rs 722: `rfind(':')`). -/
def afterColon : List Char → List Char
  | [] => []
  | ch :: cs => if ':' ∈ cs then afterColon cs else if ch = ':' then cs else ch :: cs

/-- The parameter name of a bare type segment (macros.rs 720-724); `none` if `name[..1]` panics. -/
def bareName (full : String) : Option String :=
  match afterColon full.toList with
  | [] => none
  | ch :: cs => if ch.toNat < 128 then some (String.ofList (asciiLowerChar ch :: cs)) else none

/-- `@opg_path_insert_url_param` (macros.rs 738-747). -/
def urlParam (c : κ) (name : String) (t : Ty) (ps : List (String × OperationParameter)) :
    Act (PathElement × List (String × OperationParameter)) := do
  let r ← ask c t
  pure (.parameter name, BMap.insert name ⟨none, .path, true, false, some r⟩ ps)

/-- `@opg_path_url` (macros.rs 715-736). -/
def PathSeg.run (c : κ) : PathSeg → List (String × OperationParameter) → Act (PathElement × List (String × OperationParameter))
  | .literal s, ps => pure (.path s, ps)
  | .bare path t, ps =>
    match bareName path.print with
    | none => failure
    | some name => urlParam c name t ps
  | .named name t, ps => urlParam c name t ps

/-- `@opg_property_url` (macros.rs 463-472) after splitting at `/`. -/
def runUrl (c : κ) : List PathSeg → List (String × OperationParameter) → Act (UrlPath × List (String × OperationParameter))
  | [], ps => pure ([], ps)
  | s :: ss, ps => do
    let (e, ps) ← s.run c ps
    let (es, ps) ← runUrl c ss ps
    pure (e :: es, ps)

/-- `@opg_path_value_body_properties` (macros.rs 595-607); `schema` is `none` while it is `ParameterNotSpecified`. -/
def runBodyProps (c : κ) : List BodyProp → Option String → Bool → Option Ref → Act (Option String × Bool × Option Ref)
  | [], d, r, s => pure (d, r, s)
  | .schema t :: ps, d, r, _ => do
    let s ← ask c t
    runBodyProps c ps d r (some s)
  | .description d :: ps, _, r, s => runBodyProps c ps (some d) r s
  | .required r :: ps, d, _, s => runBodyProps c ps d r s

/-- `body: ..` (macros.rs 525-544). -/
def BodyDecl.run (c : κ) : BodyDecl → Act RequestBody
  | .props ps => do
    let (d, r, s) ← runBodyProps c ps none true none
    match s with
    | none => failure                                    -- type error: `ParameterNotSpecified`
    | some s => pure ⟨d.or (some ""), r, s⟩
  | .type t => do
    let s ← ask c t
    pure ⟨some "", true, s⟩

/-- The schema of a response (macros.rs 545-559). -/
def ResponseDecl.run (c : κ) : ResponseDecl → Act (Option Ref)
  | .absent => pure none
  | .type t => do
    let r ← ask c t
    pure (some r)
  | .raw s => pure s

/-- `@opg_path_value_security_item` (macros.rs 587-592): a non-empty list of roles does not have the right type. -/
def SecurityDecl.run : SecurityDecl → Act String
  | .literal name roles => if roles.isEmpty then pure name else failure
  | .scheme name value roles =>
    if roles.isEmpty then (fun cx => some (cx.mentionSecurityScheme name value)) else failure

/-- One alternative of `@opg_path_value_security` (macros.rs 576-583). -/
def runSecurityItems : List SecurityDecl → List (String × List String) → Act (List (String × List String))
  | [], m => pure m
  | s :: ss, m => do
    let name ← s.run
    runSecurityItems ss (BMap.insert name [] m)

/-- `@opg_path_value_security` (macros.rs 576-584); an alternative has at least one conjunct. -/
def runSecurity : List (List SecurityDecl) → Act (List (List (String × List String)))
  | [] => pure []
  | [] :: _ => failure
  | alt :: alts => do
    let m ← runSecurityItems alt []
    let ms ← runSecurity alts
    pure (m :: ms)

/-- A response (macros.rs 560-572); status codes are `u16`. -/
def runResponse (c : κ) (code : Nat) (description : Option String) (schema : ResponseDecl) : Act Response := do
  let s ← schema.run c
  if code < 65536 then pure ⟨description.getD ((Mentioner.reason c code).getD ""), s⟩ else failure

mutual
/-- `@opg_path_value_operation_properties` (macros.rs 493-573). -/
def runOpProps (c : κ) : List OpProp → Operation → Act Operation
  | [], o => pure o
  | .summary s :: ps, o => runOpProps c ps (o.withSummary s)
  | .operationId s :: ps, o => runOpProps c ps (o.withOperationId s)
  | .description s :: ps, o => runOpProps c ps (o.withDescription s)
  | .deprecated b :: ps, o => runOpProps c ps (o.markDeprecated b)
  | .tags ts :: ps, o => runOpProps c ps { o with tags := o.tags ++ ts }
  | .parameters ds :: ps, o => do
    let m ← runParameters c ds o.parameters
    runOpProps c ps { o with parameters := m }
  | .callbacks cs :: ps, o => do
    let m ← runCallbacks c cs o.callbacks
    runOpProps c ps { o with callbacks := m }
  | .security alts :: ps, o => do
    let ms ← runSecurity alts
    runOpProps c ps { o with security := o.security ++ ms }
  | .body b :: ps, o => do
    let body ← b.run c
    runOpProps c ps (o.withRequestBody body)
  | .response code description schema :: ps, o => do
    let r ← runResponse c code description schema
    runOpProps c ps { o with responses := BMap.insert code r o.responses }
/-- `@opg_path_value_callbacks` (macros.rs 609-623).  For a literal name the paths are taken from what follows the
callback instead of from the callback: nothing, if it is the last one; otherwise the expansion fails. -/
def runCallbacks (c : κ) : List CallbackDecl → List (String × CallbackObject) → Act (List (String × CallbackObject))
  | [], m => pure m
  | .literal name _ :: ds, m => if ds.isEmpty then pure (BMap.insert name ⟨[]⟩ m) else failure
  | .ident name paths :: ds, m => do
    let ps ← runPaths c paths
    runCallbacks c ds (BMap.insert name ⟨ps⟩ m)
/-- The bodies of `paths` (macros.rs 449-461) and of `@opg_path_value_callbacks_paths` (625-637). -/
def runPaths (c : κ) : List PathDecl → Act (List (UrlPath × PathValue))
  | [] => pure []
  | d :: ds => do
    let p ← d.run c
    let ps ← runPaths c ds
    pure (p :: ps)
/-- One path (macros.rs 452-460, 628-636). -/
def PathDecl.run (c : κ) : PathDecl → Act (UrlPath × PathValue)
  | ⟨segments, props⟩ =>
    if segments.isEmpty then failure
    else do
      let (path, ps) ← runUrl c segments []
      let v ← runItemProps c props { PathValue.empty with parameters := ps }
      pure (path, v)
/-- `@opg_path_value_properties` (macros.rs 475-490). -/
def runItemProps (c : κ) : List ItemProp → PathValue → Act PathValue
  | [], v => pure v
  | .summary s :: ps, v => runItemProps c ps { v with summary := some s }
  | .description s :: ps, v => runItemProps c ps { v with description := some s }
  | .parameters ds :: ps, v => do
    let m ← runParameters c ds v.parameters
    runItemProps c ps { v with parameters := m }
  | .operation method props :: ps, v => do
    let o ← runOpProps c props .empty
    runItemProps c ps { v with operations := BMap.insert method o v.operations }
end

/-- The last value given for each field, `none` if a field is given twice (macros.rs 340-349: a repeated field of
the struct expression does not compile). -/
def runInfo : List InfoProp → Option String → Option String → Option String → Option Info
  | [], t, v, d => some { title := t.getD "", description := d, version := v.getD "" }
  | .title s :: ps, t, v, d => if t.isSome then none else runInfo ps (some s) v d
  | .version s :: ps, t, v, d => if v.isSome then none else runInfo ps t (some s) d
  | .description s :: ps, t, v, d => if d.isSome then none else runInfo ps t v (some s)

/-- `@opg_security_scheme_http` (macros.rs 419-431) and the `match` that follows (384-392); `scheme` is `none` while it
is `ParameterNotSpecified`, which does not have the right type. -/
def runHttpScheme : List HttpSchemeProp → Option Bool → Option String → Option String → Option SecurityScheme
  | [], none, _, _ => none
  | [], some false, _, d => some (.http (.basic d))
  | [], some true, f, d => some (.http (.bearer f d))
  | .basic :: ps, _, f, d => runHttpScheme ps (some false) f d
  | .bearer :: ps, _, f, d => runHttpScheme ps (some true) f d
  | .bearerFormat s :: ps, k, _, d => runHttpScheme ps k (some s) d
  | .description s :: ps, k, f, _ => runHttpScheme ps k f (some s)

/-- `@opg_security_scheme_api_key` (macros.rs 434-446) and the struct built (406-410). -/
def runApiKey : List ApiKeyProp → ParameterIn → Option String → Option String → Option SecurityScheme
  | [], _, none, _ => none
  | [], i, some n, d => some (.apiKey ⟨i, n, d⟩)
  | .parameterIn i :: ps, _, n, d => runApiKey ps i n d
  | .name n :: ps, i, _, d => runApiKey ps i (some n) d
  | .description d :: ps, i, n, _ => runApiKey ps i n (some d)

/-- The scheme of an entry of `security_schemes`; the variable form does not compile (`stringity!`, macros.rs 373). -/
def SchemeDecl.scheme : SchemeDecl → Option (String × SecurityScheme)
  | .ident _ _ => none
  | .http name props => (runHttpScheme props none none none).map fun s => (name, s)
  | .apiKey name props => (runApiKey props .header none none).map fun s => (name, s)

/-- `@opg_security_scheme` (macros.rs 369-416). -/
def runSchemes : List SchemeDecl → Act Unit
  | [] => pure ()
  | d :: ds =>
    match d.scheme with
    | none => failure
    | some (name, s) => do
      modify fun cx => { cx with securitySchemes := BMap.insert name s cx.securitySchemes }
      runSchemes ds

/-- `@opg_property` (macros.rs 340-461).  The `components` of the document are the state, not the field of `d`. -/
def Section.run (c : κ) : Section → Opg → Act Opg
  | .info props, d =>
    match runInfo props none none none with
    | none => failure
    | some i => pure { d with info := i }
  | .tags ts, d => pure { d with tags := BMap.insertAll (ts.map fun t => (t.1, ⟨t.2⟩)) d.tags }
  | .servers ss, d => pure { d with servers := d.servers ++ ss.map fun s => ⟨s.1, s.2⟩ }
  | .securitySchemes ss, d => do
    runSchemes ss
    pure d
  | .paths ps, d => do
    let items ← runPaths c ps
    pure { d with paths := d.paths ++ items }

/-- The statements of macros.rs 335, in order. -/
def runSections (c : κ) : Api → Opg → Act Opg
  | [], d => pure d
  | s :: ss, d => do
    let d ← s.run c d
    runSections c ss d

/-- `describe_api!` (macros.rs 331-748).  An empty description, which does not expand, is taken to give an empty
document. -/
def describeApi (c : κ) (api : Api) : Option Opg :=
  match runSections c api .empty .empty with
  | none => none
  | some (d, cx) => some { d with components := cx }

end Verif
