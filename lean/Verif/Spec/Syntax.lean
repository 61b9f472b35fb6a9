import Verif.Model.Syntax
/-!
# How descriptions are written (specification)

The grammar of `describe_api!` and `describe_type!`: `X.Spelled sc x ts` says that the tokens `ts` are a way to write `x`,
where the names have the meaning given by `sc`.
-/

namespace Verif

/-- An expression and its value. -/
inductive Evaluates (sc : Scope) : TT → Val → Prop
  | str {s} : Evaluates sc (.lit (.str s)) (.str s)
  | num {n} : Evaluates sc (.lit (.num n)) (.num n)
  | bool {b} : Evaluates sc (.lit (.bool b)) (.bool b)
  | var {x v} (h : sc.val x = some v) : Evaluates sc (.ident x) v
  | compound {v} : Evaluates sc (.expr v) v

/-- Values with a text. -/
inductive Displayed : Val → String → Prop
  | str {s} : Displayed (.str s) s
  | owned {s} : Displayed (.owned s) s
  | num {n : Nat} : Displayed (.num n) (toString n)
  | bool {b : Bool} : Displayed (.bool b) (toString b)

/-- An expression with a text. -/
def Displays (sc : Scope) (s : String) (t : TT) : Prop := ∃ v, Evaluates sc t v ∧ Displayed v s
/-- An expression of type `&str`. -/
def IsText (sc : Scope) (s : String) (t : TT) : Prop := Evaluates sc t (.str s)
/-- An expression of type `bool`. -/
def IsFlag (sc : Scope) (b : Bool) (t : TT) : Prop := Evaluates sc t (.bool b)

/-- A type path and the type it denotes. -/
inductive Denotes (sc : Scope) : TypePath → Ty → TT → Prop
  | ident {x t} (h : sc.ty ⟨false, [(x, [])]⟩ = some t) : Denotes sc ⟨false, [(x, [])]⟩ t (.ident x)
  | path {p t} (h : sc.ty p = some t) : Denotes sc p t (.path p)
def IsType (sc : Scope) (t : Ty) (tok : TT) : Prop := ∃ p, Denotes sc p t tok

/-- `k: value` -/
def Keyed (k : String) (P : TT → Prop) (ts : List TT) : Prop := ∃ v, P v ∧ ts = [.ident k, .colon, v]
/-- `{ .. }` -/
def Braced (P : List TT → Prop) (t : TT) : Prop := ∃ ts, P ts ∧ t = .group .brace ts

/-- `ts` is an item `t`, followed by a comma and `rest` unless it is the last one, in which case a comma may follow if
`trailing`. -/
def Next (trailing last : Bool) (t rest ts : List TT) : Prop :=
  match last with
  | true => rest = [] ∧ (ts = t ∨ (trailing = true ∧ ts = t ++ [.comma]))
  | false => ts = t ++ .comma :: rest

/-- Items separated by commas, with a comma after the last one allowed if `trailing`. -/
def Listed (trailing : Bool) (R : α → List TT → Prop) : List α → List TT → Prop
  | [], ts => ts = []
  | x :: xs, ts => ∃ t rest, R x t ∧ Next trailing xs.isEmpty t rest ts ∧ Listed trailing R xs rest

/-- The same, where a comma alone may stand for no items. -/
def Loosely (P : List α → List TT → Prop) (xs : List α) (ts : List TT) : Prop := P xs ts ∨ (xs = [] ∧ ts = [.comma])

/-! ## Sections without nesting -/

def InfoProp.Spelled (sc : Scope) : InfoProp → List TT → Prop
  | .title s => Keyed "title" (Displays sc s)
  | .version s => Keyed "version" (Displays sc s)
  | .description s => Keyed "description" (Displays sc s)

/-- `name` or `name(description)` -/
def tagSpelled (sc : Scope) : String × Option String → List TT → Prop
  | (t, none), ts => ts = [.ident t]
  | (t, some d), ts => ∃ e, Displays sc d e ∧ ts = [.ident t, .group .paren [e]]

/-- A string literal or a variable that holds a string. -/
inductive IsString (sc : Scope) (s : String) : TT → Prop
  | lit : IsString sc s (.lit (.str s))
  | str {x} (h : sc.val x = some (.str s)) : IsString sc s (.ident x)
  | owned {x} (h : sc.val x = some (.owned s)) : IsString sc s (.ident x)

/-- `url` or `url(description)` -/
def serverSpelled (sc : Scope) : String × Option String → List TT → Prop
  | (u, none), ts => ∃ e, IsString sc u e ∧ ts = [e]
  | (u, some d), ts => ∃ e e', IsString sc u e ∧ IsString sc d e' ∧ ts = [e, .group .paren [e']]

def HttpSchemeProp.Spelled (sc : Scope) : HttpSchemeProp → List TT → Prop
  | .basic => Keyed "scheme" (· = .ident "Basic")
  | .bearer => Keyed "scheme" (· = .ident "Bearer")
  | .bearerFormat s => Keyed "bearer_format" (Displays sc s)
  | .description s => Keyed "description" (Displays sc s)

def parameterInName : ParameterIn → String
  | .query => "Query" | .header => "Header" | .path => "Path" | .cookie => "Cookie"

def ApiKeyProp.Spelled (sc : Scope) : ApiKeyProp → List TT → Prop
  | .parameterIn p => Keyed "parameter_in" (· = .ident (parameterInName p))
  | .name s => Keyed "name" (Displays sc s)
  | .description s => Keyed "description" (Displays sc s)

/-- `variable`, `(http "name"): {..}` or `(apiKey name): {..}` -/
def SchemeDecl.Spelled (sc : Scope) : SchemeDecl → List TT → Prop
  | .ident x s, ts => sc.val x = some (.scheme s) ∧ ts = [.ident x]
  | .http name ps, ts => ∃ b, b ≠ [] ∧ Listed true (HttpSchemeProp.Spelled sc) ps b ∧
      ts = [.group .paren [.ident "http", .lit (.str name)], .colon, .group .brace b]
  | .apiKey name ps, ts => ∃ e b, Displays sc name e ∧ b ≠ [] ∧ Listed true (ApiKeyProp.Spelled sc) ps b ∧
      ts = [.group .paren [.ident "apiKey", e], .colon, .group .brace b]

/-! ## Operations and paths -/

def ParamProp.Spelled (sc : Scope) : ParamProp → List TT → Prop
  | .description s => Keyed "description" (Displays sc s)
  | .required b => Keyed "required" (IsFlag sc b)
  | .deprecated b => Keyed "deprecated" (IsFlag sc b)
  | .schema t => Keyed "schema" (IsType sc t)

/-- `(..): {..}` or, without properties, `(..)` -/
def WithProps (sc : Scope) (head : List TT) (ps : List ParamProp) (ts : List TT) : Prop :=
  (ps = [] ∧ ts = [.group .paren head]) ∨
  ∃ b, Listed true (ParamProp.Spelled sc) ps b ∧ ts = [.group .paren head, .colon, .group .brace b]

/-- `(header name)` or `(query name: type)`, with or without properties -/
def ParamDecl.Spelled (sc : Scope) : ParamDecl → List TT → Prop
  | .header name ps, ts => ∃ e, Displays sc name e ∧ WithProps sc [.ident "header", e] ps ts
  | .query name t ps, ts => ∃ p, IsType sc t p ∧ WithProps sc [.ident "query", .ident name, .colon, p] ps ts

def rolesSpelled : List String → List TT → Prop := Listed false fun s ts => ts = [.lit (.str s)]

/-- `name` or `name[roles]` -/
def WithRoles (t : TT) (roles : List String) (ts : List TT) : Prop :=
  (roles = [] ∧ ts = [t]) ∨ ∃ b, rolesSpelled roles b ∧ ts = [t, .group .bracket b]

/-- A literal or a variable that holds a scheme, with or without roles. -/
def SecurityDecl.Spelled (sc : Scope) : SecurityDecl → List TT → Prop
  | .literal name roles, ts => WithRoles (.lit (.str name)) roles ts
  | .scheme name s roles, ts => sc.val name = some (.scheme s) ∧ WithRoles (.ident name) roles ts

/-- Items joined by `&&`, at least one. -/
def conjSpelled (sc : Scope) : List SecurityDecl → List TT → Prop
  | [], _ => False
  | [d], ts => d.Spelled sc ts
  | d :: ds, ts => ∃ t rest, d.Spelled sc t ∧ conjSpelled sc ds rest ∧ ts = t ++ .andAnd :: rest

def BodyProp.Spelled (sc : Scope) : BodyProp → List TT → Prop
  | .schema t => Keyed "schema" (IsType sc t)
  | .description s => Keyed "description" (· = .lit (.str s))
  | .required b => Keyed "required" (· = .lit (.bool b))

/-- `{..}` or a type -/
def BodyDecl.Spelled (sc : Scope) : BodyDecl → TT → Prop
  | .props ps => Braced (Listed true (BodyProp.Spelled sc) ps)
  | .type t => IsType sc t

/-- `None`, `()`, a type or an expression in braces -/
def ResponseDecl.Spelled (sc : Scope) : ResponseDecl → TT → Prop
  | .absent, v => v = .ident "None"
  | .type t, v => (t = .unit ∧ v = .group .paren []) ∨ (v ≠ .ident "None" ∧ IsType sc t v)
  | .raw r, v => (r = none ∧ v = .group .brace [.ident "None"]) ∨
      (∃ x, x ≠ "None" ∧ sc.val x = some (.schema r) ∧ v = .group .brace [.ident x]) ∨ v = .group .brace [.expr (.schema r)]

def methodName : HttpMethod → String
  | .get => "GET" | .put => "PUT" | .post => "POST" | .delete => "DELETE" | .options => "OPTIONS" | .head => "HEAD"
  | .patch => "PATCH" | .trace => "TRACE"

/-- `"literal"`, a type or `{name: type}` -/
def PathSeg.Spelled (sc : Scope) : PathSeg → TT → Prop
  | .literal s, t => t = .lit (.str s)
  | .bare p ty, t => Denotes sc p ty t
  | .named n ty, t => ∃ p, IsType sc ty p ∧ t = .group .brace [.ident n, .colon, p]

/-- Segments joined by `/`, at least one. -/
def urlSpelled (sc : Scope) : List PathSeg → List TT → Prop
  | [], _ => False
  | [s], ts => ∃ t, s.Spelled sc t ∧ ts = [t]
  | s :: ss, ts => ∃ t rest, s.Spelled sc t ∧ urlSpelled sc ss rest ∧ ts = t :: .slash :: rest

mutual
def OpProp.Spelled (sc : Scope) : OpProp → List TT → Prop
  | .summary s => Keyed "summary" (IsText sc s)
  | .operationId s => Keyed "operationId" (IsText sc s)
  | .description s => Keyed "description" (IsText sc s)
  | .deprecated b => Keyed "deprecated" (IsFlag sc b)
  | .tags ts => Keyed "tags" (Braced (Loosely (Listed true fun s t => t = [.ident s]) ts))
  | .parameters ps => Keyed "parameters" (Braced (Listed true (ParamDecl.Spelled sc) ps))
  | .callbacks cs => Keyed "callbacks" (Braced (callbacksSpelled sc cs))
  | .security alts => Keyed "security" (Braced (Listed true (conjSpelled sc) alts))
  | .body b => Keyed "body" (b.Spelled sc)
  | .response code none r => fun ts => ∃ v, r.Spelled sc v ∧ ts = [.lit (.num code), .colon, v]
  | .response code (some d) r => fun ts => ∃ v, r.Spelled sc v ∧
      ts = [.lit (.num code), .group .paren [.lit (.str d)], .colon, v]
/-- A list of properties: `Listed true (OpProp.Spelled sc)`. -/
def opPropsSpelled (sc : Scope) : List OpProp → List TT → Prop
  | [], ts => ts = []
  | p :: ps, ts => ∃ t rest, p.Spelled sc t ∧ Next true ps.isEmpty t rest ts ∧ opPropsSpelled sc ps rest
/-- A list of `name: {paths}`.  The last one may be `"name": {..}`, whatever the braces hold, if no comma follows. -/
def callbacksSpelled (sc : Scope) : List CallbackDecl → List TT → Prop
  | [], ts => ts = []
  | .literal name paths :: cs, ts => paths = [] ∧ cs = [] ∧ ∃ b, ts = [.lit (.str name), .colon, .group .brace b]
  | .ident name paths :: cs, ts => ∃ b rest, pathsSpelled sc false paths b ∧
      Next true cs.isEmpty [.ident name, .colon, .group .brace b] rest ts ∧ callbacksSpelled sc cs rest
/-- `(url): {..}` -/
def PathDecl.Spelled (sc : Scope) : PathDecl → List TT → Prop
  | ⟨segments, props⟩, ts => ∃ u b, urlSpelled sc segments u ∧ itemPropsSpelled sc props b ∧
      ts = [.group .paren u, .colon, .group .brace b]
/-- A list of paths: `Listed trailing (PathDecl.Spelled sc)`. -/
def pathsSpelled (sc : Scope) (trailing : Bool) : List PathDecl → List TT → Prop
  | [], ts => ts = []
  | d :: ds, ts => ∃ t rest, d.Spelled sc t ∧ Next trailing ds.isEmpty t rest ts ∧ pathsSpelled sc trailing ds rest
def ItemProp.Spelled (sc : Scope) : ItemProp → List TT → Prop
  | .summary s => Keyed "summary" (· = .lit (.str s))
  | .description s => Keyed "description" (· = .lit (.str s))
  | .parameters ps => Keyed "parameters" (Braced (Listed true (ParamDecl.Spelled sc) ps))
  | .operation m ps => Keyed (methodName m) (Braced (opPropsSpelled sc ps))
/-- A list of properties: `Listed true (ItemProp.Spelled sc)`. -/
def itemPropsSpelled (sc : Scope) : List ItemProp → List TT → Prop
  | [], ts => ts = []
  | p :: ps, ts => ∃ t rest, p.Spelled sc t ∧ Next true ps.isEmpty t rest ts ∧ itemPropsSpelled sc ps rest
end

/-! ## Descriptions -/

def Section.Spelled (sc : Scope) : Section → List TT → Prop
  | .info ps => Keyed "info" (Braced (Loosely (Listed true (InfoProp.Spelled sc)) ps))
  | .tags ts => Keyed "tags" (Braced (Loosely (Listed true (tagSpelled sc)) ts))
  | .servers ss => Keyed "servers" (Braced (Listed true (serverSpelled sc) ss))
  | .securitySchemes ss => Keyed "security_schemes" (Braced (Listed true (SchemeDecl.Spelled sc) ss))
  | .paths ps => Keyed "paths" (Braced (Loosely (pathsSpelled sc true) ps))

/-- `ts` is a way to write the description `api`, which has at least one section. -/
def ApiSpelled (sc : Scope) (api : Api) (ts : List TT) : Prop := api ≠ [] ∧ Listed true (Section.Spelled sc) api ts

/-! ## Types -/

/-- A literal with a text. -/
inductive LitText : LitTok → String → Prop
  | str {s} : LitText (.str s) s
  | num {n : Nat} : LitText (.num n) (toString n)
  | bool {b : Bool} : LitText (.bool b) (toString b)

/-- Nothing, or `k: literal` -/
def optSpelled (k : String) : Option String → List TT → Prop
  | none, ts => ts = []
  | some s, ts => ∃ l, LitText l s ∧ ts = [.ident k, .colon, .lit l]

/-- Nothing, or `variants: [literals]` -/
def variantsSpelled : Option (List String) → List TT → Prop
  | none, ts => ts = []
  | some vs, ts => ∃ b, Listed false (fun s t => ∃ l, LitText l s ∧ t = [.lit l]) vs b ∧ ts = [.ident "variants", .colon, .group .bracket b]

mutual
/-- `kind => {..}`; the items in the braces have a fixed order and no separators. -/
def TypeDecl.Spelled (sc : Scope) : TypeDecl → List TT → Prop
  | .rawModel m, ts => ∃ x, sc.val x = some (.model m) ∧ ts = [.ident "raw_model", .arrow, .ident x]
  | .rawType d data, ts => ∃ a x, optSpelled "description" d a ∧ sc.val x = some (.data data) ∧
      ts = [.ident "raw_type", .arrow, .group .brace (a ++ [.ident "ident", .colon, .ident x])]
  | .string d f e vs, ts => ∃ a b c v, optSpelled "description" d a ∧ optSpelled "format" f b ∧ optSpelled "example" e c ∧
      variantsSpelled vs v ∧ ts = [.ident "string", .arrow, .group .brace (a ++ b ++ c ++ v)]
  | .number d f e, ts => ∃ a b c, optSpelled "description" d a ∧ optSpelled "format" f b ∧ optSpelled "example" e c ∧
      ts = [.ident "number", .arrow, .group .brace (a ++ b ++ c)]
  | .integer d f e, ts => ∃ a b c, optSpelled "description" d a ∧ optSpelled "format" f b ∧ optSpelled "example" e c ∧
      ts = [.ident "integer", .arrow, .group .brace (a ++ b ++ c)]
  | .boolean d, ts => ∃ a, optSpelled "description" d a ∧ ts = [.ident "boolean", .arrow, .group .brace a]
  | .array d r, ts => ∃ a b, optSpelled "description" d a ∧ r.Spelled sc b ∧
      ts = [.ident "array", .arrow, .group .brace (a ++ [.ident "items", .colon, .group .paren b])]
  | .object d ps, ts => ∃ a b, optSpelled "description" d a ∧ propDeclsSpelled sc ps b ∧
      ts = [.ident "object", .arrow, .group .brace (a ++ [.ident "properties", .colon, .group .brace b])]
/-- `link => name` or a type -/
def RefDecl.Spelled (sc : Scope) : RefDecl → List TT → Prop
  | .link s, ts => ∃ t, IsString sc s t ∧ ts = [.ident "link", .arrow, t]
  | .inline t, ts => t.Spelled sc ts
/-- `name: (..)` or `name[required]: (..)`, without separators -/
def propDeclsSpelled (sc : Scope) : List PropDecl → List TT → Prop
  | [], ts => ts = []
  | .mk n q r :: ps, ts => ∃ b rest, r.Spelled sc b ∧ propDeclsSpelled sc ps rest ∧
      ts = .ident n :: ((if q then [.group .bracket [.ident "required"]] else []) ++ [.colon, .group .paren b]) ++ rest
end

/-! ## Trailing commas -/

/-- Without the comma at the end, if there is one. -/
def dropComma : List TT → List TT
  | [] => []
  | [.comma] => []
  | t :: ts => t :: dropComma ts

mutual
/-- Without the commas before closing delimiters. -/
def TT.trim : TT → TT
  | .group d ts => .group d (dropComma (trimAll ts))
  | t => t
def trimAll : List TT → List TT
  | [] => []
  | t :: ts => t.trim :: trimAll ts
end

/-- Without trailing commas, also at the end. -/
def trimmed (ts : List TT) : List TT := dropComma (trimAll ts)

end Verif
