import Verif.Model.Macros
/-!
# `opg/src/macros.rs`: the rules of `describe_type!` and `describe_api!`

The rules that match the input of the macros, transcribed on token trees.  Every function stands for the arms of one
internal rule (`@name`), tried in order; `none` means that no arm matches or that the code an arm expands to does not
type check.  What the rules find is the syntax tree of `Model/Macros`, whose interpreter gives the expansion.

Simplifications: the tokens of a type path with several segments or with arguments are one token, and so are those of
an expression that is neither a literal nor a variable; `true` and `false` are literals and not identifiers; the braces
of a response hold one expression.  The identifiers `$result`, `$context`, .. that the rules pass along are left out.
-/

namespace Verif

/-- Literals: `$x:literal` (macros.rs 26-39, 365, 475, 545-560, 587, 599, 603, 715). -/
inductive LitTok where
  | str (s : String)
  | num (n : Nat)
  | bool (b : Bool)

/-- Values of the expressions used in a description (macros.rs 21-27, 340-748): `&str`, `String`, numbers, `bool`,
`SecurityScheme`, `Option<ModelReference>`, `Model` and `ModelData`. -/
inductive Val where
  | str (s : String)
  | owned (s : String)
  | num (n : Nat)
  | bool (b : Bool)
  | scheme (s : SecurityScheme)
  | schema (r : Option Ref)
  | model (m : Model)
  | data (d : ModelData)

/-- Delimiters of the groups in the rules (macros.rs 20-163, 333-748). -/
inductive Delim where
  | paren | brace | bracket
  deriving DecidableEq

/-- Token trees: `$x:tt` (macros.rs 104, 120, 333, 359, 449 and others). -/
inductive TT where
  | ident (name : String)
  | lit (l : LitTok)
  | path (p : TypePath)
  | expr (v : Val)
  | comma | colon | slash | andAnd | arrow
  | group (d : Delim) (ts : List TT)

/-- What the names in a description stand for: `$x:ident` used as a variable (macros.rs 21, 27, 156, 366, 372, 590)
and `$x:path` used as a type (537, 555, 595, 666, 708, 718, 728). -/
structure Scope where
  val : String → Option Val
  ty : TypePath → Option Ty

/-- The value of a literal (macros.rs 26-39, 365, 545-560). -/
def LitTok.val : LitTok → Val
  | .str s => .str s
  | .num n => .num n
  | .bool b => .bool b

/-- `$x:expr` (macros.rs 340, 352, 398, 423-442, 493-505, 639, 696-704). -/
def TT.value (sc : Scope) : TT → Option Val
  | .lit l => some l.val
  | .ident x => sc.val x
  | .expr v => some v
  | _ => none

/-- `($value).to_string()` (macros.rs 347-349, 354). -/
def Val.display : Val → Option String
  | .str s | .owned s => some s
  | .num n => some (toString n)
  | .bool b => some (toString b)
  | _ => none
/-- An argument of type `&T` with `T: ToString + ?Sized` (models.rs 290-312). -/
def Val.text : Val → Option String
  | .str s => some s
  | _ => none
/-- An argument or a field of type `bool` (macros.rs 505, 603, 700, 704). -/
def Val.flag : Val → Option Bool
  | .bool b => some b
  | _ => none

/-- `($value).to_string()` for `$value:expr` (macros.rs 347-349, 354). -/
def TT.display (sc : Scope) (t : TT) : Option String := (t.value sc).bind Val.display
/-- A `$value:expr` passed as `&T` (macros.rs 493-501). -/
def TT.text (sc : Scope) (t : TT) : Option String := (t.value sc).bind Val.text
/-- A `$value:expr` of type `bool` (macros.rs 505, 700, 704). -/
def TT.flag (sc : Scope) (t : TT) : Option Bool := (t.value sc).bind Val.flag

/-- `$x:path` as a type (macros.rs 537, 555, 595, 666, 680, 708, 718, 728). -/
def TT.type (sc : Scope) : TT → Option (TypePath × Ty)
  | .ident x => (sc.ty ⟨false, [(x, [])]⟩).map fun t => (⟨false, [(x, [])]⟩, t)
  | .path p => (sc.ty p).map fun t => (p, t)
  | _ => none

/-- `key: value, ..` read one by one up to an optional comma, as the rules that end in `$(,)?` do (macros.rs 419-431,
434-446, 595-607, 696-712). -/
def munch (f : String → TT → Option α) : List TT → Option (List α)
  | [] => some []
  | [.comma] => some []
  | .ident k :: .colon :: v :: .comma :: rest => do
    let p ← f k v
    let ps ← munch f rest
    some (p :: ps)
  | _ => none

/-! ## `describe_type!` -/

/-- `$(key: $value:literal)?` followed by other things (macros.rs 26, 36-38, 57-59, 103, 118). -/
def optLit (key : String) : List TT → Option String × List TT
  | .ident k :: .colon :: .lit l :: rest => if k = key then (l.val.display, rest) else (none, .ident k :: .colon :: .lit l :: rest)
  | ts => (none, ts)

/-- `$($variants:literal),*` with `.to_string()` (macros.rs 39, 46). -/
def readLits : List TT → Option (List String)
  | [] => some []
  | [.lit l] => l.val.display.map fun s => [s]
  | .lit l :: .comma :: t :: rest => do
    let s ← l.val.display
    let ss ← readLits (t :: rest)
    some (s :: ss)
  | _ => none

/-- `$(variants: [..])?` at the end (macros.rs 39). -/
def readVariants : List TT → Option (Option (List String))
  | [] => some none
  | [.ident k, .colon, .group .bracket vs] => if k = "variants" then (readLits vs).map some else none
  | _ => none

/-- The arms that do not contain other types (macros.rs 21-100). -/
def readLeaf (sc : Scope) (k : String) (body : List TT) : Option TypeDecl :=
  let (d, ts) := optLit "description" body
  if k = "raw_type" then
    match ts with
    | [.ident i, .colon, .ident x] =>
      if i = "ident" then match sc.val x with | some (.data data) => some (.rawType d data) | _ => none else none
    | _ => none
  else if k = "boolean" then if ts.isEmpty then some (.boolean d) else none
  else
    let (f, ts) := optLit "format" ts
    let (e, ts) := optLit "example" ts
    if k = "string" then (readVariants ts).map fun vs => .string d f e vs
    else if k = "number" then if ts.isEmpty then some (.number d f e) else none
    else if k = "integer" then if ts.isEmpty then some (.integer d f e) else none
    else none

theorem optLit_size (key : String) (ts : List TT) : sizeOf (optLit key ts).2 ≤ sizeOf ts := by
  unfold optLit
  split
  · split <;> simp
    omega
  · simp

mutual
/-- `describe_type!` (macros.rs 20-140). -/
def readType (sc : Scope) : List TT → Option TypeDecl
  | [.ident k, .arrow, .ident x] =>
    if k = "raw_model" then match sc.val x with | some (.model m) => some (.rawModel m) | _ => none else none
  | [.ident k, .arrow, .group .brace body] =>
    if k = "array" then
      match h : optLit "description" body with
      | (d, [.ident i, .colon, .group .paren value]) => if i = "items" then (readRef sc value).map fun r => .array d r else none
      | _ => none
    else if k = "object" then
      match h : optLit "description" body with
      | (d, [.ident i, .colon, .group .brace props]) =>
        if i = "properties" then (readPropDecls sc props).map fun ps => .object d ps else none
      | _ => none
    else readLeaf sc k body
  | _ => none
termination_by ts => sizeOf ts
decreasing_by
  all_goals
    have := optLit_size "description" body
    rw [h] at this
    simp at this ⊢
    omega
/-- `@object_property_value` (macros.rs 152-162). -/
def readRef (sc : Scope) : List TT → Option RefDecl
  | [.ident k, .arrow, v] =>
    if k = "link" then
      match v with
      | .lit (.str s) => some (.link s)
      | .ident x => match sc.val x with | some (.str s) | some (.owned s) => some (.link s) | _ => none
      | _ => none
    else (readType sc [.ident k, .arrow, v]).map .inline
  | _ => none
termination_by ts => sizeOf ts + 1
/-- The properties of an object (macros.rs 120, 142-150). -/
def readPropDecls (sc : Scope) : List TT → Option (List PropDecl)
  | [] => some []
  | .ident n :: .colon :: .group .paren value :: rest => do
    let r ← readRef sc value
    let ps ← readPropDecls sc rest
    some (.mk n false r :: ps)
  | .ident n :: .group .bracket [.ident q] :: .colon :: .group .paren value :: rest =>
    if q = "required" then do
      let r ← readRef sc value
      let ps ← readPropDecls sc rest
      some (.mk n true r :: ps)
    else none
  | _ => none
termination_by ts => sizeOf ts
end

/-! ## `describe_api!` -/

/-- `@opg_info_property` (macros.rs 347-349). -/
def readInfoProp (sc : Scope) (k : String) (v : TT) : Option InfoProp :=
  if k = "title" then (v.display sc).map .title
  else if k = "version" then (v.display sc).map .version
  else if k = "description" then (v.display sc).map .description
  else none

/-- `$($property:ident: $property_value:expr),*` and a possible comma after the last one (macros.rs 340). -/
def readInfoProps (sc : Scope) : List TT → Option (List InfoProp)
  | [] => some []
  | [.ident k, .colon, v] => (readInfoProp sc k v).map fun p => [p]
  | .ident k :: .colon :: v :: .comma :: rest => do
    let p ← readInfoProp sc k v
    let ps ← readInfoProps sc rest
    some (p :: ps)
  | _ => none

/-- `$($tag:ident$(($description:expr))?),*` and a possible comma after the last one (macros.rs 352-356). -/
def readTags (sc : Scope) : List TT → Option (List (String × Option String))
  | [] => some []
  | [.ident t] => some [(t, none)]
  | [.ident t, .group .paren [e]] => (e.display sc).map fun d => [(t, some d)]
  | .ident t :: .comma :: rest => (readTags sc rest).map fun ts => (t, none) :: ts
  | .ident t :: .group .paren [e] :: .comma :: rest => do
    let d ← e.display sc
    let ts ← readTags sc rest
    some ((t, some d) :: ts)
  | _ => none

/-- `@opg_property_server_literal` (macros.rs 365-366). -/
def readServer (sc : Scope) : TT → Option String
  | .lit (.str s) => some s
  | .ident x => match sc.val x with | some (.str s) | some (.owned s) => some s | _ => none
  | _ => none

/-- `$($url:tt$(($description:tt))?),*` and a possible comma after the last one (macros.rs 359-364). -/
def readServers (sc : Scope) : List TT → Option (List (String × Option String))
  | [] => some []
  | [u] => (readServer sc u).map fun s => [(s, none)]
  | [u, .group .paren [d]] => do
    let s ← readServer sc u
    let d ← readServer sc d
    some [(s, some d)]
  | u :: .comma :: rest => do
    let s ← readServer sc u
    let ss ← readServers sc rest
    some ((s, none) :: ss)
  | u :: .group .paren [d] :: .comma :: rest => do
    let s ← readServer sc u
    let d ← readServer sc d
    let ss ← readServers sc rest
    some ((s, some d) :: ss)
  | _ => none

/-- `@opg_security_scheme_http` (macros.rs 419-431): one property. -/
def readHttpProp (sc : Scope) (k : String) (v : TT) : Option HttpSchemeProp :=
  if k = "scheme" then
    match v with
    | .ident x => if x = "Basic" then some .basic else if x = "Bearer" then some .bearer else none
    | _ => none
  else if k = "bearer_format" then (v.display sc).map .bearerFormat
  else if k = "description" then (v.display sc).map .description
  else none

/-- `ParameterIn::$value` (macros.rs 435, models.rs 502-507). -/
def parameterInOf (x : String) : Option ParameterIn :=
  if x = "Query" then some .query else if x = "Header" then some .header else if x = "Path" then some .path
  else if x = "Cookie" then some .cookie else none

/-- `@opg_security_scheme_api_key` (macros.rs 434-446): one property. -/
def readApiKeyProp (sc : Scope) (k : String) (v : TT) : Option ApiKeyProp :=
  if k = "parameter_in" then
    match v with
    | .ident x => (parameterInOf x).map .parameterIn
    | _ => none
  else if k = "name" then (v.display sc).map .name
  else if k = "description" then (v.display sc).map .description
  else none

/-- `@opg_security_scheme` (macros.rs 372-415): `(kind name): {properties}`. -/
def readScheme (sc : Scope) (head props : List TT) : Option SchemeDecl :=
  if props.isEmpty then none
  else
    match head with
    | [.ident k, e] =>
      if k = "http" then
        match e with
        | .lit (.str name) => (munch (readHttpProp sc) (props ++ [.comma])).map fun ps => .http name ps
        | _ => none
      else if k = "apiKey" then do
        let name ← e.display sc
        let ps ← munch (readApiKeyProp sc) (props ++ [.comma])
        some (.apiKey name ps)
      else none
    | _ => none

/-- `@opg_security_scheme` (macros.rs 372-416). -/
def readSchemes (sc : Scope) : List TT → Option (List SchemeDecl)
  | [] => some []
  | [.comma] => some []
  | .ident x :: .comma :: rest => do
    match sc.val x with
    | some (.scheme s) => (readSchemes sc rest).map fun ss => .ident x s :: ss
    | _ => none
  | .group .paren head :: .colon :: .group .brace props :: .comma :: rest => do
    let s ← readScheme sc head props
    let ss ← readSchemes sc rest
    some (s :: ss)
  | _ => none

/-- `@opg_path_value_parameter_properties` (macros.rs 696-712): one property. -/
def readParamProp (sc : Scope) (k : String) (v : TT) : Option ParamProp :=
  if k = "description" then (v.display sc).map .description
  else if k = "required" then (v.flag sc).map .required
  else if k = "deprecated" then (v.flag sc).map .deprecated
  else if k = "schema" then (v.type sc).map fun t => .schema t.2
  else none

/-- `(header $name:expr)`, `(query $name:ident: $type:path)` (macros.rs 639-692). -/
def readParam (sc : Scope) (props : List ParamProp) : List TT → Option ParamDecl
  | [.ident k, e] => if k = "header" then (e.display sc).map fun n => .header n props else none
  | [.ident k, .ident n, .colon, t] => if k = "query" then (t.type sc).map fun t => .query n t.2 props else none
  | _ => none

/-- `@opg_path_value_parameters` (macros.rs 639-693). -/
def readParams (sc : Scope) : List TT → Option (List ParamDecl)
  | [] => some []
  | [.comma] => some []
  | .group .paren head :: .colon :: .group .brace props :: .comma :: rest => do
    let ps ← munch (readParamProp sc) (props ++ [.comma])
    let d ← readParam sc ps head
    let ds ← readParams sc rest
    some (d :: ds)
  | .group .paren head :: .comma :: rest => do
    let d ← readParam sc [] head
    let ds ← readParams sc rest
    some (d :: ds)
  | _ => none

/-- `$($role:literal),*` (macros.rs 576). -/
def readRoles : List TT → Option (List String)
  | [] => some []
  | [.lit (.str s)] => some [s]
  | .lit (.str s) :: .comma :: t :: rest => (readRoles (t :: rest)).map fun ss => s :: ss
  | _ => none

/-- `@opg_path_value_security_item` (macros.rs 587-592). -/
def readSecurityItem (sc : Scope) (roles : List String) : TT → Option SecurityDecl
  | .lit (.str s) => some (.literal s roles)
  | .ident x => match sc.val x with | some (.scheme s) => some (.scheme x s roles) | _ => none
  | _ => none

/-- `@opg_path_value_security` (macros.rs 576-584); `current` are the items of the alternative being read. -/
def readSecurity (sc : Scope) (current : List SecurityDecl) : List TT → Option (List (List SecurityDecl))
  | [] => if current.isEmpty then some [] else none
  | [.comma] => if current.isEmpty then some [] else none
  | t :: .group .bracket roles :: .andAnd :: rest => do
    let roles ← readRoles roles
    let d ← readSecurityItem sc roles t
    readSecurity sc (current ++ [d]) rest
  | t :: .group .bracket roles :: .comma :: rest => do
    let roles ← readRoles roles
    let d ← readSecurityItem sc roles t
    let alts ← readSecurity sc [] rest
    some ((current ++ [d]) :: alts)
  | t :: .andAnd :: rest => do
    let d ← readSecurityItem sc [] t
    readSecurity sc (current ++ [d]) rest
  | t :: .comma :: rest => do
    let d ← readSecurityItem sc [] t
    let alts ← readSecurity sc [] rest
    some ((current ++ [d]) :: alts)
  | _ => none

/-- `@opg_path_value_body_properties` (macros.rs 595-607): one property. -/
def readBodyProp (sc : Scope) (k : String) (v : TT) : Option BodyProp :=
  if k = "schema" then (v.type sc).map fun t => .schema t.2
  else
    match v with
    | .lit l =>
      if k = "description" then match l with | .str s => some (.description s) | _ => none
      else if k = "required" then match l with | .bool b => some (.required b) | _ => none
      else none
    | _ => none

/-- `body: {..}` and `body: $type:path` (macros.rs 525-544). -/
def readBody (sc : Scope) : TT → Option BodyDecl
  | .group .brace ps => (munch (readBodyProp sc) (ps ++ [.comma])).map .props
  | v => (v.type sc).map fun t => .type t.2

/-- What follows the colon of a response (macros.rs 545-572). -/
def readResponse (sc : Scope) : TT → Option ResponseDecl
  | .group .paren [] => some (.type .unit)
  | .group .brace [e] =>
    match e with
    | .ident x => if x = "None" then some (.raw none) else match sc.val x with | some (.schema r) => some (.raw r) | _ => none
    | .expr (.schema r) => some (.raw r)
    | _ => none
  | .ident x => if x = "None" then some .absent else ((TT.ident x).type sc).map fun t => .type t.2
  | v => (v.type sc).map fun t => .type t.2

/-- `$($tag:ident),*$(,)?` (macros.rs 509). -/
def readIdents : List TT → Option (List String)
  | [] => some []
  | [.ident t] => some [t]
  | .ident t :: .comma :: rest => (readIdents rest).map fun ts => t :: ts
  | _ => none

/-- Lists written with `$(..),*$(,)?`, in which a comma alone is accepted too (macros.rs 340, 352, 359, 509). -/
def orComma (read : List TT → Option (List α)) : List TT → Option (List α)
  | [.comma] => some []
  | ts => read ts

/-- `HttpMethod::$method` (macros.rs 486, models.rs 203-212). -/
def methodOf (x : String) : Option HttpMethod :=
  if x = "GET" then some .get else if x = "PUT" then some .put else if x = "POST" then some .post
  else if x = "DELETE" then some .delete else if x = "OPTIONS" then some .options else if x = "HEAD" then some .head
  else if x = "PATCH" then some .patch else if x = "TRACE" then some .trace else none

/-- `@opg_path_url` (macros.rs 715-736). -/
def readSeg (sc : Scope) : List TT → Option PathSeg
  | [.lit l] => match l with | .str s => some (.literal s) | _ => none
  | [.group .brace [.ident n, .colon, t]] => (t.type sc).map fun t => .named n t.2
  | [t] => (t.type sc).map fun t => .bare t.1 t.2
  | _ => none

/-- `@opg_property_url` (macros.rs 463-472); `current` are the tokens since the last slash. -/
def readUrl (sc : Scope) (current : List TT) : List TT → Option (List PathSeg)
  | [] => if current.isEmpty then none else (readSeg sc current).map fun s => [s]
  | .slash :: rest =>
    if current.isEmpty then readUrl sc (current ++ [.slash]) rest
    else do
      let s ← readSeg sc current
      let ss ← readUrl sc [] rest
      some (s :: ss)
  | next :: rest => readUrl sc (current ++ [next]) rest

theorem sizeOf_comma (ts : List TT) : sizeOf (ts ++ [TT.comma]) = sizeOf ts + 2 := by
  induction ts with
  | nil => rfl
  | cons t ts ih => simp only [List.cons_append, List.cons.sizeOf_spec, ih]; omega

mutual
/-- `@opg_path_value_operation_properties` (macros.rs 493-573). -/
def readOpProps (sc : Scope) : List TT → Option (List OpProp)
  | [] => some []
  | [.comma] => some []
  | .ident k :: .colon :: v :: .comma :: rest => do
    let p ← readOpProp sc k v
    let ps ← readOpProps sc rest
    some (p :: ps)
  | .lit (.num code) :: .colon :: v :: .comma :: rest => do
    let r ← readResponse sc v
    let ps ← readOpProps sc rest
    some (.response code none r :: ps)
  | .lit (.num code) :: .group .paren [.lit (.str d)] :: .colon :: v :: .comma :: rest => do
    let r ← readResponse sc v
    let ps ← readOpProps sc rest
    some (.response code (some d) r :: ps)
  | _ => none
termination_by ts => sizeOf ts
decreasing_by all_goals simp; omega
/-- `@opg_path_value_operation_properties` (macros.rs 493-544): `key: value`. -/
def readOpProp (sc : Scope) (k : String) (v : TT) : Option OpProp :=
  if k = "summary" then (v.text sc).map .summary
  else if k = "operationId" then (v.text sc).map .operationId
  else if k = "description" then (v.text sc).map .description
  else if k = "deprecated" then (v.flag sc).map .deprecated
  else if k = "body" then (readBody sc v).map .body
  else
    match v with
    | .group .brace ts =>
      if k = "tags" then (orComma readIdents ts).map .tags
      else if k = "parameters" then (readParams sc (ts ++ [.comma])).map .parameters
      else if k = "callbacks" then (readCallbacks sc (ts ++ [.comma])).map .callbacks
      else if k = "security" then (readSecurity sc [] (ts ++ [.comma])).map .security
      else none
    | _ => none
termination_by sizeOf v + 3
decreasing_by all_goals simp [sizeOf_comma]; omega
/-- `@opg_path_value_callbacks` (macros.rs 609-623); for a literal the paths are read from what follows it. -/
def readCallbacks (sc : Scope) : List TT → Option (List CallbackDecl)
  | [] => some []
  | [.comma] => some []
  | .lit (.str name) :: .colon :: .group .brace _ :: .comma :: rest => do
    let ps ← readPaths sc (rest ++ [.comma])
    let ds ← readCallbacks sc rest
    some (.literal name ps :: ds)
  | .ident name :: .colon :: .group .brace paths :: .comma :: rest => do
    let ps ← readPaths sc (paths ++ [.comma])
    let ds ← readCallbacks sc rest
    some (.ident name ps :: ds)
  | _ => none
termination_by ts => sizeOf ts
decreasing_by all_goals simp [sizeOf_comma]; omega
/-- `paths` and `@opg_path_value_callbacks_paths` (macros.rs 449-461, 625-637). -/
def readPaths (sc : Scope) : List TT → Option (List PathDecl)
  | [.comma] => some []
  | ts => readPathList sc ts
termination_by ts => sizeOf ts + 1
/-- `$((..): {..}),*` and a possible comma after the last one (macros.rs 449-451, 625-627). -/
def readPathList (sc : Scope) : List TT → Option (List PathDecl)
  | [] => some []
  | [.group .paren segments, .colon, .group .brace props] => do
    let ss ← readUrl sc [] segments
    let ps ← readItemProps sc (props ++ [.comma])
    some [⟨ss, ps⟩]
  | .group .paren segments :: .colon :: .group .brace props :: .comma :: rest => do
    let ss ← readUrl sc [] segments
    let ps ← readItemProps sc (props ++ [.comma])
    let ds ← readPathList sc rest
    some (⟨ss, ps⟩ :: ds)
  | _ => none
termination_by ts => sizeOf ts
decreasing_by all_goals simp [sizeOf_comma]; try omega
/-- `@opg_path_value_properties` (macros.rs 475-490). -/
def readItemProps (sc : Scope) : List TT → Option (List ItemProp)
  | [] => some []
  | [.comma] => some []
  | .ident k :: .colon :: v :: .comma :: rest => do
    let p ← readItemProp sc k v
    let ps ← readItemProps sc rest
    some (p :: ps)
  | _ => none
termination_by ts => sizeOf ts
decreasing_by all_goals simp; omega
/-- `@opg_path_value_properties` (macros.rs 475-489): `key: value`. -/
def readItemProp (sc : Scope) (k : String) : TT → Option ItemProp
  | .lit l =>
    match l with
    | .str s => if k = "summary" then some (.summary s) else if k = "description" then some (.description s) else none
    | _ => none
  | .group .brace ts =>
    if k = "parameters" then (readParams sc (ts ++ [.comma])).map .parameters
    else do
      let ps ← readOpProps sc (ts ++ [.comma])
      let m ← methodOf k
      some (.operation m ps)
  | _ => none
termination_by v => sizeOf v + 3
decreasing_by all_goals simp [sizeOf_comma]; omega
end

/-- `@opg_property` (macros.rs 340-461). -/
def readSection (sc : Scope) (k : String) (ts : List TT) : Option Section :=
  if k = "info" then (orComma (readInfoProps sc) ts).map .info
  else if k = "tags" then (orComma (readTags sc) ts).map .tags
  else if k = "servers" then (readServers sc ts).map .servers
  else if k = "security_schemes" then (readSchemes sc (ts ++ [.comma])).map .securitySchemes
  else if k = "paths" then (readPaths sc ts).map .paths
  else none

/-- `$($property:ident: {..}),*` and a possible comma after the last one (macros.rs 333). -/
def readSections (sc : Scope) : List TT → Option Api
  | [] => some []
  | [.ident k, .colon, .group .brace ts] => (readSection sc k ts).map fun s => [s]
  | .ident k :: .colon :: .group .brace ts :: .comma :: rest => do
    let s ← readSection sc k ts
    let ss ← readSections sc rest
    some (s :: ss)
  | _ => none

/-- The tokens of `describe_api!` (macros.rs 333-337): the repetition on line 335 needs at least one section. -/
def readApi (sc : Scope) (ts : List TT) : Option Api :=
  match readSections sc ts with
  | some (s :: ss) => some (s :: ss)
  | _ => none

/-- `describe_api! { ts }` (macros.rs 331-748). -/
def describeApiTokens {κ : Type} [Mentioner κ] (c : κ) (sc : Scope) (ts : List TT) : Option Opg := (readApi sc ts).bind (describeApi c)

/-- `describe_type!(ts)` (macros.rs 19-163). -/
def describeTypeTokens (sc : Scope) (ts : List TT) : Option Model := (readType sc ts).map TypeDecl.model

end Verif
