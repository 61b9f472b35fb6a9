import Verif.Model.Types
import Verif.Model.Syntax
/-!
# `impl_opg_model!` and its uses

The macro of macros.rs 165-329 as a function from tokens to the impl it expands to, and the list of its uses in lib.rs.
-/

namespace Verif

/-- The tokens of an invocation (macros.rs 165-329, lib.rs 13-118).  Punctuation is kept as text; a number is the
value of its literal. -/
inductive ImplTok where
  | ident (s : String)
  | lit (l : LitTok)
  | punct (s : String)
  | group (d : Delim) (ts : List ImplTok)

/-- The impl an invocation expands to (macros.rs 165-329).  Rust types inside the methods are given by their name. -/
structure ImplCode where
  /-- `impl<..>` -/
  params : List String
  /-- the `where` clause -/
  bounds : List (String × List String)
  /-- the type after `for` -/
  self : List ImplTok
  /-- body of `get_schema` -/
  body : ModelExpr String
  /-- `type_name` is `<x as OpgModel>::type_name()`, or `None` -/
  nameOf : Option String
  /-- whether `select_reference` is overridden to inline always -/
  inline : Bool

/-- `$(, ?$sized:ident)?` and `$((?$sized:ident))?` (macros.rs 167, 186): the bounds of `T`. -/
def simpleBounds (sized : Option String) : List (String × List String) :=
  [("T", "OpgModel" :: match sized with | none => [] | some x => ["?" ++ x])]

/-- macros.rs 167-184. -/
def simpleNullableImpl (sized : Option String) (self : List ImplTok) : ImplCode where
  params := ["T"]
  bounds := simpleBounds sized
  self := self
  body := .getSchemaWithParams "T" { nullable := some true }
  nameOf := some "T"
  inline := false

/-- macros.rs 186-200. -/
def simpleImpl (sized : Option String) (self : List ImplTok) : ImplCode where
  params := ["T"]
  bounds := simpleBounds sized
  self := self
  body := .getSchema "T"
  nameOf := some "T"
  inline := false

/-- `$($type:ident),+` (macros.rs 202). -/
def readTypeIdents : List ImplTok → Option (List String)
  | [.ident x] => some [x]
  | .ident x :: .punct "," :: rest => (readTypeIdents rest).map fun xs => x :: xs
  | _ => none

/-- macros.rs 202-232.  The type is written again from the identifiers, which gives the same tokens. -/
def tupleImpl (xs : List String) (self : List ImplTok) : ImplCode where
  params := xs
  bounds := xs.map fun x => (x, ["OpgModel"])
  self := self
  body := .single none false (.array (.inline (.oneOf none (xs.map fun x => .mention x false {}))))
  nameOf := none
  inline := true

/-- macros.rs 234-262. -/
def arrayImpl (self : List ImplTok) : ImplCode where
  params := ["T"]
  bounds := [("T", ["OpgModel"])]
  self := self
  body := .single none false (.array (.mention "T" false {}))
  nameOf := none
  inline := true

/-- macros.rs 264-293. -/
def dictionaryImpl (self : List ImplTok) : ImplCode where
  params := ["K", "T"]
  bounds := [("T", ["OpgModel"]), ("K", ["serde::ser::Serialize"])]
  self := self
  body := .single none false (.dictionary (.mention "T" false {}))
  nameOf := none
  inline := true

/-- `describe_type!($serialized_type => { $(format: $format)? })` (macros.rs 298-300, 313-315): the expression it
expands to; `none` if no rule of `describe_type!` applies. -/
def kindExpr (kind : String) (format : Option LitTok) : Option (ModelExpr String) :=
  let body : List TT := match format with | none => [] | some l => [.ident "format", .colon, .lit l]
  match readType ⟨fun _ => none, fun _ => none⟩ [.ident kind, .arrow, .group .brace body] with
  | some (.string d f e vs) => some (.single d false (.string vs f (e.map Example.lit)))
  | some (.number d f e) => some (.single d false (.number f (e.map Example.lit)))
  | some (.integer d f e) => some (.single d false (.integer f (e.map Example.lit)))
  | some (.boolean d) => some (.single d false .boolean)
  | _ => none

/-- macros.rs 295-308.  The `type_name` written there asks the type `T`. -/
def plainImpl (self : List ImplTok) (body : ModelExpr String) : ImplCode where
  params := []
  bounds := []
  self := self
  body := body
  nameOf := some "T"
  inline := false

/-- macros.rs 310-328. -/
def inlinedImpl (self : List ImplTok) (body : ModelExpr String) : ImplCode where
  params := []
  bounds := []
  self := self
  body := body
  nameOf := none
  inline := true

/-- `$($type:tt)+` (macros.rs 167, 186, 234, 264, 295, 310). -/
def nonEmpty (self : List ImplTok) : Option (List ImplTok) := if self.isEmpty then none else some self

/-- The last two rules (macros.rs 295, 310), `args` being the parenthesised tokens after the identifier. -/
def expandKind (kind : String) (args : Option (List ImplTok)) (self : List ImplTok) : Option ImplCode :=
  match args with
  | none => (kindExpr kind none).map (plainImpl self)
  | some [.lit l] => (kindExpr kind (some l)).map (plainImpl self)
  | some [.ident "always_inline"] => (kindExpr kind none).map (inlinedImpl self)
  | some [.ident "always_inline", .punct ",", .lit l] => (kindExpr kind (some l)).map (inlinedImpl self)
  | _ => none

/-- The rules in the order they are tried (macros.rs 167, 186, 202, 234, 264, 295, 310), for an identifier `kind` with
the parenthesised `args`, and the tokens `self` after the colon. -/
def expandRules (kind : String) (args : Option (List ImplTok)) (self : List ImplTok) : Option ImplCode :=
  match kind, args, self with
  | "generic_simple", some [.ident "nullable"], self => some (simpleNullableImpl none self)
  | "generic_simple", some [.ident "nullable", .punct ",", .punct "?", .ident x], self => some (simpleNullableImpl (some x) self)
  | "generic_simple", none, self => some (simpleImpl none self)
  | "generic_simple", some [.punct "?", .ident x], self => some (simpleImpl (some x) self)
  | "generic_tuple", none, [.group .paren ts] =>
    match readTypeIdents ts with
    | some xs => some (tupleImpl xs [.group .paren ts])
    | none => expandKind kind args self
  | "generic_array", none, self => some (arrayImpl self)
  | "generic_dictionary", none, self => some (dictionaryImpl self)
  | kind, args, self => expandKind kind args self

/-- `impl_opg_model!(..)` (macros.rs 165-329): the impl, or `none` if the input is rejected. -/
def expandImpl : List ImplTok → Option ImplCode
  | .ident kind :: .punct ":" :: self => (nonEmpty self).bind (expandRules kind none)
  | .ident kind :: .group .paren args :: .punct ":" :: self => (nonEmpty self).bind (expandRules kind (some args))
  | _ => none

/-! ## The uses in lib.rs -/

/-- `kind(always_inline, "format"): self` (lib.rs 13-44). -/
def inlinedUse (kind : String) (format : Option String) (self : List ImplTok) : List ImplTok :=
  .ident kind :: .group .paren (.ident "always_inline" ::
    match format with | none => [] | some f => [.punct ",", .lit (.str f)]) :: .punct ":" :: self

/-- `generic_simple(?Sized): self` (lib.rs 46-52). -/
def sizedUse (self : List ImplTok) : List ImplTok :=
  .ident "generic_simple" :: .group .paren [.punct "?", .ident "Sized"] :: .punct ":" :: self

/-- `kind: self` (lib.rs 56-87, 117-118). -/
def bareUse (kind : String) (self : List ImplTok) : List ImplTok := .ident kind :: .punct ":" :: self

/-- `a::b::c` (lib.rs 33-52, 70-73, 117-118). -/
def pathTokens : List String → List ImplTok
  | [] => []
  | [x] => [.ident x]
  | x :: xs => .ident x :: .punct "::" :: pathTokens xs

/-- `path<x, ..>` (lib.rs 48-54, 69-73, 117-118). -/
def genericTokens (path : List String) (args : List ImplTok) : List ImplTok :=
  pathTokens path ++ .punct "<" :: args ++ [.punct ">"]

/-- `x, y, ..` (lib.rs 58-66). -/
def commaTokens : List String → List ImplTok
  | [] => []
  | [x] => [.ident x]
  | x :: xs => .ident x :: .punct "," :: commaTokens xs

/-- `T1, T2, ..` (lib.rs 58-66). -/
def tupleParams (n : Nat) : List String := (List.range' 1 n).map fun i => "T" ++ toString i

/-- `generic_tuple: (T1, .., Tn)` (lib.rs 58-66). -/
def tupleUse (n : Nat) : List ImplTok := bareUse "generic_tuple" [.group .paren (commaTokens (tupleParams n))]

/-- `generic_array: [T; len]` (lib.rs 78). -/
def arrayUse (len : Nat) : List ImplTok :=
  bareUse "generic_array" [.group .bracket [.ident "T", .punct ";", .lit (.num len)]]

/-- The invocations of lib.rs 13-88, 117-118, without the feature `const_generics`. -/
def libUses : List (List ImplTok) :=
  [ inlinedUse "string" (some "char") [.ident "char"],
    inlinedUse "string" none [.ident "str"],
    inlinedUse "string" none [.ident "String"],
    inlinedUse "integer" (some "int8") [.ident "i8"],
    inlinedUse "integer" (some "uint8") [.ident "u8"],
    inlinedUse "integer" (some "int16") [.ident "i16"],
    inlinedUse "integer" (some "uint16") [.ident "u16"],
    inlinedUse "integer" (some "int32") [.ident "i32"],
    inlinedUse "integer" (some "uint32") [.ident "u32"],
    inlinedUse "integer" (some "int64") [.ident "i64"],
    inlinedUse "integer" (some "uint64") [.ident "u64"],
    inlinedUse "integer" none [.ident "isize"],
    inlinedUse "integer" none [.ident "usize"],
    inlinedUse "number" (some "float") [.ident "f32"],
    inlinedUse "number" (some "double") [.ident "f64"],
    inlinedUse "boolean" none [.ident "bool"],
    inlinedUse "integer" (some "int8") (pathTokens ["std", "sync", "atomic", "AtomicI8"]),
    inlinedUse "integer" (some "uint8") (pathTokens ["std", "sync", "atomic", "AtomicU8"]),
    inlinedUse "integer" (some "int16") (pathTokens ["std", "sync", "atomic", "AtomicI16"]),
    inlinedUse "integer" (some "uint16") (pathTokens ["std", "sync", "atomic", "AtomicU16"]),
    inlinedUse "integer" (some "int32") (pathTokens ["std", "sync", "atomic", "AtomicI32"]),
    inlinedUse "integer" (some "uint32") (pathTokens ["std", "sync", "atomic", "AtomicU32"]),
    inlinedUse "integer" (some "int64") (pathTokens ["std", "sync", "atomic", "AtomicI64"]),
    inlinedUse "integer" (some "uint64") (pathTokens ["std", "sync", "atomic", "AtomicU64"]),
    inlinedUse "integer" none (pathTokens ["std", "sync", "atomic", "AtomicIsize"]),
    inlinedUse "integer" none (pathTokens ["std", "sync", "atomic", "AtomicUsize"]),
    inlinedUse "boolean" none (pathTokens ["std", "sync", "atomic", "AtomicBool"]),
    sizedUse [.punct "&", .ident "T"],
    sizedUse [.punct "&", .ident "mut", .ident "T"],
    sizedUse (genericTokens ["Box"] [.ident "T"]),
    sizedUse (genericTokens ["std", "rc", "Rc"] [.ident "T"]),
    sizedUse (genericTokens ["std", "sync", "Arc"] [.ident "T"]),
    sizedUse (genericTokens ["std", "cell", "Cell"] [.ident "T"]),
    sizedUse (genericTokens ["std", "cell", "RefCell"] [.ident "T"]),
    .ident "generic_simple" :: .group .paren [.ident "nullable"] :: .punct ":" :: genericTokens ["Option"] [.ident "T"],
    bareUse "generic_simple" [.group .paren [.ident "T", .punct ","]],
    bareUse "generic_array" [.group .bracket [.ident "T"]],
    bareUse "generic_array" (genericTokens ["Vec"] [.ident "T"]),
    bareUse "generic_array" (genericTokens ["std", "collections", "HashSet"] [.ident "T"]),
    bareUse "generic_array" (genericTokens ["std", "collections", "LinkedList"] [.ident "T"]),
    bareUse "generic_array" (genericTokens ["std", "collections", "VecDeque"] [.ident "T"]),
    bareUse "generic_array" (genericTokens ["std", "collections", "BinaryHeap"] [.ident "T"]),
    bareUse "generic_dictionary" (genericTokens ["std", "collections", "HashMap"] [.ident "K", .punct ",", .ident "T"]),
    bareUse "generic_dictionary" (genericTokens ["std", "collections", "BTreeMap"] [.ident "K", .punct ",", .ident "T"]) ]
  ++ [2, 3, 4, 5, 6, 7, 8, 9, 10].map tupleUse
  ++ (List.range' 1 32).map arrayUse

/-- The impls of the library written by `impl_opg_model!` (lib.rs 13-118). -/
def libImpls : List ImplCode := libUses.filterMap expandImpl

mutual
/-- A body of macros.rs 165-329 with the names of types replaced by types, as the compiler does for an instance. -/
def ModelExpr.subst (σ : String → Option τ) : ModelExpr String → Option (ModelExpr τ)
  | .getSchema x => (σ x).map .getSchema
  | .getSchemaWithParams x p => (σ x).map fun t => .getSchemaWithParams t p
  | .single d n td => (td.subst σ).map (.single d n)
  | .oneOf d rs => (RefExpr.substs σ rs).map (.oneOf d)
  | .tagged m a b c n => (m.subst σ).map fun m => .tagged m a b c n
/-- `ModelExpr.subst` on references (macros.rs 165-329). -/
def RefExpr.subst (σ : String → Option τ) : RefExpr String → Option (RefExpr τ)
  | .mention x b p => (σ x).map fun t => .mention t b p
  | .inline m => (m.subst σ).map .inline
  | .any => some .any
/-- `ModelExpr.subst` on lists of references (macros.rs 165-329). -/
def RefExpr.substs (σ : String → Option τ) : List (RefExpr String) → Option (List (RefExpr τ))
  | [] => some []
  | r :: rs =>
    match r.subst σ, RefExpr.substs σ rs with
    | some r, some rs => some (r :: rs)
    | _, _ => none
/-- `ModelExpr.subst` on type descriptions (macros.rs 165-329). -/
def TypeExpr.subst (σ : String → Option τ) : TypeExpr String → Option (TypeExpr τ)
  | .string a b c => some (.string a b c)
  | .number a b => some (.number a b)
  | .integer a b => some (.integer a b)
  | .boolean => some .boolean
  | .array r => (r.subst σ).map .array
  | .object ps => (PropExpr.substs σ ps).map .object
  | .dictionary r => (r.subst σ).map .dictionary
/-- `ModelExpr.subst` on properties (macros.rs 165-329). -/
def PropExpr.substs (σ : String → Option τ) : List (PropExpr String) → Option (List (PropExpr τ))
  | [] => some []
  | .mk n r q :: ps =>
    match r.subst σ, PropExpr.substs σ ps with
    | some r, some ps => some (.mk n r q :: ps)
    | _, _ => none
end

end Verif
