import Verif.Model.Impls
import Verif.Spec.Deps
/-!
# The types with an `OpgModel` impl, as written in Rust (specification)
-/

namespace Verif

/-- The Rust path of a primitive. -/
def Prim.path : Prim → List String
  | .char => ["char"] | .str => ["str"] | .string => ["String"]
  | .i8 => ["i8"] | .u8 => ["u8"] | .i16 => ["i16"] | .u16 => ["u16"] | .i32 => ["i32"] | .u32 => ["u32"]
  | .i64 => ["i64"] | .u64 => ["u64"] | .isize => ["isize"] | .usize => ["usize"]
  | .f32 => ["f32"] | .f64 => ["f64"] | .bool => ["bool"]
  | .atomicI8 => ["std", "sync", "atomic", "AtomicI8"] | .atomicU8 => ["std", "sync", "atomic", "AtomicU8"]
  | .atomicI16 => ["std", "sync", "atomic", "AtomicI16"] | .atomicU16 => ["std", "sync", "atomic", "AtomicU16"]
  | .atomicI32 => ["std", "sync", "atomic", "AtomicI32"] | .atomicU32 => ["std", "sync", "atomic", "AtomicU32"]
  | .atomicI64 => ["std", "sync", "atomic", "AtomicI64"] | .atomicU64 => ["std", "sync", "atomic", "AtomicU64"]
  | .atomicIsize => ["std", "sync", "atomic", "AtomicIsize"] | .atomicUsize => ["std", "sync", "atomic", "AtomicUsize"]
  | .atomicBool => ["std", "sync", "atomic", "AtomicBool"]

/-- `a::b::c` -/
def typePath (names : List String) : List ImplTok := (names.map ImplTok.ident).intersperse (.punct "::")

/-- The type constructor of a type, applied to type parameters; `none` for the types whose impl is written out or
derived. -/
def Ty.head : Ty → Option (List ImplTok)
  | .prim p => some (typePath p.path)
  | .wrap .ref _ => some [.punct "&", .ident "T"]
  | .wrap .refMut _ => some [.punct "&", .ident "mut", .ident "T"]
  | .wrap .box _ => some (typePath ["Box"] ++ [.punct "<", .ident "T", .punct ">"])
  | .wrap .rc _ => some (typePath ["std", "rc", "Rc"] ++ [.punct "<", .ident "T", .punct ">"])
  | .wrap .arc _ => some (typePath ["std", "sync", "Arc"] ++ [.punct "<", .ident "T", .punct ">"])
  | .wrap .cell _ => some (typePath ["std", "cell", "Cell"] ++ [.punct "<", .ident "T", .punct ">"])
  | .wrap .refCell _ => some (typePath ["std", "cell", "RefCell"] ++ [.punct "<", .ident "T", .punct ">"])
  | .wrap .tuple1 _ => some [.group .paren [.ident "T", .punct ","]]
  | .option _ => some (typePath ["Option"] ++ [.punct "<", .ident "T", .punct ">"])
  | .tuple ts => some [.group .paren (((tupleParams ts.length).map ImplTok.ident).intersperse (.punct ","))]
  | .seq .slice _ => some [.group .bracket [.ident "T"]]
  | .seq .vec _ => some (typePath ["Vec"] ++ [.punct "<", .ident "T", .punct ">"])
  | .seq .hashSet _ => some (typePath ["std", "collections", "HashSet"] ++ [.punct "<", .ident "T", .punct ">"])
  | .seq .linkedList _ => some (typePath ["std", "collections", "LinkedList"] ++ [.punct "<", .ident "T", .punct ">"])
  | .seq .vecDeque _ => some (typePath ["std", "collections", "VecDeque"] ++ [.punct "<", .ident "T", .punct ">"])
  | .seq .binaryHeap _ => some (typePath ["std", "collections", "BinaryHeap"] ++ [.punct "<", .ident "T", .punct ">"])
  | .seq (.array n) _ => some [.group .bracket [.ident "T", .punct ";", .lit (.num n)]]
  | .dict .hashMap _ =>
    some (typePath ["std", "collections", "HashMap"] ++ [.punct "<", .ident "K", .punct ",", .ident "T", .punct ">"])
  | .dict .bTreeMap _ =>
    some (typePath ["std", "collections", "BTreeMap"] ++ [.punct "<", .ident "K", .punct ",", .ident "T", .punct ">"])
  | .unit | .uuid | .naiveDateTime | .dateTime | .naiveDate | .named _ => none

/-- The arguments of the type constructor. -/
def Ty.args : Ty → String → Option Ty
  | .wrap _ t, x => if x = "T" then some t else none
  | .option t, x => if x = "T" then some t else none
  | .seq _ t, x => if x = "T" then some t else none
  | .dict _ t, x => if x = "T" then some t else none
  | .tuple ts, x => ((tupleParams ts.length).zip ts).lookup x
  | _, _ => none

/-- The sizes the library has impls for. -/
def Ty.SizeOk : Ty → Prop
  | .tuple ts => 2 ≤ ts.length ∧ ts.length ≤ 10
  | .seq (.array n) _ => 1 ≤ n ∧ n ≤ 32
  | _ => True

/-- The types named in the methods of an impl. -/
def ImplCode.Names (c : ImplCode) (x : String) : Prop := (∃ b, (x, b) ∈ c.body.asked) ∨ c.nameOf = some x

/-- The methods of an impl name only its own type parameters, and those are bounded by `OpgModel`. -/
def ImplCode.Scoped (c : ImplCode) : Prop :=
  ∀ x, c.Names x → x ∈ c.params ∧ ∃ bs, (x, bs) ∈ c.bounds ∧ "OpgModel" ∈ bs

/-! ## The invocations -/

/-- Forms of an invocation. -/
inductive ImplForm where
  | wrapper (nullable : Bool) (relaxed : Option String)
  | tuple (params : List String)
  | sequence
  | dictionary
  | leaf (kind : SimpleKind) (format : Option LitTok) (inline : Bool)

/-- The keyword of a kind. -/
def SimpleKind.keyword : SimpleKind → String
  | .string => "string" | .number => "number" | .integer => "integer" | .boolean => "boolean"

/-- Tokens before the colon. -/
def ImplForm.tokens : ImplForm → List ImplTok
  | .wrapper true none => [.ident "generic_simple", .group .paren [.ident "nullable"]]
  | .wrapper true (some x) => [.ident "generic_simple", .group .paren [.ident "nullable", .punct ",", .punct "?", .ident x]]
  | .wrapper false none => [.ident "generic_simple"]
  | .wrapper false (some x) => [.ident "generic_simple", .group .paren [.punct "?", .ident x]]
  | .tuple _ => [.ident "generic_tuple"]
  | .sequence => [.ident "generic_array"]
  | .dictionary => [.ident "generic_dictionary"]
  | .leaf k none false => [.ident k.keyword]
  | .leaf k (some l) false => [.ident k.keyword, .group .paren [.lit l]]
  | .leaf k none true => [.ident k.keyword, .group .paren [.ident "always_inline"]]
  | .leaf k (some l) true => [.ident k.keyword, .group .paren [.ident "always_inline", .punct ",", .lit l]]

/-- Which types a form applies to: any, but tuples are written out; booleans have no format. -/
def ImplForm.Fits : ImplForm → List ImplTok → Prop
  | .tuple xs, self => xs ≠ [] ∧ self = [.group .paren (commaTokens xs)]
  | .leaf .boolean f _, self => f = none ∧ self ≠ []
  | _, self => self ≠ []

/-- The text of a literal. -/
def LitTok.display : LitTok → String
  | .str s => s
  | .num n => toString n
  | .bool b => toString b

/-- The schema of a form, in terms of the type parameters. -/
def ImplForm.schema : ImplForm → ModelExpr String
  | .wrapper true _ => .getSchemaWithParams "T" { nullable := some true }
  | .wrapper false _ => .getSchema "T"
  | .tuple xs => .single none false (.array (.inline (.oneOf none (xs.map fun x => .mention x false {}))))
  | .sequence => .single none false (.array (.mention "T" false {}))
  | .dictionary => .single none false (.dictionary (.mention "T" false {}))
  | .leaf .string f _ => .single none false (.string none (f.map LitTok.display) none)
  | .leaf .number f _ => .single none false (.number (f.map LitTok.display) none)
  | .leaf .integer f _ => .single none false (.integer (f.map LitTok.display) none)
  | .leaf .boolean _ _ => .single none false .boolean

/-- The type parameters of a form and their bounds: all are documented types, except for the keys of a dictionary. -/
def ImplForm.bounds : ImplForm → List (String × List String)
  | .wrapper _ none => [("T", ["OpgModel"])]
  | .wrapper _ (some x) => [("T", ["OpgModel", "?" ++ x])]
  | .tuple xs => xs.map fun x => (x, ["OpgModel"])
  | .sequence => [("T", ["OpgModel"])]
  | .dictionary => [("T", ["OpgModel"]), ("K", ["serde::ser::Serialize"])]
  | .leaf _ _ _ => []

/-- Whether the types of a form are always inlined. -/
def ImplForm.alwaysInline : ImplForm → Bool
  | .wrapper _ _ => false
  | .leaf _ _ inline => inline
  | _ => true

/-- The code of a form for a type: the name is that of `T` for the types that are not always inlined. -/
structure ImplForm.Gives (f : ImplForm) (self : List ImplTok) (c : ImplCode) : Prop where
  forType : c.self = self
  params : c.params = match f with | .dictionary => ["K", "T"] | f => f.bounds.map Prod.fst
  bounds : c.bounds = f.bounds
  body : c.body = f.schema
  nameOf : c.nameOf = if f.alwaysInline then none else some "T"
  inline : c.inline = f.alwaysInline

end Verif
