import Verif.Model.Codegen
/-!
# Rust types with an `OpgModel` impl

A deep embedding of the types the library implements `OpgModel` for (lib.rs 13-262) plus derived types.
-/

namespace Verif

/-- Types with a plain `always_inline` impl (lib.rs 13-44). -/
inductive Prim where
  | char | str | string
  | i8 | u8 | i16 | u16 | i32 | u32 | i64 | u64 | isize | usize
  | f32 | f64 | bool
  | atomicI8 | atomicU8 | atomicI16 | atomicU16 | atomicI32 | atomicU32 | atomicI64 | atomicU64
  | atomicIsize | atomicUsize | atomicBool
  deriving DecidableEq, Repr

/-- `generic_simple` types other than `Option<T>` (lib.rs 46-52, 56). -/
inductive Wrapper where
  | ref | refMut | box | rc | arc | cell | refCell | tuple1
  deriving DecidableEq, Repr

/-- `generic_array` types (lib.rs 68-115). -/
inductive SeqKind where
  | slice | vec | hashSet | linkedList | vecDeque | binaryHeap | array (len : Nat)
  deriving DecidableEq, Repr

/-- `generic_dictionary` types (lib.rs 117-118). -/
inductive DictKind where
  | hashMap | bTreeMap
  deriving DecidableEq, Repr

/-- Rust types.  `tuple` stands for the tuples of two to ten components (lib.rs 58-66).  The key type of a
map is dropped: the impl does not use it.  `named i` is the `i`-th derived type of the program: a monomorphic
instance, so two instances of one generic type are two indices with one identifier. -/
inductive Ty where
  | prim (p : Prim)
  | wrap (w : Wrapper) (t : Ty)
  | option (t : Ty)
  | tuple (ts : List Ty)
  | seq (k : SeqKind) (t : Ty)
  | dict (k : DictKind) (t : Ty)
  | unit
  | uuid
  | naiveDateTime
  | dateTime
  | naiveDate
  | named (i : Nat)

/-- A program: its derived types (opg_derive/src/lib.rs 20-25), and the run-time string value of the expressions given
in `example_with = ".."` (opg.rs 747-754). -/
structure Env where
  decl : Nat → Container Ty
  evalExpr : String → String

/-- The type keyword of the schema of a primitive (lib.rs 13-44). -/
inductive SimpleKind where
  | string | number | integer | boolean
  deriving DecidableEq, Repr

/-- The table of `impl_opg_model!` uses (lib.rs 13-44): schema type and format. -/
def Prim.schema : Prim → SimpleKind × Option String
  | .char => (.string, some "char")
  | .str => (.string, none)
  | .string => (.string, none)
  | .i8 => (.integer, some "int8")
  | .u8 => (.integer, some "uint8")
  | .i16 => (.integer, some "int16")
  | .u16 => (.integer, some "uint16")
  | .i32 => (.integer, some "int32")
  | .u32 => (.integer, some "uint32")
  | .i64 => (.integer, some "int64")
  | .u64 => (.integer, some "uint64")
  | .isize => (.integer, none)
  | .usize => (.integer, none)
  | .f32 => (.number, some "float")
  | .f64 => (.number, some "double")
  | .bool => (.boolean, none)
  | .atomicI8 => (.integer, some "int8")
  | .atomicU8 => (.integer, some "uint8")
  | .atomicI16 => (.integer, some "int16")
  | .atomicU16 => (.integer, some "uint16")
  | .atomicI32 => (.integer, some "int32")
  | .atomicU32 => (.integer, some "uint32")
  | .atomicI64 => (.integer, some "int64")
  | .atomicU64 => (.integer, some "uint64")
  | .atomicIsize => (.integer, none)
  | .atomicUsize => (.integer, none)
  | .atomicBool => (.boolean, none)

/-- `describe_type!(kind => { format: .. })` as used in macros.rs 312-316. -/
def simpleExpr (k : SimpleKind) (format : Option String) : TypeExpr Ty :=
  match k with
  | .string => .string none format none
  | .number => .number format none
  | .integer => .integer format none
  | .boolean => .boolean

/-- The body of `get_schema` of each impl (lib.rs 13-262, opg.rs 801-803); `none` if there is no impl because the
derive macro panicked. -/
def schemaExpr (env : Env) : Ty → Option (ModelExpr Ty)
  | .prim p => some (.single none false (simpleExpr p.schema.1 p.schema.2))       -- macros.rs 310-328
  | .wrap _ t => some (.getSchema t)                                              -- macros.rs 186-200
  | .option t => some (.getSchemaWithParams t { nullable := some true })          -- macros.rs 167-184
  | .tuple ts => some (.single none false (.array (.inline (.oneOf none           -- macros.rs 202-232
      (ts.map fun t => .mention t false {})))))
  | .seq _ t => some (.single none false (.array (.mention t false {})))          -- macros.rs 234-262, lib.rs 90-115
  | .dict _ t => some (.single none false (.dictionary (.mention t false {})))    -- macros.rs 264-293
  | .unit => some (.single (some "Always `null`") true (.string none (some "null") none))  -- lib.rs 120-146
  | .uuid => some (.single (some "UUID ver. 4 [rfc](https://tools.ietf.org/html/rfc4122)") false
      (.string none (some "uuid") (some (.lit "00000000-0000-0000-0000-000000000000"))))   -- lib.rs 148-175
  | .naiveDateTime => some (.single (some "Datetime without timezone") false
      (.string none (some "date") (some (.lit "2020-06-26T14:04:20.730045106"))))          -- lib.rs 177-204
  | .dateTime => some (.single (some "Datetime with timezone") false
      (.string none (some "date") (some (.lit "2020-06-26T14:04:20.730045106Z"))))         -- lib.rs 206-233
  | .naiveDate => some (.single (some "Date without timezone") false
      (.string none (some "date") (some (.lit "2020-06-26"))))                             -- lib.rs 235-262
  | .named i =>
    match serializeBody (env.decl i) with
    | .ok body => some body
    | .error _ => none

/-- `OpgModel::type_name` (macros.rs 180-182, 196-198: delegated to `T`; `None` elsewhere in macros.rs and
lib.rs; opg.rs 779-798 for derived types). -/
def typeName (env : Env) : Ty → Option String
  | .wrap _ t => typeName env t
  | .option t => typeName env t
  | .named i => (env.decl i).typeName
  | _ => none

/-- Whether the impl overrides `select_reference` with the always-inline version (macros.rs 227-230, 257-260,
288-291, 323-326; lib.rs 111-114, 142-145, ..; opg.rs 786-789). -/
def alwaysInline (env : Env) : Ty → Bool
  | .wrap _ _ => false
  | .option _ => false
  | .named i => (env.decl i).attrs.inline
  | _ => true

end Verif
