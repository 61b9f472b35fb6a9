import Verif.Spec.Conform
/-!
# Formats (specification)

What the `format` of a schema says about a value, from the OpenAPI format registry, and which values the scalar types
of Rust have.  The machine integers of Rust are taken to be those of Lean.
-/

namespace Verif

/-- The integers with a sign bit and `b - 1` further bits. -/
def signedRange (b : Nat) : Int × Int := (-(2 ^ (b - 1)), 2 ^ (b - 1) - 1)
/-- The integers with `b` bits and no sign. -/
def unsignedRange (b : Nat) : Int × Int := (0, 2 ^ b - 1)

/-- The integer formats of the registry. -/
def formatRange (f : String) : Option (Int × Int) :=
  if f = "int8" then some (signedRange 8) else if f = "uint8" then some (unsignedRange 8)
  else if f = "int16" then some (signedRange 16) else if f = "uint16" then some (unsignedRange 16)
  else if f = "int32" then some (signedRange 32) else if f = "uint32" then some (unsignedRange 32)
  else if f = "int64" then some (signedRange 64) else if f = "uint64" then some (unsignedRange 64)
  else none

/-- `n` decimal digits. -/
def Digits (n : Nat) (cs : List Char) : Prop := cs.length = n ∧ ∀ c ∈ cs, c.isDigit = true
/-- `n` hexadecimal digits. -/
def HexDigits (n : Nat) (cs : List Char) : Prop :=
  cs.length = n ∧ ∀ c ∈ cs, c.isDigit = true ∨ ('a' ≤ c ∧ c ≤ 'f') ∨ ('A' ≤ c ∧ c ≤ 'F')

/-- `full-date` of RFC 3339 (up to the calendar): `YYYY-MM-DD`. -/
def FullDate (s : String) : Prop :=
  ∃ y m d, Digits 4 y ∧ Digits 2 m ∧ Digits 2 d ∧ s.toList = y ++ '-' :: (m ++ '-' :: d)
/-- A date, `T`, and a time. -/
def DateAndTime (s : String) : Prop := ∃ date time, FullDate date ∧ s.toList = date.toList ++ 'T' :: time
/-- How chrono writes a date: years outside `0..=9999` have a sign and at least four digits. -/
def ChronoDate (s : String) : Prop :=
  FullDate s ∨ ∃ sign n y m d, (sign = '+' ∨ sign = '-') ∧ 4 ≤ n ∧ Digits n y ∧ Digits 2 m ∧ Digits 2 d ∧
    s.toList = sign :: (y ++ '-' :: (m ++ '-' :: d))
/-- The hyphenated form of RFC 4122. -/
def UuidText (s : String) : Prop :=
  ∃ a b c d e, HexDigits 8 a ∧ HexDigits 4 b ∧ HexDigits 4 c ∧ HexDigits 4 d ∧ HexDigits 12 e ∧
    s.toList = a ++ '-' :: (b ++ '-' :: (c ++ '-' :: (d ++ '-' :: e)))

/-- A format accepts a value.  Formats restrict the values of their own JSON type only; unknown ones restrict
nothing. -/
def FormatAccepts (f : String) : Json → Prop
  | .int i => ∀ lo hi, formatRange f = some (lo, hi) → lo ≤ i ∧ i ≤ hi
  | .str s => (f = "char" → ∃ c : Char, s = c.toString) ∧ (f = "date" → FullDate s) ∧
      (f = "date-time" → DateAndTime s) ∧ (f = "uuid" → UuidText s)
  | _ => True

/-- The type and the format of a scalar schema accept a value. -/
def ScalarAccepts : TypeDesc → Json → Prop
  | .string _ f _, .str s => ∀ g, f = some g → FormatAccepts g (.str s)
  | .integer f _, .int i => ∀ g, f = some g → FormatAccepts g (.int i)
  | .number .., .int _ | .number .., .num _ | .boolean, .bool _ => True
  | _, _ => False

/-- The values of the scalar types, as JSON. -/
def Prim.Value : Prim → Json → Prop
  | .char => fun j => ∃ c : Char, j = .str c.toString
  | .str | .string => fun j => ∃ s, j = .str s
  | .bool | .atomicBool => fun j => ∃ b, j = .bool b
  | .f32 | .f64 => fun j => ∃ t, j = .num t
  | .i8 | .atomicI8 => fun j => ∃ x : Int8, j = .int x.toInt
  | .i16 | .atomicI16 => fun j => ∃ x : Int16, j = .int x.toInt
  | .i32 | .atomicI32 => fun j => ∃ x : Int32, j = .int x.toInt
  | .i64 | .atomicI64 => fun j => ∃ x : Int64, j = .int x.toInt
  | .isize | .atomicIsize => fun j => ∃ x : ISize, j = .int x.toInt
  | .u8 | .atomicU8 => fun j => ∃ x : UInt8, j = .int x.toNat
  | .u16 | .atomicU16 => fun j => ∃ x : UInt16, j = .int x.toNat
  | .u32 | .atomicU32 => fun j => ∃ x : UInt32, j = .int x.toNat
  | .u64 | .atomicU64 => fun j => ∃ x : UInt64, j = .int x.toNat
  | .usize | .atomicUsize => fun j => ∃ x : USize, j = .int x.toNat

/-- Types whose size depends on the platform. -/
def Prim.pointerSized : Prim → Bool
  | .isize | .usize | .atomicIsize | .atomicUsize => true
  | _ => false

/-- Floating point types and the precision their format promises. -/
def Prim.precision : Prim → Option String
  | .f32 => some "float"
  | .f64 => some "double"
  | _ => none

/-- `t` is `c` behind references, smart pointers, cells, one-element tuples and `Option`s. -/
inductive Around (c : Ty) : Ty → Prop
  | here : Around c c
  | wrap {w t} (h : Around c t) : Around c (.wrap w t)
  | option {t} (h : Around c t) : Around c (.option t)

/-- A scalar schema: at most a description, possibly nullable. -/
def ScalarSchema (m : Model) (td : TypeDesc) : Prop := ∃ d n, m = ⟨d, .single ⟨n, td⟩⟩

/-! ## Examples -/

mutual
/-- The string, number, integer and boolean schemas in a reference, at any depth (links are not followed). -/
def Ref.scalars : Ref → List TypeDesc
  | .link _ => []
  | .inline m => m.scalars
  | .any => []
def Model.scalars : Model → List TypeDesc
  | ⟨_, d⟩ => d.scalars
def ModelData.scalars : ModelData → List TypeDesc
  | .single t => t.scalars
  | .oneOf rs => refsScalars rs
  | .allOf rs => refsScalars rs
  | .anyOf rs => refsScalars rs
def ModelType.scalars : ModelType → List TypeDesc
  | ⟨_, d⟩ => d.scalars
def TypeDesc.scalars : TypeDesc → List TypeDesc
  | .array items => items.scalars
  | .object ⟨properties, additional, _⟩ => propsScalars properties ++ optScalars additional
  | .string v f e => [.string v f e]
  | .number f e => [.number f e]
  | .integer f e => [.integer f e]
  | .boolean => [.boolean]
def refsScalars : List Ref → List TypeDesc
  | [] => []
  | r :: rs => r.scalars ++ refsScalars rs
def propsScalars : List (String × Ref) → List TypeDesc
  | [] => []
  | (_, r) :: rs => r.scalars ++ propsScalars rs
def optScalars : Option Ref → List TypeDesc
  | none => []
  | some r => r.scalars
end

/-- The `example` of a schema. -/
def TypeDesc.exampleText : TypeDesc → Option String
  | .string _ _ e | .number _ e | .integer _ e => e
  | _ => none

/-- The example of a schema, which is written as a string, is one of the values the schema allows. -/
def ExampleFits (td : TypeDesc) : Prop :=
  ∀ e, td.exampleText = some e → ValidModel true [] ⟨none, .single ⟨false, td⟩⟩ (.str e)

/-- Built-in types documented as strings. -/
def Textual (t : Ty) : Prop :=
  t = .prim .char ∨ t = .prim .str ∨ t = .prim .string ∨ t = .uuid ∨ t = .naiveDateTime ∨ t = .dateTime ∨ t = .naiveDate

/-- An example may be given for something with the given explicit type or, without one, Rust type. -/
def ExampleHere (ex : Option Example) (explicit : Option ExplicitModelType) (t : Ty) : Prop :=
  ex = none ∨
    match explicit with
    | some .integer | some .number => False
    | some _ => True
    | none => ∃ c, Textual c ∧ Around c t

def Field.ExampleHere (f : Field Ty) : Prop := Verif.ExampleHere f.attrs.ex f.attrs.explicitModelType f.ty

/-- Examples are given only where the schema is a string, and there are no numbered variants. -/
def TextExamples (c : Container Ty) : Prop :=
  match c.data with
  | .struct .newType fs => ∀ f rest, fs = f :: rest → Verif.ExampleHere (f.attrs.ex.or c.attrs.ex) c.attrs.explicitModelType f.ty
  | .struct _ fs => ∀ f ∈ fs, f.ExampleHere
  | .enum vs => (c.attrs.hasRepr = true → ∀ v ∈ vs, v.discriminant = none) ∧
      ∀ v ∈ vs, match v.style with
        | .newType => ∀ f rest, v.fields = f :: rest →
            (f.attrs.ex.or v.attrs.ex = none ∨ (f.attrs.explicitModelType = none ∧ ∃ c, Textual c ∧ Around c f.ty))
        | _ => ∀ f ∈ v.fields, f.ExampleHere

/-! ## Documentation of fields -/

/-- A schema shows the given metadata: the description always, nullability if it is a single type, format and example if
it is a string, number or integer. -/
structure Shows (p : Params) (m : Model) : Prop where
  description : ∀ d, p.description = some d → m.description = some d
  nullable : ∀ b n td, p.nullable = some b → m.data = .single ⟨n, td⟩ → n = b
  string : ∀ n v f e, m.data = .single ⟨n, .string v f e⟩ →
    (∀ x, p.format = some x → f = some x) ∧ (∀ x, p.ex = some x → e = some x)
  number : ∀ n f e, m.data = .single ⟨n, .number f e⟩ →
    (∀ x, p.format = some x → f = some x) ∧ (∀ x, p.ex = some x → e = some x)
  integer : ∀ n f e, m.data = .single ⟨n, .integer f e⟩ →
    (∀ x, p.format = some x → f = some x) ∧ (∀ x, p.ex = some x → e = some x)

end Verif
