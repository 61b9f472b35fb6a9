import Verif.Spec.Precise
/-!
# Values serde reads (specification)

Which JSON values serde and `serde_json` read as a value of a type.  This is not part of opg; it is stated here from
the documentation of serde.  Keys of maps are not restricted.  Left out: flattened fields, tagged and transparent
structs, `#[serde(other)]`, numbers for names of variants, and arrays for tagged enums.
-/

namespace Verif

/-- What reading depends on besides the attributes opg reads.  The first argument is the index of the derived
type. -/
structure Reader where
  /-- the values that types without parts read: their ranges and formats -/
  scalar : Ty → Json → Prop
  /-- the name a field is read under -/
  fieldKey : Nat → Field Ty → String
  /-- the name a variant is read under -/
  variantKey : Nat → Variant Ty → String
  /-- `#[serde(default)]`, on the field or on its struct -/
  hasDefault : Nat → Field Ty → Bool
  /-- `#[serde(skip)]` or `#[serde(skip_deserializing)]` on a field -/
  skips : Nat → Field Ty → Bool
  /-- the same on a variant -/
  skipsVariant : Nat → Variant Ty → Bool
  /-- `#[serde(deny_unknown_fields)]` -/
  denyUnknown : Nat → Bool
  /-- for enums read by `serde_repr`, the integers it reads -/
  repr : Nat → Option (Int → Prop)
  /-- whether the other forms that `serde_json` reads are counted: arrays for structs, objects for unit variants -/
  lenient : Bool

/-- JSON values without repeated keys. -/
inductive Json.Distinct : Json → Prop
  | null : Json.Distinct .null
  | bool {b} : Json.Distinct (.bool b)
  | int {i} : Json.Distinct (.int i)
  | num {t} : Json.Distinct (.num t)
  | str {t} : Json.Distinct (.str t)
  | arr {xs : List Json} (h : ∀ x ∈ xs, Json.Distinct x) : Json.Distinct (.arr xs)
  | obj {es : List (String × Json)} (hk : (es.map Prod.fst).Nodup) (h : ∀ e ∈ es, Json.Distinct e.2) :
      Json.Distinct (.obj es)

/-- Types without parts. -/
def Ty.IsScalar : Ty → Prop
  | .prim _ | .uuid | .naiveDateTime | .dateTime | .naiveDate => True
  | _ => False

/-- The JSON type of a type without parts. -/
def ScalarForm : Ty → Json → Prop
  | .prim p, j =>
    match p.family with
    | .string => ∃ t, j = .str t
    | .number => (∃ t, j = .num t) ∨ ∃ i, j = .int i
    | .integer => ∃ i, j = .int i
    | .boolean => ∃ b, j = .bool b
  | _, j => ∃ t, j = .str t

/-- `Option<T>`, possibly behind pointers: such a field may be missing. -/
def MayMiss : Ty → Prop
  | .option _ => True
  | .wrap .tuple1 _ => False
  | .wrap _ t => MayMiss t
  | _ => False

/-- Whether an entry may be missing.  (Fields with an explicit type are taken to have a reader of their own, which
reads no missing entries.) -/
def CanMiss (d : Reader) (i : Nat) (f : Field Ty) : Prop :=
  d.hasDefault i f = true ∨ (f.attrs.explicitModelType = none ∧ MayMiss f.ty)

/-- The fields that are read. -/
def readFields (d : Reader) (i : Nat) (fs : List (Field Ty)) : List (Field Ty) := fs.filter fun f => !d.skips i f

/-- What is asked of the entries of an object read as fields, besides that each is read by its field. -/
structure Fits (d : Reader) (i : Nat) (fs : List (Field Ty)) (es : List (String × Json)) : Prop where
  plain : ∀ f ∈ readFields d i fs, f.attrs.flatten = false
  /-- no repeated entries -/
  once : ∀ f ∈ readFields d i fs, (es.filter fun e => e.1 == d.fieldKey i f).length ≤ 1
  /-- missing entries have a default -/
  missing : ∀ f ∈ readFields d i fs, d.fieldKey i f ∉ es.map Prod.fst → CanMiss d i f
  /-- explicit types promise what the field reads -/
  explicit : ∀ f ∈ readFields d i fs, ∀ y t, (d.fieldKey i f, y) ∈ es → f.attrs.explicitModelType = some t →
    ExplicitJson t f.attrs.nullable y
  unknown : d.denyUnknown i = true → ∀ e ∈ es, ∃ f ∈ readFields d i fs, d.fieldKey i f = e.1

/-- What is asked of an array read as fields: it ends early only before fields with a default. -/
structure FitsSeq (d : Reader) (i : Nat) (fs : List (Field Ty)) (xs : List Json) : Prop where
  length : xs.length ≤ (readFields d i fs).length
  missing : ∀ (k : Nat) f, (readFields d i fs)[k]? = some f → xs.length ≤ k → d.hasDefault i f = true
  explicit : ∀ (k : Nat) f y t, (readFields d i fs)[k]? = some f → xs[k]? = some y → f.attrs.explicitModelType = some t →
    ExplicitJson t f.attrs.nullable y

/-- `TaggedAs lenient tag k j c`: in this representation of enums, `j` is the variant `k` with the content `c`, or
without content. -/
inductive TaggedAs (lenient : Bool) : TagType → String → Json → Option Json → Prop
  | external {k c} : TaggedAs lenient .external k (.obj [(k, c)]) (some c)
  | externalUnit {k} : TaggedAs lenient .external k (.str k) none
  | externalNull {k} (h : lenient = true) : TaggedAs lenient .external k (.obj [(k, .null)]) none
  | internal {t k} {es : List (String × Json)} (h : (t, .str k) ∈ es) (ho : (es.filter fun e => e.1 == t).length ≤ 1) :
      TaggedAs lenient (.internal t) k (.obj es) (some (.obj (es.filter fun e => e.1 ≠ t)))
  | internalUnit {t k} {es : List (String × Json)} (h : (t, .str k) ∈ es) (ho : (es.filter fun e => e.1 == t).length ≤ 1) :
      TaggedAs lenient (.internal t) k (.obj es) none
  | adjacent {t cn k c} {es : List (String × Json)} (h : (t, .str k) ∈ es) (hc : (cn, c) ∈ es)
      (ho : (es.filter fun e => e.1 == t).length ≤ 1) (hco : (es.filter fun e => e.1 == cn).length ≤ 1) :
      TaggedAs lenient (.adjacent t cn) k (.obj es) (some c)
  | adjacentUnit {t cn k} {es : List (String × Json)} (h : (t, .str k) ∈ es) (hc : cn ∉ es.map Prod.fst)
      (ho : (es.filter fun e => e.1 == t).length ≤ 1) : TaggedAs lenient (.adjacent t cn) k (.obj es) none
  | untagged {k j} : TaggedAs lenient .none k j (some j)
  | untaggedUnit {k} : TaggedAs lenient .none k .null none

/-- `Reads env d t j`: serde reads `j` as a value of type `t`. -/
inductive Reads (env : Env) (d : Reader) : Ty → Json → Prop
  | scalar {t j} (ht : t.IsScalar) (h : d.scalar t j) : Reads env d t j
  | wrap {w t j} (hw : w ≠ .tuple1) (h : Reads env d t j) : Reads env d (.wrap w t) j
  | tuple1 {t j} (h : Reads env d t j) : Reads env d (.wrap .tuple1 t) (.arr [j])
  | none {t} : Reads env d (.option t) .null
  | some {t j} (h : Reads env d t j) : Reads env d (.option t) j
  | tuple {ts : List Ty} {xs : List Json} (hl : xs.length = ts.length)
      (h : ∀ (k : Nat) t x, ts[k]? = some t → xs[k]? = some x → Reads env d t x) : Reads env d (.tuple ts) (.arr xs)
  | seq {k t} {xs : List Json} (hl : ∀ n, k = .array n → xs.length = n) (h : ∀ x ∈ xs, Reads env d t x) :
      Reads env d (.seq k t) (.arr xs)
  | dict {k t es} (h : ∀ e ∈ es, Reads env d t e.2) : Reads env d (.dict k t) (.obj es)
  | unit : Reads env d .unit .null
  | unitStruct {i fs} (hd : (env.decl i).data = .struct .unit fs) : Reads env d (.named i) .null
  | struct {i fs es} (hd : (env.decl i).data = .struct .struct fs) (ht : (env.decl i).attrs.transparent = false)
      (hg : ∀ t, (env.decl i).attrs.tagType ≠ .internal t) (hf : Fits d i fs es)
      (h : ∀ f ∈ readFields d i fs, ∀ y, (d.fieldKey i f, y) ∈ es → f.attrs.explicitModelType = .none → Reads env d f.ty y) :
      Reads env d (.named i) (.obj es)
  | structSeq {i fs xs} (hl : d.lenient = true) (hd : (env.decl i).data = .struct .struct fs)
      (ht : (env.decl i).attrs.transparent = false) (hg : ∀ t, (env.decl i).attrs.tagType ≠ .internal t)
      (hf : FitsSeq d i fs xs)
      (h : ∀ (k : Nat) f y, (readFields d i fs)[k]? = some f → xs[k]? = some y → f.attrs.explicitModelType = .none →
        Reads env d f.ty y) : Reads env d (.named i) (.arr xs)
  | tupleStruct {i fs xs} (hd : (env.decl i).data = .struct .tuple fs) (ht : (env.decl i).attrs.transparent = false)
      (hf : FitsSeq d i fs xs)
      (h : ∀ (k : Nat) f y, (readFields d i fs)[k]? = some f → xs[k]? = some y → f.attrs.explicitModelType = .none →
        Reads env d f.ty y) : Reads env d (.named i) (.arr xs)
  | newtypeStruct {i f rest j} (hd : (env.decl i).data = .struct .newType (f :: rest))
      (hc : (env.decl i).attrs.explicitModelType = .none) (hk : d.skips i f = false)
      (he : ∀ t, f.attrs.explicitModelType = .some t → ExplicitJson t f.attrs.nullable j)
      (h : f.attrs.explicitModelType = .none → Reads env d f.ty j) : Reads env d (.named i) j
  | explicitNewtype {i fs t j} (hd : (env.decl i).data = .struct .newType fs)
      (hc : (env.decl i).attrs.explicitModelType = .some t)
      (he : ExplicitJson t (env.decl i).attrs.nullable j) : Reads env d (.named i) j
  | repr {i vs P n} (hd : (env.decl i).data = .enum vs) (hr : d.repr i = .some P) (hn : P n) : Reads env d (.named i) (.int n)
  | unitVariant {i vs v j} (hd : (env.decl i).data = .enum vs) (hr : d.repr i = .none) (hv : v ∈ vs)
      (hk : d.skipsVariant i v = false) (hst : v.style = .unit)
      (hj : TaggedAs d.lenient (env.decl i).attrs.tagType (d.variantKey i v) j .none) : Reads env d (.named i) j
  | newtypeVariant {i vs v f rest c j} (hd : (env.decl i).data = .enum vs) (hr : d.repr i = .none) (hv : v ∈ vs)
      (hk : d.skipsVariant i v = false) (hst : v.style = .newType) (hf : v.fields = f :: rest) (hs : d.skips i f = false)
      (hj : TaggedAs d.lenient (env.decl i).attrs.tagType (d.variantKey i v) j (.some c))
      (he : ∀ t, f.attrs.explicitModelType = .some t → ExplicitJson t f.attrs.nullable c)
      (h : f.attrs.explicitModelType = .none → Reads env d f.ty c) : Reads env d (.named i) j
  | tupleVariant {i vs v xs j} (hd : (env.decl i).data = .enum vs) (hr : d.repr i = .none) (hv : v ∈ vs)
      (hk : d.skipsVariant i v = false) (hst : v.style = .tuple)
      (hj : TaggedAs d.lenient (env.decl i).attrs.tagType (d.variantKey i v) j (.some (.arr xs))) (hf : FitsSeq d i v.fields xs)
      (h : ∀ (k : Nat) f y, (readFields d i v.fields)[k]? = some f → xs[k]? = some y →
        f.attrs.explicitModelType = .none → Reads env d f.ty y) : Reads env d (.named i) j
  | structVariant {i vs v es j} (hd : (env.decl i).data = .enum vs) (hr : d.repr i = .none) (hv : v ∈ vs)
      (hk : d.skipsVariant i v = false) (hst : v.style = .struct)
      (hj : TaggedAs d.lenient (env.decl i).attrs.tagType (d.variantKey i v) j (.some (.obj es))) (hf : Fits d i v.fields es)
      (h : ∀ f ∈ readFields d i v.fields, ∀ y, (d.fieldKey i f, y) ∈ es → f.attrs.explicitModelType = .none →
        Reads env d f.ty y) : Reads env d (.named i) j
  | structVariantSeq {i vs v xs j} (hl : d.lenient = true) (hd : (env.decl i).data = .enum vs) (hr : d.repr i = .none)
      (hv : v ∈ vs) (hk : d.skipsVariant i v = false) (hst : v.style = .struct)
      (hj : TaggedAs d.lenient (env.decl i).attrs.tagType (d.variantKey i v) j (.some (.arr xs))) (hf : FitsSeq d i v.fields xs)
      (h : ∀ (k : Nat) f y, (readFields d i v.fields)[k]? = some f → xs[k]? = some y →
        f.attrs.explicitModelType = .none → Reads env d f.ty y) : Reads env d (.named i) j

/-! ## The fragment in which accepted values are read -/

/-- Fields that read what their object accepts: skipped on reading if skipped on writing, read under the documented
name, with a default or `Option` if documented as optional, and `Option` if documented as `nullable`. -/
def ReadableFields (d : Reader) (i : Nat) (fs : List (Field Ty)) : Prop :=
  PlainFields fs ∧ d.denyUnknown i = false ∧
  ∀ f ∈ fs, (f.attrs.skipSerializing = true → d.skips i f = true) ∧
    (d.skips i f = false → d.fieldKey i f = f.key ∧ (f.attrs.optional = true → CanMiss d i f) ∧
      (f.attrs.nullable = true → f.attrs.explicitModelType = none → MayMiss f.ty))

/-- Variants that read what their alternative accepts. -/
def ReadableVariant (k : Docs) (d : Reader) (i : Nat) (tag : TagType) (v : Variant Ty) : Prop :=
  (v.style = .struct → ReadableFields d i v.fields) ∧
  (v.style = .newType → ∀ f ∈ v.fields, d.skips i f = false ∧
    (f.attrs.nullable = true → f.attrs.explicitModelType = none → MayMiss f.ty)) ∧
  match tag with
  | .internal t =>
    (v.style = .struct → t ∉ (serialFields v.fields).map Field.key) ∧
    (v.style = .newType → ∀ f ∈ v.fields, f.attrs.explicitModelType = none ∧ f.attrs.nullable = false ∧
      ∀ m, k.schema f.ty m → ∃ d o, m = objectSchema d false o ∧ t ∉ BMap.keys o.properties ∧ t ∉ o.required)
  | _ => True

/-- The derived types that read what their schema accepts. -/
def ReadableDecl (k : Docs) (d : Reader) (i : Nat) : Prop :=
  let c := k.env.decl i
  match c.data with
  | .struct .struct fs => c.attrs.transparent = false ∧ c.attrs.nullable = false ∧ ReadableFields d i fs ∧
      ∀ t, c.attrs.tagType ≠ .internal t
  | .struct .tuple _ => False
  | .struct .newType fs => c.attrs.explicitModelType = none → ∀ f ∈ fs, f.attrs.explicitModelType = none ∧
      d.skips i f = false ∧ (f.attrs.nullable = true → MayMiss f.ty)
  | .struct .unit _ => True
  | .enum vs => c.attrs.hasRepr = false ∧ d.repr i = none ∧
    (∀ v ∈ writtenVariants vs, d.skipsVariant i v = false ∧ d.variantKey i v = v.key) ∧
    ((∀ v ∈ vs, v.style = .unit) → c.attrs.tagType = .external) ∧
    ((∃ v ∈ vs, v.style ≠ .unit) → (c.attrs.tagType = .none ∨ ∃ t, c.attrs.tagType = .internal t) ∧
      ∀ v ∈ writtenVariants vs, ReadableVariant k d i c.attrs.tagType v)

/-- The types that read what their schema accepts, given that those inside do.  Scalars have to read all values of
their JSON type. -/
def Readable (k : Docs) (d : Reader) : Ty → Prop
  | .wrap .tuple1 _ => False
  | .wrap _ _ => True
  | .option _ => True
  | .tuple _ => False
  | .seq (.array _) _ => False
  | .seq _ _ => True
  | .dict _ _ => True
  | .unit => False
  | .named i => ReadableDecl k d i
  | t => ∀ j, ScalarForm t j → d.scalar t j

/-! ## The fragment in which values that are read are accepted -/

/-- Fields whose object accepts what they read: written fields are read, under the documented name, and those that
may be missing are documented as optional. -/
def DocumentedFields (d : Reader) (i : Nat) (fs : List (Field Ty)) : Prop :=
  PlainFields fs ∧ ∀ f ∈ serialFields fs, d.skips i f = false ∧ d.fieldKey i f = f.key ∧
    (CanMiss d i f → f.attrs.optional = true)

/-- Variants of an enum with data whose alternative accepts what they read. -/
def DocumentedVariant (k : Docs) (d : Reader) (i : Nat) (tag : TagType) (v : Variant Ty) : Prop :=
  (v.style = .struct → DocumentedFields d i v.fields) ∧
  match tag with
  | .none => True
  | .external => v.style ≠ .unit
  | .adjacent t c => v.style ≠ .struct ∧ t ≠ c
  | .internal t =>
    (v.style = .struct → t ∉ (serialFields v.fields).map Field.key) ∧
    (v.style = .newType → ∀ f ∈ v.fields, f.attrs.explicitModelType = none ∧
      ∀ m, k.schema f.ty m → ∃ d n o, m = objectSchema d n o ∧ t ∉ BMap.keys o.properties)

/-- The derived types whose schema accepts what they read. -/
def DocumentedDecl (k : Docs) (d : Reader) (i : Nat) : Prop :=
  let c := k.env.decl i
  match c.data with
  | .struct .struct fs => DocumentedFields d i fs
  | .struct .newType fs => c.attrs.explicitModelType = none → ∀ f ∈ fs, f.attrs.explicitModelType = none
  | .struct _ _ => True
  | .enum vs =>
    (∀ v ∈ vs, d.skipsVariant i v = false → v ∈ writtenVariants vs ∧ d.variantKey i v = v.key) ∧
    ((∀ v ∈ vs, v.style = .unit) →
      if c.attrs.hasRepr then (d.repr i).isSome ∧ ∃ v ∈ writtenVariants vs, v.discriminant.isSome
      else d.repr i = none ∧ c.attrs.tagType = .external) ∧
    ((∃ v ∈ vs, v.style ≠ .unit) → d.repr i = none ∧
      ∀ v ∈ writtenVariants vs, DocumentedVariant k d i c.attrs.tagType v)

/-- The types whose schema accepts what they read, given that those inside do.  Scalars may read values of their
JSON type only. -/
def Documented (k : Docs) (d : Reader) : Ty → Prop
  | .wrap .tuple1 _ => False
  | .wrap _ _ => True
  | .option t => ∀ m, k.schema t m → ∃ d ty, m = ⟨d, .single ty⟩
  | .tuple _ => True
  | .seq _ _ => True
  | .dict _ _ => True
  | .unit => True
  | .named i => DocumentedDecl k d i
  | t => ∀ j, d.scalar t j → ScalarForm t j

end Verif
