import Verif.Spec.Shapes
import Verif.Spec.Deps
/-!
# Serialized values and validation (specification)

What serde and `serde_json` write for a value of a type, and which JSON values an OpenAPI schema accepts.  Neither
is part of opg; both are stated here from the documentation of serde and of OpenAPI 3.0.
-/

namespace Verif

/-- JSON values.  `num` is a number that is not an integer, given by its text. -/
inductive Json where
  | null
  | bool (b : Bool)
  | int (i : Int)
  | num (text : String)
  | str (s : String)
  | arr (xs : List Json)
  | obj (es : List (String × Json))

/-- The entries of an object; nothing for other values. -/
def Json.entries : Json → List (String × Json)
  | .obj es => es
  | _ => []

/-- What serialization depends on besides the attributes opg reads. -/
structure Serde where
  /-- `NaN` and infinities occur (`serde_json` writes them as `null`) -/
  nonFinite : Bool
  /-- the derived types that are serialized by `serde_repr` -/
  asRepr : Nat → Bool

/-- JSON of the types without type arguments. -/
def PrimJson (s : Serde) (p : Prim) (j : Json) : Prop :=
  match p with
  | .char => ∃ c : Char, j = .str c.toString
  | .str | .string => ∃ t, j = .str t
  | .bool | .atomicBool => ∃ b, j = .bool b
  | .f32 | .f64 => (∃ t, j = .num t) ∨ (s.nonFinite = true ∧ j = .null)
  | _ => ∃ i, j = .int i

/-- An explicit type on a field or container promises that what is written has that type, or is `null` if
`nullable` is given too. -/
def ExplicitJson (t : ExplicitModelType) (nullable : Bool) (j : Json) : Prop :=
  (nullable = true ∧ j = .null) ∨
    match t with
    | .string => ∃ t, j = .str t
    | .integer => ∃ i, j = .int i
    | .number => (∃ t, j = .num t) ∨ ∃ i, j = .int i
    | .boolean => ∃ b, j = .bool b
    | .any => True

/-- Which fields are written: not the skipped ones; optional ones may be missing. -/
inductive Kept : List (Field Ty) → List (Field Ty) → Prop
  | nil : Kept [] []
  | keep {f fs gs} (h : f.attrs.skipSerializing = false) (t : Kept fs gs) : Kept (f :: fs) (f :: gs)
  | drop {f fs gs} (h : f.attrs.skipSerializing = true ∨ f.attrs.optional = true) (t : Kept fs gs) : Kept (f :: fs) gs

/-- The entries written for fields with the given contents; a flattened field gives its own entries. -/
def fieldEntries (ps : List (Field Ty × Json)) : List (String × Json) :=
  ps.flatMap fun p => if p.1.attrs.flatten then p.2.entries else [(p.1.key, p.2)]

/-- `#[serde(tag = "..")]` on a struct adds an entry with its name. -/
def structTag (c : Container Ty) : List (String × Json) :=
  match c.attrs.tagType with
  | .internal t => [(t, .str c.attrs.name.serialized)]
  | _ => []

/-- What is written for a variant with the given content (`none` for unit variants), in each representation of
enums; `none` where serde reports an error.  (The content `()` of an internally tagged variant, which serde writes
like a unit variant, is left out.) -/
def tagJson : TagType → String → Option Json → Option Json
  | .external, k, none => some (.str k)
  | .external, k, some j => some (.obj [(k, j)])
  | .internal t, k, none => some (.obj [(t, .str k)])
  | .internal t, k, some (.obj es) => some (.obj ((t, .str k) :: es))
  | .internal _, _, some _ => none
  | .adjacent t _, k, none => some (.obj [(t, .str k)])
  | .adjacent t c, k, some j => some (.obj [(t, .str k), (c, j)])
  | .none, _, none => some .null
  | .none, _, some j => some j

/-- Variants written without content: unit variants, and newtype variants whose field is skipped. -/
def WrittenAsUnit (v : Variant Ty) : Prop :=
  v.style = .unit ∨ (v.style = .newType ∧ ∃ f rest, v.fields = f :: rest ∧ f.attrs.skipSerializing = true)

/-- `Ser env s t j`: serde writes `j` for some value of type `t`.  (Lengths of arrays and ranges of integers are
not restricted.) -/
inductive Ser (env : Env) (s : Serde) : Ty → Json → Prop
  | prim {p j} (h : PrimJson s p j) : Ser env s (.prim p) j
  | wrap {w t j} (hw : w ≠ .tuple1) (h : Ser env s t j) : Ser env s (.wrap w t) j
  | tuple1 {t j} (h : Ser env s t j) : Ser env s (.wrap .tuple1 t) (.arr [j])
  | none {t} : Ser env s (.option t) .null
  | some {t j} (h : Ser env s t j) : Ser env s (.option t) j
  | tuple {ts : List Ty} {xs : List Json} (hl : xs.length = ts.length)
      (h : ∀ (k : Nat) t x, ts[k]? = some t → xs[k]? = some x → Ser env s t x) : Ser env s (.tuple ts) (.arr xs)
  | seq {k t xs} (h : ∀ x ∈ xs, Ser env s t x) : Ser env s (.seq k t) (.arr xs)
  | dict {k t es} (h : ∀ e ∈ es, Ser env s t e.2) : Ser env s (.dict k t) (.obj es)
  | unit : Ser env s .unit .null
  | uuid (t) : Ser env s .uuid (.str t)
  | naiveDateTime (t) : Ser env s .naiveDateTime (.str t)
  | dateTime (t) : Ser env s .dateTime (.str t)
  | naiveDate (t) : Ser env s .naiveDate (.str t)
  | struct {i fs} {ps : List (Field Ty × Json)} (hd : (env.decl i).data = .struct .struct fs)
      (ht : (env.decl i).attrs.transparent = false) (hk : Kept fs (ps.map Prod.fst))
      (he : ∀ p ∈ ps, ∀ t, p.1.attrs.explicitModelType = .some t → ExplicitJson t p.1.attrs.nullable p.2)
      (hs : ∀ p ∈ ps, p.1.attrs.explicitModelType = .none → Ser env s p.1.ty p.2) :
      Ser env s (.named i) (.obj (structTag (env.decl i) ++ fieldEntries ps))
  | tupleStruct {i fs} {ps : List (Field Ty × Json)} (hd : (env.decl i).data = .struct .tuple fs)
      (ht : (env.decl i).attrs.transparent = false) (hk : Kept fs (ps.map Prod.fst))
      (he : ∀ p ∈ ps, ∀ t, p.1.attrs.explicitModelType = .some t → ExplicitJson t p.1.attrs.nullable p.2)
      (hs : ∀ p ∈ ps, p.1.attrs.explicitModelType = .none → Ser env s p.1.ty p.2) :
      Ser env s (.named i) (.arr (ps.map Prod.snd))
  | transparent {i style fs f j} (hd : (env.decl i).data = .struct style fs) (hn : style ≠ .newType)
      (ht : (env.decl i).attrs.transparent = true) (hf : serialFields fs = [f])
      (he : ∀ t, f.attrs.explicitModelType = .some t → ExplicitJson t f.attrs.nullable j)
      (hs : f.attrs.explicitModelType = .none → Ser env s f.ty j) : Ser env s (.named i) j
  | newtypeStruct {i f rest j} (hd : (env.decl i).data = .struct .newType (f :: rest))
      (hc : (env.decl i).attrs.explicitModelType = .none)
      (he : ∀ t, f.attrs.explicitModelType = .some t → ExplicitJson t f.attrs.nullable j)
      (hs : f.attrs.explicitModelType = .none → Ser env s f.ty j) : Ser env s (.named i) j
  | explicitNewtype {i fs t j} (hd : (env.decl i).data = .struct .newType fs)
      (hc : (env.decl i).attrs.explicitModelType = .some t)
      (he : ExplicitJson t (env.decl i).attrs.nullable j) : Ser env s (.named i) j
  | repr {i vs v n} (hd : (env.decl i).data = .enum vs) (hr : s.asRepr i = true) (hu : ∀ v ∈ vs, v.style = .unit)
      (hv : v ∈ writtenVariants vs) : Ser env s (.named i) (.int n)
  | unitVariant {i vs v j} (hd : (env.decl i).data = .enum vs) (hr : s.asRepr i = false) (hv : v ∈ writtenVariants vs)
      (hu : WrittenAsUnit v) (hj : tagJson (env.decl i).attrs.tagType v.key .none = .some j) : Ser env s (.named i) j
  | newtypeVariant {i vs v f rest c j} (hd : (env.decl i).data = .enum vs) (hr : s.asRepr i = false)
      (hv : v ∈ writtenVariants vs) (hst : v.style = .newType) (hf : v.fields = f :: rest)
      (hk : f.attrs.skipSerializing = false)
      (he : ∀ t, f.attrs.explicitModelType = .some t → ExplicitJson t f.attrs.nullable c)
      (hs : f.attrs.explicitModelType = .none → Ser env s f.ty c)
      (hj : tagJson (env.decl i).attrs.tagType v.key (.some c) = .some j) : Ser env s (.named i) j
  | tupleVariant {i vs v} {ps : List (Field Ty × Json)} {j} (hd : (env.decl i).data = .enum vs)
      (hr : s.asRepr i = false) (hv : v ∈ writtenVariants vs) (hst : v.style = .tuple)
      (hk : Kept v.fields (ps.map Prod.fst))
      (he : ∀ p ∈ ps, ∀ t, p.1.attrs.explicitModelType = .some t → ExplicitJson t p.1.attrs.nullable p.2)
      (hs : ∀ p ∈ ps, p.1.attrs.explicitModelType = .none → Ser env s p.1.ty p.2)
      (hj : tagJson (env.decl i).attrs.tagType v.key (.some (.arr (ps.map Prod.snd))) = .some j) : Ser env s (.named i) j
  | structVariant {i vs v} {ps : List (Field Ty × Json)} {j} (hd : (env.decl i).data = .enum vs)
      (hr : s.asRepr i = false) (hv : v ∈ writtenVariants vs) (hst : v.style = .struct)
      (hk : Kept v.fields (ps.map Prod.fst))
      (he : ∀ p ∈ ps, ∀ t, p.1.attrs.explicitModelType = .some t → ExplicitJson t p.1.attrs.nullable p.2)
      (hs : ∀ p ∈ ps, p.1.attrs.explicitModelType = .none → Ser env s p.1.ty p.2)
      (hj : tagJson (env.decl i).attrs.tagType v.key (.some (.obj (fieldEntries ps))) = .some j) : Ser env s (.named i) j

/-! ## Validation

`format` and `example` do not constrain values.  `nullable` adds `null`.  Properties not listed are constrained by
`additionalProperties` only.  `excl` says whether `oneOf` means exactly one alternative (as OpenAPI has it) or at
least one. -/

/-- The JSON values of the type of a schema, whatever its other constraints. -/
def OfType : TypeDesc → Json → Prop
  | .string .., .str _ => True
  | .number .., .num _ => True
  | .number .., .int _ => True
  | .integer .., .int _ => True
  | .boolean, .bool _ => True
  | .array _, .arr _ => True
  | .object _, .obj _ => True
  | _, _ => False

mutual
/-- A reference accepts a value; links are looked up in `reg`. -/
inductive Valid (excl : Bool) (reg : List (String × Model)) : Ref → Json → Prop
  | any {j} : Valid excl reg .any j
  | link {n m j} (h : BMap.get n reg = some m) (hv : ValidModel excl reg m j) : Valid excl reg (.link n) j
  | inline {m j} (hv : ValidModel excl reg m j) : Valid excl reg (.inline m) j
/-- A schema accepts a value. -/
inductive ValidModel (excl : Bool) (reg : List (String × Model)) : Model → Json → Prop
  | null {d td} : ValidModel excl reg ⟨d, .single ⟨true, td⟩⟩ .null
  | string {d n v f e t} (h : ∀ vs, v = some vs → t ∈ vs) :
      ValidModel excl reg ⟨d, .single ⟨n, .string v f e⟩⟩ (.str t)
  | number {d n f e t} : ValidModel excl reg ⟨d, .single ⟨n, .number f e⟩⟩ (.num t)
  | numberInt {d n f e i} : ValidModel excl reg ⟨d, .single ⟨n, .number f e⟩⟩ (.int i)
  | integer {d n f e i} : ValidModel excl reg ⟨d, .single ⟨n, .integer f e⟩⟩ (.int i)
  | boolean {d n b} : ValidModel excl reg ⟨d, .single ⟨n, .boolean⟩⟩ (.bool b)
  | array {d n r xs} (h : ∀ x ∈ xs, Valid excl reg r x) : ValidModel excl reg ⟨d, .single ⟨n, .array r⟩⟩ (.arr xs)
  | object {d n o es} (hr : ∀ k ∈ o.required, k ∈ BMap.keys es)
      (hp : ∀ k j r, (k, j) ∈ es → BMap.get k o.properties = some r → Valid excl reg r j)
      (ha : ∀ k j r, (k, j) ∈ es → BMap.get k o.properties = none → o.additional = some r → Valid excl reg r j) :
      ValidModel excl reg ⟨d, .single ⟨n, .object o⟩⟩ (.obj es)
  | oneOf {d rs pre r post j} (h : rs = pre ++ r :: post) (hv : Valid excl reg r j)
      (hx : excl = true → ∀ r' ∈ pre ++ post, Invalid excl reg r' j) : ValidModel excl reg ⟨d, .oneOf rs⟩ j
  | anyOf {d rs r j} (h : r ∈ rs) (hv : Valid excl reg r j) : ValidModel excl reg ⟨d, .anyOf rs⟩ j
  | allOf {d rs j} (h : ∀ r ∈ rs, Valid excl reg r j) : ValidModel excl reg ⟨d, .allOf rs⟩ j
/-- A reference rejects a value. -/
inductive Invalid (excl : Bool) (reg : List (String × Model)) : Ref → Json → Prop
  | link {n m j} (h : BMap.get n reg = some m) (hv : InvalidModel excl reg m j) : Invalid excl reg (.link n) j
  | inline {m j} (hv : InvalidModel excl reg m j) : Invalid excl reg (.inline m) j
/-- A schema rejects a value. -/
inductive InvalidModel (excl : Bool) (reg : List (String × Model)) : Model → Json → Prop
  | type {d n td j} (hn : n = true → j ≠ .null) (h : ¬ OfType td j) : InvalidModel excl reg ⟨d, .single ⟨n, td⟩⟩ j
  | string {d n vs f e t} (h : t ∉ vs) : InvalidModel excl reg ⟨d, .single ⟨n, .string (some vs) f e⟩⟩ (.str t)
  | item {d n r xs x} (h : x ∈ xs) (hv : Invalid excl reg r x) : InvalidModel excl reg ⟨d, .single ⟨n, .array r⟩⟩ (.arr xs)
  | required {d n o es k} (h : k ∈ o.required) (hk : k ∉ BMap.keys es) :
      InvalidModel excl reg ⟨d, .single ⟨n, .object o⟩⟩ (.obj es)
  | property {d n o es k j r} (h : (k, j) ∈ es) (hg : BMap.get k o.properties = some r) (hv : Invalid excl reg r j) :
      InvalidModel excl reg ⟨d, .single ⟨n, .object o⟩⟩ (.obj es)
  | additional {d n o es k j r} (h : (k, j) ∈ es) (hg : BMap.get k o.properties = none) (ha : o.additional = some r)
      (hv : Invalid excl reg r j) : InvalidModel excl reg ⟨d, .single ⟨n, .object o⟩⟩ (.obj es)
  | oneOfNone {d rs j} (h : ∀ r ∈ rs, Invalid excl reg r j) : InvalidModel excl reg ⟨d, .oneOf rs⟩ j
  | oneOfTwo {d rs pre r mid r' post j} (he : excl = true) (h : rs = pre ++ r :: mid ++ r' :: post)
      (hv : Valid excl reg r j) (hv' : Valid excl reg r' j) : InvalidModel excl reg ⟨d, .oneOf rs⟩ j
  | anyOf {d rs j} (h : ∀ r ∈ rs, Invalid excl reg r j) : InvalidModel excl reg ⟨d, .anyOf rs⟩ j
  | allOf {d rs r j} (h : r ∈ rs) (hv : Invalid excl reg r j) : InvalidModel excl reg ⟨d, .allOf rs⟩ j
end

/-- Metadata that does not restrict values. -/
structure Params.Benign (p : Params) : Prop where
  nullable : p.nullable ≠ some false
  variants : p.variants = none

/-! ## The fragment in which values conform -/

/-- No flattened field and no two fields of the same serialized name. -/
def PlainFields (fs : List (Field Ty)) : Prop :=
  (∀ f ∈ serialFields fs, f.attrs.flatten = false) ∧ ((serialFields fs).map Field.key).Nodup

/-- How a program writes its values: serde, and the JSON of the values of each type. -/
structure Writes where
  serde : Serde
  values : Env → Ty → Json → Prop

/-- Derived serialization. -/
@[reducible] def Serde.writes (s : Serde) : Writes := ⟨s, fun env => Ser env s⟩

instance : Coe Serde Writes := ⟨Serde.writes⟩

/-- The variants of an enum with data whose values match their documentation. -/
def FaithfulVariant (k : Docs) (w : Writes) (tag : TagType) (v : Variant Ty) : Prop :=
  (v.style = .struct → PlainFields v.fields) ∧
  (v.style = .newType → ∀ f ∈ v.fields, f.attrs.skipSerializing = false) ∧
  match tag with
  | .none => True
  | .external => v.style ≠ .unit
  | .adjacent t c => v.style ≠ .struct ∧ t ≠ c
  | .internal t =>
    (v.style = .struct → t ∉ (serialFields v.fields).map Field.key) ∧
    (v.style = .newType → ∀ f ∈ v.fields, f.attrs.explicitModelType = none ∧
      (∀ es, w.values k.env f.ty (.obj es) → t ∉ BMap.keys es) ∧
      ∀ m, k.schema f.ty m → ∃ d n o, m = objectSchema d n o ∧ t ∉ BMap.keys o.properties)

/-- The derived types whose values match their documentation. -/
def FaithfulDecl (k : Docs) (w : Writes) (i : Nat) : Prop :=
  let c := k.env.decl i
  match c.data with
  | .struct .struct fs => c.attrs.transparent = false ∧ PlainFields fs ∧
      ∀ t, c.attrs.tagType = .internal t → t ∉ (serialFields fs).map Field.key
  | .struct .tuple _ => c.attrs.transparent = false
  | .struct .newType fs => c.attrs.explicitModelType = none → ∀ f ∈ fs, f.attrs.explicitModelType = none
  | .struct .unit _ => True
  | .enum vs =>
    ((∀ v ∈ vs, v.style = .unit) →
      if c.attrs.hasRepr then w.serde.asRepr i = true ∧ ∀ v ∈ writtenVariants vs, v.discriminant.isSome
      else w.serde.asRepr i = false ∧ c.attrs.tagType = .external) ∧
    ((∃ v ∈ vs, v.style ≠ .unit) → ∀ v ∈ writtenVariants vs, FaithfulVariant k w c.attrs.tagType v)

/-- The types whose values match their documentation, given that those inside do. -/
def Faithful (k : Docs) (w : Writes) : Ty → Prop
  | .wrap .tuple1 _ => False
  | .option t => ∀ m, k.schema t m → ∃ d ty, m = ⟨d, .single ty⟩
  | .named i => FaithfulDecl k w i
  | _ => True

end Verif

namespace Verif

/-! ## Tuples of scalars -/

/-- The JSON type a scalar is documented with. -/
def Prim.family : Prim → SimpleKind
  | .char | .str | .string => .string
  | .bool | .atomicBool => .boolean
  | .f32 | .f64 => .number
  | _ => .integer

/-- Two JSON types have a value in common (integers are numbers). -/
def Share : SimpleKind → SimpleKind → Prop
  | .integer, .number => True
  | .number, .integer => True
  | a, b => a = b

/-- Exactly one reference of the list accepts the value, the others reject it. -/
def ExactlyOne (reg : List (String × Model)) (rs : List Ref) (j : Json) : Prop :=
  ∃ pre r post, rs = pre ++ r :: post ∧ Valid true reg r j ∧ ∀ r' ∈ pre ++ post, Invalid true reg r' j

end Verif
