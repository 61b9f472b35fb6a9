import Verif.Spec.Registry
import Verif.Spec.Attrs
/-!
# Shapes of derived schemas (specification)
-/

namespace Verif

/-- Mentioning `t` gives `r` (in some registry; the result does not depend on it, see C05). -/
def Mentions (env : Env) (t : Ty) (inline : Bool) (p : Params) (r : Ref) : Prop :=
  ∃ cx cx', MentionReturns env t inline p cx r cx'

/-- The schema of `t` is `m`. -/
def HasSchema (env : Env) (t : Ty) (m : Model) : Prop := ∃ cx cx', SchemaReturns env t cx m cx'

/-- How the types of a program are documented: the declarations, the references that mentioning a type can give and the
schemas it can have. -/
structure Docs where
  env : Env
  mention : Ty → Bool → Params → Ref → Prop
  schema : Ty → Model → Prop

/-- The derived documentation. -/
@[reducible] def Env.docs (env : Env) : Docs := ⟨env, Mentions env, HasSchema env⟩

instance : Coe Env Docs := ⟨Env.docs⟩

/-- What an example says: the literal, or the value of the expression. -/
def Example.text (env : Env) : Example → String
  | .lit s => s
  | .expr src => env.evalExpr src

/-- Metadata written on a field. -/
def Field.doc (env : Env) (f : Field Ty) : Params where
  description := f.attrs.description
  nullable := if f.attrs.nullable then some true else none
  format := f.attrs.format
  ex := f.attrs.ex.map (Example.text env)

/-- Metadata written on a field, completed by the variant's. -/
def Field.docIn (env : Env) (f : Field Ty) (v : VariantAttrs) : Params where
  description := f.attrs.description.or v.description
  nullable := if f.attrs.nullable then some true else none
  format := f.attrs.format.or v.format
  ex := (f.attrs.ex.or v.ex).map (Example.text env)

/-- Metadata written on a field, completed by the container's (`nullable` is not taken over). -/
def Field.docOf (env : Env) (f : Field Ty) (c : ContainerAttrs) : Params where
  description := f.attrs.description.or c.description
  nullable := if f.attrs.nullable then some true else none
  format := f.attrs.format.or c.format
  ex := (f.attrs.ex.or c.ex).map (Example.text env)

/-- The schema of something with an explicit type word. -/
def explicitModel (t : ExplicitModelType) (nullable : Bool) (doc : Params) : Model :=
  ⟨doc.description, .single ⟨nullable,
    match t with
    | .string => .string none doc.format doc.ex
    | .integer => .integer doc.format doc.ex
    | .number => .number doc.format doc.ex
    | .boolean | .any => .boolean⟩⟩

/-- `r` is what documents a field with the given metadata: anything, the explicit type, or its Rust type. -/
def FieldRef (k : Docs) (doc : Params) (inline : Bool) (f : Field Ty) (r : Ref) : Prop :=
  match f.attrs.explicitModelType with
  | some .any => r = .any
  | some t => r = .inline (explicitModel t f.attrs.nullable doc)
  | none => k.mention f.ty inline doc r

/-- Fields that are not skipped. -/
def serialFields (fs : List (Field Ty)) : List (Field Ty) := fs.filter fun f => !f.attrs.skipSerializing
/-- Variants that are not skipped. -/
def writtenVariants (vs : List (Variant Ty)) : List (Variant Ty) := vs.filter fun v => !v.attrs.skipSerializing

/-- The serialized name of a field. -/
abbrev Field.key (f : Field Ty) : String := f.attrs.name.serialized
/-- The serialized name of a variant. -/
abbrev Variant.key (v : Variant Ty) : String := v.attrs.name.serialized

/-- An object documents exactly the serialized fields: its property names are their names, each property is the
reference of the (last) field of that name, and `required` lists the non-optional ones in order. -/
structure ObjectOf (k : Docs) (inl : Bool) (fs : List (Field Ty)) (o : ModelObject) : Prop where
  additional : o.additional = none
  required : o.required = ((serialFields fs).filter fun f => !f.attrs.optional).map Field.key
  sorted : BMap.Sorted o.properties
  names : ∀ name, name ∈ BMap.keys o.properties ↔ ∃ f ∈ serialFields fs, f.key = name
  refs : ∀ name r, BMap.get name o.properties = some r → ∃ pre f post, serialFields fs = pre ++ f :: post ∧
    f.key = name ∧ (∀ g ∈ post, g.key ≠ name) ∧ FieldRef k (f.doc k.env) (inl || f.attrs.inline) f r

/-- The references of all fields, in order. -/
def RefsOf (k : Docs) (inl : Bool) (fs : List (Field Ty)) (rs : List Ref) : Prop :=
  Pointwise (fun f r => FieldRef k (f.doc k.env) (inl || f.attrs.inline) f r) fs rs

/-- An object schema. -/
def objectSchema (description : Option String) (nullable : Bool) (o : ModelObject) : Model :=
  ⟨description, .single ⟨nullable, .object o⟩⟩

/-- A string schema with the given allowed values, the first being the example. -/
def stringEnum (description : Option String) (values : List String) : Model :=
  ⟨description, .single ⟨false, .string (some values) none values.head?⟩⟩

/-- An array whose items are one of the given references. -/
def tupleSchema (description : Option String) (nullable : Bool) (rs : List Ref) : Model :=
  ⟨description, .single ⟨nullable, .array (.inline ⟨none, .oneOf rs⟩)⟩⟩

/-- What documents the content of a variant. -/
def VariantContent (k : Docs) (v : Variant Ty) (r : Ref) : Prop :=
  match v.style with
  | .unit => r = .inline (stringEnum v.attrs.description [v.key])
  | .newType => ∃ f rest, v.fields = f :: rest ∧ FieldRef k (f.docIn k.env v.attrs) v.attrs.inline f r
  | .tuple => ∃ rs, RefsOf k v.attrs.inline v.fields rs ∧ r = .inline (tupleSchema v.attrs.description false rs)
  | .struct => ∃ o, ObjectOf k v.attrs.inline v.fields o ∧ r = .inline (objectSchema v.attrs.description false o)

/-- The same in an adjacently tagged enum, where struct variants are documented as tuples. -/
def AdjacentContent (k : Docs) (v : Variant Ty) (r : Ref) : Prop :=
  match v.style with
  | .struct => ∃ rs, RefsOf k v.attrs.inline v.fields rs ∧ r = .inline (tupleSchema v.attrs.description false rs)
  | _ => VariantContent k v r

/-- The schema of a variant of an internally tagged enum before the tag is added. -/
def InternalContent (k : Docs) (v : Variant Ty) (m : Model) : Prop :=
  match v.style with
  | .unit => m = objectSchema v.attrs.description false ⟨[], none, []⟩
  | .newType => ∃ f rest m₀, v.fields = f :: rest ∧ k.schema f.ty m₀ ∧ m = m₀.applyParams (f.docIn k.env v.attrs)
  | .struct => ∃ o, ObjectOf k v.attrs.inline v.fields o ∧ m = objectSchema v.attrs.description false o
  | .tuple => False

/-- An object has the tag as a required property with the single allowed value `value`. -/
def HasTag (tag value : String) (r : Ref) : Prop :=
  ∃ d n o d', r = .inline (objectSchema d n o) ∧ tag ∈ o.required ∧
    BMap.get tag o.properties = some (.inline (stringEnum d' [value]))

end Verif

namespace Verif

/-- The serialized names of the variants that are not skipped, in order, from the source. -/
inductive SerializedNames {τ : Type} (o : Oracle) (rule : RenameRule) : List (SynVariant τ) → List String → Prop
  | nil : SerializedNames o rule [] []
  | skip {v vs ss} (h : Gives (VariantGives o) v.attrs .skipSerializing .unit) (t : SerializedNames o rule vs ss) :
      SerializedNames o rule (v :: vs) ss
  | cons {v vs s ss} (h : ¬ Gives (VariantGives o) v.attrs .skipSerializing .unit)
      (hn : VariantSerializedAs o rule v s) (t : SerializedNames o rule vs ss) : SerializedNames o rule (v :: vs) (s :: ss)

/-- An integer with a description and an example. -/
def integerSchema (description : String) (ex : String) : Model :=
  ⟨some description, .single ⟨false, .integer none (some ex)⟩⟩

/-- The schema accepts null. -/
def IsNullable (m : Model) : Prop := ∃ d td, m = ⟨d, .single ⟨true, td⟩⟩

/-! The parts of a schema that metadata can change, and the rest. -/

/-- `format`, for schemas that have one. -/
def Model.format? (m : Model) : Option (Option String) :=
  match m.data with
  | .single ⟨_, .string _ f _⟩ => some f
  | .single ⟨_, .number f _⟩ => some f
  | .single ⟨_, .integer f _⟩ => some f
  | _ => none

/-- `example`, for schemas that have one. -/
def Model.example? (m : Model) : Option (Option String) :=
  match m.data with
  | .single ⟨_, .string _ _ e⟩ => some e
  | .single ⟨_, .number _ e⟩ => some e
  | .single ⟨_, .integer _ e⟩ => some e
  | _ => none

/-- `nullable`, for schemas that have one. -/
def Model.nullableOf? (m : Model) : Option Bool :=
  match m.data with
  | .single ⟨n, _⟩ => some n
  | _ => none

/-- Everything else: the type, allowed values, items, properties, alternatives. -/
def Model.core (m : Model) : ModelData :=
  match m.data with
  | .single ⟨_, .string v _ _⟩ => .single ⟨false, .string v none none⟩
  | .single ⟨_, .number _ _⟩ => .single ⟨false, .number none none⟩
  | .single ⟨_, .integer _ _⟩ => .single ⟨false, .integer none none⟩
  | .single ⟨_, t⟩ => .single ⟨false, t⟩
  | d => d

end Verif

namespace Verif

/-- `m` is `m₀` with the tag added: if `m₀` is an object without a property of that name, the tag is a further
required property, a string with one allowed value; otherwise `m` has the properties of `m₀` only. -/
inductive Tagged (tag description value : String) (m₀ m : Model) : Prop
  | added (d n o) (h : m₀ = objectSchema d n o) (hn : tag ∉ BMap.keys o.properties)
      (hm : m = objectSchema d n ⟨BMap.insert tag (.inline (stringEnum (some description) [value])) o.properties,
        o.additional, o.required ++ [tag]⟩)
  | clash (d n o) (h : m₀ = objectSchema d n o) (hn : tag ∈ BMap.keys o.properties) (hm : m = m₀)
  | notObject (h : ∀ d n o, m₀ ≠ objectSchema d n o) (hm : m = m₀)

end Verif
