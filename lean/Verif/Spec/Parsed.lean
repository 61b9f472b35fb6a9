import Verif.Spec.Attrs
/-!
# The parsed item, described by what was written (specification)
-/

namespace Verif

variable {τ : Type}

/-- Attribute values shared by containers, variants and fields, as written. -/
structure DocParsed (g : AttrFrom → NestedMeta → AttrKey → AVal → Prop) (attrs : List Attribute)
    (description format : Option String) (ex : Option Example) (inline : Bool)
    (explicit : Option ExplicitModelType) : Prop where
  description : ∀ s, description = some s ↔ Gives g attrs .description (.str s)
  format : ∀ s, format = some s ↔ Gives g attrs .format (.str s)
  ex : ∀ e, ex = some e ↔ Gives g attrs .ex (.ex e)
  inline : inline = true ↔ Gives g attrs .inline .unit
  explicit : ∀ t, explicit = some t ↔ GivesType attrs t

/-- A parsed field says what was written on the field at that index. -/
structure FieldParsed (o : Oracle) (rule : RenameRule) (index : Nat) (f : SynField τ) (f' : Field τ) : Prop where
  ty : f'.ty = f.ty
  name : ∀ s, f'.attrs.name.serialized = s ↔ FieldSerializedAs o rule index f s
  skip : f'.attrs.skipSerializing = true ↔ Gives (FieldGives o) f.attrs .skipSerializing .unit
  optional : f'.attrs.optional = true ↔
    Gives (FieldGives o) f.attrs .skipSerializingIf .unit ∨ Gives (FieldGives o) f.attrs .optional .unit
  nullable : f'.attrs.nullable = true ↔ Gives (FieldGives o) f.attrs .nullable .unit
  doc : DocParsed (FieldGives o) f.attrs f'.attrs.description f'.attrs.format f'.attrs.ex f'.attrs.inline
    f'.attrs.explicitModelType

/-- Named fields, one unnamed field, several unnamed fields or none, nothing. -/
inductive StyleOf : SynFields τ → StructStyle → Prop
  | named (fs) : StyleOf (.named fs) .struct
  | newType (f) : StyleOf (.unnamed [f]) .newType
  | tuple (fs) (h : fs.length ≠ 1) : StyleOf (.unnamed fs) .tuple
  | unit : StyleOf .unit .unit

structure FieldsParsed (o : Oracle) (rule : RenameRule) (fs : SynFields τ) (style : StructStyle)
    (fs' : List (Field τ)) : Prop where
  style : StyleOf fs style
  length : fs'.length = fs.list.length
  fields : ∀ (i : Nat) f f', fs.list[i]? = some f → fs'[i]? = some f' → FieldParsed o rule i f f'

/-- A parsed variant says what was written on the variant. -/
structure VariantParsed (o : Oracle) (rule : RenameRule) (v : SynVariant τ) (v' : Variant τ) : Prop where
  name : ∀ s, v'.attrs.name.serialized = s ↔ VariantSerializedAs o rule v s
  discriminant : v'.discriminant = v.discriminant
  skip : v'.attrs.skipSerializing = true ↔ Gives (VariantGives o) v.attrs .skipSerializing .unit
  doc : DocParsed (VariantGives o) v.attrs v'.attrs.description v'.attrs.format v'.attrs.ex v'.attrs.inline
    v'.attrs.explicitModelType
  fields : ∃ r, RuleOf (VariantGives o) v.attrs r ∧ FieldsParsed o r v.fields v'.style v'.fields

/-- A parsed container says what was written. -/
structure ContainerParsed (o : Oracle) (input : DeriveInput τ) (c : Container τ) : Prop where
  ident : c.ident = input.ident
  tag : ∀ t, c.attrs.tagType = t ↔ Tagging (ContainerGives o input.data.kind) input.attrs t
  repr : c.attrs.hasRepr = true ↔ Gives (ContainerGives o input.data.kind) input.attrs .repr .unit
  nullable : c.attrs.nullable = true ↔ Gives (ContainerGives o input.data.kind) input.attrs .nullable .unit
  doc : DocParsed (ContainerGives o input.data.kind) input.attrs c.attrs.description c.attrs.format c.attrs.ex
    c.attrs.inline c.attrs.explicitModelType
  data : ∃ rule, RuleOf (ContainerGives o input.data.kind) input.attrs rule ∧
    match input.data with
    | .struct fs => ∃ style fs', c.data = .struct style fs' ∧ FieldsParsed o rule fs style fs'
    | .enum vs => ∃ vs', c.data = .enum vs' ∧ Pointwise (VariantParsed o rule) vs vs'
    | .union => False

end Verif
