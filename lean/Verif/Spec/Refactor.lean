import Verif.Spec.Attrs
/-!
# Items that are written differently but say the same (specification)

Identifiers of fields and variants, `rename` and `rename_all` only serve to name what is serialized: two items say the
same if they agree in everything else, and in the names that result.
-/

namespace Verif

variable {τ : Type}

/-- The attribute items are the same, `rename` and `rename_all` aside, and those which this crate reads but never
uses. -/
structure SaysSame (g : AttrFrom → NestedMeta → AttrKey → AVal → Prop) (attrs attrs' : List Attribute) : Prop where
  values : ∀ k, k ∉ [AttrKey.rename, .renameAll, .transparent, .flatten] → ∀ v, Gives g attrs k v ↔ Gives g attrs' k v
  type : ∀ t, GivesType attrs t ↔ GivesType attrs' t

/-- The fields have the same type and attributes and, unless skipped, the same name in JSON. -/
structure SameField (o : Oracle) (rule rule' : RenameRule) (index : Nat) (f f' : SynField τ) : Prop where
  ty : f'.ty = f.ty
  says : SaysSame (FieldGives o) f.attrs f'.attrs
  name : ¬ Gives (FieldGives o) f.attrs .skipSerializing .unit →
    ∀ s, FieldSerializedAs o rule index f s ↔ FieldSerializedAs o rule' index f' s

/-- The fields are of the same kind and number, and the same one by one. -/
structure SameFields (o : Oracle) (rule rule' : RenameRule) (fs fs' : SynFields τ) : Prop where
  kind : match fs, fs' with
    | .named _, .named _ => True
    | .unnamed _, .unnamed _ => True
    | .unit, .unit => True
    | _, _ => False
  length : fs'.list.length = fs.list.length
  fields : ∀ (i : Nat) f f', fs.list[i]? = some f → fs'.list[i]? = some f' → SameField o rule rule' i f f'

/-- The variants have the same fields, discriminant and attributes and, unless skipped, the same name in JSON. -/
structure SameVariant (o : Oracle) (rule rule' : RenameRule) (v v' : SynVariant τ) : Prop where
  discriminant : v'.discriminant = v.discriminant
  says : SaysSame (VariantGives o) v.attrs v'.attrs
  name : ¬ Gives (VariantGives o) v.attrs .skipSerializing .unit →
    ∀ s, VariantSerializedAs o rule v s ↔ VariantSerializedAs o rule' v' s
  fields : ∀ r r', RuleOf (VariantGives o) v.attrs r → RuleOf (VariantGives o) v'.attrs r' →
    SameFields o r r' v.fields v'.fields

/-- The items have the same identifier, say the same, and have the same fields or variants. -/
structure SameItem (o : Oracle) (i i' : DeriveInput τ) : Prop where
  ident : i'.ident = i.ident
  kind : i'.data.kind = i.data.kind
  says : SaysSame (ContainerGives o i.data.kind) i.attrs i'.attrs
  data : ∀ r r', RuleOf (ContainerGives o i.data.kind) i.attrs r → RuleOf (ContainerGives o i.data.kind) i'.attrs r' →
    match i.data, i'.data with
    | .struct fs, .struct fs' => SameFields o r r' fs fs'
    | .enum vs, .enum vs' => Pointwise (SameVariant o r r') vs vs'
    | _, _ => False

/-! ## Renaming identifiers while keeping the names in JSON -/

/-- `#[serde(rename = "s")]` -/
def renameTo (s : String) : Attribute := ⟨"serde", .list [.item (.nameValue "rename" (.str s))]⟩

/-- The field is left alone, or it gets another identifier and its name in JSON is written out. -/
inductive FieldRenamed (o : Oracle) (rule : RenameRule) (index : Nat) : SynField τ → SynField τ → Prop
  | kept (f) : FieldRenamed o rule index f f
  | renamed (f new s) (h : ∀ v, ¬ Gives (FieldGives o) f.attrs .rename v) (hs : FieldSerializedAs o rule index f s) :
      FieldRenamed o rule index f ⟨new, f.attrs ++ [renameTo s], f.ty⟩

/-- Fields renamed one by one. -/
structure FieldsRenamed (o : Oracle) (rule : RenameRule) (fs fs' : SynFields τ) : Prop where
  kind : match fs, fs' with
    | .named _, .named _ => True
    | .unnamed _, .unnamed _ => True
    | .unit, .unit => True
    | _, _ => False
  length : fs'.list.length = fs.list.length
  fields : ∀ (i : Nat) f f', fs.list[i]? = some f → fs'.list[i]? = some f' → FieldRenamed o rule i f f'

/-- The variant is left alone, or it gets another identifier and its name in JSON is written out; its fields are
renamed likewise. -/
structure VariantRenamed (o : Oracle) (rule : RenameRule) (v v' : SynVariant τ) : Prop where
  discriminant : v'.discriminant = v.discriminant
  name : (v'.ident = v.ident ∧ v'.attrs = v.attrs) ∨ ((∀ x, ¬ Gives (VariantGives o) v.attrs .rename x) ∧
    ∃ s, VariantSerializedAs o rule v s ∧ v'.attrs = v.attrs ++ [renameTo s])
  fields : ∀ r, RuleOf (VariantGives o) v.attrs r → FieldsRenamed o r v.fields v'.fields

/-- Some fields and variants of the item get another identifier, and their names in JSON are written out. -/
structure ItemRenamed (o : Oracle) (i i' : DeriveInput τ) : Prop where
  ident : i'.ident = i.ident
  attrs : i'.attrs = i.attrs
  data : ∀ r, RuleOf (ContainerGives o i.data.kind) i.attrs r →
    match i.data, i'.data with
    | .struct fs, .struct fs' => FieldsRenamed o r fs fs'
    | .enum vs, .enum vs' => Pointwise (VariantRenamed o r) vs vs'
    | _, _ => False

/-! ## Leaving `rename_all` out -/

/-- The attributes without the items `rename_all` of `#[serde(..)]`. -/
def withoutRenameAll (attrs : List Attribute) : List Attribute :=
  attrs.map fun a =>
    match a.parsed with
    | .list ms => if a.path = "serde" then { a with parsed := .list (ms.filter fun m => m.name ≠ some "rename_all") } else a
    | _ => a

/-- The item without any `rename_all`. -/
def DeriveInput.withoutRenameAll (i : DeriveInput τ) : DeriveInput τ :=
  ⟨i.ident, Verif.withoutRenameAll i.attrs,
    match i.data with
    | .enum vs => .enum (vs.map fun v => { v with attrs := Verif.withoutRenameAll v.attrs })
    | d => d⟩

/-- Every field and every variant has a `rename` of its own. -/
def AllRenamed (o : Oracle) (i : DeriveInput τ) : Prop :=
  (∀ f ∈ i.data.structFields, ∃ s, Gives (FieldGives o) f.attrs .rename (.str s)) ∧
  ∀ v ∈ i.data.variants, (∃ s, Gives (VariantGives o) v.attrs .rename (.str s)) ∧
    ∀ f ∈ v.fields.list, ∃ s, Gives (FieldGives o) f.attrs .rename (.str s)

end Verif
