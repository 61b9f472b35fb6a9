import Verif.Model.Ast
import Verif.Spec.Texts
/-!
# Items without descriptions, formats and examples (specification)

What is left of an item when the literals, `format`, `example` and `example_with` are deleted from its `#[opg(..)]` attributes.
-/

namespace Verif

/-- The items of `#[opg(..)]` that are texts. -/
def NestedMeta.isText : NestedMeta → Bool
  | .lit _ => true
  | .item (.nameValue p _) => p == "format" || p == "example" || p == "example_with"
  | .item _ => false

/-- An attribute without them. -/
def Attribute.stripped (a : Attribute) : Attribute :=
  if a.path = "opg" then
    { a with parsed := match a.parsed with
      | .list items => .list (items.filter fun m => !m.isText)
      | other => other }
  else a

variable {τ : Type}

/-- A field without them. -/
def SynField.stripped (f : SynField τ) : SynField τ := { f with attrs := f.attrs.map Attribute.stripped }

/-- Fields without them. -/
def SynFields.stripped : SynFields τ → SynFields τ
  | .named fs => .named (fs.map SynField.stripped)
  | .unnamed fs => .unnamed (fs.map SynField.stripped)
  | .unit => .unit

/-- A variant without them. -/
def SynVariant.stripped (v : SynVariant τ) : SynVariant τ :=
  { v with attrs := v.attrs.map Attribute.stripped, fields := v.fields.stripped }

/-- Fields or variants without them. -/
def SynData.stripped : SynData τ → SynData τ
  | .enum vs => .enum (vs.map SynVariant.stripped)
  | .struct fs => .struct fs.stripped
  | .union => .union

/-- An item without them. -/
def DeriveInput.stripped (i : DeriveInput τ) : DeriveInput τ :=
  { i with attrs := i.attrs.map Attribute.stripped, data := i.data.stripped }

end Verif
