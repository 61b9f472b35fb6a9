import Verif.Spec.Attrs
/-!
# Types that a derived impl depends on (specification)
-/

namespace Verif

variable {τ : Type}

/-- The documentation of an item depends on type `t`, which then has to implement the trait; `byRef`: it is referred to (if
it has a name), and not copied. -/
inductive Requires (c : Container τ) : τ → Bool → Prop
  /-- a written field of a struct that is not documented by an explicit type -/
  | field {fs} {f : Field τ} (hd : c.data = .struct .struct fs) (hf : f ∈ fs) (written : f.attrs.skipSerializing = false)
      (own : f.attrs.explicitModelType = none) : Requires c f.ty (!f.attrs.inline)
  /-- any component of a tuple struct that is not documented by an explicit type -/
  | component {fs} {f : Field τ} (hd : c.data = .struct .tuple fs) (hf : f ∈ fs)
      (own : f.attrs.explicitModelType = none) : Requires c f.ty (!f.attrs.inline)
  /-- what a newtype struct wraps, unless the struct is given an explicit type -/
  | wrapped {fs} {f : Field τ} (hd : c.data = .struct .newType fs) (hf : f ∈ fs)
      (own : c.attrs.explicitModelType = none) : Requires c f.ty false
  /-- a field of a struct variant that is written, or of an adjacently tagged enum -/
  | variantField {vs} {v : Variant τ} {f : Field τ} (hd : c.data = .enum vs) (hv : v ∈ vs) (hvs : v.attrs.skipSerializing = false)
      (hs : v.style = .struct) (hf : f ∈ v.fields)
      (written : f.attrs.skipSerializing = false ∨ ∃ tag content, c.attrs.tagType = .adjacent tag content)
      (own : f.attrs.explicitModelType = none) : Requires c f.ty (!(v.attrs.inline || f.attrs.inline))
  /-- any component of a tuple variant -/
  | variantComponent {vs} {v : Variant τ} {f : Field τ} (hd : c.data = .enum vs) (hv : v ∈ vs)
      (hvs : v.attrs.skipSerializing = false) (hs : v.style = .tuple) (hf : f ∈ v.fields)
      (own : f.attrs.explicitModelType = none) : Requires c f.ty (!(v.attrs.inline || f.attrs.inline))
  /-- what a newtype variant wraps; `inline` on the field has no effect there -/
  | variantWrapped {vs} {v : Variant τ} {f : Field τ} (hd : c.data = .enum vs) (hv : v ∈ vs)
      (hvs : v.attrs.skipSerializing = false) (hs : v.style = .newType) (hf : f ∈ v.fields)
      (tag : ∀ tag, c.attrs.tagType ≠ .internal tag) (own : f.attrs.explicitModelType = none) : Requires c f.ty (!v.attrs.inline)
  /-- if the enum is internally tagged, also if an explicit type is given, and never by reference -/
  | variantTagged {vs tag} {v : Variant τ} {f : Field τ} (hd : c.data = .enum vs) (hv : v ∈ vs)
      (hvs : v.attrs.skipSerializing = false) (hs : v.style = .newType) (hf : f ∈ v.fields)
      (tag : c.attrs.tagType = .internal tag) : Requires c f.ty false

end Verif
