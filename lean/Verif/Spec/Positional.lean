import Verif.Spec.Attrs
/-!
# Items without `skip` where it is not looked at (specification)
-/

namespace Verif

variable {τ : Type}

/-- The field without `skip`. -/
def Field.unskipped (f : Field τ) : Field τ := { f with attrs := { f.attrs with skipSerializing := false } }

/-- The variant without `skip` on its fields if these are not named, or the enum is adjacently tagged. -/
def Variant.unskipped (tag : TagType) (v : Variant τ) : Variant τ :=
  match v.style, tag with
  | .struct, .adjacent _ _ => { v with fields := v.fields.map Field.unskipped }
  | .struct, _ => v
  | _, _ => { v with fields := v.fields.map Field.unskipped }

/-- The item without `skip` on fields that are not named, and on the fields of variants of adjacently tagged enums. -/
def Container.unskipped (c : Container τ) : Container τ :=
  { c with data := match c.data with
    | .struct .struct fs => .struct .struct fs
    | .struct style fs => .struct style (fs.map Field.unskipped)
    | .enum vs => .enum (vs.map (Variant.unskipped c.attrs.tagType)) }

end Verif
