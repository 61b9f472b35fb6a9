import Verif.Spec.Parsed
/-!
# Items without their skipped parts (specification)
-/

namespace Verif

variable {τ : Type}

/-- The named fields without some that are skipped in serialization. -/
inductive FieldsWithout (o : Oracle) : List (SynField τ) → List (SynField τ) → Prop
  | nil : FieldsWithout o [] []
  | keep {f fs fs'} (named : f.ident ≠ none) (rest : FieldsWithout o fs fs') : FieldsWithout o (f :: fs) (f :: fs')
  | drop {f fs fs'} (skipped : Gives (FieldGives o) f.attrs .skipSerializing .unit) (rest : FieldsWithout o fs fs') :
      FieldsWithout o (f :: fs) fs'

/-- The fields of a variant, if `inside` without some skipped named ones. -/
inductive InsideWithout (o : Oracle) (inside : Bool) : SynFields τ → SynFields τ → Prop
  | same (fs) : InsideWithout o inside fs fs
  | named {fs fs'} (h : inside = true) (fields : FieldsWithout o fs fs') : InsideWithout o inside (.named fs) (.named fs')

/-- The variants without some that are skipped in serialization. -/
inductive VariantsWithout (o : Oracle) (inside : Bool) : List (SynVariant τ) → List (SynVariant τ) → Prop
  | nil : VariantsWithout o inside [] []
  | keep {v fs' vs vs'} (fields : InsideWithout o inside v.fields fs') (rest : VariantsWithout o inside vs vs') :
      VariantsWithout o inside (v :: vs) ({ v with fields := fs' } :: vs')
  | drop {v vs vs'} (skipped : Gives (VariantGives o) v.attrs .skipSerializing .unit) (rest : VariantsWithout o inside vs vs') :
      VariantsWithout o inside (v :: vs) vs'

/-- All variants are unit variants. -/
def UnitsOnly (vs : List (SynVariant τ)) : Prop := ∀ v ∈ vs, v.fields = .unit

inductive DataWithout (o : Oracle) (inside : Bool) : SynData τ → SynData τ → Prop
  | struct {fs fs'} (fields : FieldsWithout o fs fs') : DataWithout o inside (.struct (.named fs)) (.struct (.named fs'))
  | enum {vs vs'} (variants : VariantsWithout o inside vs vs') (shape : UnitsOnly vs' → UnitsOnly vs) :
      DataWithout o inside (.enum vs) (.enum vs')
  | same (d) : DataWithout o inside d d

/-- `item'` is `item` without some skipped variants, skipped named fields of structs and, if `inside`, of variants.  If
skipped variants are all that have fields, they are kept. -/
structure ItemWithout (o : Oracle) (inside : Bool) (item item' : DeriveInput τ) : Prop where
  ident : item'.ident = item.ident
  attrs : item'.attrs = item.attrs
  data : DataWithout o inside item.data item'.data

end Verif
