import Verif.Model.Bound
import Verif.Spec.Deps
import Verif.Spec.Attrs
/-!
# Type parameters in the types of fields (specification)
-/

namespace Verif

mutual
/-- `x` occurs in the type, written by itself, and not as (part of) an argument of `PhantomData`. -/
inductive Occurs (x : String) : SynType → Prop
  | bare (q args) (h : x ≠ "PhantomData") : Occurs x (.path q false [⟨x, args⟩])
  | qself {t l ss} (h : Occurs x t) : Occurs x (.path (some t) l ss)
  | arg {q l ss s a} (phantom : ss.getLast?.map SynSeg.ident ≠ some "PhantomData") (hs : s ∈ ss) (ha : a ∈ s.args)
      (h : OccursArg x a) : Occurs x (.path q l ss)
  | group {t} (h : Occurs x t) : Occurs x (.group t)
  | paren {t} (h : Occurs x t) : Occurs x (.paren t)
  | reference {t} (h : Occurs x t) : Occurs x (.reference t)
  | ptr {t} (h : Occurs x t) : Occurs x (.ptr t)
  | slice {t} (h : Occurs x t) : Occurs x (.slice t)
  | array {t e} (h : Occurs x t) : Occurs x (.array t e)
  | arrayLen {t u e} (hu : u ∈ e) (h : Occurs x u) : Occurs x (.array t e)
  | tuple {t ts} (ht : t ∈ ts) (h : Occurs x t) : Occurs x (.tuple ts)
  | input {t ts o} (ht : t ∈ ts) (h : Occurs x t) : Occurs x (.bareFn ts o)
  | output {t ts} (h : Occurs x t) : Occurs x (.bareFn ts (some t))
  | bounds {t ts} (ht : t ∈ ts) (h : Occurs x t) : Occurs x (.bounds ts)
inductive OccursArg (x : String) : SynArg → Prop
  | type {t} (h : Occurs x t) : OccursArg x (.type t)
  | binding {n t} (h : Occurs x t) : OccursArg x (.binding n t)
  | constraint {n t ts} (ht : t ∈ ts) (h : Occurs x t) : OccursArg x (.constraint n ts)
  | const {t ts} (ht : t ∈ ts) (h : Occurs x t) : OccursArg x (.const ts)
end

/-- `t` is, up to invisible delimiters, a path of several segments that starts with one of the names: `T::Assoc`. -/
inductive AssociatedOf (names : List String) : SynType → SynType → Prop
  | path {q l s ss} (h : s.ident ∈ names) (long : ss ≠ []) : AssociatedOf names (.path q l (s :: ss)) (.path q l (s :: ss))
  | group {t u} (h : AssociatedOf names t u) : AssociatedOf names (.group t) u

/-- A field of the container that is serialized: neither it nor its variant is skipped. -/
inductive FieldSerialized {τ : Type} (c : Container τ) (f : Field τ) : Prop
  | struct {style fs} (hd : c.data = .struct style fs) (hf : f ∈ fs) (h : f.attrs.skipSerializing = false)
  | variant {vs v} (hd : c.data = .enum vs) (hv : v ∈ vs) (hvs : v.attrs.skipSerializing = false) (hf : f ∈ v.fields)
      (h : f.attrs.skipSerializing = false)

/-- A field of a tuple or newtype struct, or of a serialized tuple or newtype variant; also of a struct variant of an
adjacently tagged enum, which is documented as a tuple. -/
inductive FieldPositional {τ : Type} (c : Container τ) (f : Field τ) : Prop
  | struct {style fs} (hd : c.data = .struct style fs) (hf : f ∈ fs) (h : style = .tuple ∨ style = .newType)
  | variant {vs v} (hd : c.data = .enum vs) (hv : v ∈ vs) (hvs : v.attrs.skipSerializing = false) (hf : f ∈ v.fields)
      (h : v.style = .tuple ∨ v.style = .newType ∨ ∃ tag content, c.attrs.tagType = .adjacent tag content)

/-- The serialized fields, in order. -/
def Container.serializedFields {τ : Type} (c : Container τ) : List (Field τ) :=
  match c.data with
  | .struct _ fs => fs.filter fun f => !f.attrs.skipSerializing
  | .enum vs => ((vs.filter fun v => !v.attrs.skipSerializing).flatMap fun v => v.fields).filter fun f => !f.attrs.skipSerializing

/-- A generic parameter without its default. -/
inductive WithoutDefault : GenericParam → GenericParam → Prop
  | type (n bs d) : WithoutDefault (.type ⟨n, bs, d⟩) (.type ⟨n, bs, none⟩)
  | lifetime (s) : WithoutDefault (.lifetime s) (.lifetime s)
  | const (s) : WithoutDefault (.const s) (.const s)

end Verif
