import Verif.Spec.Conform
/-!
# Programs that ask for more (specification)

`Narrows` relates a program to one that asks for less: in the first, structs have all fields of the second and
perhaps further ones, in any order, and required ones stay required; enums have no variants but those of the second.
Documentation may differ.
-/

namespace Verif

/-- The same field, up to documentation; `g` is required only if `f` is. -/
structure Field.Narrows (f g : Field Ty) : Prop where
  ty : f.ty = g.ty
  key : f.key = g.key
  inline : f.attrs.inline = g.attrs.inline
  explicit : f.attrs.explicitModelType = g.attrs.explicitModelType
  nullable : f.attrs.nullable = g.attrs.nullable
  required : g.attrs.optional = false → f.attrs.optional = false

/-- Fields of objects: each written one of `gs` is among those of `fs`, whose names differ. -/
def FieldsNarrow (fs gs : List (Field Ty)) : Prop :=
  ((serialFields fs).map Field.key).Nodup ∧ ∀ g ∈ serialFields gs, ∃ f ∈ serialFields fs, f.Narrows g

/-- Variants of an enum with the given representation.  The tag is not the name of a field or of a property of the
content. -/
structure Variant.Narrows (env : Env) (tag : TagType) (v w : Variant Ty) : Prop where
  key : v.key = w.key
  style : v.style = w.style
  inline : v.attrs.inline = w.attrs.inline
  discriminant : v.discriminant.isSome → w.discriminant.isSome
  /-- the fields of struct variants, which adjacently tagged enums document like tuples -/
  struct : v.style = .struct → (∀ t c, tag ≠ .adjacent t c) → FieldsNarrow v.fields w.fields
  others : v.style ≠ .struct ∨ (∃ t c, tag = .adjacent t c) → Pointwise Field.Narrows v.fields w.fields
  tagged : ∀ t, tag = .internal t → (v.style = .struct → t ∉ (serialFields v.fields).map Field.key) ∧
    (v.style = .newType → ∀ f ∈ v.fields, ∀ d n o, HasSchema env f.ty (objectSchema d n o) → t ∉ BMap.keys o.properties)

/-- Fields or variants.  Enums of unit variants and enums with data, which are documented differently, are kept
apart. -/
inductive Data.Narrows (env : Env) (tag : TagType) : Data Ty → Data Ty → Prop
  | struct {fs gs} (h : FieldsNarrow fs gs) : Data.Narrows env tag (.struct .struct fs) (.struct .struct gs)
  | fixed {style fs gs} (hs : style ≠ .struct) (h : Pointwise Field.Narrows fs gs) :
      Data.Narrows env tag (.struct style fs) (.struct style gs)
  | enum {vs ws} (h : ∀ v ∈ writtenVariants vs, ∃ w ∈ writtenVariants ws, v.Narrows env tag w)
      (hu : (∀ v ∈ vs, v.style = .unit) ↔ ∀ w ∈ ws, w.style = .unit) : Data.Narrows env tag (.enum vs) (.enum ws)

/-- A derived type asks for more than another. -/
structure Container.Narrows (env : Env) (c d : Container Ty) : Prop where
  ident : c.ident = d.ident
  inline : c.attrs.inline = d.attrs.inline
  tag : c.attrs.tagType = d.attrs.tagType
  repr : c.attrs.hasRepr = d.attrs.hasRepr
  explicit : c.attrs.explicitModelType = d.attrs.explicitModelType
  nullable : c.attrs.nullable = true → d.attrs.nullable = true
  data : c.data.Narrows env c.attrs.tagType d.data

/-- A program asks for more than another. -/
def Env.Narrows (env env' : Env) : Prop := ∀ i, (env.decl i).Narrows env (env'.decl i)

end Verif
