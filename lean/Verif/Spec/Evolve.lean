import Verif.Spec.Conform
/-!
# Types that grow (specification)

A program changes over time.  Here it may only grow: structs and struct variants get further fields that need not be
written, enums get further variants, and required fields become optional.  What is documented about them may change
too.
-/

namespace Verif

/-- The same field, documented in other words, or made optional. -/
structure Field.Grows (f f' : Field Ty) : Prop where
  ty : f'.ty = f.ty
  key : f'.key = f.key
  skip : f'.attrs.skipSerializing = f.attrs.skipSerializing
  flatten : f'.attrs.flatten = f.attrs.flatten
  explicit : f'.attrs.explicitModelType = f.attrs.explicitModelType
  nullable : f'.attrs.nullable = f.attrs.nullable
  optional : f.attrs.optional = true → f'.attrs.optional = true

/-- Fields of a struct: those there were, in their order, and further ones that are optional or never written. -/
inductive Grown : List (Field Ty) → List (Field Ty) → Prop
  | nil : Grown [] []
  | same {f f' fs fs'} (h : f.Grows f') (t : Grown fs fs') : Grown (f :: fs) (f' :: fs')
  | added {f' fs fs'} (h : f'.attrs.optional = true ∨ f'.attrs.skipSerializing = true) (t : Grown fs fs') :
      Grown fs (f' :: fs')

/-- The same variant; a struct variant may have further fields. -/
structure Variant.Grows (v v' : Variant Ty) : Prop where
  key : v'.key = v.key
  style : v'.style = v.style
  skip : v'.attrs.skipSerializing = v.attrs.skipSerializing
  fields : if v.style = .struct then Grown v.fields v'.fields else Pointwise Field.Grows v.fields v'.fields

/-- Fields or variants.  Tuples, newtypes and `transparent` structs do not get further fields. -/
inductive Data.Grows (transparent : Bool) : Data Ty → Data Ty → Prop
  | struct {fs fs'} (ht : transparent = false) (h : Grown fs fs') :
      Data.Grows transparent (.struct .struct fs) (.struct .struct fs')
  | fixed {style fs fs'} (h : Pointwise Field.Grows fs fs') :
      Data.Grows transparent (.struct style fs) (.struct style fs')
  | enum {vs vs'} (h : ∀ v ∈ vs, ∃ v' ∈ vs', v.Grows v') : Data.Grows transparent (.enum vs) (.enum vs')

/-- A derived type has grown. -/
structure Container.Grows (c c' : Container Ty) : Prop where
  name : c'.attrs.name.serialized = c.attrs.name.serialized
  tag : c'.attrs.tagType = c.attrs.tagType
  transparent : c'.attrs.transparent = c.attrs.transparent
  explicit : c'.attrs.explicitModelType = c.attrs.explicitModelType
  nullable : c'.attrs.nullable = c.attrs.nullable
  data : c.data.Grows c.attrs.transparent c'.data

/-- A program has grown.  An enum that is serialized by `serde_repr` stays one of unit variants. -/
structure Env.Grows (s : Serde) (env env' : Env) : Prop where
  decl : ∀ i, (env.decl i).Grows (env'.decl i)
  repr : ∀ i vs, s.asRepr i = true → (env'.decl i).data = .enum vs → ∀ v ∈ vs, v.style = .unit

end Verif
