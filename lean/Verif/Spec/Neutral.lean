import Verif.Spec.Conform
/-!
# Attributes that only document (specification)

`description`, `format`, `example` and `inline` say how a type is presented.  Two programs that differ only in them
have the same values.
-/

namespace Verif

/-- A field without `description`, `format`, `example` and `inline`. -/
def Field.bare (f : Field Ty) : Field Ty :=
  { f with attrs := { f.attrs with description := none, format := none, ex := none, inline := false } }

/-- A variant without them. -/
def Variant.bare (v : Variant Ty) : Variant Ty :=
  { v with
    attrs := { v.attrs with description := none, format := none, ex := none, inline := false }
    fields := v.fields.map Field.bare }

/-- Fields or variants without them. -/
def Data.bare : Data Ty → Data Ty
  | .enum vs => .enum (vs.map Variant.bare)
  | .struct style fs => .struct style (fs.map Field.bare)

/-- A derived type without them. -/
def Container.bare (c : Container Ty) : Container Ty :=
  { c with
    attrs := { c.attrs with description := none, format := none, ex := none, inline := false }
    data := c.data.bare }

/-- Two programs differ only in descriptions, formats, examples, and in what is marked `inline`. -/
def SameBarDocs (env env' : Env) : Prop := ∀ i, (env.decl i).bare = (env'.decl i).bare

/-- The schema of a field of type `t` is written in place, and not referred to. -/
def InPlace (env : Env) (t : Ty) (inline : Bool) : Prop := inline = true ∨ typeName env t = none

/-- A field of a variant is inlined if it or its variant is (what newtype variants wrap: if the variant is). -/
def Variant.inlines (v : Variant Ty) (f : Field Ty) : Bool :=
  if v.style = .newType then v.attrs.inline else v.attrs.inline || f.attrs.inline

/-- The fields of a type that are documented by mentioning their type, and whether they are inlined. -/
def Container.mentioned (c : Container Ty) : List (Field Ty × Bool) :=
  match c.data with
  | .struct .newType _ => []
  | .struct _ fs => fs.map fun f => (f, f.attrs.inline)
  | .enum vs => vs.flatMap fun v => v.fields.map fun f => (f, v.inlines f)

/-- Fields marked `nullable` are written in place in both programs or in none (a link to a component has no place for the
mark). -/
def NullableAlike (env env' : Env) (i : Nat) : Prop :=
  Pointwise (fun x x' => x.1.attrs.explicitModelType = none → x'.1.attrs.explicitModelType = none →
    x.1.attrs.nullable = true → x'.1.attrs.nullable = true → (InPlace env x.1.ty x.2 ↔ InPlace env' x'.1.ty x'.2))
    (env.decl i).mentioned (env'.decl i).mentioned

/-- The same field but for what only documents it, and for its type: the types are related by `R`. -/
structure Field.Like (R : Ty → Ty → Prop) (f f' : Field Ty) : Prop where
  attrs : f.bare.attrs = f'.bare.attrs
  ty : R f.ty f'.ty

/-- Variants that are the same in this sense. -/
structure Variant.Like (R : Ty → Ty → Prop) (v v' : Variant Ty) : Prop where
  attrs : v.bare.attrs = v'.bare.attrs
  style : v.style = v'.style
  discriminant : v.discriminant = v'.discriminant
  fields : Pointwise (Field.Like R) v.fields v'.fields

/-- Fields or variants that are the same in this sense. -/
inductive Data.Like (R : Ty → Ty → Prop) : Data Ty → Data Ty → Prop
  | enum {vs vs'} (h : Pointwise (Variant.Like R) vs vs') : Data.Like R (.enum vs) (.enum vs')
  | struct {style fs fs'} (h : Pointwise (Field.Like R) fs fs') : Data.Like R (.struct style fs) (.struct style fs')

/-- Derived types that are the same in this sense. -/
structure Container.Like (R : Ty → Ty → Prop) (c c' : Container Ty) : Prop where
  ident : c.ident = c'.ident
  attrs : c.bare.attrs = c'.bare.attrs
  data : c.data.Like R c'.data

end Verif
