import Verif.Spec.Conform
/-!
# Values a schema accepts, as values of the type (specification)
-/

namespace Verif

/-- The fields of a derived type, including those of its variants. -/
def Container.allFields (c : Container Ty) : List (Field Ty) :=
  match c.data with
  | .struct _ fs => fs
  | .enum vs => vs.flatMap Variant.fields

/-- `Covers env t j j'`: as values of type `t`, `j'` is `j` up to entries of structs in another order, further entries
of structs, and integers written for floats. -/
inductive Covers (env : Env) : Ty → Json → Json → Prop
  | refl {t j} : Covers env t j j
  | int {p} {i : Int} (h : p = .f32 ∨ p = .f64) : Covers env (.prim p) (.num (toString i ++ ".0")) (.int i)
  | wrap {w t j j'} (h : Covers env t j j') : Covers env (.wrap w t) j j'
  | option {t j j'} (h : Covers env t j j') : Covers env (.option t) j j'
  | seq {k t} {xs ys : List Json} (hl : xs.length = ys.length)
      (h : ∀ (k : Nat) x y, xs[k]? = some x → ys[k]? = some y → Covers env t x y) : Covers env (.seq k t) (.arr xs) (.arr ys)
  | dict {k t} {es es' : List (String × Json)} (hk : es.map Prod.fst = es'.map Prod.fst)
      (h : ∀ (k : Nat) x y, es[k]? = some x → es'[k]? = some y → Covers env t x.2 y.2) :
      Covers env (.dict k t) (.obj es) (.obj es')
  /-- the only field of a newtype, or of a newtype variant of an untagged enum -/
  | newtype {i f j j'} (hf : f ∈ (env.decl i).allFields) (h : Covers env f.ty j j') : Covers env (.named i) j j'
  /-- a struct, or a struct variant -/
  | struct {i} {es es' : List (String × Json)} (y : String × Json → Json) (hm : ∀ e ∈ es, (e.1, y e) ∈ es')
      (f : String × Json → Field Ty)
      (hf : ∀ e ∈ es, y e ≠ e.2 → f e ∈ (env.decl i).allFields ∧ (f e).key = e.1)
      (h : ∀ e ∈ es, y e ≠ e.2 → Covers env (f e).ty e.2 (y e)) :
      Covers env (.named i) (.obj es) (.obj es')
  /-- a newtype variant of an internally tagged enum -/
  | tagged {i f tag v} {es es' : List (String × Json)} (hf : f ∈ (env.decl i).allFields)
      (ht : (env.decl i).attrs.tagType = .internal tag) (hv : (tag, v) ∈ es')
      (h : Covers env f.ty (.obj es) (.obj (es'.filter fun e => e.1 ≠ tag))) :
      Covers env (.named i) (.obj ((tag, v) :: es)) (.obj es')

/-! ## The fragment in which nothing else is accepted -/

/-- Plain fields of which none is marked `nullable`, except if it has an explicit type. -/
def PreciseFields (fs : List (Field Ty)) : Prop :=
  PlainFields fs ∧ ∀ f ∈ serialFields fs, f.attrs.nullable = true → f.attrs.explicitModelType.isSome

/-- The variants of an enum with data whose schema accepts no other values. -/
def PreciseVariant (k : Docs) (tag : TagType) (v : Variant Ty) : Prop :=
  (v.style = .struct → PreciseFields v.fields) ∧
  (v.style = .newType → ∀ f ∈ v.fields, f.attrs.skipSerializing = false ∧
    (f.attrs.nullable = true → f.attrs.explicitModelType.isSome)) ∧
  match tag with
  | .internal t =>
    (v.style = .struct → t ∉ (serialFields v.fields).map Field.key) ∧
    (v.style = .newType → ∀ f ∈ v.fields, f.attrs.explicitModelType = none ∧
      ∀ m, k.schema f.ty m → ∃ d o, m = objectSchema d false o ∧ t ∉ BMap.keys o.properties ∧ t ∉ o.required)
  | _ => True

/-- The derived types whose schema accepts no other values. -/
def PreciseDecl (k : Docs) (s : Serde) (i : Nat) : Prop :=
  let c := k.env.decl i
  match c.data with
  | .struct .struct fs => c.attrs.transparent = false ∧ c.attrs.nullable = false ∧ PreciseFields fs ∧
      ∀ t, c.attrs.tagType ≠ .internal t
  | .struct .tuple _ => False
  | .struct .newType fs => c.attrs.explicitModelType = none →
      ∀ f ∈ fs, f.attrs.explicitModelType = none ∧ f.attrs.nullable = false
  | .struct .unit _ => True
  | .enum vs =>
    ((∀ v ∈ vs, v.style = .unit) →
      if c.attrs.hasRepr then s.asRepr i = true else s.asRepr i = false ∧ c.attrs.tagType = .external) ∧
    ((∃ v ∈ vs, v.style ≠ .unit) → s.asRepr i = false ∧ (c.attrs.tagType = .none ∨ ∃ t, c.attrs.tagType = .internal t) ∧
      ∀ v ∈ writtenVariants vs, PreciseVariant k c.attrs.tagType v)

/-- The types whose schema accepts no other values, given that those inside do not. -/
def Precise (k : Docs) (s : Serde) : Ty → Prop
  | .prim .char => False
  | .wrap .tuple1 _ => False
  | .tuple _ => False
  | .unit => False
  | .named i => PreciseDecl k s i
  | _ => True

end Verif
