import Verif.Spec.Conform
/-!
# Values of programs whose types are partly serialized by hand
-/

namespace Verif

/-- `SerBy env s hand t j`: serde writes `j` for some value of type `t`, if the values of the types that `hand` knows are
written as it says, and those of all others by derived code (see `Ser`). -/
inductive SerBy (env : Env) (s : Serde) (hand : Nat → Option (Json → Prop)) : Ty → Json → Prop
  | byHand {i v j} (hh : hand i = some v) (h : v j) : SerBy env s hand (.named i) j
  | prim {p j} (h : PrimJson s p j) : SerBy env s hand (.prim p) j
  | wrap {w t j} (hw : w ≠ .tuple1) (h : SerBy env s hand t j) : SerBy env s hand (.wrap w t) j
  | tuple1 {t j} (h : SerBy env s hand t j) : SerBy env s hand (.wrap .tuple1 t) (.arr [j])
  | none {t} : SerBy env s hand (.option t) .null
  | some {t j} (h : SerBy env s hand t j) : SerBy env s hand (.option t) j
  | tuple {ts : List Ty} {xs : List Json} (hl : xs.length = ts.length)
      (h : ∀ (k : Nat) t x, ts[k]? = some t → xs[k]? = some x → SerBy env s hand t x) : SerBy env s hand (.tuple ts) (.arr xs)
  | seq {k t xs} (h : ∀ x ∈ xs, SerBy env s hand t x) : SerBy env s hand (.seq k t) (.arr xs)
  | dict {k t es} (h : ∀ e ∈ es, SerBy env s hand t e.2) : SerBy env s hand (.dict k t) (.obj es)
  | unit : SerBy env s hand .unit .null
  | uuid (t) : SerBy env s hand .uuid (.str t)
  | naiveDateTime (t) : SerBy env s hand .naiveDateTime (.str t)
  | dateTime (t) : SerBy env s hand .dateTime (.str t)
  | naiveDate (t) : SerBy env s hand .naiveDate (.str t)
  | struct {i fs} {ps : List (Field Ty × Json)} (hh : hand i = .none) (hd : (env.decl i).data = .struct .struct fs)
      (ht : (env.decl i).attrs.transparent = false) (hk : Kept fs (ps.map Prod.fst))
      (he : ∀ p ∈ ps, ∀ t, p.1.attrs.explicitModelType = .some t → ExplicitJson t p.1.attrs.nullable p.2)
      (hs : ∀ p ∈ ps, p.1.attrs.explicitModelType = .none → SerBy env s hand p.1.ty p.2) :
      SerBy env s hand (.named i) (.obj (structTag (env.decl i) ++ fieldEntries ps))
  | tupleStruct {i fs} {ps : List (Field Ty × Json)} (hh : hand i = .none) (hd : (env.decl i).data = .struct .tuple fs)
      (ht : (env.decl i).attrs.transparent = false) (hk : Kept fs (ps.map Prod.fst))
      (he : ∀ p ∈ ps, ∀ t, p.1.attrs.explicitModelType = .some t → ExplicitJson t p.1.attrs.nullable p.2)
      (hs : ∀ p ∈ ps, p.1.attrs.explicitModelType = .none → SerBy env s hand p.1.ty p.2) :
      SerBy env s hand (.named i) (.arr (ps.map Prod.snd))
  | transparent {i style fs f j} (hh : hand i = .none) (hd : (env.decl i).data = .struct style fs) (hn : style ≠ .newType)
      (ht : (env.decl i).attrs.transparent = true) (hf : serialFields fs = [f])
      (he : ∀ t, f.attrs.explicitModelType = .some t → ExplicitJson t f.attrs.nullable j)
      (hs : f.attrs.explicitModelType = .none → SerBy env s hand f.ty j) : SerBy env s hand (.named i) j
  | newtypeStruct {i f rest j} (hh : hand i = .none) (hd : (env.decl i).data = .struct .newType (f :: rest))
      (hc : (env.decl i).attrs.explicitModelType = .none)
      (he : ∀ t, f.attrs.explicitModelType = .some t → ExplicitJson t f.attrs.nullable j)
      (hs : f.attrs.explicitModelType = .none → SerBy env s hand f.ty j) : SerBy env s hand (.named i) j
  | explicitNewtype {i fs t j} (hh : hand i = .none) (hd : (env.decl i).data = .struct .newType fs)
      (hc : (env.decl i).attrs.explicitModelType = .some t)
      (he : ExplicitJson t (env.decl i).attrs.nullable j) : SerBy env s hand (.named i) j
  | repr {i vs v n} (hh : hand i = .none) (hd : (env.decl i).data = .enum vs) (hr : s.asRepr i = true) (hu : ∀ v ∈ vs, v.style = .unit)
      (hv : v ∈ writtenVariants vs) : SerBy env s hand (.named i) (.int n)
  | unitVariant {i vs v j} (hh : hand i = .none) (hd : (env.decl i).data = .enum vs) (hr : s.asRepr i = false) (hv : v ∈ writtenVariants vs)
      (hu : WrittenAsUnit v) (hj : tagJson (env.decl i).attrs.tagType v.key .none = .some j) : SerBy env s hand (.named i) j
  | newtypeVariant {i vs v f rest c j} (hh : hand i = .none) (hd : (env.decl i).data = .enum vs) (hr : s.asRepr i = false)
      (hv : v ∈ writtenVariants vs) (hst : v.style = .newType) (hf : v.fields = f :: rest)
      (hk : f.attrs.skipSerializing = false)
      (he : ∀ t, f.attrs.explicitModelType = .some t → ExplicitJson t f.attrs.nullable c)
      (hs : f.attrs.explicitModelType = .none → SerBy env s hand f.ty c)
      (hj : tagJson (env.decl i).attrs.tagType v.key (.some c) = .some j) : SerBy env s hand (.named i) j
  | tupleVariant {i vs v} {ps : List (Field Ty × Json)} {j} (hh : hand i = .none) (hd : (env.decl i).data = .enum vs)
      (hr : s.asRepr i = false) (hv : v ∈ writtenVariants vs) (hst : v.style = .tuple)
      (hk : Kept v.fields (ps.map Prod.fst))
      (he : ∀ p ∈ ps, ∀ t, p.1.attrs.explicitModelType = .some t → ExplicitJson t p.1.attrs.nullable p.2)
      (hs : ∀ p ∈ ps, p.1.attrs.explicitModelType = .none → SerBy env s hand p.1.ty p.2)
      (hj : tagJson (env.decl i).attrs.tagType v.key (.some (.arr (ps.map Prod.snd))) = .some j) : SerBy env s hand (.named i) j
  | structVariant {i vs v} {ps : List (Field Ty × Json)} {j} (hh : hand i = .none) (hd : (env.decl i).data = .enum vs)
      (hr : s.asRepr i = false) (hv : v ∈ writtenVariants vs) (hst : v.style = .struct)
      (hk : Kept v.fields (ps.map Prod.fst))
      (he : ∀ p ∈ ps, ∀ t, p.1.attrs.explicitModelType = .some t → ExplicitJson t p.1.attrs.nullable p.2)
      (hs : ∀ p ∈ ps, p.1.attrs.explicitModelType = .none → SerBy env s hand p.1.ty p.2)
      (hj : tagJson (env.decl i).attrs.tagType v.key (.some (.obj (fieldEntries ps))) = .some j) : SerBy env s hand (.named i) j

/-- The types that are documented and serialized by hand. -/
def ByHand (hand : Nat → Option (Json → Prop)) (t : Ty) : Prop := ∃ i v, t = .named i ∧ hand i = some v

/-- Serialization that is partly written by hand. -/
@[reducible] def Serde.writesBy (s : Serde) (hand : Nat → Option (Json → Prop)) : Writes := ⟨s, fun env => SerBy env s hand⟩

end Verif
