import Verif.Spec.Reads
import Verif.Spec.ConformBy
/-!
# Values read by serde and by hand (specification)
-/

namespace Verif

/-- `ReadsBy env d hand t j`: serde reads `j` as a value of type `t`, if the values of the types that `hand` knows are read by hand. -/
inductive ReadsBy (env : Env) (d : Reader) (hand : Nat → Option (Json → Prop)) : Ty → Json → Prop
  | byHand {i v j} (hh : hand i = .some v) (h : v j) : ReadsBy env d hand (.named i) j
  | scalar {t j} (ht : t.IsScalar) (h : d.scalar t j) : ReadsBy env d hand t j
  | wrap {w t j} (hw : w ≠ .tuple1) (h : ReadsBy env d hand t j) : ReadsBy env d hand (.wrap w t) j
  | tuple1 {t j} (h : ReadsBy env d hand t j) : ReadsBy env d hand (.wrap .tuple1 t) (.arr [j])
  | none {t} : ReadsBy env d hand (.option t) .null
  | some {t j} (h : ReadsBy env d hand t j) : ReadsBy env d hand (.option t) j
  | tuple {ts : List Ty} {xs : List Json} (hl : xs.length = ts.length)
      (h : ∀ (k : Nat) t x, ts[k]? = some t → xs[k]? = some x → ReadsBy env d hand t x) : ReadsBy env d hand (.tuple ts) (.arr xs)
  | seq {k t} {xs : List Json} (hl : ∀ n, k = .array n → xs.length = n) (h : ∀ x ∈ xs, ReadsBy env d hand t x) :
      ReadsBy env d hand (.seq k t) (.arr xs)
  | dict {k t es} (h : ∀ e ∈ es, ReadsBy env d hand t e.2) : ReadsBy env d hand (.dict k t) (.obj es)
  | unit : ReadsBy env d hand .unit .null
  | unitStruct {i fs} (hh : hand i = .none) (hd : (env.decl i).data = .struct .unit fs) : ReadsBy env d hand (.named i) .null
  | struct {i fs es} (hh : hand i = .none) (hd : (env.decl i).data = .struct .struct fs) (ht : (env.decl i).attrs.transparent = false)
      (hg : ∀ t, (env.decl i).attrs.tagType ≠ .internal t) (hf : Fits d i fs es)
      (h : ∀ f ∈ readFields d i fs, ∀ y, (d.fieldKey i f, y) ∈ es → f.attrs.explicitModelType = .none → ReadsBy env d hand f.ty y) :
      ReadsBy env d hand (.named i) (.obj es)
  | structSeq {i fs xs} (hh : hand i = .none) (hl : d.lenient = true) (hd : (env.decl i).data = .struct .struct fs)
      (ht : (env.decl i).attrs.transparent = false) (hg : ∀ t, (env.decl i).attrs.tagType ≠ .internal t)
      (hf : FitsSeq d i fs xs)
      (h : ∀ (k : Nat) f y, (readFields d i fs)[k]? = some f → xs[k]? = some y → f.attrs.explicitModelType = .none →
        ReadsBy env d hand f.ty y) : ReadsBy env d hand (.named i) (.arr xs)
  | tupleStruct {i fs xs} (hh : hand i = .none) (hd : (env.decl i).data = .struct .tuple fs) (ht : (env.decl i).attrs.transparent = false)
      (hf : FitsSeq d i fs xs)
      (h : ∀ (k : Nat) f y, (readFields d i fs)[k]? = some f → xs[k]? = some y → f.attrs.explicitModelType = .none →
        ReadsBy env d hand f.ty y) : ReadsBy env d hand (.named i) (.arr xs)
  | newtypeStruct {i f rest j} (hh : hand i = .none) (hd : (env.decl i).data = .struct .newType (f :: rest))
      (hc : (env.decl i).attrs.explicitModelType = .none) (hk : d.skips i f = false)
      (he : ∀ t, f.attrs.explicitModelType = .some t → ExplicitJson t f.attrs.nullable j)
      (h : f.attrs.explicitModelType = .none → ReadsBy env d hand f.ty j) : ReadsBy env d hand (.named i) j
  | explicitNewtype {i fs t j} (hh : hand i = .none) (hd : (env.decl i).data = .struct .newType fs)
      (hc : (env.decl i).attrs.explicitModelType = .some t)
      (he : ExplicitJson t (env.decl i).attrs.nullable j) : ReadsBy env d hand (.named i) j
  | repr {i vs P n} (hh : hand i = .none) (hd : (env.decl i).data = .enum vs) (hr : d.repr i = .some P) (hn : P n) :
      ReadsBy env d hand (.named i) (.int n)
  | unitVariant {i vs v j} (hh : hand i = .none) (hd : (env.decl i).data = .enum vs) (hr : d.repr i = .none) (hv : v ∈ vs)
      (hk : d.skipsVariant i v = false) (hst : v.style = .unit)
      (hj : TaggedAs d.lenient (env.decl i).attrs.tagType (d.variantKey i v) j .none) : ReadsBy env d hand (.named i) j
  | newtypeVariant {i vs v f rest c j} (hh : hand i = .none) (hd : (env.decl i).data = .enum vs) (hr : d.repr i = .none) (hv : v ∈ vs)
      (hk : d.skipsVariant i v = false) (hst : v.style = .newType) (hf : v.fields = f :: rest) (hs : d.skips i f = false)
      (hj : TaggedAs d.lenient (env.decl i).attrs.tagType (d.variantKey i v) j (.some c))
      (he : ∀ t, f.attrs.explicitModelType = .some t → ExplicitJson t f.attrs.nullable c)
      (h : f.attrs.explicitModelType = .none → ReadsBy env d hand f.ty c) : ReadsBy env d hand (.named i) j
  | tupleVariant {i vs v xs j} (hh : hand i = .none) (hd : (env.decl i).data = .enum vs) (hr : d.repr i = .none) (hv : v ∈ vs)
      (hk : d.skipsVariant i v = false) (hst : v.style = .tuple)
      (hj : TaggedAs d.lenient (env.decl i).attrs.tagType (d.variantKey i v) j (.some (.arr xs))) (hf : FitsSeq d i v.fields xs)
      (h : ∀ (k : Nat) f y, (readFields d i v.fields)[k]? = some f → xs[k]? = some y →
        f.attrs.explicitModelType = .none → ReadsBy env d hand f.ty y) : ReadsBy env d hand (.named i) j
  | structVariant {i vs v es j} (hh : hand i = .none) (hd : (env.decl i).data = .enum vs) (hr : d.repr i = .none) (hv : v ∈ vs)
      (hk : d.skipsVariant i v = false) (hst : v.style = .struct)
      (hj : TaggedAs d.lenient (env.decl i).attrs.tagType (d.variantKey i v) j (.some (.obj es))) (hf : Fits d i v.fields es)
      (h : ∀ f ∈ readFields d i v.fields, ∀ y, (d.fieldKey i f, y) ∈ es → f.attrs.explicitModelType = .none →
        ReadsBy env d hand f.ty y) : ReadsBy env d hand (.named i) j
  | structVariantSeq {i vs v xs j} (hh : hand i = .none) (hl : d.lenient = true) (hd : (env.decl i).data = .enum vs) (hr : d.repr i = .none)
      (hv : v ∈ vs) (hk : d.skipsVariant i v = false) (hst : v.style = .struct)
      (hj : TaggedAs d.lenient (env.decl i).attrs.tagType (d.variantKey i v) j (.some (.arr xs))) (hf : FitsSeq d i v.fields xs)
      (h : ∀ (k : Nat) f y, (readFields d i v.fields)[k]? = some f → xs[k]? = some y →
        f.attrs.explicitModelType = .none → ReadsBy env d hand f.ty y) : ReadsBy env d hand (.named i) j

end Verif
