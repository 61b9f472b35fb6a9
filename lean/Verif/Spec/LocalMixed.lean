import Verif.Spec.ConformVia
/-!
# Types that impls lead to (specification)
-/

namespace Verif

/-- One of the methods of an impl may call a method of the impl of a type. -/
inductive Impl.MayCall {τ : Type} (im : Impl τ) (t : τ) : Prop
  | schema {b} (h : im.schema.Calls t b)
  | withParams {f p b} (hf : im.withParams = some f) (h : (f p).Calls t b)
  | select {f i p b} (hf : im.select = .custom f) (h : (f i p).Calls t b)

/-- Types whose impls are asked from the roots, directly or by other impls. -/
inductive LedTo {τ : Type} (w : τ → Impl τ) (roots : List (τ × Bool)) : τ → Prop
  | root {t b} (h : (t, b) ∈ roots) : LedTo w roots t
  | step {t t'} (h : LedTo w roots t) (h' : (w t).MayCall t') : LedTo w roots t'

end Verif
