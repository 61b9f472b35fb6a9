import Verif.Spec.Objects
import Verif.Spec.Spared
/-!
# Impls whose schemas require only what they declare (specification)
-/

namespace Verif

/-- In all objects of the schema the properties are in key order, as in Rust, and what is required is among them. -/
def Model.Whole (m : Model) : Prop := ∀ o ∈ m.objects, o.WellFormed
/-- The same of references. -/
def Ref.Whole (r : Ref) : Prop := ∀ o ∈ r.objects, o.WellFormed

/-- Code that returns values that are `ok` and registers whole schemas, if the calls return whole schemas. -/
def Prog.Whole {τ α : Type} (ok : α → Prop) : Prog τ α → Prop
  | .ret a => ok a
  | .getSchema _ k => ∀ m, m.Whole → (k m).Whole ok
  | .withParams _ _ k => ∀ m, m.Whole → (k m).Whole ok
  | .mention _ _ _ k => ∀ r, r.Whole → (k r).Whole ok
  | .select _ _ _ k => ∀ r, r.Whole → (k r).Whole ok
  | .contains _ k => ∀ b, (k b).Whole ok
  | .verify k => ∀ e, (k e).Whole ok
  | .addModel _ m next => m.Whole ∧ next.Whole ok
  | .security _ _ next => next.Whole ok

/-- An impl whose methods are such code. -/
structure Impl.Whole {τ : Type} (im : Impl τ) : Prop where
  schema : im.schema.Whole Model.Whole
  withParams : ∀ f, im.withParams = some f → ∀ p, (f p).Whole Model.Whole
  select : ∀ f, im.select = .custom f → ∀ i p, (f i p).Whole Ref.Whole

end Verif
