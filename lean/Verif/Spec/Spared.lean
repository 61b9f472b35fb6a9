import Verif.Model.Custom
import Verif.Spec.Json
import Verif.Spec.Api
/-!
# What impls leave alone (specification)
-/

namespace Verif

/-- Code that mentions no security scheme under a name in `S`, whatever the calls return. -/
def Prog.Spares {τ α : Type} (S : String → Prop) : Prog τ α → Prop
  | .ret _ => True
  | .getSchema _ k => ∀ m, (k m).Spares S
  | .withParams _ _ k => ∀ m, (k m).Spares S
  | .mention _ _ _ k => ∀ r, (k r).Spares S
  | .select _ _ _ k => ∀ r, (k r).Spares S
  | .contains _ k => ∀ b, (k b).Spares S
  | .verify k => ∀ e, (k e).Spares S
  | .addModel _ _ next => next.Spares S
  | .security n _ next => ¬ S n ∧ next.Spares S

/-- An impl that leaves the security schemes with names in `S` to others. -/
structure Impl.Spares {τ : Type} (S : String → Prop) (im : Impl τ) : Prop where
  schema : im.schema.Spares S
  withParams : ∀ f, im.withParams = some f → ∀ p, (f p).Spares S
  select : ∀ f, im.select = .custom f → ∀ i p, (f i p).Spares S

/-- Code that keeps the properties of objects sorted, as their maps in Rust are: it returns values that are `ok` and registers
schemas with sorted properties, if the calls return such schemas. -/
def Prog.Sorts {τ α : Type} (ok : α → Prop) : Prog τ α → Prop
  | .ret a => ok a
  | .getSchema _ k => ∀ m, m.PropsSorted → (k m).Sorts ok
  | .withParams _ _ k => ∀ m, m.PropsSorted → (k m).Sorts ok
  | .mention _ _ _ k => ∀ r, r.PropsSorted → (k r).Sorts ok
  | .select _ _ _ k => ∀ r, r.PropsSorted → (k r).Sorts ok
  | .contains _ k => ∀ b, (k b).Sorts ok
  | .verify k => ∀ e, (k e).Sorts ok
  | .addModel _ m next => m.PropsSorted ∧ next.Sorts ok
  | .security _ _ next => next.Sorts ok

structure Impl.Sorts {τ : Type} (im : Impl τ) : Prop where
  schema : im.schema.Sorts Model.PropsSorted
  withParams : ∀ f, im.withParams = some f → ∀ p, (f p).Sorts Model.PropsSorted
  select : ∀ f, im.select = .custom f → ∀ i p, (f i p).Sorts Ref.PropsSorted

/-- The names that operations of the description require. -/
def Api.Requires (api : Api) (name : String) : Prop := Part.literal name ∈ api.parts ∨ ∃ s, Part.scheme name s ∈ api.parts

/-- The names that operations require, but the description does not declare. -/
def Api.Undeclared (api : Api) (name : String) : Prop :=
  api.Requires name ∧ ∀ decl ∈ api.flatMap Section.schemeList, decl.name ≠ name

end Verif
