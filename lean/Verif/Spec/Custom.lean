import Verif.Model.Custom
import Verif.Spec.Links
/-!
# Hand written impls (specification)
-/

namespace Verif

/-- The code, started with a registry, returns a value and leaves a registry. -/
def ProgReturns {τ α : Type} (w : τ → Impl τ) (p : Prog τ α) (cx : Components) (a : α) (cx' : Components) : Prop :=
  ∃ fuel, runProg w fuel α p cx = some (a, cx')

/-- The names used in a selected reference, besides the link, which `mention_schema` registers. -/
def Ref.innerLinks : Ref → List String
  | .link _ => []
  | r => r.links

/-- Code that uses only names it knows to be registered: those in `known`, those in references and schemas which it got from
calls, those it has looked up or registered.  `links` are the names used in its value. -/
def Prog.Only {τ α : Type} (links : α → List String) : (known : String → Prop) → Prog τ α → Prop
  | known, .ret a => ∀ l ∈ links a, known l
  | known, .getSchema _ k => ∀ m, (k m).Only links fun l => known l ∨ l ∈ m.links
  | known, .withParams _ _ k => ∀ m, (k m).Only links fun l => known l ∨ l ∈ m.links
  | known, .mention _ _ _ k => ∀ r, (k r).Only links fun l => known l ∨ l ∈ r.links
  | known, .select _ _ _ k => ∀ r, (k r).Only links fun l => known l ∨ l ∈ r.innerLinks
  | known, .contains n k => (k true).Only links (fun l => known l ∨ l = n) ∧ (k false).Only links known
  | known, .verify k => ∀ e, (k e).Only links known
  | known, .addModel n m next => (∀ l ∈ m.links, known l ∨ l = n) ∧ next.Only links fun l => known l ∨ l = n
  | known, .security _ _ next => next.Only links known

/-- An impl whose methods use only names they know to be registered. -/
structure Impl.Candid {τ : Type} (im : Impl τ) : Prop where
  schema : im.schema.Only Model.links fun _ => False
  withParams : ∀ f, im.withParams = some f → ∀ p, (f p).Only Model.links fun _ => False
  select : ∀ f, im.select = .custom f → ∀ i p, (f i p).Only Ref.innerLinks fun _ => False

/-- The entries of one registry are entries of the other. -/
structure Components.Kept (cx cx' : Components) : Prop where
  schemas : ∀ n m, BMap.get n cx.schemas = some m → BMap.get n cx'.schemas = some m
  securitySchemes : ∀ n s, BMap.get n cx.securitySchemes = some s → BMap.get n cx'.securitySchemes = some s

end Verif
