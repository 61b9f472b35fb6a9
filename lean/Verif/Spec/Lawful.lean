import Verif.Spec.OpenApiApi
import Verif.Spec.Objects
import Verif.Spec.LocalMixed
import Verif.Spec.Published
/-!
# Impls that make legal schemas (specification)
-/

namespace Verif

/-- A legal schema; properties of its objects are in key order, as in Rust, and the required ones are among them. -/
def Model.Fine (m : Model) : Prop := m.Legal ∧ ∀ o ∈ m.objects, o.WellFormed

/-- The same of references, which may also be a link to a schema with a legal name. -/
def Ref.Fine (r : Ref) : Prop := (r.Legal ∧ ∀ o ∈ r.objects, o.WellFormed) ∧ ∀ l, r = .link l → LegalName l

/-- Code that returns values that are `ok` and registers fine schemas under legal names, if the calls return fine schemas.  It passes no
empty lists of allowed values, and the security schemes it mentions are legal. -/
def Prog.Lawful {τ α : Type} (ok : α → Prop) : Prog τ α → Prop
  | .ret a => ok a
  | .getSchema _ k => ∀ m, m.Fine → (k m).Lawful ok
  | .withParams _ p k => p.variants ≠ some [] ∧ ∀ m, m.Fine → (k m).Lawful ok
  | .mention _ _ p k => p.variants ≠ some [] ∧ ∀ r, r.Fine → (k r).Lawful ok
  | .select _ _ p k => p.variants ≠ some [] ∧ ∀ r, r.Fine → (k r).Lawful ok
  | .contains _ k => ∀ b, (k b).Lawful ok
  | .verify k => ∀ e, (k e).Lawful ok
  | .addModel n m next => (LegalName n ∧ m.Fine) ∧ next.Lawful ok
  | .security n s next => (LegalName n ∧ s.NotInPath) ∧ next.Lawful ok

/-- An impl whose methods are such code, of a type with a legal name. -/
structure Impl.Lawful {τ : Type} (im : Impl τ) : Prop where
  schema : im.schema.Lawful Model.Fine
  withParams : ∀ f, im.withParams = some f → ∀ p, p.variants ≠ some [] → (f p).Lawful Model.Fine
  select : ∀ f, im.select = .custom f → ∀ i p, p.variants ≠ some [] → (f i p).Lawful Ref.Fine
  name : ∀ n, im.name = some n → LegalName n

/-- The security schemes of a description are legal. -/
structure LegalSchemes (api : Api) : Prop where
  /-- their names are legal component names -/
  names : ∀ s ∈ api.flatMap Section.schemeList, LegalName s.name
  /-- no API key is sent in the path -/
  apiKeys : ∀ name ps, SchemeDecl.apiKey name ps ∈ api.flatMap Section.schemeList → lastOf ApiKeyProp.parameterIn? ps ≠ some .path
  /-- the same holds of the variables that operations mention -/
  mentioned : ∀ name s, Part.scheme name s ∈ api.parts → LegalName name ∧ s.NotInPath

/-- What the types that an API leads to have to be like. -/
structure LegalLed (env : Env) (custom : Nat → Option (Impl Ty)) (api : Api) : Prop where
  /-- impls written by hand make legal schemas -/
  byHand : ∀ i im, LedTo (impls env custom) api.roots (.named i) → custom i = some im → im.Lawful
  /-- types with derived impls have no degenerate parts -/
  derived : ∀ t, LedTo (impls env custom) api.roots t → (∀ i, t = .named i → custom i = none) → LegalType env t
  /-- their names are legal component names -/
  names : ∀ t n, LedTo (impls env custom) api.roots t → mixedName env custom t = some n → LegalName n

end Verif
