import Verif.Spec.ConformBy
import Verif.Spec.Mixed
import Verif.Spec.Deps
/-!
# Values and schemas in programs with hand written impls (specification)
-/

namespace Verif

variable {τ α : Type}

/-- The code may call a method of the impl of a type; the flag says whether it mentions the type by reference. -/
inductive Prog.Calls : Prog τ α → τ → Bool → Prop
  | getSchema (t k) : (Prog.getSchema t k).Calls t false
  | withParams (t p k) : (Prog.withParams t p k).Calls t false
  | mention (t i p k) : (Prog.mention t i p k).Calls t (!i)
  | select (t i p k) : (Prog.select t i p k).Calls t false
  | afterGetSchema {t k m u b} (h : (k m).Calls u b) : (Prog.getSchema t k).Calls u b
  | afterWithParams {t p k m u b} (h : (k m).Calls u b) : (Prog.withParams t p k).Calls u b
  | afterMention {t i p k r u b} (h : (k r).Calls u b) : (Prog.mention t i p k).Calls u b
  | afterSelect {t i p k r u b} (h : (k r).Calls u b) : (Prog.select t i p k).Calls u b
  | afterContains {n k x u b} (h : (k x).Calls u b) : (Prog.contains n k).Calls u b
  | afterVerify {k x u b} (h : (k x).Calls u b) : (Prog.verify k).Calls u b
  | afterAddModel {n m next u b} (h : next.Calls u b) : (Prog.addModel n m next).Calls u b
  | afterSecurity {n s next u b} (h : next.Calls u b) : (Prog.security n s next).Calls u b

/-- The code may itself register a schema under a name, with `add_model`. -/
inductive Prog.Adds : Prog τ α → String → Prop
  | addModel (n m next) : (Prog.addModel n m next).Adds n
  | afterGetSchema {t k m n} (h : (k m).Adds n) : (Prog.getSchema t k).Adds n
  | afterWithParams {t p k m n} (h : (k m).Adds n) : (Prog.withParams t p k).Adds n
  | afterMention {t i p k r n} (h : (k r).Adds n) : (Prog.mention t i p k).Adds n
  | afterSelect {t i p k r n} (h : (k r).Adds n) : (Prog.select t i p k).Adds n
  | afterContains {n' k x n} (h : (k x).Adds n) : (Prog.contains n' k).Adds n
  | afterVerify {k x n} (h : (k x).Adds n) : (Prog.verify k).Adds n
  | afterAddModel {n' m next n} (h : next.Adds n) : (Prog.addModel n' m next).Adds n
  | afterSecurity {n' s next n} (h : next.Adds n) : (Prog.security n' s next).Adds n

/-- An impl that overrides neither `get_schema_with_params` nor, except to be always inlined, `select_reference`. -/
structure Impl.Plain (im : Impl τ) : Prop where
  withParams : im.withParams = none
  select : ∀ f, im.select ≠ .custom f

/-- `get_schema` of the type can answer with `m`. -/
def SchemaVia (w : Ty → Impl Ty) (t : Ty) (m : Model) : Prop := ∃ cx cx', ProgReturns w (w t).schema cx m cx'

/-- How the types of a program with those impls are documented. -/
def docsVia (env : Env) (custom : Nat → Option (Impl Ty)) : Docs where
  env := env
  mention t i p r := ∃ cx cx', ProgReturns (impls env custom) (.mention t i p .ret) cx r cx'
  schema := SchemaVia (impls env custom)

/-- Types asked for from the roots, directly or through other types (otherwise `Reached`). -/
inductive ReachedVia (w : Ty → Impl Ty) (roots : List (Ty × Bool)) : Ty → Prop
  | root {t b} (h : (t, b) ∈ roots) : ReachedVia w roots t
  | step {t t' b} (h : ReachedVia w roots t) (h' : (w t).schema.Calls t' b) : ReachedVia w roots t'

/-- Types mentioned by reference (otherwise `Linked`). -/
def LinkedVia (w : Ty → Impl Ty) (roots : List (Ty × Bool)) (t : Ty) : Prop :=
  (t, true) ∈ roots ∨ ∃ u, ReachedVia w roots u ∧ (w u).schema.Calls t true

/-- Each name is used by reference for one type only, up to outer pointers, and impls do not register schemas of their own under
such names. -/
structure NamesUniqueVia (w : Ty → Impl Ty) (roots : List (Ty × Bool)) : Prop where
  one : ∀ t t' name, LinkedVia w roots t → LinkedVia w roots t' → (w t).name = some name → (w t').name = some name →
    t.strip = t'.strip
  own : ∀ t name u, ReachedVia w roots t → (w t).schema.Adds name → LinkedVia w roots u → (w u).name ≠ some name

end Verif
