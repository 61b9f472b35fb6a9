import Verif.Spec.Registry
/-!
# Which types the code of a type asks for (specification)

`asked` lists the types occurring in calls of a piece of generated code, in call order; the flag says whether
the call is a by-reference mention (`mention_schema::<T>(false, ..)`).
-/

namespace Verif

mutual
def RefExpr.asked {τ : Type} : RefExpr τ → List (τ × Bool)
  | .mention t inline _ => [(t, !inline)]
  | .inline m => m.asked
  | .any => []
def ModelExpr.asked {τ : Type} : ModelExpr τ → List (τ × Bool)
  | .getSchema t => [(t, false)]
  | .getSchemaWithParams t _ => [(t, false)]
  | .single _ _ td => td.asked
  | .oneOf _ rs => RefExpr.askedList rs
  | .tagged m .. => m.asked
def TypeExpr.asked {τ : Type} : TypeExpr τ → List (τ × Bool)
  | .string .. => []
  | .number .. => []
  | .integer .. => []
  | .boolean => []
  | .array items => items.asked
  | .object entries => PropExpr.askedList entries
  | .dictionary r => r.asked
def RefExpr.askedList {τ : Type} : List (RefExpr τ) → List (τ × Bool)
  | [] => []
  | r :: rs => r.asked ++ RefExpr.askedList rs
def PropExpr.askedList {τ : Type} : List (PropExpr τ) → List (τ × Bool)
  | [] => []
  | .mk _ r _ :: rest => r.asked ++ PropExpr.askedList rest
end

/-- The code of `t` asks for `t'`; `byRef` says whether by a by-reference mention. -/
def Asks (env : Env) (t : Ty) (t' : Ty) (byRef : Bool) : Prop :=
  ∃ e, schemaExpr env t = some e ∧ (t', byRef) ∈ e.asked

/-- What a sequence of user calls asks for. -/
def rootsOf : List Call → List (Ty × Bool)
  | [] => []
  | .mention t inline _ :: rest => (t, !inline) :: rootsOf rest
  | _ :: rest => rootsOf rest

/-- Types asked for from the roots, directly or through other types. -/
inductive Reached (env : Env) (roots : List (Ty × Bool)) : Ty → Prop
  | root {t b} (h : (t, b) ∈ roots) : Reached env roots t
  | step {t t' b} (h : Reached env roots t) (ha : Asks env t t' b) : Reached env roots t'

/-- Types mentioned by reference, by the roots or by the code of a reached type. -/
def Linked (env : Env) (roots : List (Ty × Bool)) (t : Ty) : Prop :=
  (t, true) ∈ roots ∨ ∃ u, Reached env roots u ∧ Asks env u t true

/-- Generating the schema of `t` mentions, at any depth, something named `name` by reference. -/
inductive Touches (env : Env) : Ty → String → Prop
  | byRef {t t' name} (h : Asks env t t' true) (hn : typeName env t' = some name) : Touches env t name
  | deep {t t' b name} (h : Asks env t t' b) (h' : Touches env t' name) : Touches env t name

/-- Types mentioned by reference under one name have the same schema and mention the same other names. -/
def NamesConsistent (env : Env) (roots : List (Ty × Bool)) : Prop :=
  ∀ t t' name, Linked env roots t → Linked env roots t' →
    typeName env t = some name → typeName env t' = some name →
    (∀ cx m cx1 cx' m' cx1', SchemaReturns env t cx m cx1 → SchemaReturns env t' cx' m' cx1' → m = m') ∧
    (∀ n, n ≠ name → (Touches env t n ↔ Touches env t' n))

/-- Remove the outer pointers of a type. -/
def Ty.strip : Ty → Ty
  | .wrap _ t => t.strip
  | t => t

/-- Each name is used by reference for one type only, up to outer pointers. -/
def NamesUnique (env : Env) (roots : List (Ty × Bool)) : Prop :=
  ∀ t t' name, Linked env roots t → Linked env roots t' →
    typeName env t = some name → typeName env t' = some name → t.strip = t'.strip

/-- The expansion of a type's schema is finite: following the calls of the generated code always ends, and
all types on the way have code. -/
inductive Expands (env : Env) : Ty → Prop
  | intro {t e} (he : schemaExpr env t = some e) (h : ∀ t' b, (t', b) ∈ e.asked → Expands env t') : Expands env t

end Verif
