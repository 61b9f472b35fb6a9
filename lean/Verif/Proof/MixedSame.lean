import Verif.Proof.Skip
import Verif.Proof.Custom
/-!
# Programs with hand written impls whose other types have the same generated code
-/

namespace Verif

section
variable {env env' : Env} (he : env'.evalExpr = env.evalExpr)
include he

mutual
theorem RefExpr.prog_env : ∀ (e : RefExpr Ty), e.prog env' = e.prog env
  | .mention t i p => by simp only [RefExpr.prog, ParamsExpr.eval_same he]
  | .inline m => by simp only [RefExpr.prog, ModelExpr.prog_env m]
  | .any => by simp only [RefExpr.prog]
theorem ModelExpr.prog_env : ∀ (e : ModelExpr Ty), e.prog env' = e.prog env
  | .getSchema t => by simp only [ModelExpr.prog]
  | .getSchemaWithParams t p => by simp only [ModelExpr.prog, ParamsExpr.eval_same he]
  | .single d n td => by simp only [ModelExpr.prog, TypeExpr.prog_env td]
  | .oneOf d rs => by simp only [ModelExpr.prog, RefExpr.progList_env rs]
  | .tagged m .. => by simp only [ModelExpr.prog, ModelExpr.prog_env m]
theorem TypeExpr.prog_env : ∀ (e : TypeExpr Ty), e.prog env' = e.prog env
  | .string .. => by simp only [TypeExpr.prog, optExample_same he]
  | .number .. => by simp only [TypeExpr.prog, optExample_same he]
  | .integer .. => by simp only [TypeExpr.prog, optExample_same he]
  | .boolean => by simp only [TypeExpr.prog]
  | .array r => by simp only [TypeExpr.prog, RefExpr.prog_env r]
  | .object es => by simp only [TypeExpr.prog, PropExpr.progList_env es]
  | .dictionary r => by simp only [TypeExpr.prog, RefExpr.prog_env r]
theorem RefExpr.progList_env : ∀ (es : List (RefExpr Ty)), RefExpr.progList env' es = RefExpr.progList env es
  | [] => by simp only [RefExpr.progList]
  | r :: rs => by simp only [RefExpr.progList, RefExpr.prog_env r, RefExpr.progList_env rs]
theorem PropExpr.progList_env : ∀ (es : List (PropExpr Ty)) props req, PropExpr.progList env' es props req = PropExpr.progList env es props req
  | [], _, _ => by simp only [PropExpr.progList]
  | .mk n r q :: rest, props, req => by
    simp only [PropExpr.progList, RefExpr.prog_env r]
    congr 1
    funext r'
    exact PropExpr.progList_env rest _ _
end
end

variable {env env' : Env} {custom : Nat → Option (Impl Ty)}

theorem mixedName_env (h : ∀ i, custom i = none → (env'.decl i).typeName = (env.decl i).typeName) :
    ∀ t, mixedName env' custom t = mixedName env custom t
  | .wrap w t => by rw [mixedName, mixedName]; exact mixedName_env h t
  | .option t => by rw [mixedName, mixedName]; exact mixedName_env h t
  | .named i => by
    rw [mixedName, mixedName]
    cases hc : custom i with
    | some im => rfl
    | none => exact h i hc
  | .prim _ | .tuple _ | .seq _ _ | .dict _ _ | .unit | .uuid | .naiveDateTime | .dateTime | .naiveDate => rfl

/-- The impls of two programs whose generated code is the same. -/
theorem impls_env (he : env'.evalExpr = env.evalExpr)
    (h : ∀ i, custom i = none → (env'.decl i).typeName = (env.decl i).typeName ∧ serializeBody (env'.decl i) = serializeBody (env.decl i)) :
    impls env' custom = impls env custom := by
  funext t
  have hn := mixedName_env (env := env) (env' := env') (custom := custom) fun i hi => (h i hi).1
  have hs : ∀ e, schemaExpr env' t = e → schemaExpr env t = e → schemaProg env' t = schemaProg env t := by
    intro e h1 h2
    unfold schemaProg
    rw [h1, h2]
    cases e with
    | none => rfl
    | some e => exact ModelExpr.prog_env he e
  cases t with
  | named i =>
    simp only [impls]
    cases hc : custom i with
    | some im => rfl
    | none =>
      have h1 := hs (schemaExpr env (.named i)) (by simp only [schemaExpr, (h i hc).2]) rfl
      have h2 : alwaysInline env' (.named i) = alwaysInline env (.named i) := by
        have := (h i hc).1
        unfold Container.typeName at this
        simp only [alwaysInline]
        cases h1 : (env'.decl i).attrs.inline <;> cases h2 : (env.decl i).attrs.inline <;> simp [h1, h2] at this ⊢
      simp only [Option.getD_none, h1, h2, hn]
  | _ => simp only [impls, hn, hs _ rfl rfl]; rfl

end Verif
