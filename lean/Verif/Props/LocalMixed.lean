import Verif.Proof.LocalMixed
import Verif.Proof.MixedSame
import Verif.Props.Local
import Verif.Props.HandValues
/-!
# C91: documents depend only on the types their API leads to, in programs with hand written impls
-/

namespace Verif

theorem mentions_led {w : Ty → Impl Ty} {api : Api} : MentionsIn (LedTo w api.roots) api.parts :=
  fun t ht => .root (b := true) (by
    rw [Api.roots, rootsOf_eq]
    exact List.mem_filterMap.2 ⟨_, mention_call ht, rfl⟩)

theorem mixedName_local {env env' : Env} {custom custom' : Nat → Option (Impl Ty)} {P : Ty → Prop} (hw : ∀ w t, P (.wrap w t) → P t)
    (ho : ∀ t, P (.option t) → P t)
    (hn : ∀ i, P (.named i) → custom' i = custom i ∧ (custom i = none → env'.decl i = env.decl i)) :
    ∀ t, P t → mixedName env' custom' t = mixedName env custom t
  | .wrap w t, h => by rw [mixedName, mixedName]; exact mixedName_local hw ho hn t (hw w t h)
  | .option t, h => by rw [mixedName, mixedName]; exact mixedName_local hw ho hn t (ho t h)
  | .named i, h => by
    rw [mixedName, mixedName, (hn i h).1]
    cases hc : custom i with
    | some im => rfl
    | none => simp only [typeName, (hn i h).2 hc]
  | .prim _, _ | .tuple _, _ | .seq _ _, _ | .dict _ _, _ | .unit, _ | .uuid, _ | .naiveDateTime, _ | .dateTime, _
  | .naiveDate, _ => rfl

theorem impls_local {env env' : Env} {custom custom' : Nat → Option (Impl Ty)} {P : Ty → Prop}
    (closed : ∀ t t', P t → (impls env custom t).MayCall t' → P t') (he : env'.evalExpr = env.evalExpr)
    (hn : ∀ i, P (.named i) → custom' i = custom i ∧ (custom i = none → env'.decl i = env.decl i)) (t : Ty) (ht : P t) :
    impls env' custom' t = impls env custom t := by
  have name := mixedName_local (P := P) (fun w t h => closed _ t h (.schema (b := false) (.getSchema t _)))
    (fun t h => closed _ t h (.schema (b := false) (.withParams t _ _))) hn t ht
  have hs : ∀ e, schemaExpr env' t = e → schemaExpr env t = e → schemaProg env' t = schemaProg env t := by
    intro e h1 h2
    unfold schemaProg
    rw [h1, h2]
    cases e with
    | none => rfl
    | some e => exact ModelExpr.prog_env he e
  cases t with
  | named i =>
    simp only [impls, (hn i ht).1]
    cases hc : custom i with
    | some im => rfl
    | none =>
      have hd := (hn i ht).2 hc
      have h1 := hs (schemaExpr env (.named i)) (by simp only [schemaExpr, hd]) rfl
      have h2 : alwaysInline env' (.named i) = alwaysInline env (.named i) := by simp only [alwaysInline, hd]
      simp only [Option.getD_none, h1, h2, name]
  | _ => simp only [impls, name, hs _ rfl rfl]; rfl

/-- **C91**, in programs with hand written impls: two programs implement `OpgModel` alike for the types that the API leads to, through
whichever methods; they may differ in all other types.  Then the API has the same document in both. -/
theorem c91_impls (w w' : Ty → Impl Ty) (reason : Nat → Option String) (api : Api)
    (same : ∀ t, LedTo w api.roots t → w' t = w t) (d : Opg) : DescribesVia w' reason api d ↔ DescribesVia w reason api d :=
  describesVia_local same (fun _ _ => .step) reason api mentions_led d

/-- **C91**, in programs with hand written impls next to derived ones: it is enough that the named types which the API leads to are
declared alike, or have the same hand written impls. -/
theorem c91_mixed (env env' : Env) (custom custom' : Nat → Option (Impl Ty)) (reason : Nat → Option String) (api : Api)
    (same : ∀ i, LedTo (impls env custom) api.roots (.named i) →
      custom' i = custom i ∧ (custom i = none → env'.decl i = env.decl i))
    (examples : env'.evalExpr = env.evalExpr) (d : Opg) :
    DescribesVia (impls env' custom') reason api d ↔ DescribesVia (impls env custom) reason api d :=
  c91_impls _ _ reason api (fun t ht => impls_local (P := LedTo (impls env custom) api.roots) (fun _ _ => .step) examples same t ht) d

namespace Sample

/-- The program of `sketchDoc`, where the declaration of the type that is documented by hand and all other types are different, one of them
documented by hand as well. -/
def sketchAndMore : Env := ⟨fun i => match i with | 0 => action | _ => struct "Stray" [field "n" (.prim .u32)], fun s => s⟩
def sketchHandAndMore : Nat → Option (Impl Ty)
  | 7 => some { schema := .addModel "Figure" ⟨none, .single ⟨true, .boolean⟩⟩ (.ret str), name := some "Figure" }
  | i => sketchHand i

theorem sketch_led {t} (h : LedTo (impls drawing sketchHand) sketchApi.roots t) : t = .named 0 ∨ t = .named 1 := by
  refine sketch_reached ?_
  induction h with
  | root h => exact .root h
  | step _ hc ih =>
    cases hc with
    | schema h => exact .step ih h
    | withParams hf | select hf => rcases sketch_reached ih with rfl | rfl <;> cases hf

/-- Both programs have the same document. -/
example : sketchAndMore.decl 1 ≠ drawing.decl 1 ∧ sketchHandAndMore 7 ≠ sketchHand 7 ∧
    DescribesVia (impls sketchAndMore sketchHandAndMore) reason sketchApi sketchDoc := by
  refine ⟨fun h => absurd (congrArg Container.ident h) (by decide), nofun, ?_⟩
  refine (c91_mixed drawing sketchAndMore sketchHand sketchHandAndMore reason sketchApi (fun i hi => ?_) rfl sketchDoc).2
    sketchDoc_described
  rcases sketch_led hi with h | h <;> cases h
  · exact ⟨rfl, fun _ => rfl⟩
  · exact ⟨rfl, nofun⟩

end Sample

end Verif
