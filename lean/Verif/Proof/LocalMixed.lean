import Verif.Spec.LocalMixed
import Verif.Proof.Custom
import Verif.Proof.Same
import Verif.Proof.Mixed
/-!
# Types that impls lead to: proofs
-/

namespace Verif

variable {τ α : Type}

/-- Code that calls impls of some types only runs alike where these do. -/
theorem exec_local {S : τ → Prop} {o o' : Ops τ}
    (h : ∀ t, S t → o'.getSchema t = o.getSchema t ∧ o'.withParams t = o.withParams t ∧ o'.mention t = o.mention t ∧ o'.select t = o.select t) :
    ∀ (p : Prog τ α), (∀ t b, p.Calls t b → S t) → ∀ cx, p.exec o' cx = p.exec o cx
  | .ret _, _, _ => rfl
  | .getSchema t k, hp, cx => by
    rw [Prog.exec, Prog.exec, (h t (hp _ _ (.getSchema t k))).1]
    cases o.getSchema t cx with
    | none => rfl
    | some x => exact exec_local h (k x.1) (fun t b hc => hp t b (.afterGetSchema hc)) _
  | .withParams t p k, hp, cx => by
    rw [Prog.exec, Prog.exec, (h t (hp _ _ (.withParams t p k))).2.1]
    cases o.withParams t p cx with
    | none => rfl
    | some x => exact exec_local h (k x.1) (fun t b hc => hp t b (.afterWithParams hc)) _
  | .mention t i p k, hp, cx => by
    rw [Prog.exec, Prog.exec, (h t (hp _ _ (.mention t i p k))).2.2.1]
    cases o.mention t i p cx with
    | none => rfl
    | some x => exact exec_local h (k x.1) (fun t b hc => hp t b (.afterMention hc)) _
  | .select t i p k, hp, cx => by
    rw [Prog.exec, Prog.exec, (h t (hp _ _ (.select t i p k))).2.2.2]
    cases o.select t i p cx with
    | none => rfl
    | some x => exact exec_local h (k x.1) (fun t b hc => hp t b (.afterSelect hc)) _
  | .contains n k, hp, cx => exec_local h (k _) (fun t b hc => hp t b (.afterContains hc)) _
  | .verify k, hp, cx => exec_local h (k _) (fun t b hc => hp t b (.afterVerify hc)) _
  | .addModel n m next, hp, cx => exec_local h next (fun t b hc => hp t b (.afterAddModel hc)) _
  | .security n s next, hp, cx => exec_local h next (fun t b hc => hp t b (.afterSecurity hc)) _

/-- Impls that are the same on types which lead only to each other run alike. -/
theorem runProg_local {S : τ → Prop} {w w' : τ → Impl τ} (same : ∀ t, S t → w' t = w t)
    (closed : ∀ t t', S t → (w t).MayCall t' → S t') :
    ∀ (n : Nat) (α : Type) (p : Prog τ α), (∀ t b, p.Calls t b → S t) → ∀ cx, runProg w' n α p cx = runProg w n α p cx
  | 0, _, _, _, _ => rfl
  | n + 1, α, p, hp, cx => by
    have ih := runProg_local same closed n
    refine exec_local (fun t ht => ?_) p hp cx
    have hs : runProg w' n Model (w t).schema = runProg w n Model (w t).schema :=
      funext fun cx => ih _ _ (fun t' b hc => closed t t' ht (.schema hc)) cx
    have hsel : (w' t).runSelect (runProg w' n) = (w t).runSelect (runProg w n) := by
      rw [same t ht]
      funext i p cx
      unfold Impl.runSelect
      rw [hs]
      cases hf : (w t).select with
      | default => rfl
      | inlined => rfl
      | custom f => exact ih _ _ (fun t' b hc => closed t t' ht (.select hf hc)) cx
    refine ⟨?_, ?_, ?_, ?_⟩
    · simp only [implOps, same t ht, hs]
    · simp only [implOps, same t ht]
      funext p
      unfold Impl.runWithParams
      cases hf : (w t).withParams with
      | none => simp only [hs]
      | some f => exact funext fun cx => ih _ _ (fun t' b hc => closed t t' ht (.withParams hf hc)) cx
    · funext i p
      simp only [implOps, hsel]
      rw [same t ht, hs]
    · simp only [implOps, hsel]

theorem askAlike_local {S : Ty → Prop} {w w' : Ty → Impl Ty} (same : ∀ t, S t → w' t = w t)
    (closed : ∀ t t', S t → (w t).MayCall t' → S t') (fuel reason) :
    AskAlike true Eq S (⟨w, fuel, reason⟩ : MixedCtx) (⟨w', fuel, reason⟩ : MixedCtx) where
  reason := rfl
  ask t ht := by
    rintro cx cx' rfl a cx1 hx
    have : ask (⟨w', fuel, reason⟩ : MixedCtx) t cx = ask (⟨w, fuel, reason⟩ : MixedCtx) t cx :=
      runProg_local same closed fuel _ _ (fun u b hc => by
        cases hc with
        | mention => exact ht
        | afterMention hc => cases hc) cx
    rw [this, hx]
    exact ⟨rfl, rfl⟩
  scheme n s := by
    rintro cx cx' rfl a cx1 hx
    simp only [Option.some.injEq] at hx
    simp [hx]
  insert n s := by rintro cx cx' rfl; rfl

theorem describesVia_local {S : Ty → Prop} {w w' : Ty → Impl Ty} (same : ∀ t, S t → w' t = w t)
    (closed : ∀ t t', S t → (w t).MayCall t' → S t') (reason) (api : Api) (hm : MentionsIn S api.parts) (d : Opg) :
    DescribesVia w' reason api d ↔ DescribesVia w reason api d := by
  have closed' : ∀ t t', S t → (w' t).MayCall t' → S t' := fun t t' ht => by rw [same t ht]; exact closed t t' ht
  constructor
  · rintro ⟨n, hd⟩
    exact ⟨n, describeApi_same (askAlike_local (fun t ht => (same t ht).symm) closed' n reason) api hm hd⟩
  · rintro ⟨n, hd⟩
    exact ⟨n, describeApi_same (askAlike_local same closed n reason) api hm hd⟩

end Verif
