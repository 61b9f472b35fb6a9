import Verif.Proof.ShuffleGen
import Verif.Proof.Together
import Verif.Proof.Grow
import Verif.Proof.Neutral
import Verif.Proof.OpenApiApi
/-!
# Descriptions of shuffled programs
-/

namespace Verif

mutual
theorem sameRef_refl : ∀ r, SameRef r r
  | .link n => .link
  | .any => .any
  | .inline m => .inline (sameModel_refl m)
theorem sameModel_refl : ∀ m, SameModel m m
  | ⟨_, .single ⟨_, td⟩⟩ => .single (sameDesc_refl td)
  | ⟨_, .oneOf rs⟩ => .oneOf (sameRefs_refl rs)
  | ⟨_, .anyOf rs⟩ => .anyOf (sameRefs_refl rs)
  | ⟨_, .allOf rs⟩ => .allOf (sameRefs_refl rs)
theorem sameDesc_refl : ∀ td, SameDesc td td
  | .string .. => .string
  | .number .. => .number
  | .integer .. => .integer
  | .boolean => .boolean
  | .array r => .array (sameRef_refl r)
  | .object ⟨ps, none, rq⟩ => .object (.refl _) (fun _ => Iff.rfl)
      (fun k r r' h h' => by rw [h] at h'; cases h'; exact sameProps_refl ps k r h) Iff.rfl nofun
  | .object ⟨ps, some a, rq⟩ => .object (.refl _) (fun _ => Iff.rfl)
      (fun k r r' h h' => by rw [h] at h'; cases h'; exact sameProps_refl ps k r h) Iff.rfl
      (fun r r' h h' => by cases h; cases h'; exact sameRef_refl a)
theorem sameRefs_refl : ∀ rs, SameRefs rs rs
  | [] => .nil
  | r :: rs => .cons (pre := []) (sameRef_refl r) rfl (sameRefs_refl rs)
theorem sameProps_refl : ∀ (ps : List (String × Ref)) k r, BMap.get k ps = some r → SameRef r r
  | [], _, _, h => by cases h
  | (k', r') :: ps, k, r, h => by
    rw [BMap.get_cons] at h
    split at h
    · cases h; exact sameRef_refl r'
    · exact sameProps_refl ps k r h
end

variable {env env' : Env}

theorem askTo_turn (hs : env.Shuffled env') (ho : ∀ i, Orderly (env.decl i)) (n : Nat) (reason) (ts : List Ty)
    (hx : ∀ t ∈ ts, Expands env t) : ∃ k, AskTo true SameRef (fun cx cx' => cx.securitySchemes = cx'.securitySchemes) (· ∈ ts) (fun _ => True)
      (⟨env, n, reason⟩ : Ctx) (⟨env', k, reason⟩ : Ctx) := by
  obtain ⟨k, hk⟩ := expands_fuel_all (env := env') ts fun t ht => (hx t ht).turn hs ho
  refine ⟨k, rfl, ?_, fun r _ => sameRef_refl r, ?_, ?_⟩
  · intro t ht cx cx' hc r cx1 hr
    obtain ⟨⟨r', cx1'⟩, hr'⟩ := hk t ht cx'
    have e0 : ask (⟨env', k, reason⟩ : Ctx) t cx' = some (r', cx1') := hr'
    rw [e0]
    refine ⟨mention_turn hs rfl (expands_same hs ho (hx t ht)) ⟨_, _, n, hr⟩ ⟨_, _, k, hr'⟩, ?_⟩
    have e1 := mention_security (env := env) ⟨n, hr⟩
    have e2 := mention_security (env := env') ⟨k, hr'⟩
    show cx1.securitySchemes = cx1'.securitySchemes
    rw [e1, e2, hc]
  · intro m s cx cx' hc a cx1 hx
    simp only [Option.some.injEq] at hx
    have h1 : (cx.mentionSecurityScheme m s).1 = a := by rw [hx]
    have h2 : (cx.mentionSecurityScheme m s).2 = cx1 := by rw [hx]
    subst h1
    subst h2
    have h3 : (cx.mentionSecurityScheme m s).1 = (cx'.mentionSecurityScheme m s).1 := by
      unfold Components.mentionSecurityScheme
      split <;> split <;> rfl
    have h4 : (cx.mentionSecurityScheme m s).2.securitySchemes = (cx'.mentionSecurityScheme m s).2.securitySchemes := by
      unfold Components.mentionSecurityScheme
      rw [hc]
      split
      · exact hc
      · rfl
    exact ⟨h3, h4⟩
  · intro m s cx cx' hc
    show BMap.insert .. = BMap.insert ..
    rw [hc]

/-- The registries of two runs are the same up to order. -/
theorem registry_turn (hs : env.Shuffled env') (ho : ∀ i, Orderly (env.decl i)) {calls : List Call}
    (mentions : ∀ c ∈ calls, c.isMention = true) (unique : NamesUnique env (rootsOf calls)) {rs cx rs' cx'}
    (run : CallsReturn env .empty calls rs cx) (run' : CallsReturn env' .empty calls rs' cx') :
    SameRegistry cx.schemas cx'.schemas := by
  have hx := (tidy_of_run unique mentions run fun _ _ h => h).expands
  have unique' := unique_turn hs ho hx unique
  have spec := registry_spec unique.consistent mentions run
  have spec' := registry_spec unique'.consistent mentions run'
  refine ⟨?_, ?_⟩
  · intro n
    rw [← BMap.get_isSome_iff, ← BMap.get_isSome_iff, Option.isSome_iff_exists, Option.isSome_iff_exists]
    simp only [spec, spec', linked_turn hs ho hx, hs.typeName]
    constructor
    · rintro ⟨m, t, hl, hn, -⟩
      obtain ⟨m', cx1, h⟩ := expands_returns ((hx t (linked_reached hl)).turn hs ho) .empty
      exact ⟨m', t, hl, hn, _, _, h⟩
    · rintro ⟨m, t, hl, hn, -⟩
      obtain ⟨m', cx1, h⟩ := expands_returns (hx t (linked_reached hl)) .empty
      exact ⟨m', t, hl, hn, _, _, h⟩
  · intro n m m' hm hm'
    rw [spec] at hm
    rw [spec'] at hm'
    obtain ⟨t, hl, hn, h⟩ := hm
    obtain ⟨t', hl', hn', h'⟩ := hm'
    rw [linked_turn hs ho hx] at hl'
    rw [hs.typeName] at hn'
    obtain ⟨cx1, cx2, h⟩ := h
    obtain ⟨cx1', cx2', h'⟩ := h'
    rw [← strip_schema, ← unique t t' n hl hl' hn hn', strip_schema] at h'
    exact expands_same hs ho (hx t (linked_reached hl)) m m' ⟨_, _, h⟩ ⟨_, _, h'⟩

end Verif
