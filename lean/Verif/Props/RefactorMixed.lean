import Verif.Proof.MixedSame
import Verif.Proof.Mixed
import Verif.Props.Refactor
import Verif.Props.Grow
import Verif.Props.HandValues
/-!
# C90 and C92 in programs with hand written impls
-/

namespace Verif

/-- **C90**, in programs with hand written impls: if each type without such an impl is the same in both programs, or is derived in both
from items that say the same, then every API has the same document in both. -/
theorem c90_mixed (env env' : Env) (custom : Nat → Option (Impl Ty)) (examples : env'.evalExpr = env.evalExpr)
    (same : ∀ i, custom i = none → env'.decl i = env.decl i ∨
      ∃ o input input', Derived o env i input ∧ Derived o env' i input' ∧ SameItem o input input')
    (reason : Nat → Option String) (api : Api) (d : Opg) :
    DescribesVia (impls env' custom) reason api d ↔ DescribesVia (impls env custom) reason api d := by
  rw [impls_env examples fun i hi => ?_]
  rcases same i hi with h | ⟨o, input, input', ⟨b, h⟩, ⟨b', h'⟩, hs⟩
  · rw [h]; exact ⟨rfl, rfl⟩
  · obtain ⟨h1, h2, -⟩ := c90_same_code o input input' hs _ _ _ _ h h'
    exact ⟨h2, by rw [(derive_code h).2, (derive_code h').2, h1]⟩

/-- **C92**, in programs with hand written impls: an API is described with further paths after its own ones.  Then all schemas of the
smaller document are in the larger one, whatever the impls do. -/
theorem c92_mixed_kept_at_end (w : Ty → Impl Ty) (reason : Nat → Option String) (api api' : Api) (d d' : Opg)
    (h : DescribesVia w reason api d) (h' : DescribesVia w reason api' d') (more : api.pathList <+: api'.pathList)
    (name : String) (m : Model) (hm : BMap.get name d.components.schemas = some m) :
    BMap.get name d'.components.schemas = some m := by
  obtain ⟨n, hn⟩ := h.succ
  obtain ⟨n', hn'⟩ := h'.succ
  obtain ⟨rs, hw, -⟩ := describeApi_went hn
  obtain ⟨rs', hw', -⟩ := describeApi_went hn'
  obtain ⟨sx, h1, e1⟩ := hw.prog rfl
  obtain ⟨sx', h2, e2⟩ := hw'.prog rfl
  obtain ⟨l, hl⟩ := more
  rw [Api.parts, ← hl, pathParts_append, partsProg_append] at h2
  cases h3 : (partsProg (pathParts api.pathList)).exec (implOps w (runProg w n')) .empty with
  | none => rw [h3] at h2; cases h2
  | some x =>
    rw [h3] at h2
    simp only at h2
    cases h4 : (partsProg (pathParts l)).exec (implOps w (runProg w n')) x.2 with
    | none => rw [h4] at h2; cases h2
    | some y =>
      rw [h4] at h2
      cases h2
      have r1 : ProgReturns w (partsProg (pathParts api.pathList)) .empty rs sx := ⟨n + 1, h1⟩
      have r2 : ProgReturns w (partsProg (pathParts api.pathList)) .empty x.1 x.2 := ⟨n' + 1, h3⟩
      have r3 : ProgReturns w (partsProg (pathParts l)) x.2 y.1 y.2 := ⟨n' + 1, h4⟩
      obtain ⟨-, e⟩ := r1.det r2
      obtain ⟨k, r3⟩ := r3
      have kept := runProg_holds kept_inv w k _ _ _ _ _ r3
      rw [← e2]
      refine kept.schemas name m ?_
      rw [← e, e1]
      exact hm

namespace Sample

/-- `Login` next to a type documented by hand. -/
def loginHand : Nat → Option (Impl Ty)
  | 1 => some { schema := .ret str, name := some "Figure" }
  | _ => none
def loginEnv' : Env := program [match containerFromAst oracle loginInput' with
  | some (some c, _) => c
  | _ => decl 1]

/-- A field of `Login` is renamed, and documents remain what they were. -/
example : Derived oracle loginEnv 0 loginInput ∧ Derived oracle loginEnv' 0 loginInput' ∧ loginHand 0 = none ∧ ∀ reason api d,
    DescribesVia (impls loginEnv' loginHand) reason api d ↔ DescribesVia (impls loginEnv loginHand) reason api d := by
  have hd : Derived oracle loginEnv' 0 loginInput' := ⟨_, rfl⟩
  refine ⟨loginEnv_derived, hd, rfl, c90_mixed loginEnv loginEnv' loginHand rfl fun i hi => ?_⟩
  cases i with
  | zero =>
    obtain ⟨b, h⟩ := loginEnv_derived
    exact .inr ⟨oracle, loginInput, loginInput', ⟨b, h⟩, hd, (itemRenamed_same login_renamed h).1⟩
  | succ i => exact .inl rfl

/-- The same description with a path more: the impl of the further type registers a schema under a name that is used already. -/
example : ∃ d', DescribesVia (impls env (herdHand true)) reason (herdApi ++ [.paths [petPath]]) d' ∧
    ∀ name m, BMap.get name (herdDoc true).components.schemas = some m → BMap.get name d'.components.schemas = some m :=
  ⟨(describeApi (⟨impls env (herdHand true), 10, reason⟩ : MixedCtx) (herdApi ++ [.paths [petPath]])).getD .empty, ⟨10, rfl⟩,
    c92_mixed_kept_at_end _ reason herdApi (herdApi ++ [.paths [petPath]]) _ _ (herdDoc_described true) ⟨10, rfl⟩ ⟨[petPath], rfl⟩⟩

end Sample

end Verif
