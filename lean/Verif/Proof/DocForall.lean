import Verif.Spec.Docs
/-!
# `Forall` over documents
-/

namespace Verif

/-- `R` follows from `P` and `Q`, part by part. -/
structure DocPred.Imp (P Q R : DocPred) : Prop where
  op : ∀ o, P.op o → Q.op o → R.op o
  item : ∀ v, P.item v → Q.item v → R.item v
  paths : ∀ ps, P.paths ps → Q.paths ps → R.paths ps

variable {P Q R : DocPred}

mutual
theorem PathValue.forall_imp (i : DocPred.Imp P Q R) : ∀ (v : PathValue), v.Forall P → v.Forall Q → v.Forall R
  | ⟨s, d, ops, ps⟩, h, h' => by
    rw [PathValue.Forall] at h h' ⊢
    exact ⟨i.item _ h.1 h'.1, forallOps_imp i ops h.2 h'.2⟩
termination_by structural x => x

theorem Operation.forall_imp (i : DocPred.Imp P Q R) : ∀ (o : Operation), o.Forall P → o.Forall Q → o.Forall R
  | ⟨tags, summary, id, desc, depr, sec, body, resp, params, callbacks⟩, h, h' => by
    rw [Operation.Forall] at h h' ⊢
    exact ⟨i.op _ h.1 h'.1, forallCallbacks_imp i callbacks h.2 h'.2⟩
termination_by structural x => x

theorem CallbackObject.forall_imp (i : DocPred.Imp P Q R) : ∀ (c : CallbackObject), c.Forall P → c.Forall Q → c.Forall R
  | ⟨ps⟩, h, h' => by
    rw [CallbackObject.Forall] at h h' ⊢
    exact ⟨i.paths _ h.1 h'.1, forallPaths_imp i ps h.2 h'.2⟩
termination_by structural x => x

theorem forallPaths_imp (i : DocPred.Imp P Q R) : ∀ (ps : List (UrlPath × PathValue)), forallPaths P ps →
    forallPaths Q ps → forallPaths R ps
  | [], _, _ => by simp [forallPaths]
  | (p, v) :: ps, h, h' => by
    rw [forallPaths] at h h' ⊢
    exact ⟨PathValue.forall_imp i v h.1 h'.1, forallPaths_imp i ps h.2 h'.2⟩
termination_by structural x => x

theorem forallOps_imp (i : DocPred.Imp P Q R) : ∀ (os : List (HttpMethod × Operation)), forallOps P os →
    forallOps Q os → forallOps R os
  | [], _, _ => by simp [forallOps]
  | (m, o) :: os, h, h' => by
    rw [forallOps] at h h' ⊢
    exact ⟨Operation.forall_imp i o h.1 h'.1, forallOps_imp i os h.2 h'.2⟩
termination_by structural x => x

theorem forallCallbacks_imp (i : DocPred.Imp P Q R) : ∀ (cs : List (String × CallbackObject)), forallCallbacks P cs →
    forallCallbacks Q cs → forallCallbacks R cs
  | [], _, _ => by simp [forallCallbacks]
  | (k, c) :: cs, h, h' => by
    rw [forallCallbacks] at h h' ⊢
    exact ⟨CallbackObject.forall_imp i c h.1 h'.1, forallCallbacks_imp i cs h.2 h'.2⟩
termination_by structural x => x
end

theorem Opg.forall_imp (i : DocPred.Imp P Q R) (d : Opg) (h : d.Forall P) (h' : d.Forall Q) : d.Forall R :=
  ⟨i.paths _ h.1 h'.1, forallPaths_imp i _ h.2 h'.2⟩

theorem forallPaths_iff (ps : List (UrlPath × PathValue)) : forallPaths P ps ↔ ∀ p ∈ ps, p.2.Forall P := by
  induction ps with
  | nil => simp [forallPaths]
  | cons p ps ih => obtain ⟨p, v⟩ := p; simp [forallPaths, ih]

theorem forallOps_iff (os : List (HttpMethod × Operation)) : forallOps P os ↔ ∀ o ∈ os, o.2.Forall P := by
  induction os with
  | nil => simp [forallOps]
  | cons o os ih => obtain ⟨m, o⟩ := o; simp [forallOps, ih]

theorem forallCallbacks_iff (cs : List (String × CallbackObject)) : forallCallbacks P cs ↔ ∀ c ∈ cs, c.2.Forall P := by
  induction cs with
  | nil => simp [forallCallbacks]
  | cons c cs ih => obtain ⟨k, c⟩ := c; simp [forallCallbacks, ih]

/-- A predicate that always holds. -/
structure DocPred.Always (P : DocPred) : Prop where
  op : ∀ o, P.op o
  item : ∀ v, P.item v
  paths : ∀ ps, P.paths ps

mutual
theorem PathValue.forall_always (i : P.Always) : ∀ (v : PathValue), v.Forall P
  | ⟨s, d, ops, ps⟩ => by rw [PathValue.Forall]; exact ⟨i.item _, forallOps_always i ops⟩
termination_by structural x => x
theorem Operation.forall_always (i : P.Always) : ∀ (o : Operation), o.Forall P
  | ⟨tags, summary, id, desc, depr, sec, body, resp, params, callbacks⟩ => by
    rw [Operation.Forall]; exact ⟨i.op _, forallCallbacks_always i callbacks⟩
termination_by structural x => x
theorem CallbackObject.forall_always (i : P.Always) : ∀ (c : CallbackObject), c.Forall P
  | ⟨ps⟩ => by rw [CallbackObject.Forall]; exact ⟨i.paths _, forallPaths_always i ps⟩
termination_by structural x => x
theorem forallPaths_always (i : P.Always) : ∀ (ps : List (UrlPath × PathValue)), forallPaths P ps
  | [] => by simp [forallPaths]
  | (p, v) :: ps => by rw [forallPaths]; exact ⟨PathValue.forall_always i v, forallPaths_always i ps⟩
termination_by structural x => x
theorem forallOps_always (i : P.Always) : ∀ (os : List (HttpMethod × Operation)), forallOps P os
  | [] => by simp [forallOps]
  | (m, o) :: os => by rw [forallOps]; exact ⟨Operation.forall_always i o, forallOps_always i os⟩
termination_by structural x => x
theorem forallCallbacks_always (i : P.Always) : ∀ (cs : List (String × CallbackObject)), forallCallbacks P cs
  | [] => by simp [forallCallbacks]
  | (k, c) :: cs => by rw [forallCallbacks]; exact ⟨CallbackObject.forall_always i c, forallCallbacks_always i cs⟩
termination_by structural x => x
end

theorem Opg.forall_always (i : P.Always) (d : Opg) : d.Forall P := ⟨i.paths _, forallPaths_always i _⟩

end Verif
