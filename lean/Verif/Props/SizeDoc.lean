import Verif.Proof.SizeDoc
import Verif.Props.Size
import Verif.Props.Api
import Verif.Spec.Published
/-!
# C97: how large whole documents are
-/

namespace Verif

theorem member_asked {t : Ty} {ts : List Ty} (h : t ∈ ts) :
    (t, true) ∈ RefExpr.askedList (ts.map fun t => (.mention t false {} : RefExpr Ty)) := by
  induction ts with
  | nil => cases h
  | cons u ts ih =>
    simp only [List.map_cons, RefExpr.askedList, RefExpr.asked, List.mem_append]
    rcases List.mem_cons.1 h with rfl | h
    · exact .inl (by simp)
    · exact .inr (ih h)

mutual
theorem copied_reached {env : Env} {roots : List (Ty × Bool)} : ∀ {t : Ty} {i : Nat}, Reached env roots t → i ∈ t.copied env →
    Reached env roots (.named i)
  | .wrap w t, i, h, hi => copied_reached (t := t) (h.step (b := false) ⟨_, rfl, by simp [ModelExpr.asked]⟩) hi
  | .option t, i, h, hi => copied_reached (t := t) (h.step (b := false) ⟨_, rfl, by simp [ModelExpr.asked]⟩) hi
  | .tuple ts, i, h, hi => copiedMembers_reached (ts := ts)
      (fun t ht => h.step (b := true) ⟨_, rfl, by
        simp only [ModelExpr.asked, TypeExpr.asked, RefExpr.asked]
        exact member_asked ht⟩) hi
  | .seq k t, i, h, hi => by
    simp only [Ty.copied] at hi
    split at hi
    · cases hi
    · exact copied_reached (t := t) (h.step (b := true) ⟨_, rfl, by simp [ModelExpr.asked, TypeExpr.asked, RefExpr.asked]⟩) hi
  | .dict k t, i, h, hi => by
    simp only [Ty.copied] at hi
    split at hi
    · cases hi
    · exact copied_reached (t := t) (h.step (b := true) ⟨_, rfl, by simp [ModelExpr.asked, TypeExpr.asked, RefExpr.asked]⟩) hi
  | .named j, i, h, hi => by
    simp only [Ty.copied, List.mem_singleton] at hi
    rw [hi]; exact h
  | .prim _, _, _, hi | .unit, _, _, hi | .uuid, _, _, hi | .naiveDateTime, _, _, hi | .dateTime, _, _, hi
  | .naiveDate, _, _, hi => by simp [Ty.copied] at hi
theorem copiedMembers_reached {env : Env} {roots : List (Ty × Bool)} : ∀ {ts : List Ty} {i : Nat},
    (∀ t ∈ ts, Reached env roots t) → i ∈ copiedMembers env ts → Reached env roots (.named i)
  | [], i, h, hi => by simp [copiedMembers] at hi
  | t :: ts, i, h, hi => by
    simp only [copiedMembers, List.mem_append] at hi
    rcases hi with hi | hi
    · split at hi
      · cases hi
      · exact copied_reached (t := t) (h t List.mem_cons_self) hi
    · exact copiedMembers_reached (ts := ts) (fun t ht => h t (List.mem_cons_of_mem _ ht)) hi
end

/-- **C97**, the account for documents: a written document has no more than thirty nodes for each node of the description,
and besides them those of the schemas at the places where types are mentioned, and those of the components.  A type that
is mentioned has at most forty nodes for each node of the type, besides what is copied for it. -/
theorem c97_document_account (env : Env) (S : Nat → Nat) (sizes : ∀ j m, HasSchema env (.named j) m → m.ser.nodes ≤ S j)
    (reason : Nat → Option String) (api : Api) (d : Opg) (h : Describes env reason api d) :
    d.ser.nodes ≤ 30 * (1 + api.nodes) + total (Part.weight fun t => 40 * t.nodes + total S (t.placed env)) api.parts +
      total (fun b : String × Model => 1 + b.2.ser.nodes) d.components.schemas := by
  obtain ⟨fuel, h⟩ := h
  exact describe_size (bounded_ctx sizes fuel reason) h

theorem total_le {α : Type} {f g : α → Nat} {l : List α} (h : ∀ a ∈ l, f a ≤ g a) : total f l ≤ total g l := by
  induction l with
  | nil => exact Nat.le_refl _
  | cons a l ih =>
    have h1 := h a List.mem_cons_self
    have h2 := ih fun a ha => h a (List.mem_cons_of_mem _ ha)
    simp only [total]
    omega

theorem total_mul {α : Type} (k : Nat) (f : α → Nat) (l : List α) : total (fun a => k * f a) l = k * total f l := by
  induction l with
  | nil => rfl
  | cons a l ih => simp only [total, ih, Nat.mul_add]

theorem Env.nodes_total (env : Env) (l : List Nat) : env.nodes l = total (fun i => (env.decl i).nodes) l := by
  induction l with
  | nil => rfl
  | cons i l ih => simp only [Env.nodes, total, ih]

/-- **C97**, for whole documents: a written document is larger than the description, what it mentions and the program by no
more than a constant factor each.  What is mentioned is counted at each mention, the program once.  `l` lists the
declarations of the program.  Missing: copies in declarations. -/
theorem c97_document_partial (env : Env) (reason : Nat → Option String) (api : Api) (d : Opg) (h : Describes env reason api d)
    (l : List Nat) (all : ∀ i, Reached env api.roots (.named i) → i ∈ l) (noCopies : ∀ i ∈ l, (env.decl i).copied env = []) :
    d.ser.nodes ≤ 30 * (1 + api.nodes) + 40 * total (Part.nodes env) api.parts + 43 * env.nodes l := by
  obtain ⟨S, hS⟩ := sizes_exist env
  have hS' : ∀ j m, HasSchema env (.named j) m → m.ser.nodes ≤ S j := fun j m hm => Nat.le_of_eq (hS j m hm)
  classical
  let T : Nat → Nat := fun j => if ∃ m, HasSchema env (.named j) m then S j else 0
  have hT : ∀ j m, HasSchema env (.named j) m → m.ser.nodes ≤ T j := fun j m hm => by
    have e : (∃ m, HasSchema env (.named j) m) := ⟨m, hm⟩
    simp only [T, if_pos e]
    exact hS' j m hm
  have hl : ∀ j ∈ l, T j ≤ 40 * (env.decl j).nodes := fun j hj => by
    by_cases e : ∃ m, HasSchema env (.named j) m
    · obtain ⟨m, hm⟩ := e
      have a := c97_account env T hT j m hm
      rw [noCopies j hj] at a
      have e : (∃ m, HasSchema env (.named j) m) := ⟨m, hm⟩
      simp only [total] at a
      show (if _ then S j else 0) ≤ _
      rw [if_pos e, ← hS j m hm]
      exact a
    · show (if _ then S j else 0) ≤ _
      rw [if_neg e]
      exact Nat.zero_le _
  have a := c97_document_account env T hT reason api d h
  have b : total (Part.weight fun t => 40 * t.nodes + total T (t.placed env)) api.parts ≤ 40 * total (Part.nodes env) api.parts := by
    rw [← total_mul]
    refine total_le fun p hp => ?_
    cases p with
    | mention t =>
      have hr : Reached env api.roots t := .root (b := true) (by
        unfold Api.roots
        rw [rootsOf_mentions]
        exact List.mem_map.2 ⟨t, List.mem_filterMap.2 ⟨_, hp, rfl⟩, rfl⟩)
      have : total T (t.placed env) ≤ 40 * env.nodes (t.placed env) := by
        rw [Env.nodes_total, ← total_mul]
        refine total_le fun i hi => hl i (all i ?_)
        unfold Ty.placed at hi
        split at hi
        · cases hi
        · exact copied_reached hr hi
      simp only [Part.weight, Part.nodes]
      omega
    | raw r => simp only [Part.weight, Part.nodes]; omega
    | scheme n s => exact Nat.zero_le _
    | literal n => exact Nat.zero_le _
  obtain ⟨rs, sx, run, es, -⟩ := h.registry
  have e : total (fun b : String × Model => 1 + b.2.ser.nodes) d.components.schemas ≤ 43 * env.nodes l := by
    rw [← es]
    refine total_by_names env 43 _ sx.schemas l ?_ ?_
    · exact BMap.nodup_keys (callsReturn_sorted run (by simp [Components.empty, BMap.Sorted]))
    · rintro ⟨name, m⟩ hb
      obtain ⟨i, hr, hi, hs⟩ := c97_components_partial env _ rs sx (callsOf_mentions _) run (fun i hr => noCopies i (all i hr)) name m hb
      have := (env.decl i).nodes_pos
      exact ⟨i, all i hr, hi, by simp only; omega⟩
  omega

namespace Sample

theorem api_mentions : api.roots = [(.prim .u32, true), (.prim .string, true), (.prim .u32, true), (.prim .u32, true),
    (.named 3, true), (.named 0, true), (.named 1, true), (.prim .u32, true)] := by
  simp [Api.roots, Api.parts, Api.pathList, api, usersPath, getOp, callbackPath, Section.pathList, pathParts, itemParts, opParts,
    callbackParts, ParamDecl.parts, ParamProp.parts, PathSeg.parts, BodyDecl.parts, ResponseDecl.parts, SecurityDecl.parts,
    callsOf, Part.call?, rootsOf]
  rfl

/-- The sample description has 55 nodes, what it mentions 8 and the declarations 18; its document has 249. -/
example : Describes env reason api apiDoc ∧ apiDoc.ser.nodes = 249 ∧ api.nodes = 55 ∧ total (Part.nodes env) api.parts = 8 ∧
    env.nodes [0, 1, 3] = 18 ∧ apiDoc.ser.nodes ≤ 30 * (1 + api.nodes) + 40 * total (Part.nodes env) api.parts + 43 * env.nodes [0, 1, 3] := by
  refine ⟨api_described, by decide +kernel, by decide +kernel, by decide +kernel, by rfl, ?_⟩
  refine c97_document_partial env reason api apiDoc api_described [0, 1, 3] (fun i h => ?_) (by decide +kernel)
  rw [api_mentions] at h
  have := h.mem_closed (l := [.named 3, .named 0, .seq .vec (.named 1), .named 1, .prim .u32, .option (.named 1),
    .seq .vec (.prim .string), .prim .string]) (by decide +kernel)
  simp only [List.mem_cons, List.mem_nil_iff, or_false, Ty.named.injEq, reduceCtorEq, false_or] at this ⊢
  omega

end Sample

end Verif
