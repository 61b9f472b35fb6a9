import Verif.Proof.Api
/-!
# Running descriptions: paths and operations
-/

namespace Verif

theorem Operation.forall_iff {D : DocPred} (o : Operation) : o.Forall D ↔ D.op o ∧ forallCallbacks D o.callbacks := by
  cases o; rw [Operation.Forall]

theorem PathValue.forall_iff {D : DocPred} (v : PathValue) : v.Forall D ↔ D.item v ∧ forallOps D v.operations := by
  cases v; rw [PathValue.Forall]

theorem mem_opRefs {o : Operation} {r : Ref} : r ∈ o.refs ↔
    (∃ b, o.requestBody = some b ∧ b.schema = r) ∨ (∃ x ∈ o.responses, x.2.schema = some r) ∨
    (r ∈ o.parameters.flatMap fun p => p.2.schema.toList) := by
  simp only [Operation.refs, List.mem_append, List.mem_map, Option.mem_toList, List.mem_flatMap, or_assoc]

variable {P : Ref → Prop} {S : String → Prop}

/-- `docAll` of an operation in terms of its fields. -/
theorem docAll_op (o : Operation) : o.Forall (docAll P S) ↔
    (BMap.Sorted o.responses ∧ ∀ x ∈ o.responses, ∀ r, x.2.schema = some r → P r) ∧ ParamsAll P o.parameters ∧
    (BMap.Sorted o.callbacks ∧ forallCallbacks (docAll P S) o.callbacks) ∧ (∀ b, o.requestBody = some b → P b.schema) ∧
    ∀ m ∈ o.security, BMap.Sorted m ∧ ∀ b ∈ m, S b.1 := by
  rw [Operation.forall_iff]
  simp only [docAll, mem_opRefs]
  constructor
  · rintro ⟨⟨⟨h1, h2, h3⟩, h4, h5⟩, h6⟩
    exact ⟨⟨h1, fun x hx r hr => h4 r (.inr (.inl ⟨x, hx, hr⟩))⟩, ⟨h2, fun r hr => h4 r (.inr (.inr hr))⟩, ⟨h3, h6⟩,
      fun b hb => h4 _ (.inl ⟨b, hb, rfl⟩), h5⟩
  · rintro ⟨⟨h1, h4⟩, ⟨h2, h4'⟩, ⟨h3, h6⟩, h7, h5⟩
    refine ⟨⟨⟨h1, h2, h3⟩, ?_, h5⟩, h6⟩
    rintro r (⟨b, hb, rfl⟩ | ⟨x, hx, hr⟩ | hr)
    · exact h7 b hb
    · exact h4 x hx r hr
    · exact h4' r hr

theorem docAll_item (v : PathValue) : v.Forall (docAll P S) ↔
    (BMap.Sorted v.operations ∧ forallOps (docAll P S) v.operations) ∧ ParamsAll P v.parameters := by
  rw [PathValue.forall_iff]
  simp only [docAll, PathValue.refs, ParamsAll]
  constructor
  · rintro ⟨⟨⟨h1, h2⟩, h3⟩, h4⟩; exact ⟨⟨h1, h4⟩, h2, h3⟩
  · rintro ⟨⟨h1, h4⟩, h2, h3⟩; exact ⟨⟨⟨h1, h2⟩, h3⟩, h4⟩

theorem docAll_emptyOp : Operation.empty.Forall (docAll P S) := by
  rw [docAll_op]
  simp [Operation.empty, BMap.Sorted, ParamsAll, forallCallbacks]

variable {κ : Type} [Mentioner κ] {c : κ}

/-- Results of evaluating a piece of description. -/
def Makes (c : κ) (parts : List Part) (cx cx' : Components) (Q : (Ref → Prop) → (String → Prop) → Prop) : Prop :=
  ∃ rs, Ran c parts rs cx cx' ∧ ∀ P S, Givens P S parts rs → Q P S

theorem Makes.next {ps qs cx cx1 cx2} {Q R : (Ref → Prop) → (String → Prop) → Prop}
    (h : Makes c ps cx cx1 Q) (h' : Makes c qs cx1 cx2 R) : Makes c (ps ++ qs) cx cx2 fun P S => Q P S ∧ R P S := by
  obtain ⟨rs, hr, hp⟩ := h
  obtain ⟨rs', hr', hp'⟩ := h'
  exact ⟨rs ++ rs', hr.append hr', fun P S g => ⟨hp P S g.left, hp' P S g.right⟩⟩

theorem Makes.imp {ps cx cx1} {Q R : (Ref → Prop) → (String → Prop) → Prop}
    (h : Makes c ps cx cx1 Q) (i : ∀ P S, Q P S → R P S) : Makes c ps cx cx1 R := by
  obtain ⟨rs, hr, hp⟩ := h
  exact ⟨rs, hr, fun P S g => i P S (hp P S g)⟩

theorem Makes.nil {cx} {Q : (Ref → Prop) → (String → Prop) → Prop} (h : ∀ P S, Q P S) : Makes c [] cx cx Q :=
  ⟨[], .nil _, fun P S _ => h P S⟩

mutual
theorem runOpProps_makes : ∀ (ps : List OpProp) {o cx o' cx'}, runOpProps c ps o cx = some (o', cx') →
    Makes c (opParts ps) cx cx' fun P S => o.Forall (docAll P S) → o'.Forall (docAll P S)
  | [], o, cx, o', cx', h => by
    simp only [runOpProps, act_pure] at h
    obtain ⟨rfl, rfl⟩ := h
    rw [opParts]
    exact .nil fun _ _ h => h
  | .summary s :: ps, o, cx, o', cx', h => by
    rw [runOpProps] at h
    rw [opParts]
    refine (runOpProps_makes ps h).imp fun P S hq ho => hq ?_
    rw [docAll_op] at ho ⊢; exact ho
  | .operationId s :: ps, o, cx, o', cx', h => by
    rw [runOpProps] at h
    rw [opParts]
    refine (runOpProps_makes ps h).imp fun P S hq ho => hq ?_
    rw [docAll_op] at ho ⊢; exact ho
  | .description s :: ps, o, cx, o', cx', h => by
    rw [runOpProps] at h
    rw [opParts]
    refine (runOpProps_makes ps h).imp fun P S hq ho => hq ?_
    rw [docAll_op] at ho ⊢; exact ho
  | .deprecated s :: ps, o, cx, o', cx', h => by
    rw [runOpProps] at h
    rw [opParts]
    refine (runOpProps_makes ps h).imp fun P S hq ho => hq ?_
    rw [docAll_op] at ho ⊢; exact ho
  | .tags ts :: ps, o, cx, o', cx', h => by
    rw [runOpProps] at h
    rw [opParts]
    refine (runOpProps_makes ps h).imp fun P S hq ho => hq ?_
    rw [docAll_op] at ho ⊢; exact ho
  | .parameters ds :: ps, o, cx, o', cx', h => by
    simp only [runOpProps, act_bind] at h
    obtain ⟨m, cx1, h1, h⟩ := h
    rw [opParts]
    refine (Makes.next (runParameters_ran ds h1) (runOpProps_makes ps h)).imp fun P S hq ho => hq.2 ?_
    rw [docAll_op] at ho ⊢
    exact ⟨ho.1, hq.1 ho.2.1, ho.2.2⟩
  | .callbacks cs :: ps, o, cx, o', cx', h => by
    simp only [runOpProps, act_bind] at h
    obtain ⟨m, cx1, h1, h⟩ := h
    rw [opParts]
    refine (Makes.next (runCallbacks_makes cs h1) (runOpProps_makes ps h)).imp fun P S hq ho => hq.2 ?_
    rw [docAll_op] at ho ⊢
    exact ⟨ho.1, ho.2.1, hq.1 ho.2.2.1, ho.2.2.2⟩
  | .security alts :: ps, o, cx, o', cx', h => by
    simp only [runOpProps, act_bind] at h
    obtain ⟨m, cx1, h1, h⟩ := h
    rw [opParts]
    have h1' := runSecurity_ran (c := c) alts h1
    have hm : Makes c (alts.flatMap fun alt => alt.flatMap SecurityDecl.parts) cx cx1
        (fun P S => ∀ x ∈ m, BMap.Sorted x ∧ ∀ b ∈ x, S b.1) := ⟨[], h1'.1, fun P S g => h1'.2 P S [] g⟩
    refine (Makes.next hm (runOpProps_makes ps h)).imp fun P S hq ho => hq.2 ?_
    rw [docAll_op] at ho ⊢
    refine ⟨ho.1, ho.2.1, ho.2.2.1, ho.2.2.2.1, ?_⟩
    intro x hx
    rcases List.mem_append.1 hx with hx | hx
    · exact ho.2.2.2.2 x hx
    · exact hq.1 x hx
  | .body b :: ps, o, cx, o', cx', h => by
    simp only [runOpProps, act_bind] at h
    obtain ⟨m, cx1, h1, h⟩ := h
    rw [opParts]
    refine (Makes.next (b.run_ran h1) (runOpProps_makes ps h)).imp fun P S hq ho => hq.2 ?_
    rw [docAll_op] at ho ⊢
    refine ⟨ho.1, ho.2.1, ho.2.2.1, ?_, ho.2.2.2.2⟩
    intro x hx
    cases hx
    exact hq.1
  | .response code d s :: ps, o, cx, o', cx', h => by
    simp only [runOpProps, act_bind] at h
    obtain ⟨m, cx1, h1, h⟩ := h
    rw [opParts]
    refine (Makes.next (runResponse_ran h1) (runOpProps_makes ps h)).imp fun P S hq ho => hq.2 ?_
    rw [docAll_op] at ho ⊢
    refine ⟨⟨BMap.sorted_insert ho.1.1, ?_⟩, ho.2⟩
    intro x hx r hr
    rcases BMap.mem_insert_sub hx with rfl | hx
    · exact hq.1 r hr
    · exact ho.1.2 x hx r hr
termination_by structural x => x
theorem runCallbacks_makes : ∀ (cs : List CallbackDecl) {m cx m' cx'}, runCallbacks c cs m cx = some (m', cx') →
    Makes c (callbackParts cs) cx cx' fun P S => (BMap.Sorted m ∧ forallCallbacks (docAll P S) m) →
      BMap.Sorted m' ∧ forallCallbacks (docAll P S) m'
  | [], m, cx, m', cx', h => by
    simp only [runCallbacks, act_pure] at h
    obtain ⟨rfl, rfl⟩ := h
    rw [callbackParts]
    exact .nil fun _ _ h => h
  | .literal name ps :: cs, m, cx, m', cx', h => by
    rw [runCallbacks] at h
    cases cs with
    | nil =>
      simp only [List.isEmpty_nil, if_true, act_pure] at h
      obtain ⟨rfl, rfl⟩ := h
      rw [callbackParts, callbackParts]
      refine .nil fun P S h => ⟨BMap.sorted_insert h.1, ?_⟩
      rw [forallCallbacks_iff] at h ⊢
      intro b hb
      rcases BMap.mem_insert_sub hb with rfl | hb
      · rw [CallbackObject.Forall]
        exact ⟨trivial, by simp [forallPaths]⟩
      · exact h.2 b hb
    | cons d cs => simp at h
  | .ident name ps :: cs, m, cx, m', cx', h => by
    simp only [runCallbacks, act_bind] at h
    obtain ⟨items, cx1, h1, h⟩ := h
    rw [callbackParts]
    refine (Makes.next (runPaths_makes ps h1) (runCallbacks_makes cs h)).imp fun P S hq hm => hq.2 ⟨BMap.sorted_insert hm.1, ?_⟩
    have hm2 := hm.2
    rw [forallCallbacks_iff] at hm2 ⊢
    intro b hb
    rcases BMap.mem_insert_sub hb with rfl | hb
    · rw [CallbackObject.Forall]
      exact ⟨trivial, hq.1⟩
    · exact hm2 b hb
termination_by structural x => x
theorem runPaths_makes : ∀ (ds : List PathDecl) {cx ps cx'}, runPaths c ds cx = some (ps, cx') →
    Makes c (pathParts ds) cx cx' fun P S => forallPaths (docAll P S) ps
  | [], cx, ps, cx', h => by
    simp only [runPaths, act_pure] at h
    obtain ⟨rfl, rfl⟩ := h
    rw [pathParts]
    exact .nil fun _ _ => by simp [forallPaths]
  | d :: ds, cx, ps, cx', h => by
    simp only [runPaths, act_bind, act_pure] at h
    obtain ⟨⟨p, v⟩, cx1, h1, ps', cx2, h2, rfl, rfl⟩ := h
    have := Makes.next (d.run_makes h1) (runPaths_makes ds h2)
    obtain ⟨segs, props⟩ := d
    rw [pathParts]
    refine this.imp fun P S hq => ?_
    rw [forallPaths]
    exact hq
termination_by structural x => x
theorem PathDecl.run_makes : ∀ (d : PathDecl) {cx x cx'}, d.run c cx = some (x, cx') →
    Makes c (d.segments.flatMap PathSeg.parts ++ itemParts d.props) cx cx' fun P S => x.2.Forall (docAll P S)
  | .mk segs props, cx, x, cx', h1 => by
    simp only [PathDecl.run] at h1
    split at h1
    · simp at h1
    · simp only [act_bind, act_pure] at h1
      obtain ⟨⟨path, params⟩, cx3, h3, v', cx4, h4, e, rfl⟩ := h1
      cases e
      refine (Makes.next (runUrl_ran segs h3) (runItemProps_makes props h4)).imp fun P S hq => ?_
      refine hq.2 ?_
      rw [docAll_item]
      exact ⟨by simp [PathValue.empty, BMap.Sorted, forallOps], hq.1 ⟨BMap.sorted_nil, by simp⟩⟩
termination_by structural x => x
theorem runItemProps_makes : ∀ (ps : List ItemProp) {v cx v' cx'}, runItemProps c ps v cx = some (v', cx') →
    Makes c (itemParts ps) cx cx' fun P S => v.Forall (docAll P S) → v'.Forall (docAll P S)
  | [], v, cx, v', cx', h => by
    simp only [runItemProps, act_pure] at h
    obtain ⟨rfl, rfl⟩ := h
    rw [itemParts]
    exact .nil fun _ _ h => h
  | .summary s :: ps, v, cx, v', cx', h => by
    rw [runItemProps] at h
    rw [itemParts]
    refine (runItemProps_makes ps h).imp fun P S hq ho => hq ?_
    rw [docAll_item] at ho ⊢; exact ho
  | .description s :: ps, v, cx, v', cx', h => by
    rw [runItemProps] at h
    rw [itemParts]
    refine (runItemProps_makes ps h).imp fun P S hq ho => hq ?_
    rw [docAll_item] at ho ⊢; exact ho
  | .parameters ds :: ps, v, cx, v', cx', h => by
    simp only [runItemProps, act_bind] at h
    obtain ⟨m, cx1, h1, h⟩ := h
    rw [itemParts]
    refine (Makes.next (runParameters_ran ds h1) (runItemProps_makes ps h)).imp fun P S hq ho => hq.2 ?_
    rw [docAll_item] at ho ⊢
    exact ⟨ho.1, hq.1 ho.2⟩
  | .operation method os :: ps, v, cx, v', cx', h => by
    simp only [runItemProps, act_bind] at h
    obtain ⟨o, cx1, h1, h⟩ := h
    rw [itemParts]
    refine (Makes.next (runOpProps_makes os h1) (runItemProps_makes ps h)).imp fun P S hq ho => hq.2 ?_
    rw [docAll_item] at ho ⊢
    refine ⟨⟨BMap.sorted_insert ho.1.1, ?_⟩, ho.2⟩
    have h2 := ho.1.2
    rw [forallOps_iff] at h2 ⊢
    intro b hb
    rcases BMap.mem_insert_sub hb with rfl | hb
    · exact hq.1 docAll_emptyOp
    · exact h2 b hb
termination_by structural x => x
end

end Verif
