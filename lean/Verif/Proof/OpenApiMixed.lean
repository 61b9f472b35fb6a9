import Verif.Proof.OpenApiExact
import Verif.Proof.Composed
import Verif.Proof.Sorts
/-!
# When documents of programs with hand written impls are legal
-/

namespace Verif

section
variable {κ : Type} [Mentioner κ] {c : κ}

theorem runSections_version (ss : Api) {d cx d' cx'} (h : runSections c ss d cx = some (d', cx')) : d'.openapi = d.openapi := by
  induction ss generalizing d cx with
  | nil =>
    simp only [runSections, act_pure] at h
    obtain ⟨rfl, rfl⟩ := h
    rfl
  | cons s ss ih =>
    simp only [runSections, act_bind] at h
    obtain ⟨d1, cx1, h1, h⟩ := h
    refine (ih h).trans ?_
    cases s with
    | info ps =>
      rw [Section.run] at h1
      cases hi : runInfo ps none none none with
      | none => rw [hi] at h1; exact absurd h1 (by simp)
      | some i =>
        rw [hi] at h1
        obtain ⟨rfl, -⟩ := act_pure.1 h1
        rfl
    | tags ts =>
      obtain ⟨rfl, -⟩ := act_pure.1 h1
      rfl
    | servers ts =>
      obtain ⟨rfl, -⟩ := act_pure.1 h1
      rfl
    | securitySchemes ts =>
      obtain ⟨u, cx2, h2, h3⟩ := act_bind.1 h1
      obtain ⟨rfl, -⟩ := act_pure.1 h3
      rfl
    | paths ps =>
      obtain ⟨its, cx2, h2, h3⟩ := act_bind.1 h1
      obtain ⟨rfl, -⟩ := act_pure.1 h3
      rfl

theorem describeApi_version {api : Api} {d : Opg} (h : describeApi c api = some d) : d.openapi = "3.0.3" := by
  unfold describeApi at h
  split at h
  · cases h
  · rename_i d1 cx hr
    cases h
    exact runSections_version (d := .empty) (d' := d1) api hr

/-- A document with sorted components is complete exactly if what is written of the description is legal. -/
theorem describeApi_complete_iff {api : Api} {d : Opg} (h : describeApi c api = some d) (schemas : BMap.Sorted d.components.schemas)
    (security : BMap.Sorted d.components.securitySchemes) :
    d.Complete ↔ LegalMixed api d := by
  have hcomp := composed_of h
  let _ : Telling κ := ⟨fun _ _ _ => True, fun _ => trivial⟩
  have made := describeApi_made h
  constructor
  · intro hc
    refine ⟨?_, ?_, ?_, ?_, ?_, ?_, ?_⟩
    · intro en
      refine hc.paths ?_
      rw [en] at made
      cases hd : d.paths with
      | nil => rfl
      | cons a as => rw [hd] at made; cases made
    · intro ps o ho
      have ho' := (ho.holds hc.items).op.1
      have hr := (hcomp.operations ho).responses
      obtain ⟨⟨code, r⟩, hm⟩ := List.exists_mem_of_ne_nil _ ho'.responses
      have hg : (BMap.get code o.responses).isSome := BMap.get_isSome_iff.2 (List.mem_map_of_mem hm)
      obtain ⟨r', hg⟩ := Option.isSome_iff_exists.1 hg
      have := hr code
      rw [hg] at this
      obtain ⟨x, hx, -⟩ := this.meaning
      obtain ⟨a, ha, he⟩ := lastOf_mem hx
      cases a with
      | response c d s => exact ⟨_, _, _, ha⟩
      | _ => cases he
    · intro ps o ho code t s hm
      have ho' := (ho.holds hc.items).op.1
      have hr := (hcomp.operations ho).responses code
      cases hl : lastOf (OpProp.response? code) ps with
      | none =>
        have := lastOf_none.1 hl _ hm
        simp [OpProp.response?] at this
      | some x =>
        rw [hl] at hr
        obtain ⟨v, hv, -⟩ := hr
        exact ho'.codes (code, v) (BMap.mem_of_get hv)
    · intro ps o ho r hr
      exact Ref.ser_legal r ((ho.holds hc.items).op.1.refs r hr)
    · intro decl p v hi r hr
      exact Ref.ser_legal r ((hi.holds hc.items).item.1.refs r hr)
    · intro name m hm
      have := BMap.mem_of_get hm
      exact ⟨hc.components.names _ this, Model.ser_legal _ (hc.components.models _ this)⟩
    · intro name s hm
      have := BMap.mem_of_get hm
      exact ⟨hc.components.schemeNames _ this, hc.components.schemes _ this⟩
  · intro hl
    have hrefs := hcomp.sorted
    have hkeyed : forallPaths docKeyed d.paths :=
      forallPaths_imp (P := docAll (fun _ => True) (fun _ => True)) (Q := docAll (fun _ => True) (fun _ => True))
        ⟨fun o h _ => h.1.2.2, fun v h _ => h.1.1, fun _ _ _ => trivial⟩ _ hrefs hrefs
    have hplain : forallPaths docComplete d.paths := by
      refine forallPaths_described made ?_ ?_ (fun _ => trivial) _ hkeyed ?_
      · intro ps o ho
        have hp := (hcomp.operations ho).plain (hl.responses ps o ho) (hl.codes ps o ho)
        have hd := docComplete_of.op o ⟨(ho.holds hrefs).op.1, fun r hr => Ref.legal_of_ser r (hl.schemas ps o ho r hr),
          (ho.holds hrefs).op.2.2⟩ hp
        exact hd
      · intro decl p v hi
        exact docComplete_of.item v ⟨(hi.holds hrefs).item.1, fun r hr => Ref.legal_of_ser r (hl.parameters decl p v hi r hr)⟩
          (hcomp.items hi).plain
      · intro pv hpv
        obtain ⟨i, decl, h1, h2⟩ := made.get_right hpv
        exact ⟨decl, .top h1 h2⟩
    refine ⟨describeApi_version h, describeApi_tags h, ?_, ?_, hplain, ?_, ?_, ?_, ?_⟩
    · obtain ⟨decl, hd⟩ := List.exists_mem_of_ne_nil _ hl.paths
      obtain ⟨pv, hpv, -⟩ := made.mem_left hd
      exact List.ne_nil_of_mem hpv
    · intro pv hpv
      obtain ⟨decl, -, hm⟩ := made.mem_right hpv
      obtain ⟨hne, hseg, -⟩ := PathDecl.run_step hm
      intro en
      rw [en] at hseg
      cases hds : decl.segments with
      | nil => exact hne hds
      | cons a as => rw [hds] at hseg; cases hseg
    · intro b hb
      exact (hl.components b.1 b.2 (BMap.get_of_mem schemas hb)).1
    · intro b hb
      exact (Model.legal_iff _).1 (hl.components b.1 b.2 (BMap.get_of_mem schemas hb)).2
    · intro b hb
      first
      | exact (hl.schemes b.1 b.2 (BMap.get_of_mem security hb)).1
      | exact (hl.schemes b.1 b.2 (BMap.get_of_mem security hb)).2
    · intro b hb
      first
      | exact (hl.schemes b.1 b.2 (BMap.get_of_mem security hb)).1
      | exact (hl.schemes b.1 b.2 (BMap.get_of_mem security hb)).2

end

end Verif
