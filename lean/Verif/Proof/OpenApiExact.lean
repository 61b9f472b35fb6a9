import Verif.Proof.OpenApiApi
import Verif.Proof.OpenApiInv
import Verif.Props.Order
/-!
# When described documents are legal, exactly
-/

namespace Verif

variable {env : Env}

theorem forallPaths_get {P : DocPred} : ∀ {ps : List (List PathElement × PathValue)}, forallPaths P ps →
    ∀ pv ∈ ps, pv.2.Forall P
  | [], _, _, h => nomatch h
  | (_, v) :: ps, hf, pv, h => by
    rw [forallPaths] at hf
    rcases List.mem_cons.1 h with rfl | h
    · exact hf.1
    · exact forallPaths_get hf.2 pv h

theorem forallOps_get {P : DocPred} : ∀ {os : List (HttpMethod × Operation)}, forallOps P os →
    ∀ m o, BMap.get m os = some o → o.Forall P
  | [], _, _, _, h => nomatch h
  | (k, o') :: os, hf, m, o, h => by
    rw [forallOps] at hf
    rcases List.mem_cons.1 (BMap.mem_of_get h) with e | h
    · cases e; exact hf.1
    · exact forallOps_mem' hf.2 h
where
  forallOps_mem' : ∀ {os : List (HttpMethod × Operation)}, forallOps P os → ∀ {m o}, (m, o) ∈ os → o.Forall P
  | [], _, _, _, h => nomatch h
  | _ :: _, hf, _, _, h => by
    rw [forallOps] at hf
    rcases List.mem_cons.1 h with e | h
    · cases e; exact hf.1
    · exact forallOps_mem' hf.2 h

theorem forallCallbacks_get {P : DocPred} : ∀ {cs : List (String × CallbackObject)}, forallCallbacks P cs →
    ∀ {name c}, (name, c) ∈ cs → c.Forall P
  | [], _, _, _, h => nomatch h
  | _ :: _, hf, _, _, h => by
    rw [forallCallbacks] at hf
    rcases List.mem_cons.1 h with e | h
    · cases e; exact hf.1
    · exact forallCallbacks_get hf.2 h

mutual
/-- What holds everywhere in a document holds of the path items that are described, -/
theorem ItemIn.holds {api : Api} {d : Opg} {P : DocPred} (hf : forallPaths P d.paths) {decl pv}
    (h : ItemIn api d decl pv) : pv.2.Forall P :=
  match h with
  | .top _ h' => forallPaths_get hf _ (List.mem_of_getElem? h')
  | .callback (o := o) (c' := c') ho _ hc' _ hi' => by
    have h1 := OpIn.holds hf ho
    cases o with
    | mk tags summary id desc depr sec body resp params callbacks =>
      rw [Operation.Forall] at h1
      have h2 := forallCallbacks_get h1.2 (BMap.mem_of_get hc')
      cases c' with
      | mk paths =>
        rw [CallbackObject.Forall] at h2
        exact forallPaths_get h2.2 _ (List.mem_of_getElem? hi')
/-- and of the operations. -/
theorem OpIn.holds {api : Api} {d : Opg} {P : DocPred} (hf : forallPaths P d.paths) {ps o}
    (h : OpIn api d ps o) : o.Forall P :=
  match h with
  | .mk (v := v) hi _ hg => by
    have h1 := ItemIn.holds hf hi
    cases v with
    | mk s de ops pars =>
      simp only [PathValue.Forall] at h1
      exact forallOps_get h1.2 _ _ hg
end

theorem Operation.Forall.op {P : DocPred} {o : Operation} (h : o.Forall P) : P.op o := by
  cases o; rw [Operation.Forall] at h; exact h.1
theorem PathValue.Forall.item {P : DocPred} {v : PathValue} (h : v.Forall P) : P.item v := by
  cases v; rw [PathValue.Forall] at h; exact h.1

/-- A described document is complete exactly if what is written of the description is legal. -/
theorem Describes.complete_iff {reason : Nat → Option String} {api : Api} {d : Opg} (h : Describes env reason api d) :
    d.Complete ↔ LegalWritten api d := by
  obtain ⟨c, hce, hcr, hs⟩ := h.step
  obtain ⟨items, rs', e, hmade, -⟩ := hs.paths
  have e' : d.paths = items := e
  have hsorted : BMap.Sorted d.components.securitySchemes := hs.schemesSorted BMap.sorted_nil
  constructor
  · intro hc
    have hdecl : ∀ name, name ∈ BMap.keys d.components.securitySchemes → LegalName name := by
      intro name hn
      obtain ⟨b, hb, rfl⟩ := List.mem_map.1 hn
      exact hc.components.schemeNames b hb
    have hkey : ∀ name s, BMap.get name d.components.securitySchemes = some s →
        name ∈ BMap.keys d.components.securitySchemes := fun name s hg =>
      BMap.get_isSome_iff.1 (by rw [hg]; rfl)
    refine ⟨?_, ?_, ?_, ?_, ?_, ?_, ?_, ?_, ?_, ?_⟩
    · intro en
      refine hc.paths ?_
      rw [e']
      have : Pointwise (MadePath c) [] items := en ▸ hmade
      cases this
      rfl
    · intro ps o ho
      have ho' := (ho.holds hc.items).op.1
      have hr := (OpIn.made hs ho).operationOf.responses
      obtain ⟨⟨code, r⟩, hm⟩ := List.exists_mem_of_ne_nil _ ho'.responses
      have hg : (BMap.get code o.responses).isSome := BMap.get_isSome_iff.2 (List.mem_map_of_mem hm)
      obtain ⟨r', hg⟩ := Option.isSome_iff_exists.1 hg
      have := hr code
      rw [hg] at this
      obtain ⟨x, hx, -⟩ := this.meaning
      obtain ⟨a, ha, he⟩ := lastOf_mem hx
      cases a with
      | response c d s => exact ⟨_, _, _, ha⟩
      | _ => cases he
    · intro ps o ho code t s hm
      have ho' := (ho.holds hc.items).op.1
      have hr := (OpIn.made hs ho).operationOf.responses code
      cases hl : lastOf (OpProp.response? code) ps with
      | none =>
        have := lastOf_none.1 hl _ hm
        simp [OpProp.response?] at this
      | some x =>
        rw [hl] at hr
        obtain ⟨v, hv, -⟩ := hr
        exact ho'.codes (code, v) (BMap.mem_of_get hv)
    · intro ps o ho r hr
      exact Ref.ser_legal r ((ho.holds hc.items).op.1.refs r hr)
    · intro decl p v hi r hr
      exact Ref.ser_legal r ((hi.holds hc.items).item.1.refs r hr)
    · intro name m hm
      have := BMap.mem_of_get hm
      exact ⟨hc.components.names _ this, Model.ser_legal _ (hc.components.models _ this)⟩
    · intro name ps hl ep
      have := hs.schemes name
      unfold SchemeAfter at this
      have hl' : lastOf (SchemeDecl.named? name) (List.flatMap Section.schemeList api) = _ := hl
      rw [hl'] at this
      obtain ⟨s, hg, n, -, rfl⟩ := this
      refine hc.components.schemes _ (BMap.mem_of_get hg) ?_
      show (lastOf ApiKeyProp.parameterIn? ps).getD .header = .path
      rw [ep]; rfl
    · intro name s hl hf
      have := hs.schemes name
      unfold SchemeAfter at this
      rw [hl] at this
      have hg : BMap.get name d.components.securitySchemes = some s := this.trans hf
      exact hc.components.schemes _ (BMap.mem_of_get hg)
    · intro s hm
      have := hs.schemes s.name
      unfold SchemeAfter at this
      cases hl : lastOf (SchemeDecl.named? s.name) (api.flatMap Section.schemeList) with
      | none =>
        have := lastOf_none.1 hl _ hm
        simp [SchemeDecl.named?] at this
      | some x =>
        rw [hl] at this
        obtain ⟨v, hv, -⟩ := this
        exact hdecl _ (hkey _ _ hv)
    · intro name s hm
      have := hs.schemes name
      unfold SchemeAfter at this
      cases hl : lastOf (SchemeDecl.named? name) (api.flatMap Section.schemeList) with
      | none =>
        rw [hl] at this
        have hg : BMap.get name d.components.securitySchemes = api.parts.findSome? (Part.scheme? name) := this
        cases hf : api.parts.findSome? (Part.scheme? name) with
        | none =>
          have := List.findSome?_eq_none_iff.1 hf _ hm
          simp [Part.scheme?] at this
        | some v => exact hdecl _ (hkey _ _ (hg.trans hf))
      | some x =>
        rw [hl] at this
        obtain ⟨v, hv, -⟩ := this
        exact hdecl _ (hkey _ _ hv)
  · intro hl
    have hrefs : forallPaths (docAll (fun _ => True) fun _ => True) d.paths := by
      obtain ⟨rs, sx, hr, es, hp⟩ := h.registry
      exact hp _ _ ⟨fun _ _ => trivial, fun _ _ => trivial, fun _ _ _ => trivial, fun _ _ => trivial⟩
    have hplain : forallPaths docComplete d.paths := by
      refine h.forall ?_ ?_ (fun _ => trivial)
      · intro ps o ho
        have hp := (OpIn.made hs ho).operationOf.plain (hl.responses ps o ho) (hl.codes ps o ho)
        have hd := docComplete_of.op o ⟨(ho.holds hrefs).op.1, fun r hr => Ref.legal_of_ser r (hl.schemas ps o ho r hr),
          (ho.holds hrefs).op.2.2⟩ hp
        exact hd
      · intro decl p v hi
        exact docComplete_of.item v ⟨(hi.holds hrefs).item.1, fun r hr => Ref.legal_of_ser r (hl.parameters decl p v hi r hr)⟩
          (ItemIn.made hs hi).itemOf.plain
    have hreg : BMap.Sorted d.components.schemas := by
      obtain ⟨rs, sx, hr, es, -⟩ := h.registry
      rw [← es]
      exact callsReturn_sorted hr BMap.sorted_nil
    refine ⟨hs.openapi, hs.tagsSorted BMap.sorted_nil, ?_, ?_, hplain, ?_, ?_, ?_, ?_⟩
    · obtain ⟨decl, hd⟩ := List.exists_mem_of_ne_nil _ hl.paths
      obtain ⟨pv, hpv, -⟩ := hmade.mem_left hd
      rw [e']
      exact List.ne_nil_of_mem hpv
    · intro pv hpv
      rw [e'] at hpv
      obtain ⟨decl, -, hm⟩ := hmade.mem_right hpv
      obtain ⟨hne, hseg, -⟩ := PathDecl.run_step hm
      intro en
      rw [en] at hseg
      cases hds : decl.segments with
      | nil => exact hne hds
      | cons a as => rw [hds] at hseg; cases hseg
    · intro b hb
      exact (hl.components b.1 b.2 (BMap.get_of_mem hreg hb)).1
    · intro b hb
      exact (Model.legal_iff _).1 (hl.components b.1 b.2 (BMap.get_of_mem hreg hb)).2
    all_goals
      intro b hb
      have hg := BMap.get_of_mem hsorted (k := b.1) (v := b.2) hb
      have := hs.schemes b.1
      unfold SchemeAfter at this
      rw [hg] at this
      split at this
      · rename_i sd hsd
        obtain ⟨a, ha, he⟩ := lastOf_mem hsd
        unfold SchemeDecl.named? at he
        split at he
        · rename_i en
          cases he
          first
          | exact en ▸ hl.schemeNames sd ha
          | obtain ⟨s, hs', hso⟩ := this
            cases hs'
            cases sd with
            | ident n v => exact absurd hso id
            | http n ps =>
              rcases hso with ⟨-, hso⟩ | ⟨-, hso⟩ <;> rw [hso] <;> exact trivial
            | apiKey n ps =>
              have en : n = b.1 := en
              subst en
              exact hso.notInPath (hl.apiKeys _ ps hsd)
        · cases he
      · rename_i hsd
        have this' : some b.2 = api.parts.findSome? (Part.scheme? b.1) := this
        first
        | exact hl.mentioned _ _ hsd this'.symm
        | obtain ⟨a, ha, he⟩ := List.exists_of_findSome?_eq_some this'.symm
          cases a with
          | scheme n s =>
            simp only [Part.scheme?] at he
            split at he
            · rename_i en
              cases he
              exact en ▸ hl.mentionedNames n _ ha
            · cases he
          | _ => cases he

end Verif
