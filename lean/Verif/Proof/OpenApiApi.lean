import Verif.Spec.OpenApiApi
import Verif.Proof.OpenApiDoc
import Verif.Proof.OpenApiGen
import Verif.Proof.ApiDoc
/-!
# Legality of described documents
-/

namespace Verif

variable {env : Env}

mutual
theorem ItemIn.declared {api : Api} {d : Opg} {decl pv} (h : ItemIn api d decl pv) : DeclaredPath api decl :=
  match h with
  | .top h1 _ => .top (List.mem_of_getElem? h1)
  | .callback ho hc _ hi _ => by
    obtain ⟨a, ha, he⟩ := lastOf_mem hc
    refine .callback (OpIn.declared ho) (c := a) ha ?_
    unfold CallbackDecl.named? at he
    split at he
    · cases he; exact List.mem_of_getElem? hi
    · cases he
theorem OpIn.declared {api : Api} {d : Opg} {ps o} (h : OpIn api d ps o) : DeclaredOp api ps :=
  match h with
  | .mk (m := m) hi hm _ => by
    obtain ⟨a, ha, he⟩ := lastOf_mem hm
    cases a with
    | operation m' ps' =>
      simp only [ItemProp.operation?] at he
      split at he
      · cases he; exact .mk (ItemIn.declared hi) ha
      · cases he
    | _ => cases he
end

theorem Pointwise.get_right {α β : Type} {R : α → β → Prop} {as bs} (h : Pointwise R as bs) {b} (hb : b ∈ bs) :
    ∃ (i : Nat) (a : α), as[i]? = some a ∧ bs[i]? = some b := by
  induction h with
  | nil => cases hb
  | cons h _ ih =>
    rcases List.mem_cons.1 hb with rfl | hb
    · exact ⟨0, _, rfl, rfl⟩
    · obtain ⟨i, a, ha, hb⟩ := ih hb
      exact ⟨i + 1, a, by simpa using ha, by simpa using hb⟩

/-- All maps of operations and path items are in key order. -/
def docKeyed : DocPred where
  op o := BMap.Sorted o.callbacks
  item v := BMap.Sorted v.operations

section
variable {κ : Type} [Mentioner κ] [Telling κ] {c : κ} {api : Api} {d : Opg} {P : DocPred}

mutual
theorem PathValue.forall_described (hs : Pointwise (MadePath c) api.pathList d.paths)
    (hop : ∀ ps o, OpIn api d ps o → P.op o) (hitem : ∀ decl p v, ItemIn api d decl (p, v) → P.item v)
    (hpaths : ∀ ps, P.paths ps) :
    ∀ (v : PathValue) {decl : PathDecl} {p : UrlPath}, v.Forall docKeyed → ItemIn api d decl (p, v) → v.Forall P
  | ⟨s, de, ops, ps⟩, decl, p, hf, hi => by
    rw [PathValue.Forall] at hf ⊢
    refine ⟨hitem _ _ _ hi, ?_⟩
    refine forallOps_described hs hop hitem hpaths ops hf.2 ?_
    intro m o hm
    have hg : BMap.get m ops = some o := BMap.get_of_mem hf.1 hm
    have hio := (hi.madeFrom hs).itemOf
    cases hl : lastOf (ItemProp.operation? m) decl.props with
    | none =>
      have : BMap.get m ops = none := (hio.operations m).2 hl
      rw [hg] at this
      cases this
    | some q => exact ⟨q, .mk hi hl hg⟩
termination_by structural x => x

theorem Operation.forall_described (hs : Pointwise (MadePath c) api.pathList d.paths)
    (hop : ∀ ps o, OpIn api d ps o → P.op o) (hitem : ∀ decl p v, ItemIn api d decl (p, v) → P.item v)
    (hpaths : ∀ ps, P.paths ps) :
    ∀ (o : Operation) {q : List OpProp}, o.Forall docKeyed → OpIn api d q o → o.Forall P
  | ⟨tags, summary, id, desc, depr, sec, body, resp, params, callbacks⟩, q, hf, ho => by
    rw [Operation.Forall] at hf ⊢
    refine ⟨hop _ _ ho, ?_⟩
    refine forallCallbacks_described hs hop hitem hpaths callbacks hf.2 ?_
    intro name co hm pv hpv
    have hg : BMap.get name callbacks = some co := BMap.get_of_mem hf.1 hm
    obtain ⟨cx, cx', hmade⟩ := ho.madeFrom hs
    have hcb := (runOpProps_step _ hmade).callbacks name
    cases hl : lastOf (CallbackDecl.named? name) (q.flatMap OpProp.callbackList) with
    | none =>
      rw [hl] at hcb
      have : BMap.get name callbacks = none := hcb.none_eq
      rw [hg] at this
      cases this
    | some cd =>
      rw [hl] at hcb
      obtain ⟨v, hv, hmc⟩ := hcb
      have : some co = some v := hg ▸ hv
      cases this
      cases cd with
      | literal n ps =>
        have : co.paths = [] := hmc
        rw [this] at hpv
        cases hpv
      | ident n ps =>
        obtain ⟨i, decl, h1, h2⟩ := Pointwise.get_right hmc hpv
        exact ⟨decl, .callback ho hl hg h1 h2⟩
termination_by structural x => x

theorem CallbackObject.forall_described (hs : Pointwise (MadePath c) api.pathList d.paths)
    (hop : ∀ ps o, OpIn api d ps o → P.op o) (hitem : ∀ decl p v, ItemIn api d decl (p, v) → P.item v)
    (hpaths : ∀ ps, P.paths ps) :
    ∀ (co : CallbackObject), co.Forall docKeyed → (∀ pv ∈ co.paths, ∃ decl, ItemIn api d decl pv) → co.Forall P
  | ⟨ps⟩, hf, hi => by
    rw [CallbackObject.Forall] at hf ⊢
    exact ⟨hpaths _, forallPaths_described hs hop hitem hpaths ps hf.2 hi⟩
termination_by structural x => x

theorem forallPaths_described (hs : Pointwise (MadePath c) api.pathList d.paths)
    (hop : ∀ ps o, OpIn api d ps o → P.op o) (hitem : ∀ decl p v, ItemIn api d decl (p, v) → P.item v)
    (hpaths : ∀ ps, P.paths ps) :
    ∀ (ps : List (List PathElement × PathValue)), forallPaths docKeyed ps → (∀ pv ∈ ps, ∃ decl, ItemIn api d decl pv) →
      forallPaths P ps
  | [], _, _ => by simp [forallPaths]
  | (p, v) :: ps, hf, hi => by
    rw [forallPaths] at hf ⊢
    obtain ⟨decl, hd⟩ := hi (p, v) (.head _)
    exact ⟨PathValue.forall_described hs hop hitem hpaths v hf.1 hd,
      forallPaths_described hs hop hitem hpaths ps hf.2 fun pv h => hi pv (.tail _ h)⟩
termination_by structural x => x

theorem forallOps_described (hs : Pointwise (MadePath c) api.pathList d.paths)
    (hop : ∀ ps o, OpIn api d ps o → P.op o) (hitem : ∀ decl p v, ItemIn api d decl (p, v) → P.item v)
    (hpaths : ∀ ps, P.paths ps) :
    ∀ (os : List (HttpMethod × Operation)), forallOps docKeyed os → (∀ m o, (m, o) ∈ os → ∃ q, OpIn api d q o) →
      forallOps P os
  | [], _, _ => by simp [forallOps]
  | (m, o) :: os, hf, hi => by
    rw [forallOps] at hf ⊢
    obtain ⟨q, hq⟩ := hi m o (.head _)
    exact ⟨Operation.forall_described hs hop hitem hpaths o hf.1 hq,
      forallOps_described hs hop hitem hpaths os hf.2 fun m o h => hi m o (.tail _ h)⟩
termination_by structural x => x

theorem forallCallbacks_described (hs : Pointwise (MadePath c) api.pathList d.paths)
    (hop : ∀ ps o, OpIn api d ps o → P.op o) (hitem : ∀ decl p v, ItemIn api d decl (p, v) → P.item v)
    (hpaths : ∀ ps, P.paths ps) :
    ∀ (cs : List (String × CallbackObject)), forallCallbacks docKeyed cs →
      (∀ name co, (name, co) ∈ cs → ∀ pv ∈ co.paths, ∃ decl, ItemIn api d decl pv) → forallCallbacks P cs
  | [], _, _ => by simp [forallCallbacks]
  | (k, co) :: cs, hf, hi => by
    rw [forallCallbacks] at hf ⊢
    exact ⟨CallbackObject.forall_described hs hop hitem hpaths co hf.1 (hi k co (.head _)),
      forallCallbacks_described hs hop hitem hpaths cs hf.2 fun n co h => hi n co (.tail _ h)⟩
termination_by structural x => x
end

end

/-- What holds of all operations and path items that stand where something is declared, holds everywhere in the
document. -/
theorem Describes.forall {reason : Nat → Option String} {api : Api} {d : Opg} (h : Describes env reason api d)
    {P : DocPred} (hop : ∀ ps o, OpIn api d ps o → P.op o) (hitem : ∀ decl p v, ItemIn api d decl (p, v) → P.item v)
    (hpaths : ∀ ps, P.paths ps) : forallPaths P d.paths := by
  have hsorted : forallPaths docKeyed d.paths := by
    obtain ⟨rs, sx, hr, es, hp⟩ := h.registry
    have := hp (fun _ => True) (fun _ => True) ⟨fun _ _ => trivial, fun _ _ => trivial, fun _ _ _ => trivial, fun _ _ => trivial⟩
    exact forallPaths_imp (P := docAll (fun _ => True) (fun _ => True)) (Q := docAll (fun _ => True) (fun _ => True))
      ⟨fun o h _ => h.1.2.2, fun v h _ => h.1.1, fun _ _ _ => trivial⟩ _ this this
  obtain ⟨c, rfl, -, hs⟩ := h.step
  refine forallPaths_described hs.made hop hitem hpaths _ hsorted ?_
  intro pv hpv
  obtain ⟨items, rs, e, hp, -⟩ := hs.paths
  have e' : d.paths = items := e
  subst e'
  obtain ⟨i, decl, h1, h2⟩ := hp.get_right hpv
  exact ⟨decl, .top h1 h2⟩

theorem rootsOf_mentions (ps : List Part) : rootsOf (callsOf ps) =
    (ps.filterMap fun p => match p with | .mention t => some t | _ => none).map fun t => (t, true) := by
  induction ps with
  | nil => rfl
  | cons p ps ih =>
    cases p with
    | mention t =>
      show (t, !false) :: rootsOf (callsOf ps) = _
      rw [ih]; rfl
    | scheme n s => exact ih
    | literal n => exact ih
    | raw r => exact ih

theorem callsOf_params {ps : List Part} {t i p} (h : Call.mention t i p ∈ callsOf ps) : p.variants ≠ some [] := by
  obtain ⟨q, -, hq⟩ := List.mem_filterMap.1 h
  cases q <;> simp [Part.call?] at hq
  rw [← hq.2.2]; simp

/-! ## Names of components -/

/-- Every registered schema is the schema of a linked type of that name. -/
def Named (env : Env) (roots : List (Ty × Bool)) (cx : Components) : Prop :=
  ∀ b ∈ cx.schemas, ∃ t, Linked env roots t ∧ typeName env t = some b.1 ∧ HasSchema env t b.2

section
variable {roots : List (Ty × Bool)}

theorem named_mention {k t i p cx r cx'}
    (ih : ∀ t cx m cx', Named env roots cx → Reached env roots t → getSchema env k t cx = some (m, cx') → Named env roots cx')
    (hcx : Named env roots cx) (hr : Reached env roots t) (hl : i = false → Linked env roots t)
    (h : mentionWith env (getSchema env k) t i p cx = some (r, cx')) : Named env roots cx' := by
  rcases mentionWith_some h with ⟨l, hln, hr', ⟨hk, he⟩ | ⟨hk, m, cx2, h2, he⟩⟩ | ⟨hln, m, h2, _⟩
  · subst he; exact hcx
  · obtain ⟨hi, hn⟩ := linkName_some hln
    have hh := ih t cx m cx2 hcx hr h2
    subst he
    intro b hb
    rcases BMap.mem_insert_sub hb with e | hb
    · subst e; exact ⟨t, hl hi, hn, cx, cx2, k, h2⟩
    · exact hh b hb
  · exact ih t cx m cx' hcx hr h2

theorem named_getSchema (k : Nat) :
    ∀ t cx m cx', Named env roots cx → Reached env roots t → getSchema env k t cx = some (m, cx') → Named env roots cx' := by
  induction k with
  | zero => intro t cx m cx' _ _ h; simp [getSchema] at h
  | succ k ih =>
    intro t cx m cx' hcx hr h
    obtain ⟨n, e, as, hk, he, hrun, -⟩ := getSchema_some h
    cases hk
    have hq : ∀ q ∈ e.reqs, Reached env roots q.asked.1 ∧ (q.asked.2 = true → Linked env roots q.asked.1) := by
      intro q hq
      have hm : q.asked ∈ e.asked := mem_asked.2 ⟨q, hq, rfl⟩
      refine ⟨.step hr ⟨e, he, hm⟩, fun hb => .inr ⟨t, hr, e, he, ?_⟩⟩
      rw [← hb]; exact hm
    clear he h
    generalize e.reqs = qs at hq hrun
    induction qs generalizing cx as with
    | nil =>
      simp only [runReqs, Option.some.injEq, Prod.mk.injEq] at hrun
      rw [← hrun.2]; exact hcx
    | cons q qs ihq =>
      obtain ⟨a, as', cx1, h1, h2, _⟩ := runReqs_cons_some hrun
      have hq0 := hq q List.mem_cons_self
      refine ihq cx1 ?_ as' (fun q hq' => hq q (List.mem_cons_of_mem _ hq')) h2
      rcases Req.run_some h1 with ⟨t, i, p, r, rfl, h3, _⟩ | ⟨t, m, rfl, h3, _⟩
      · simp only [Req.asked, Bool.not_eq_true'] at hq0
        exact named_mention ih hcx hq0.1 hq0.2 h3
      · exact ih t cx m cx1 hcx hq0.1 h3

theorem named_calls {cx calls rs cx'} (run : CallsReturn env cx calls rs cx')
    (hm : ∀ c ∈ calls, c.isMention = true) (hroots : ∀ x ∈ rootsOf calls, x ∈ roots)
    (hcx : Named env roots cx) : Named env roots cx' := by
  induction run with
  | nil cx => exact hcx
  | @mention cx t inline p r cx1 calls rs cx2 h hr ih =>
    obtain ⟨k, h⟩ := h
    simp only [rootsOf, List.mem_cons, forall_eq_or_imp] at hroots
    have := named_mention (named_getSchema k) hcx (.root hroots.1)
      (fun hi => .inl (by have := hroots.1; simp only [hi, Bool.not_false] at this; exact this)) h
    exact ih (fun c hc' => hm c (List.mem_cons_of_mem _ hc')) hroots.2 this
  | addModel hr ih => simpa [Call.isMention] using hm _ List.mem_cons_self
  | @security cx name s calls rs cx2 hr ih =>
    refine ih (fun c hc' => hm c (List.mem_cons_of_mem _ hc')) hroots ?_
    have : (cx.mentionSecurityScheme name s).2.schemas = cx.schemas := by
      unfold Components.mentionSecurityScheme; split <;> rfl
    unfold Named at hcx ⊢
    rw [this]; exact hcx

end

/-! ## Described documents -/

/-- What holds of the operations of a described document, apart from the legality of schemas. -/
structure Operation.Plain (o : Operation) : Prop where
  responses : o.responses ≠ []
  codes : ∀ code r, BMap.get code o.responses = some r → 100 ≤ code ∧ code ≤ 599
  parameters : ∀ name p, BMap.get name o.parameters = some p → p.schema ≠ none ∧ p.parameterIn ≠ .path
  body : ∀ b, o.requestBody = some b → b.description ≠ none
  scopes : ∀ alt ∈ o.security, ∀ name v, BMap.get name alt = some v → v = []

structure PathValue.Plain (v : PathValue) : Prop where
  parameters : ∀ name p, BMap.get name v.parameters = some p → p.schema ≠ none ∧ (p.parameterIn = .path → p.required = true)

def docPlain : DocPred where
  op o := o.Plain
  item v := v.Plain

theorem ParamBy.plain {M : Ty → Ref → Prop} {d p} (h : ParamBy M d p) : p.schema ≠ none ∧ p.parameterIn ≠ .path := by
  obtain ⟨r, hr, -⟩ := h.schema
  refine ⟨by rw [hr]; simp, ?_⟩
  rw [h.place]
  cases d <;> simp

theorem OperationBy.plain {M : Ty → Ref → Prop} {reason : Nat → Option String} {ps o} (h : OperationBy M reason ps o)
    (hr : ∃ code d s, OpProp.response code d s ∈ ps)
    (hc : ∀ code d s, OpProp.response code d s ∈ ps → 100 ≤ code ∧ code ≤ 599) : o.Plain where
  responses := by
    obtain ⟨code, d, s, hm⟩ := hr
    have := h.responses code
    cases hl : lastOf (OpProp.response? code) ps with
    | none =>
      have := lastOf_none.1 hl _ hm
      simp [OpProp.response?] at this
    | some x =>
      rw [hl] at this
      obtain ⟨v, hv, -⟩ := this
      intro e
      rw [e] at hv
      simp at hv
  codes code r hg := by
    have := h.responses code
    rw [hg] at this
    obtain ⟨x, hx, -⟩ := this.meaning
    obtain ⟨a, ha, he⟩ := lastOf_mem hx
    cases a with
    | response c d s =>
      simp only [OpProp.response?] at he
      split at he
      · rename_i e
        exact e ▸ hc c d s ha
      · cases he
    | _ => cases he
  parameters name p hg := by
    have := h.parameters name
    rw [hg] at this
    obtain ⟨x, -, hx⟩ := this.meaning
    exact hx.plain
  body b hb := by
    have := h.body
    rw [hb] at this
    obtain ⟨x, -, hx⟩ := this.meaning
    rw [hx.description]
    simp
  scopes alt ha name v hv := by
    obtain ⟨x, -, hx⟩ := h.security.mem_right ha
    exact hx.scopes name v hv

theorem ItemBy.plain {M : Ty → Ref → Prop} {decl p v} (h : ItemBy M decl p v) : v.Plain where
  parameters name p hg := by
    cases hl : lastOf (ParamDecl.named? name) (decl.props.flatMap ItemProp.paramList) with
    | some x =>
      obtain ⟨y, hy, hp⟩ := h.parameters name x hl
      rw [hg] at hy
      cases hy
      exact ⟨hp.plain.1, fun e => absurd e hp.plain.2⟩
    | none =>
      have := h.template name hl
      rw [hg] at this
      obtain ⟨x, -, hx⟩ := this.meaning
      obtain ⟨r, hr, -⟩ := hx.schema
      exact ⟨by rw [hr]; simp, fun _ => hx.required⟩

theorem docComplete_of : DocPred.Imp (docAll Ref.Legal fun _ => True) docPlain docComplete where
  op o h h' := by
    obtain ⟨⟨hs1, hs2, -⟩, hrefs, hsec⟩ := h
    refine ⟨⟨h'.responses, ?_, ?_, ?_, h'.body, ?_, hrefs⟩, hs2⟩
    · intro r hr
      exact h'.codes r.1 r.2 (BMap.get_of_mem hs1 hr)
    · intro p hp
      exact (h'.parameters p.1 p.2 (BMap.get_of_mem hs2 hp)).1
    · intro p hp e
      exact absurd e (h'.parameters p.1 p.2 (BMap.get_of_mem hs2 hp)).2
    · intro alt ha s hs
      exact h'.scopes alt ha s.1 s.2 (BMap.get_of_mem (hsec alt ha).1 hs)
  item v h h' := by
    obtain ⟨⟨-, hs⟩, hrefs⟩ := h
    refine ⟨⟨?_, ?_, hrefs⟩, hs⟩
    · intro p hp
      exact (h'.parameters p.1 p.2 (BMap.get_of_mem hs hp)).1
    · intro p hp
      exact (h'.parameters p.1 p.2 (BMap.get_of_mem hs hp)).2
  paths _ _ _ := trivial

theorem SchemeOf.notInPath {s : SecurityScheme} {name : String} {ps : List ApiKeyProp}
    (h : SchemeOf (.apiKey name ps) s) (hp : lastOf ApiKeyProp.parameterIn? ps ≠ some .path) : s.NotInPath := by
  obtain ⟨n, -, rfl⟩ := h
  show (lastOf ApiKeyProp.parameterIn? ps).getD .header ≠ .path
  cases hl : lastOf ApiKeyProp.parameterIn? ps with
  | none => simp
  | some x =>
    rw [hl] at hp
    intro e
    exact hp (by rw [← e]; rfl)

theorem Describes.complete {reason : Nat → Option String} {api : Api} {d : Opg} (h : Describes env reason api d)
    (hl : LegalApi env api) : d.Complete := by
  obtain ⟨rs, sx, hr, es, hp⟩ := h.registry
  have hroots : rootsOf (callsOf api.parts) = api.mentions.map fun t => (t, true) := rootsOf_mentions _
  have hsound := hr.sound (roots := api.mentions.map fun t => (t, true)) (fun x hx => hroots ▸ hx) hl.types
    (fun t i p => callsOf_params)
    (fun name m hm => by have := callsOf_mentions _ _ hm; cases this)
    (by intro b hb; cases hb)
  have hnamed := named_calls hr (roots := api.mentions.map fun t => (t, true)) (callsOf_mentions _)
    (fun x hx => hroots ▸ hx) (by intro l hl; cases hl)
  have hrefs := hp Ref.Legal (fun _ => True) ⟨fun r hr => (hsound.1 r hr).1, hl.raws, fun _ _ _ => trivial, fun _ _ => trivial⟩
  have hplain : forallPaths docPlain d.paths := by
    obtain ⟨c, hce, hcr, hs⟩ := h.step
    refine h.forall ?_ ?_ (fun _ => trivial)
    · intro ps o ho
      exact (OpIn.made hs ho).operationOf.plain (hl.responses ps ho.declared) (hl.codes ps ho.declared)
    · intro decl p v hi
      exact (ItemIn.made hs hi).itemOf.plain
  obtain ⟨c, hce, hcr, hs⟩ := h.step
  obtain ⟨items, rs', e, hmade, -⟩ := hs.paths
  have e' : d.paths = items := e
  have hsorted : BMap.Sorted d.components.securitySchemes := hs.schemesSorted BMap.sorted_nil
  refine ⟨hs.openapi, hs.tagsSorted BMap.sorted_nil, ?_, ?_, forallPaths_imp docComplete_of _ hrefs hplain, ?_, ?_, ?_, ?_⟩
  · obtain ⟨decl, hd⟩ := List.exists_mem_of_ne_nil _ hl.paths
    obtain ⟨pv, hpv, -⟩ := hmade.mem_left hd
    rw [e']
    exact List.ne_nil_of_mem hpv
  · intro pv hpv
    rw [e'] at hpv
    obtain ⟨decl, -, hm⟩ := hmade.mem_right hpv
    obtain ⟨hne, hseg, -⟩ := PathDecl.run_step hm
    intro en
    rw [en] at hseg
    cases hds : decl.segments with
    | nil => exact hne hds
    | cons a as => rw [hds] at hseg; cases hseg
  · intro b hb
    obtain ⟨t, ht, hn, -⟩ := hnamed b (by rw [es]; exact hb)
    exact hl.names t b.1 ht hn
  · intro b hb
    exact (hsound.2 b (by rw [es]; exact hb)).1
  all_goals
    intro b hb
    have hg := BMap.get_of_mem hsorted (k := b.1) (v := b.2) hb
    have := hs.schemes b.1
    unfold SchemeAfter at this
    rw [hg] at this
    split at this
    · rename_i sd hsd
      obtain ⟨a, ha, he⟩ := lastOf_mem hsd
      unfold SchemeDecl.named? at he
      split at he
      · rename_i en
        cases he
        first
        | exact en ▸ hl.schemeNames sd ha
        | obtain ⟨s, hs', hso⟩ := this
          cases hs'
          cases sd with
          | ident n v => exact absurd hso id
          | http n ps =>
            rcases hso with ⟨-, hso⟩ | ⟨-, hso⟩ <;> rw [hso] <;> exact trivial
          | apiKey n ps => exact hso.notInPath (hl.apiKeys n ps ha)
      · cases he
    · have this' : some b.2 = api.parts.findSome? (Part.scheme? b.1) := this
      obtain ⟨a, ha, he⟩ := List.exists_of_findSome?_eq_some this'.symm
      cases a with
      | scheme n s =>
        simp only [Part.scheme?] at he
        split at he
        · rename_i en
          cases he
          first
          | exact en ▸ hl.mentionedNames n _ ha
          | exact hl.mentioned n _ ha
        · cases he
      | _ => cases he

end Verif
