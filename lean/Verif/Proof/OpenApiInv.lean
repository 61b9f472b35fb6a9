import Verif.Proof.OpenApiDoc
/-!
# Documents that serialize to legal ones are complete
-/

namespace Verif

/-! ## Fields by key -/

theorem DocumentField.inv {k v} (h : DocumentField k v) : (k = .str "openapi" → v = .str "3.0.3") ∧
    (k = .str "paths" → LegalPaths v) ∧ (k = .str "components" → LegalComponents v) := by
  cases h <;> simp_all

theorem ComponentsField.inv {k v} (h : ComponentsField k v) :
    (k = .str "schemas" → ∃ es, v = .map es ∧ ∀ e ∈ es, ∃ name v, e = (.str name, v) ∧ LegalName name ∧ LegalSchema v) ∧
    (k = .str "securitySchemes" →
      ∃ es, v = .map es ∧ ∀ e ∈ es, ∃ name v, e = (.str name, v) ∧ LegalName name ∧ LegalScheme v) := by
  cases h with
  | schemas h => exact ⟨fun _ => ⟨_, rfl, h⟩, by simp⟩
  | securitySchemes h => exact ⟨by simp, fun _ => ⟨_, rfl, h⟩⟩

theorem SchemeField.inv {k v} (h : SchemeField k v) : k = .str "in" → v ≠ .str "path" := by
  cases h with
  | place h => rintro - e; cases e; simp at h
  | _ => simp_all

theorem PathItemField.inv {k v} (h : PathItemField k v) :
    (∀ m ∈ ["get", "put", "post", "delete", "options", "head", "patch", "trace"], k = .str m → LegalOperation v) ∧
    (k = .str "parameters" → LegalParameters v) := by
  cases h with
  | operation hm h =>
    refine ⟨fun _ _ _ => h, fun e => ?_⟩
    cases e; simp at hm
  | _ => simp_all

theorem OperationField.inv {k v} (h : OperationField k v) :
    (k = .str "security" → ∃ vs, v = .seq vs ∧ ∀ x ∈ vs, LegalRequirement x) ∧
    (k = .str "requestBody" → LegalRequestBody v) ∧ (k = .str "responses" → LegalResponses v) ∧
    (k = .str "parameters" → LegalParameters v) ∧
    (k = .str "callbacks" → ∃ es, v = .map es ∧ ∀ e ∈ es, LegalCallback e.2) := by
  cases h with
  | security h => simpa using h
  | callbacks _ h => simpa using fun a b hm => h (a, b) hm
  | _ => simp_all

theorem RequestBodyField.inv {k v} (h : RequestBodyField k v) : (k = .str "description" → ∃ s, v = .str s) ∧
    (k = .str "content" → LegalContent v) := by
  cases h <;> simp_all

theorem ResponseField.inv {k v} (h : ResponseField k v) : k = .str "content" → LegalContent v := by
  cases h <;> simp_all

theorem ParameterField.inv {k v} (h : ParameterField k v) : k = .str "schema" → LegalSchema v := by
  cases h <;> simp_all

theorem mem_entries {k v fs} (h : (k, some v) ∈ fs) : (Key.str k, v) ∈ entriesOf fs := mem_entriesOf.2 ⟨k, rfl, h⟩

/-! ## Parts of documents -/

theorem content_legal_inv {r : Ref} (h : LegalContent (contentOf r)) : r.Legal := by
  generalize hv : contentOf r = v at h
  cases h with
  | mk h =>
    injection hv with hv
    subst hv
    obtain ⟨m, s, he, hs⟩ := h _ (.head _)
    injection he with _ he
    injection he with he
    injection he with he
    injection he with _ he
    rw [← he] at hs
    exact Ref.legal_of_ser r hs

theorem body_legal_inv {b : RequestBody} (h : LegalRequestBody b.ser) : b.description ≠ none ∧ b.schema.Legal := by
  generalize hv : b.ser = v at h
  cases h with
  | mk fields _ =>
    injection hv with hv
    subst hv
    refine ⟨fun e => ?_, ?_⟩
    · have := (fields _ (mem_entries (.tail _ (.head _)))).inv.1 rfl
      rw [e] at this
      obtain ⟨s, hs⟩ := this
      cases hs
    · exact content_legal_inv ((fields _ (mem_entries (.tail _ (.tail _ (.head _))))).inv.2 rfl)

theorem response_legal_inv {r : Response} (h : LegalResponse r.ser) {x} (hx : r.schema = some x) : x.Legal := by
  generalize hv : r.ser = v at h
  cases h with
  | mk fields _ =>
    injection hv with hv
    subst hv
    refine content_legal_inv ((fields _ (mem_entries (k := "content") (v := contentOf x) ?_)).inv rfl)
    simp [hx]

theorem parameter_legal_inv {name : String} {p : OperationParameter} (h : LegalParameter (p.ser name)) :
    p.schema ≠ none ∧ (∀ x, p.schema = some x → x.Legal) ∧ (p.parameterIn = .path → p.required = true) := by
  generalize hv : p.ser name = v at h
  cases h with
  | mk fields _ _ schema path =>
    injection hv with hv
    subst hv
    refine ⟨fun e => ?_, fun x hx => ?_, fun hp => ?_⟩
    · obtain ⟨s, hs⟩ := schema
      obtain ⟨k, hk, hm⟩ := mem_entriesOf.1 hs
      cases hk
      simp [e] at hm
    · exact Ref.legal_of_ser x ((fields _ (mem_entries (k := "schema") (by simp [hx]))).inv rfl)
    · have := path (mem_entries (by simp [hp, ParameterIn.asStr]))
      obtain ⟨k, hk, hm⟩ := mem_entriesOf.1 this
      cases hk
      cases hr : p.required with
      | true => rfl
      | false => simp [hr, flag] at hm

theorem parameters_legal_inv {ps : List (String × OperationParameter)} (h : LegalParameters (.seq (serParameters ps))) :
    ∀ p ∈ ps, p.2.schema ≠ none ∧ (∀ x, p.2.schema = some x → x.Legal) ∧ (p.2.parameterIn = .path → p.2.required = true) := by
  intro p hp
  cases h with
  | mk h _ => exact parameter_legal_inv (h _ (List.mem_map_of_mem hp))

/-- The same if the list is left out when empty. -/
theorem optParameters_legal_inv {ps : List (String × OperationParameter)}
    (h : ∀ v, nonEmptySeq (serParameters ps) = some v → LegalParameters v) :
    ∀ p ∈ ps, p.2.schema ≠ none ∧ (∀ x, p.2.schema = some x → x.Legal) ∧ (p.2.parameterIn = .path → p.2.required = true) := by
  cases ps with
  | nil => intro p hp; cases hp
  | cons p ps => exact parameters_legal_inv (h _ rfl)

theorem security_legal_inv {s : List (String × List String)} (h : LegalRequirement (serSecurity s)) : ∀ x ∈ s, x.2 = [] := by
  intro x hx
  generalize hv : serSecurity s = v at h
  cases h with
  | mk h =>
    injection hv with hv
    subst hv
    obtain ⟨name, e⟩ := h _ (List.mem_map_of_mem hx)
    injection e with _ e
    injection e with e
    simpa [strs] using e

theorem responses_legal_inv {rs : List (Nat × Response)} (h : LegalResponses (.map (serResponses rs))) :
    rs ≠ [] ∧ (∀ r ∈ rs, 100 ≤ r.1 ∧ r.1 ≤ 599) ∧ ∀ r ∈ rs, ∀ x, r.2.schema = some x → x.Legal := by
  cases h with
  | mk hn h =>
    have h' : ∀ r ∈ rs, 100 ≤ r.1 ∧ r.1 ≤ 599 ∧ LegalResponse r.2.ser := by
      intro r hr
      obtain ⟨code, v, e, h1, h2, h3⟩ := h _ (List.mem_map_of_mem hr)
      injection e with e1 e2
      injection e1 with e1
      subst e1 e2
      exact ⟨h1, h2, h3⟩
    exact ⟨by rintro rfl; simp [serResponses] at hn, fun r hr => ⟨(h' r hr).1, (h' r hr).2.1⟩,
      fun r hr x hx => response_legal_inv (h' r hr).2.2 hx⟩

theorem scheme_legal_inv {s : SecurityScheme} (h : LegalScheme s.ser) : s.NotInPath := by
  cases s with
  | http s => trivial
  | apiKey a =>
    intro hp
    generalize hv : SecurityScheme.ser (.apiKey a) = v at h
    cases h with
    | mk fields =>
      injection hv with hv
      subst hv
      refine (fields _ (.tail _ (mem_entries (k := "in") (.head _)))).inv rfl ?_
      rw [hp]; rfl

theorem components_legal_inv {c : Components} (h : LegalComponents c.ser) : c.Complete := by
  generalize hv : c.ser = v at h
  cases h with
  | mk fields =>
    injection hv with hv
    subst hv
    have hs : ∀ b ∈ c.schemas, LegalName b.1 ∧ b.2.Legal := by
      intro b hb
      have hne : c.schemas ≠ [] := by intro e; rw [e] at hb; cases hb
      obtain ⟨es, he, h⟩ := (fields _ (mem_entries (k := "schemas")
        (v := .map (c.schemas.map fun b => (.str b.1, b.2.ser))) (by simp [nonEmptyMap, hne]))).inv.1 rfl
      injection he with he
      subst he
      obtain ⟨n, v, e, h1, h2⟩ := h _ (List.mem_map_of_mem hb)
      injection e with e1 e2
      injection e1 with e1
      subst e1 e2
      exact ⟨h1, (Model.legal_iff _).1 h2⟩
    have hq : ∀ b ∈ c.securitySchemes, LegalName b.1 ∧ b.2.NotInPath := by
      intro b hb
      have hne : c.securitySchemes ≠ [] := by intro e; rw [e] at hb; cases hb
      obtain ⟨es, he, h⟩ := (fields _ (mem_entries (k := "securitySchemes")
        (v := .map (c.securitySchemes.map fun b => (.str b.1, b.2.ser))) (by simp [nonEmptyMap, hne]))).inv.2 rfl
      injection he with he
      subst he
      obtain ⟨n, v, e, h1, h2⟩ := h _ (List.mem_map_of_mem hb)
      injection e with e1 e2
      injection e1 with e1
      subst e1 e2
      exact ⟨h1, scheme_legal_inv h2⟩
    exact ⟨fun b hb => (hs b hb).1, fun b hb => (hs b hb).2, fun b hb => (hq b hb).1, fun b hb => (hq b hb).2⟩

/-! ## Documents -/

/-- Completeness without the order of maps. -/
def docFull : DocPred where
  op o := o.Complete
  item v := v.Complete

mutual
theorem PathValue.full_of_legal : ∀ (v : PathValue), LegalPathItem v.ser → v.Forall docFull
  | ⟨s, d, ops, ps⟩, h => by
    rw [PathValue.ser] at h
    rw [PathValue.Forall]
    cases h with
    | mk fields =>
      have hps := optParameters_legal_inv (ps := ps) fun v hv =>
        (fields _ (List.mem_append_right _ (List.mem_append_right _ (mem_entries (k := "parameters") (v := v)
          (by rw [hv]; exact .head _))))).inv.2 rfl
      refine ⟨⟨fun p hp => (hps p hp).1, fun p hp => (hps p hp).2.2, ?_⟩,
        forallOps_full ops fun e he => fields e (List.mem_append_right _ (List.mem_append_left _ he))⟩
      intro r hr
      obtain ⟨p, hp, hx⟩ := List.mem_flatMap.1 hr
      exact (hps p hp).2.1 r (by simpa using hx)
termination_by structural x => x
theorem Operation.full_of_legal : ∀ (o : Operation), LegalOperation o.ser → o.Forall docFull
  | ⟨tags, summary, id, desc, depr, sec, body, resp, params, callbacks⟩, h => by
    rw [Operation.ser] at h
    rw [Operation.Forall]
    cases h with
    | mk fields _ =>
      have hps := optParameters_legal_inv (ps := params) fun v hv =>
        (fields _ (mem_entries (k := "parameters") (v := v) (by simp [hv]))).inv.2.2.2.1 rfl
      have hrs := responses_legal_inv ((fields _ (mem_entries (k := "responses") (v := .map (serResponses resp))
        (by simp))).inv.2.2.1 rfl)
      have hb : ∀ b, body = some b → b.description ≠ none ∧ b.schema.Legal := fun b hb =>
        body_legal_inv ((fields _ (mem_entries (k := "requestBody") (v := b.ser) (by simp [hb]))).inv.2.1 rfl)
      refine ⟨⟨hrs.1, hrs.2.1, fun p hp => (hps p hp).1, fun p hp => (hps p hp).2.2, fun b h => (hb b h).1, ?_, ?_⟩, ?_⟩
      · intro alt halt
        have hne : sec ≠ [] := by rintro rfl; cases halt
        obtain ⟨vs, he, h⟩ := (fields _ (mem_entries (k := "security") (v := .seq (sec.map serSecurity))
          (by simp [nonEmptySeq, hne]))).inv.1 rfl
        injection he with he
        subst he
        exact security_legal_inv (h _ (List.mem_map_of_mem halt))
      · intro r hr
        rcases List.mem_append.1 hr with hr | hr
        · rcases List.mem_append.1 hr with hr | hr
          · obtain ⟨b, hm, rfl⟩ := List.mem_map.1 hr
            exact (hb b (by simpa using hm)).2
          · obtain ⟨p, hp, hx⟩ := List.mem_flatMap.1 hr
            exact hrs.2.2 p hp r (by simpa using hx)
        · obtain ⟨p, hp, hx⟩ := List.mem_flatMap.1 hr
          exact (hps p hp).2.1 r (by simpa using hx)
      · refine forallCallbacks_full callbacks fun e he => ?_
        have hne : serCallbacks callbacks ≠ [] := by intro h; rw [h] at he; cases he
        obtain ⟨es, h1, h⟩ := (fields _ (mem_entries (k := "callbacks") (v := .map (serCallbacks callbacks))
          (by simp [nonEmptyMap, hne]))).inv.2.2.2.2 rfl
        injection h1 with h1
        subst h1
        exact h e he
termination_by structural x => x
theorem CallbackObject.full_of_legal : ∀ (c : CallbackObject), LegalCallback c.ser → c.Forall docFull
  | ⟨ps⟩, h => by
    rw [CallbackObject.ser] at h
    rw [CallbackObject.Forall]
    cases h with
    | mk _ h => exact ⟨trivial, forallPaths_full ps h⟩
termination_by structural x => x
theorem forallPaths_full : ∀ (ps : List (List PathElement × PathValue)), (∀ e ∈ serPaths ps, LegalPathItem e.2) →
    forallPaths docFull ps
  | [], _ => by rw [forallPaths]; trivial
  | (p, v) :: ps, h => by
    rw [serPaths] at h; rw [forallPaths]
    exact ⟨PathValue.full_of_legal v (h _ (.head _)), forallPaths_full ps fun e he => h e (.tail _ he)⟩
termination_by structural x => x
theorem forallOps_full : ∀ (os : List (HttpMethod × Operation)), (∀ e ∈ serOperations os, PathItemField e.1 e.2) →
    forallOps docFull os
  | [], _ => by rw [forallOps]; trivial
  | (m, o) :: os, h => by
    rw [serOperations] at h; rw [forallOps]
    exact ⟨Operation.full_of_legal o ((h _ (.head _)).inv.1 _ (methodNames m) rfl),
      forallOps_full os fun e he => h e (.tail _ he)⟩
termination_by structural x => x
theorem forallCallbacks_full : ∀ (cs : List (String × CallbackObject)), (∀ e ∈ serCallbacks cs, LegalCallback e.2) →
    forallCallbacks docFull cs
  | [], _ => by rw [forallCallbacks]; trivial
  | (k, c) :: cs, h => by
    rw [serCallbacks] at h; rw [forallCallbacks]
    exact ⟨CallbackObject.full_of_legal c (h _ (.head _)), forallCallbacks_full cs fun e he => h e (.tail _ he)⟩
termination_by structural x => x
end

theorem docComplete_of_full : DocPred.Imp docSorted docFull docComplete where
  op _ hs hf := ⟨hf, hs.2.1⟩
  item _ hs hf := ⟨hf, hs.2.1⟩
  paths _ _ _ := trivial

/-- Documents whose maps are in key order are complete if they serialize to legal ones. -/
theorem document_legal_inv {d : Opg} (hs : d.MapsSorted) (h : LegalDocument d.ser) : d.Complete := by
  generalize hv : d.ser = v at h
  cases h with
  | mk fields _ _ paths =>
    injection hv with hv
    subst hv
    have hne : d.paths ≠ [] := by
      intro e
      obtain ⟨v, hv⟩ := paths
      obtain ⟨k, hk, hm⟩ := mem_entriesOf.1 hv
      cases hk
      simp [e, serPaths, nonEmptyMap] at hm
    have hne' : serPaths d.paths ≠ [] := by rw [serPaths_eq]; simpa using hne
    have hp := (fields _ (mem_entries (k := "paths") (v := .map (serPaths d.paths)) (by simp [nonEmptyMap, hne']))).inv.2.1 rfl
    cases hp with
    | mk hp =>
      refine ⟨?_, hs.tags, hne, ?_, ?_, components_legal_inv ((fields _ (mem_entries (k := "components") (v := d.components.ser) (by simp))).inv.2.2 rfl)⟩
      · have := (fields _ (mem_entries (k := "openapi") (.head _))).inv.1 rfl
        injection this
      · intro p hm e
        have : (Key.str (UrlPath.render p.1), p.2.ser) ∈ serPaths d.paths := by
          rw [serPaths_eq]; exact List.mem_map_of_mem hm
        obtain ⟨cs, v, he, _⟩ := hp _ this
        injection he with he _
        injection he with he
        rw [e, UrlPath.render] at he
        have := congrArg String.toList he
        simp at this
      · refine forallPaths_imp docComplete_of_full d.paths hs.paths.2 (forallPaths_full d.paths fun e he => ?_)
        obtain ⟨_, _, rfl, h⟩ := hp e he
        exact h

end Verif
