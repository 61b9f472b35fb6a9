import Verif.Proof.OpenApi
import Verif.Proof.DocForall
/-!
# Legal serialized documents, continued
-/

namespace Verif

theorem content_legal {r : Ref} (h : r.Legal) : LegalContent (contentOf r) := by
  refine .mk fun e he => ?_
  rw [List.mem_singleton] at he
  exact ⟨_, _, he, Ref.ser_legal r h⟩

theorem body_legal {b : RequestBody} (hd : b.description ≠ none) (hs : b.schema.Legal) : LegalRequestBody b.ser := by
  refine .mk (okFields_cons (flag_all (.required true) _) (okFields_cons (some_all ?_)
    (okFields_cons (some_all (.content (content_legal hs))) okFields_nil))).entries (hasKey_entries (.tail _ (.tail _ (.head _))))
  cases h : b.description with
  | none => exact absurd h hd
  | some d => exact .description d

theorem response_legal {r : Response} (hs : ∀ x, r.schema = some x → x.Legal) : LegalResponse r.ser := by
  refine .mk (okFields_cons (some_all (.description _)) (okFields_cons (map_all fun a ha => .content (content_legal (hs a ha)))
    okFields_nil)).entries (hasKey_entries (.head _))

theorem parameterIn_mem (p : ParameterIn) : p.asStr ∈ ["query", "header", "path", "cookie"] := by cases p <;> decide

theorem parameter_legal {name : String} {p : OperationParameter} (hs : p.schema ≠ none)
    (hl : ∀ x, p.schema = some x → x.Legal) (hp : p.parameterIn = .path → p.required = true) :
    LegalParameter (p.ser name) := by
  refine .mk (okFields_cons (some_all (.name _)) (okFields_cons (optStr_field .description _)
    (okFields_cons (some_all (.place (parameterIn_mem _))) (okFields_cons (flag_all (.required true) _)
    (okFields_cons (flag_all (.deprecated true) _) (okFields_cons (map_all fun a ha => .schema (Ref.ser_legal a (hl a ha)))
    okFields_nil)))))).entries ?_ ?_ ?_ ?_
  · exact hasKey_entries (.head _)
  · exact hasKey_entries (.tail _ (.tail _ (.head _)))
  · cases h : p.schema with
    | none => exact absurd h hs
    | some s =>
      refine hasKey_entries (v := s.ser) ?_
      simp
  · intro h
    obtain ⟨k, hk, hm⟩ := mem_entriesOf.1 h
    cases hk
    have : p.parameterIn = .path := by
      cases hi : p.parameterIn <;> simp [hi, ParameterIn.asStr] at hm ⊢
    exact mem_entriesOf.2 ⟨"required", rfl, by simp [hp this, flag]⟩

theorem parameterId_ser (name : String) (p : OperationParameter) :
    parameterId (p.ser name) = (some (.str name), some (.str p.parameterIn.asStr)) := by
  have h1 : lk "name" (entriesOf [("name", some (.str name)), ("description", optStr p.description),
      ("in", some (.str p.parameterIn.asStr)), ("required", flag p.required), ("deprecated", flag p.deprecated),
      ("schema", p.schema.map Ref.ser)]) = some (.str name) := by simp
  have h2 : lk "in" (entriesOf [("name", some (.str name)), ("description", optStr p.description),
      ("in", some (.str p.parameterIn.asStr)), ("required", flag p.required), ("deprecated", flag p.deprecated),
      ("schema", p.schema.map Ref.ser)]) = some (.str p.parameterIn.asStr) := by simp
  exact Prod.ext h1 h2

theorem parameters_legal {ps : List (String × OperationParameter)} (hs : BMap.Sorted ps)
    (hn : ∀ p ∈ ps, p.2.schema ≠ none) (hl : ∀ p ∈ ps, ∀ x, p.2.schema = some x → x.Legal)
    (hp : ∀ p ∈ ps, p.2.parameterIn = .path → p.2.required = true) : LegalParameters (.seq (serParameters ps)) := by
  refine .mk ?_ ?_
  · intro v hv
    obtain ⟨p, hm, rfl⟩ := List.mem_map.1 hv
    exact parameter_legal (hn p hm) (hl p hm) (hp p hm)
  · have : (serParameters ps).map parameterId =
        ps.map fun p => (some (Value.str p.1), some (Value.str p.2.parameterIn.asStr)) := by
      rw [serParameters, List.map_map]
      apply List.map_congr_left
      intro p _
      exact parameterId_ser p.1 p.2
    rw [this]
    have hk : (BMap.keys ps).Nodup := BMap.nodup_keys hs
    clear this hn hl hp hs
    induction ps with
    | nil => simp
    | cons p ps ih =>
      simp only [BMap.keys, List.map_cons, List.nodup_cons] at hk
      rw [List.map_cons, List.nodup_cons]
      refine ⟨?_, ih hk.2⟩
      intro hm
      obtain ⟨q, hq, e⟩ := List.mem_map.1 hm
      injection e with e1 _
      injection e1 with e1
      injection e1 with e1
      exact hk.1 (e1 ▸ List.mem_map_of_mem hq)

theorem mem_param_refs {ps : List (String × OperationParameter)} {p x} (hp : p ∈ ps) (hx : p.2.schema = some x) :
    x ∈ ps.flatMap fun p => p.2.schema.toList :=
  List.mem_flatMap.2 ⟨p, hp, by simp [hx]⟩

theorem security_legal {s : List (String × List String)} (h : ∀ x ∈ s, x.2 = []) : LegalRequirement (serSecurity s) := by
  refine .mk fun e he => ?_
  obtain ⟨x, hx, rfl⟩ := List.mem_map.1 he
  exact ⟨x.1, by rw [h x hx]; rfl⟩

theorem responses_legal {rs : List (Nat × Response)} (hn : rs ≠ []) (hc : ∀ r ∈ rs, 100 ≤ r.1 ∧ r.1 ≤ 599)
    (hl : ∀ r ∈ rs, ∀ x, r.2.schema = some x → x.Legal) : LegalResponses (.map (serResponses rs)) := by
  refine .mk (by simpa [serResponses] using hn) fun e he => ?_
  obtain ⟨r, hr, rfl⟩ := List.mem_map.1 he
  exact ⟨r.1, _, rfl, (hc r hr).1, (hc r hr).2, response_legal (hl r hr)⟩

theorem methodNames (m : HttpMethod) : m.asStr ∈ ["get", "put", "post", "delete", "options", "head", "patch", "trace"] := by
  cases m <;> decide

mutual
theorem PathValue.ser_legal : ∀ (v : PathValue), v.Forall docComplete → LegalPathItem v.ser
  | ⟨s, d, ops, ps⟩, h => by
    rw [PathValue.Forall] at h
    obtain ⟨⟨hc, hs⟩, ho⟩ := h
    rw [PathValue.ser]
    refine .mk fun e he => ?_
    rcases List.mem_append.1 he with he | he
    · exact (okFields_cons (optStr_field .summary _) (okFields_cons (optStr_field .description _) okFields_nil)).entries e he
    rcases List.mem_append.1 he with he | he
    · exact ops_legal ops ho e he
    · refine (okFields_cons (nonEmptySeq_all (.parameters ?_)) okFields_nil).entries e he
      exact parameters_legal hs hc.schemas (fun p hp x hx => hc.refs x (mem_param_refs hp hx)) hc.path
termination_by structural x => x
theorem Operation.ser_legal : ∀ (o : Operation), o.Forall docComplete → LegalOperation o.ser
  | ⟨tags, summary, id, desc, depr, sec, body, resp, params, callbacks⟩, h => by
    rw [Operation.Forall] at h
    obtain ⟨⟨hc, hs⟩, ho⟩ := h
    rw [Operation.ser]
    refine .mk (okFields_cons (nonEmptySeq_all (.tags tags)) (okFields_cons (optStr_field .summary _)
      (okFields_cons (optStr_field .operationId _) (okFields_cons (optStr_field .description _)
      (okFields_cons (flag_all (.deprecated true) _) (okFields_cons (nonEmptySeq_all (.security ?_))
      (okFields_cons (map_all fun b hb => .requestBody ?_) (okFields_cons (some_all (.responses ?_))
      (okFields_cons (nonEmptySeq_all (.parameters ?_)) (okFields_cons (nonEmptyMap_all (.callbacks ?_ ?_))
      okFields_nil)))))))))).entries (hasKey_entries (v := .map (serResponses resp)) (by simp))
    · intro v hv
      obtain ⟨x, hx, rfl⟩ := List.mem_map.1 hv
      exact security_legal (hc.scopes x hx)
    · refine body_legal (hc.body b hb) (hc.refs _ ?_)
      cases hb
      simp [Operation.refs]
    · refine responses_legal hc.responses hc.codes fun r hr x hx => hc.refs x ?_
      refine List.mem_append_left _ (List.mem_append_right _ (List.mem_flatMap.2 ⟨r, hr, ?_⟩))
      simp [hx]
    · exact parameters_legal hs hc.schemas (fun p hp x hx => hc.refs x (List.mem_append_right _ (mem_param_refs hp hx))) hc.path
    · rw [serCallbacks_eq]
      intro e he
      obtain ⟨c, -, rfl⟩ := List.mem_map.1 he
      exact ⟨c.1, rfl⟩
    · exact callbacks_legal callbacks ho
termination_by structural x => x
theorem CallbackObject.ser_legal : ∀ (c : CallbackObject), c.Forall docComplete → LegalCallback c.ser
  | ⟨ps⟩, h => by
    rw [CallbackObject.Forall] at h
    rw [CallbackObject.ser]
    refine .mk ?_ (paths_legal ps h.2)
    rw [serPaths_eq]
    intro e he
    obtain ⟨p, -, rfl⟩ := List.mem_map.1 he
    exact ⟨_, rfl⟩
termination_by structural x => x
theorem paths_legal : ∀ (ps : List (List PathElement × PathValue)), forallPaths docComplete ps →
    ∀ e ∈ serPaths ps, LegalPathItem e.2
  | [], _ => by simp [serPaths]
  | (p, v) :: ps, h => by
    rw [forallPaths] at h; rw [serPaths]
    intro e he
    rcases List.mem_cons.1 he with rfl | he
    · exact PathValue.ser_legal v h.1
    · exact paths_legal ps h.2 e he
termination_by structural x => x
theorem ops_legal : ∀ (os : List (HttpMethod × Operation)), forallOps docComplete os →
    ∀ e ∈ serOperations os, PathItemField e.1 e.2
  | [], _ => by simp [serOperations]
  | (m, o) :: os, h => by
    rw [forallOps] at h; rw [serOperations]
    intro e he
    rcases List.mem_cons.1 he with rfl | he
    · exact .operation (methodNames m) (Operation.ser_legal o h.1)
    · exact ops_legal os h.2 e he
termination_by structural x => x
theorem callbacks_legal : ∀ (cs : List (String × CallbackObject)), forallCallbacks docComplete cs →
    ∀ e ∈ serCallbacks cs, LegalCallback e.2
  | [], _ => by simp [serCallbacks]
  | (k, c) :: cs, h => by
    rw [forallCallbacks] at h; rw [serCallbacks]
    intro e he
    rcases List.mem_cons.1 he with rfl | he
    · exact CallbackObject.ser_legal c h.1
    · exact callbacks_legal cs h.2 e he
termination_by structural x => x
end

theorem render_slash (p : UrlPath) (h : p ≠ []) : ∃ cs, UrlPath.render p = String.ofList ('/' :: cs) := by
  cases p with
  | nil => exact absurd rfl h
  | cons e es =>
    have : ∃ s, e.render = "/" ++ s := by
      cases e with
      | path s => exact ⟨s, rfl⟩
      | parameter s => exact ⟨_, rfl⟩
    obtain ⟨s, hs⟩ := this
    refine ⟨s.toList ++ (UrlPath.render es).toList, ?_⟩
    rw [UrlPath.render, hs]
    apply String.toList_inj.1
    simp

theorem scheme_legal {s : SecurityScheme} (h : s.NotInPath) : LegalScheme s.ser := by
  cases s with
  | http s =>
    cases s with
    | basic d =>
      refine .mk ?_ ⟨_, .head _⟩ (fun _ => ⟨_, .tail _ (.head _)⟩) ?_
      · intro e he
        rcases List.mem_cons.1 he with rfl | he
        · exact .type (by simp)
        rcases List.mem_cons.1 he with rfl | he
        · exact .scheme _
        · exact (okFields_cons (optStr_field .description _) okFields_nil).entries e he
      · intro h
        rcases List.mem_cons.1 h with h | h
        · simp at h
        rcases List.mem_cons.1 h with h | h
        · simp at h
        · obtain ⟨k, hk, hm⟩ := mem_entriesOf.1 h
          cases hk
          simp at hm
    | bearer f d =>
      refine .mk ?_ ⟨_, .head _⟩ (fun _ => ⟨_, .tail _ (.head _)⟩) ?_
      · intro e he
        rcases List.mem_cons.1 he with rfl | he
        · exact .type (by simp)
        rcases List.mem_cons.1 he with rfl | he
        · exact .scheme _
        · exact (okFields_cons (optStr_field .bearerFormat _) (okFields_cons (optStr_field .description _)
            okFields_nil)).entries e he
      · intro h
        rcases List.mem_cons.1 h with h | h
        · simp at h
        rcases List.mem_cons.1 h with h | h
        · simp at h
        · obtain ⟨k, hk, hm⟩ := mem_entriesOf.1 h
          cases hk
          simp at hm
  | apiKey a =>
    refine .mk ?_ ⟨_, .head _⟩ ?_ ?_
    · intro e he
      rcases List.mem_cons.1 he with rfl | he
      · exact .type (by simp)
      · refine (okFields_cons (some_all (.place ?_)) (okFields_cons (some_all (.name _))
          (okFields_cons (optStr_field .description _) okFields_nil))).entries e he
        have : a.parameterIn ≠ .path := h
        cases hi : a.parameterIn <;> simp [hi, ParameterIn.asStr] at this ⊢
    · intro h
      rcases List.mem_cons.1 h with h | h
      · simp at h
      · obtain ⟨k, hk, hm⟩ := mem_entriesOf.1 h
        cases hk
        simp at hm
    · intro _
      obtain ⟨v, hv⟩ : HasKey "name" (entriesOf [("in", some (.str a.parameterIn.asStr)),
        ("name", some (.str a.name)), ("description", optStr a.description)]) := hasKey_entries (.tail _ (.head _))
      obtain ⟨w, hw⟩ : HasKey "in" (entriesOf [("in", some (.str a.parameterIn.asStr)),
        ("name", some (.str a.name)), ("description", optStr a.description)]) := hasKey_entries (.head _)
      exact ⟨⟨v, List.mem_cons_of_mem _ hv⟩, ⟨w, List.mem_cons_of_mem _ hw⟩⟩

theorem components_legal {c : Components} (h : c.Complete) : LegalComponents c.ser := by
  refine .mk (okFields_cons (nonEmptyMap_all (.schemas fun e he => ?_))
    (okFields_cons (nonEmptyMap_all (.securitySchemes fun e he => ?_)) okFields_nil)).entries
  · obtain ⟨b, hb, rfl⟩ := List.mem_map.1 he
    exact ⟨_, _, rfl, h.names b hb, Model.ser_legal _ (h.models b hb)⟩
  · obtain ⟨b, hb, rfl⟩ := List.mem_map.1 he
    exact ⟨_, _, rfl, h.schemeNames b hb, scheme_legal (h.schemes b hb)⟩

theorem tagName_ser (name : String) (t : Tag) : (t.ser name).at "name" = some (.str name) := by
  have : lk "name" (entriesOf [("name", some (.str name)), ("description", optStr t.description)]) = some (.str name) := by
    simp
  exact this

theorem document_legal {d : Opg} (h : d.Complete) : LegalDocument d.ser := by
  refine .mk (OkFields.entries ?fields) ?openapi ?info ?paths
  case openapi => exact hasKey_entries (.head _)
  case info => exact hasKey_entries (.tail _ (.head _))
  case paths =>
    refine hasKey_entries (v := .map (serPaths d.paths)) ?_
    have : serPaths d.paths ≠ [] := by rw [serPaths_eq]; simpa using h.paths
    simp [nonEmptyMap, this]
  refine (okFields_cons (some_all ?_) (okFields_cons (some_all (.info ?_)) (okFields_cons (nonEmptySeq_all (.tags ?_ ?_))
    (okFields_cons (nonEmptySeq_all (.servers ?_)) (okFields_cons (nonEmptyMap_all (.paths ?_))
    (okFields_cons (some_all (.components (components_legal h.components))) okFields_nil))))))
  · rw [h.version]; exact .openapi
  · exact .mk (okFields_cons (some_all (.title _)) (okFields_cons (optStr_field .description _)
      (okFields_cons (some_all (.version _)) okFields_nil))).entries (hasKey_entries (.head _))
      (hasKey_entries (.tail _ (.tail _ (.head _))))
  · intro v hv
    obtain ⟨t, -, rfl⟩ := List.mem_map.1 hv
    exact .mk (okFields_cons (some_all (.name _)) (okFields_cons (optStr_field .description _) okFields_nil)).entries
      (hasKey_entries (.head _))
  · rw [List.map_map]
    have : d.tags.map ((fun v => Value.at v "name") ∘ fun t => t.2.ser t.1) = (BMap.keys d.tags).map fun k => some (Value.str k) := by
      rw [BMap.keys, List.map_map]
      exact List.map_congr_left fun t _ => tagName_ser t.1 t.2
    rw [this]
    exact nodup_map (fun a b e => by injection e with e; injection e) (BMap.nodup_keys h.tags)
  · intro v hv
    obtain ⟨s, -, rfl⟩ := List.mem_map.1 hv
    exact .mk (okFields_cons (some_all (.url _)) (okFields_cons (optStr_field .description _) okFields_nil)).entries
      (hasKey_entries (.head _))
  · refine .mk fun e he => ?_
    have hl := paths_legal d.paths h.items e he
    rw [serPaths_eq] at he
    obtain ⟨p, hp, rfl⟩ := List.mem_map.1 he
    obtain ⟨cs, hcs⟩ := render_slash p.1 (h.segments p hp)
    exact ⟨cs, _, by rw [← hcs], hl⟩

end Verif
