import Verif.Spec.Published
import Verif.Props.Api
import Verif.Props.Precise
import Verif.Proof.Read
import Verif.Proof.Composed
/-!
# Published documents (proofs)
-/

namespace Verif

variable {env : Env} {reason : Nat → Option String} {api : Api} {d : Opg}

/-! ## Lookups in written values -/

theorem get_map_keys {K K' V W : Type} [DecidableEq K] [DecidableEq K'] {g : K → K'} (hg : ∀ a b, g a = g b → a = b)
    (f : V → W) (k : K) (l : List (K × V)) :
    BMap.get (g k) (l.map fun b => (g b.1, f b.2)) = (BMap.get k l).map f := by
  induction l with
  | nil => rfl
  | cons b l ih =>
    obtain ⟨k', v⟩ := b
    rw [List.map_cons]
    unfold BMap.get
    by_cases e : k = k'
    · simp [e]
    · have : g k ≠ g k' := fun h => e (hg _ _ h)
      simpa [e, this] using ih

theorem Value.DistinctKeys.at {v w : Value} {k : String} (h : v.DistinctKeys) (ha : v.at k = some w) : w.DistinctKeys := by
  cases v with
  | map es =>
    rw [Value.DistinctKeys] at h
    exact (distinctMap_iff es).1 h.2 _ (BMap.mem_of_get ha)
  | _ => simp [Value.at] at ha

theorem asStr_inj (a b : HttpMethod) (h : Key.str a.asStr = .str b.asStr) : a = b := by
  cases a <;> cases b <;> first | rfl | (revert h; decide)

theorem at_paths (d : Opg) : d.ser.at "paths" = nonEmptyMap (serPaths d.paths) := by
  simp [Opg.ser, Value.at_map]

theorem at_components (d : Opg) : d.ser.at "components" = some d.components.ser := by
  simp [Opg.ser, Value.at_map]

theorem at_callbacks (o : Operation) : o.ser.at "callbacks" = nonEmptyMap (serCallbacks o.callbacks) := by
  obtain ⟨tags, summary, id, desc, depr, sec, body, resp, params, callbacks⟩ := o
  simp [Operation.ser, Value.at_map]

theorem at_method (v : PathValue) (m : HttpMethod) : v.ser.at m.asStr = (BMap.get m v.operations).map Operation.ser := by
  obtain ⟨s, d, ops, ps⟩ := v
  have key : lk m.asStr (serOperations ops) = (BMap.get m ops).map Operation.ser := by
    rw [serOperations_map]
    exact get_map_keys (g := fun m : HttpMethod => Key.str m.asStr) asStr_inj Operation.ser m ops
  rw [PathValue.ser, Value.at_map, lk_append, lk_append, key]
  have h1 : lk m.asStr (entriesOf [("summary", optStr s), ("description", optStr d)]) = none := by
    cases m <;> simp [lk_entriesOf, HttpMethod.asStr]
  have h2 : lk m.asStr (entriesOf [("parameters", nonEmptySeq (serParameters ps))]) = none := by
    cases m <;> simp [lk_entriesOf, HttpMethod.asStr]
  rw [h1, h2]
  simp

theorem at_callback {cs : List (String × CallbackObject)} (name : String) :
    (Value.map (serCallbacks cs)).at name = (BMap.get name cs).map CallbackObject.ser := by
  rw [Read.serCallbacks_eq, Value.at_map]
  exact get_map_keys (g := Key.str) (fun _ _ h => by injection h) CallbackObject.ser name cs

theorem at_path {ps : List (UrlPath × PathValue)} {p v} {i : Nat} (hd : (Value.map (serPaths ps)).DistinctKeys)
    (h : ps[i]? = some (p, v)) : (Value.map (serPaths ps)).at (UrlPath.render p) = some v.ser := by
  rw [Value.DistinctKeys] at hd
  refine BMap.get_of_mem_nodup hd.1 ?_
  rw [serPaths_map]
  exact List.mem_map.2 ⟨_, List.mem_of_getElem? h, rfl⟩

theorem jsonSchema_contentOf (es : List (Key × Value)) (r : Ref) (h : lk "content" es = some (contentOf r)) :
    (Value.map es).jsonSchema = some r.ser := by
  unfold Value.jsonSchema
  rw [Value.at_map, h]
  rfl

theorem responseSchema_ser (o : Operation) (code : Nat) :
    o.ser.responseSchema code = (BMap.get code o.responses).bind fun r => r.schema.map Ref.ser := by
  obtain ⟨tags, summary, id, desc, depr, sec, body, resp, params, callbacks⟩ := o
  have h1 : (Operation.ser ⟨tags, summary, id, desc, depr, sec, body, resp, params, callbacks⟩).at "responses" =
      some (.map (serResponses resp)) := by simp [Operation.ser, Value.at_map]
  have h2 : (Value.map (serResponses resp)).atCode code = (BMap.get code resp).map Response.ser := by
    exact get_map_keys (g := Key.num) (fun _ _ h => by injection h) Response.ser code resp
  unfold Value.responseSchema
  rw [h1]
  show ((Value.map (serResponses resp)).atCode code).bind _ = _
  rw [h2]
  show _ = (BMap.get code resp).bind _
  cases BMap.get code resp with
  | none => rfl
  | some r =>
    obtain ⟨desc, schema⟩ := r
    cases schema with
    | none => simp [Response.ser, Value.jsonSchema, Value.at_map]
    | some s =>
      show Value.jsonSchema (Response.ser ⟨desc, some s⟩) = some s.ser
      unfold Response.ser
      exact jsonSchema_contentOf _ s (by simp)

theorem bodySchema_ser (o : Operation) : o.ser.bodySchema = o.requestBody.map fun b => b.schema.ser := by
  obtain ⟨tags, summary, id, desc, depr, sec, body, resp, params, callbacks⟩ := o
  have h1 : (Operation.ser ⟨tags, summary, id, desc, depr, sec, body, resp, params, callbacks⟩).at "requestBody" =
      body.map RequestBody.ser := by simp [Operation.ser, Value.at_map]
  unfold Value.bodySchema
  rw [h1]
  cases body with
  | none => rfl
  | some b =>
    show Value.jsonSchema b.ser = _
    unfold RequestBody.ser
    exact jsonSchema_contentOf _ b.schema (by simp)

theorem find_parameter (ps : List (String × OperationParameter)) (name : String) :
    (serParameters ps).find? (Value.hasName name) =
      (BMap.get name ps).map (OperationParameter.ser name) := by
  induction ps with
  | nil => rfl
  | cons b ps ih =>
    obtain ⟨k, p⟩ := b
    have hn : (p.ser k).hasName name = (k == name) := by
      simp [Value.hasName, OperationParameter.ser, Value.at_map]
    rw [serParameters, List.map_cons, List.find?_cons, BMap.get_cons]
    simp only [hn]
    by_cases e : k = name
    · subst e; simp
    · have e' : ¬ name = k := fun h => e h.symm
      have : (k == name) = false := by simpa using e
      simp only [this, e', if_false]
      exact ih

theorem schema_ser (name : String) (p : OperationParameter) : (p.ser name).at "schema" = p.schema.map Ref.ser := by
  simp [OperationParameter.ser, Value.at_map]

theorem parameterSchema_of {v : Value} {ps : List (String × OperationParameter)}
    (h : v.at "parameters" = nonEmptySeq (serParameters ps)) (name : String) :
    v.parameterSchema name = (BMap.get name ps).bind fun p => p.schema.map Ref.ser := by
  unfold Value.parameterSchema
  rw [h]
  have hf := find_parameter ps name
  cases he : (serParameters ps).isEmpty with
  | true =>
    have : ps = [] := by cases ps with | nil => rfl | cons _ _ => simp [serParameters] at he
    subst this
    rfl
  | false =>
    simp only [nonEmptySeq, he, Bool.false_eq_true, if_false]
    show ((serParameters ps).find? _).bind _ = _
    rw [hf]
    cases BMap.get name ps with
    | none => rfl
    | some p => exact schema_ser name p

theorem parameterSchema_op (o : Operation) (name : String) :
    o.ser.parameterSchema name = (BMap.get name o.parameters).bind fun p => p.schema.map Ref.ser := by
  obtain ⟨tags, summary, id, desc, depr, sec, body, resp, params, callbacks⟩ := o
  exact parameterSchema_of (by simp [Operation.ser, Value.at_map]) name

theorem parameterSchema_item (v : PathValue) (name : String) :
    v.ser.parameterSchema name = (BMap.get name v.parameters).bind fun p => p.schema.map Ref.ser := by
  obtain ⟨s, d, ops, ps⟩ := v
  refine parameterSchema_of ?_ name
  rw [PathValue.ser, Value.at_map, lk_append, lk_append, lk_serOperations_none _ (by intro m; cases m <;> decide)]
  simp

/-! ## Written items and operations -/

theorem SegOf.unique {s e e'} (h : SegOf s e) (h' : SegOf s e') : e = e' := by
  cases h with
  | literal => cases h'; rfl
  | named => cases h'; rfl
  | bare hb => cases h' with | bare hb' => rw [hb] at hb'; cases hb'; rfl

theorem Pointwise.unique {α β : Type} {R : α → β → Prop} (hR : ∀ a b b', R a b → R a b' → b = b') {as bs bs'}
    (h : Pointwise R as bs) (h' : Pointwise R as bs') : bs = bs' := by
  induction h generalizing bs' with
  | nil => cases h'; rfl
  | cons h _ ih => cases h' with | cons h1 h2 => rw [hR _ _ _ h h1, ih h2]

theorem written_path {paths : List (UrlPath × PathValue)} {decls : List PathDecl}
    (hp : Pointwise (fun decl pv => Pointwise SegOf decl.segments pv.1) decls paths)
    (hd : (Value.map (serPaths paths)).DistinctKeys) {i : Nat} {decl p v} (hi : decls[i]? = some decl)
    (hs : Pointwise SegOf decl.segments p) (hv : (Value.map (serPaths paths)).at (UrlPath.render p) = some v) :
    ∃ pv, paths[i]? = some (p, pv) ∧ v = pv.ser := by
  obtain ⟨⟨p', pv⟩, hpv, hs'⟩ := hp.get hi
  have : p' = p := Pointwise.unique (R := SegOf) (fun _ _ _ => SegOf.unique) hs' hs
  subst this
  rw [at_path hd hpv] at hv
  exact ⟨pv, hpv, by injection hv with e; exact e.symm⟩

mutual
theorem ItemWritten.itemIn (h : Composed reason api d) (hd : d.ser.DistinctKeys) {decl v}
    (hw : ItemWritten api d.ser decl v) : ∃ p pv, ItemIn api d decl (p, pv) ∧ v = pv.ser ∧ v.DistinctKeys :=
  match hw with
  | .top (p := p) hi hp hps hv => by
    have hdp := hd.at hps
    rw [at_paths] at hps
    have e := nonEmptyMap_some hps
    subst e
    obtain ⟨pv, hpv, e⟩ := written_path h.order hdp hi hp hv
    exact ⟨p, pv, .top hi hpv, e, hdp.at hv⟩
  | .callback (p := p) (c := c) ho hc hi hp hcs hn hv => by
    obtain ⟨o, hoi, rfl, hod⟩ := OpWritten.opIn h hd ho
    have hcd := hod.at hcs
    rw [at_callbacks] at hcs
    have e := nonEmptyMap_some hcs
    subst e
    have hpd := hcd.at hn
    rw [at_callback] at hn
    obtain ⟨c', hc', e⟩ := Option.map_eq_some_iff.1 hn
    subst e
    have hcp := h.callbacks hoi hc hc'
    obtain ⟨paths⟩ := c'
    rw [CallbackObject.ser] at hpd hv
    cases c with
    | literal n ds =>
      have : paths = [] := hcp
      subst this
      cases hv
    | ident n ds =>
      obtain ⟨pv, hpv, e⟩ := written_path hcp hpd hi hp hv
      exact ⟨p, pv, .callback hoi hc hc' hi hpv, e, hpd.at hv⟩
theorem OpWritten.opIn (h : Composed reason api d) (hd : d.ser.DistinctKeys) {ps op}
    (hw : OpWritten api d.ser ps op) : ∃ o, OpIn api d ps o ∧ op = o.ser ∧ op.DistinctKeys :=
  match hw with
  | .mk hi hm ho => by
    obtain ⟨p, pv, hin, rfl, hdv⟩ := ItemWritten.itemIn h hd hi
    have hod := hdv.at ho
    rw [at_method] at ho
    obtain ⟨o, hg, e⟩ := Option.map_eq_some_iff.1 ho
    exact ⟨o, .mk hin hm hg, e.symm, hod⟩
end

/-! ## The parts of what stands in a document -/

theorem pathParts_mem {ds : List PathDecl} {decl} (h : decl ∈ ds) :
    ∀ x, x ∈ decl.segments.flatMap PathSeg.parts ++ itemParts decl.props → x ∈ pathParts ds := by
  induction ds with
  | nil => cases h
  | cons a ds ih =>
    obtain ⟨segs, props⟩ := a
    intro x hx
    rw [pathParts]
    rcases List.mem_cons.1 h with rfl | hm
    · exact List.mem_append_left _ hx
    · exact List.mem_append_right _ (ih hm x hx)

theorem itemParts_operation {ps : List ItemProp} {m os} (h : .operation m os ∈ ps) : ∀ x ∈ opParts os, x ∈ itemParts ps := by
  induction ps with
  | nil => cases h
  | cons a ps ih =>
    intro x hx
    rcases List.mem_cons.1 h with rfl | hm
    · rw [itemParts]; exact List.mem_append_left _ hx
    · cases a <;> rw [itemParts] <;> first | exact ih hm x hx | exact List.mem_append_right _ (ih hm x hx)

theorem itemParts_param {ps : List ItemProp} {d} (h : d ∈ ps.flatMap ItemProp.paramList) : ∀ x ∈ d.parts, x ∈ itemParts ps := by
  induction ps with
  | nil => cases h
  | cons a ps ih =>
    intro x hx
    rw [List.flatMap_cons] at h
    rcases List.mem_append.1 h with hm | hm
    · cases a with
      | parameters ds => rw [itemParts]; exact List.mem_append_left _ (List.mem_flatMap.2 ⟨d, hm, hx⟩)
      | _ => cases hm
    · cases a <;> rw [itemParts] <;> first | exact ih hm x hx | exact List.mem_append_right _ (ih hm x hx)

theorem opParts_param {ps : List OpProp} {d} (h : d ∈ ps.flatMap OpProp.paramList) : ∀ x ∈ d.parts, x ∈ opParts ps := by
  induction ps with
  | nil => cases h
  | cons a ps ih =>
    intro x hx
    rw [List.flatMap_cons] at h
    rcases List.mem_append.1 h with hm | hm
    · cases a with
      | parameters ds => rw [opParts]; exact List.mem_append_left _ (List.mem_flatMap.2 ⟨d, hm, hx⟩)
      | _ => cases hm
    · cases a <;> rw [opParts] <;> first | exact ih hm x hx | exact List.mem_append_right _ (ih hm x hx)

theorem opParts_body {ps : List OpProp} {b} (h : .body b ∈ ps) : ∀ x ∈ b.parts, x ∈ opParts ps := by
  induction ps with
  | nil => cases h
  | cons a ps ih =>
    intro x hx
    rcases List.mem_cons.1 h with rfl | hm
    · rw [opParts]; exact List.mem_append_left _ hx
    · cases a <;> rw [opParts] <;> first | exact ih hm x hx | exact List.mem_append_right _ (ih hm x hx)

theorem opParts_response {ps : List OpProp} {c s r} (h : .response c s r ∈ ps) : ∀ x ∈ r.parts, x ∈ opParts ps := by
  induction ps with
  | nil => cases h
  | cons a ps ih =>
    intro x hx
    rcases List.mem_cons.1 h with rfl | hm
    · rw [opParts]; exact List.mem_append_left _ hx
    · cases a <;> rw [opParts] <;> first | exact ih hm x hx | exact List.mem_append_right _ (ih hm x hx)

theorem callbackParts_mem {cs : List CallbackDecl} {n ds} (h : .ident n ds ∈ cs) : ∀ x ∈ pathParts ds, x ∈ callbackParts cs := by
  induction cs with
  | nil => cases h
  | cons a cs ih =>
    intro x hx
    rcases List.mem_cons.1 h with rfl | hm
    · rw [callbackParts]; exact List.mem_append_left _ hx
    · cases a <;> rw [callbackParts] <;> first | exact ih hm x hx | exact List.mem_append_right _ (ih hm x hx)

theorem opParts_callback {ps : List OpProp} {n ds} (h : .ident n ds ∈ ps.flatMap OpProp.callbackList) :
    ∀ x ∈ pathParts ds, x ∈ opParts ps := by
  induction ps with
  | nil => cases h
  | cons a ps ih =>
    intro x hx
    rw [List.flatMap_cons] at h
    rcases List.mem_append.1 h with hm | hm
    · cases a with
      | callbacks cs => rw [opParts]; exact List.mem_append_left _ (callbackParts_mem hm x hx)
      | _ => cases hm
    · cases a <;> rw [opParts] <;> first | exact ih hm x hx | exact List.mem_append_right _ (ih hm x hx)

mutual
theorem ItemIn.parts (h : Composed reason api d) {decl pv} (hi : ItemIn api d decl pv) :
    ∀ x, x ∈ decl.segments.flatMap PathSeg.parts ++ itemParts decl.props → x ∈ api.parts :=
  match hi with
  | .top h1 _ => pathParts_mem (List.mem_of_getElem? h1)
  | .callback (name := name) (c := c) (c' := c') ho hc hc' h1 h2 => by
    have hcp := h.callbacks ho hc hc'
    have hop := OpIn.parts h ho
    obtain ⟨c0, hm, hn⟩ := lastOf_mem hc
    have : c0 = c := by unfold CallbackDecl.named? at hn; split at hn <;> simp_all
    subst this
    intro x hx
    cases c0 with
    | literal n ds =>
      have : c'.paths = [] := hcp
      rw [this] at h2
      simp at h2
    | ident n ds => exact hop x (opParts_callback hm x (pathParts_mem (List.mem_of_getElem? h1) x hx))
theorem OpIn.parts (h : Composed reason api d) {ps o} (ho : OpIn api d ps o) : ∀ x ∈ opParts ps, x ∈ api.parts :=
  match ho with
  | .mk (m := m) hi hm _ => by
    intro x hx
    refine ItemIn.parts h hi x (List.mem_append_right _ ?_)
    obtain ⟨a, ha, hf⟩ := lastOf_mem hm
    cases a with
    | operation m' os =>
      simp only [ItemProp.operation?] at hf
      split at hf
      · cases hf; exact itemParts_operation ha x hx
      · cases hf
    | _ => cases hf
end

theorem ParamDecl.typeOf_part (p : ParamDecl) : Part.mention p.typeOf ∈ p.parts := by
  unfold ParamDecl.typeOf
  cases hl : lastOf ParamProp.schema? p.props with
  | none => cases p <;> exact List.mem_cons_self ..
  | some t =>
    obtain ⟨a, ha, hf⟩ := lastOf_mem hl
    cases a with
    | schema t' =>
      cases hf
      cases p <;> exact List.mem_cons_of_mem _ (List.mem_flatMap.2 ⟨_, ha, List.mem_singleton.2 rfl⟩)
    | _ => cases hf

theorem ParamBy.typeOf {M : Ty → Ref → Prop} {p : ParamDecl} {x} (h : ParamBy M p x) : ∃ r, x.schema = some r ∧ M p.typeOf r := by
  obtain ⟨r, hr, hm⟩ := h.schema
  refine ⟨r, hr, ?_⟩
  cases p <;> exact hm

theorem named_mem {name : String} {ds : List ParamDecl} {p} (h : lastOf (ParamDecl.named? name) ds = some p) : p ∈ ds := by
  obtain ⟨a, ha, hf⟩ := lastOf_mem h
  unfold ParamDecl.named? at hf
  split at hf
  · cases hf; exact ha
  · cases hf

/-- The schema written where the description has a type is the one that was mentioned there. -/
theorem PlacedAt.mentionedBy {M : Ty → Ref → Prop} (h : Composed reason api d) (items : ∀ {decl p v}, ItemIn api d decl (p, v) → ItemBy M decl p v)
    (operations : ∀ {ps o}, OpIn api d ps o → OperationBy M reason ps o) (hd : d.ser.DistinctKeys) {t v} (hp : PlacedAt api d.ser t v) :
    ∃ r, v = r.ser ∧ M t r ∧ Part.mention t ∈ api.parts := by
  cases hp with
  | @response ps op code description _ _ hw hl hv =>
    obtain ⟨o, ho, rfl, -⟩ := hw.opIn h hd
    have hr := (operations ho).responses code
    rw [hl] at hr
    obtain ⟨r, hg, ro⟩ := hr
    obtain ⟨x, hx, hm⟩ := ro.schema
    rw [responseSchema_ser, hg] at hv
    simp [hx] at hv
    refine ⟨x, hv.symm, hm, ho.parts h _ ?_⟩
    obtain ⟨a, ha, hf⟩ := lastOf_mem hl
    cases a with
    | response c s r =>
      simp only [OpProp.response?] at hf
      split at hf
      · cases hf; exact opParts_response ha _ (List.mem_singleton.2 rfl)
      · cases hf
    | _ => cases hf
  | @body ps op decl _ _ hw hl ht hv =>
    obtain ⟨o, ho, rfl, -⟩ := hw.opIn h hd
    have hb := (operations ho).body
    rw [hl] at hb
    obtain ⟨b, hg, bo⟩ := hb
    obtain ⟨t', ht', hm⟩ := bo.schema
    have : t' = t := by
      cases decl <;> simp only [BodyDecl.typeOf] at ht <;> simp only at ht' <;> rw [ht] at ht' <;> cases ht' <;> rfl
    subst this
    rw [bodySchema_ser, hg] at hv
    simp at hv
    refine ⟨b.schema, hv.symm, hm, ho.parts h _ ?_⟩
    obtain ⟨a, ha, hf⟩ := lastOf_mem hl
    cases a with
    | body b' =>
      cases hf
      refine opParts_body ha _ ?_
      cases decl with
      | type t'' => cases ht; exact List.mem_singleton.2 rfl
      | props bs =>
        obtain ⟨a', ha', hf'⟩ := lastOf_mem ht
        cases a' with
        | schema t'' => cases hf'; exact List.mem_flatMap.2 ⟨_, ha', List.mem_singleton.2 rfl⟩
        | _ => cases hf'
    | _ => cases hf
  | @parameter ps op name decl _ hw hl hv =>
    obtain ⟨o, ho, rfl, -⟩ := hw.opIn h hd
    have hb := (operations ho).parameters name
    rw [hl] at hb
    obtain ⟨p, hg, po⟩ := hb
    obtain ⟨r, hr, hm⟩ := po.typeOf
    rw [parameterSchema_op, hg] at hv
    simp [hr] at hv
    exact ⟨r, hv.symm, hm, ho.parts h _ (opParts_param (named_mem hl) _ (ParamDecl.typeOf_part decl))⟩
  | @common decl item name p _ hw hl hv =>
    obtain ⟨_, pv, hi, rfl, -⟩ := hw.itemIn h hd
    obtain ⟨x, hg, po⟩ := (items hi).parameters name p hl
    obtain ⟨r, hr, hm⟩ := po.typeOf
    rw [parameterSchema_item, hg] at hv
    simp [hr] at hv
    exact ⟨r, hv.symm, hm, hi.parts h _
      (List.mem_append_right _ (itemParts_param (named_mem hl) _ (ParamDecl.typeOf_part p)))⟩
  | @template decl item name _ _ hw hn hl hv =>
    obtain ⟨_, pv, hi, rfl, -⟩ := hw.itemIn h hd
    have hb := (items hi).template name hn
    rw [hl] at hb
    obtain ⟨x, hg, po⟩ := hb
    obtain ⟨r, hr, hm⟩ := po.schema
    rw [parameterSchema_item, hg] at hv
    simp [hr] at hv
    refine ⟨r, hv.symm, hm, hi.parts h _ (List.mem_append_left _ ?_)⟩
    obtain ⟨a, ha, hf⟩ := lastOf_mem hl
    refine List.mem_flatMap.2 ⟨a, ha, ?_⟩
    cases a with
    | literal => simp [PathSeg.typeOf?, PathSeg.param?] at hf
    | bare path t' =>
      simp only [PathSeg.typeOf?, PathSeg.param?] at hf
      cases hb : bareName path.print with
      | none => rw [hb] at hf; cases hf
      | some n =>
        rw [hb] at hf
        simp at hf
        obtain ⟨_, rfl⟩ := hf
        exact List.mem_singleton.2 rfl
    | named n t' =>
      simp [PathSeg.typeOf?, PathSeg.param?] at hf
      obtain ⟨_, rfl⟩ := hf
      exact List.mem_singleton.2 rfl

theorem PlacedAt.mentioned (h : Describes env reason api d) (hd : d.ser.DistinctKeys) {t v} (hp : PlacedAt api d.ser t v) :
    ∃ r, v = r.ser ∧ Mentions env t false {} r ∧ Part.mention t ∈ api.parts :=
  hp.mentionedBy h.composed (fun hi => c58_path_item env reason api d h _ _ _ hi) (fun ho => c58_operation env reason api d h _ _ ho) hd

theorem accepts_ser {x : Bool} {r : Ref} {j : Json} : Accepts x d.ser r.ser j ↔ Valid x d.components.schemas r j := by
  constructor
  · rintro ⟨c, cx, r', hc, hcx, hr, hv⟩
    rw [at_components] at hc
    cases hc
    rw [Read.components_ser] at hcx
    rw [Read.ref_ser] at hr
    cases hcx
    cases hr
    exact hv
  · exact fun hv => ⟨_, _, _, at_components d, Read.components_ser _, Read.ref_ser _, hv⟩

theorem mention_call {t} {ps : List Part} (h : Part.mention t ∈ ps) : Call.mention t false {} ∈ callsOf ps :=
  List.mem_filterMap.2 ⟨_, h, rfl⟩

end Verif
