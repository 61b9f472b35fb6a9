import Verif.Spec.Answers
import Verif.Props.Exchange
import Verif.Props.ConformFalse
import Verif.Props.Evolve
/-!
# Whole responses

C114: a document allows the responses that its description allows.
-/

namespace Verif

open Sample

theorem at_responses (o : Operation) : o.ser.at "responses" = some (.map (serResponses o.responses)) := by
  obtain ⟨tags, summary, id, desc, depr, sec, body, resp, params, callbacks⟩ := o
  simp [Operation.ser, Value.at_map]

theorem atCode_responses (rs : List (Nat × Response)) (code : Nat) :
    (Value.map (serResponses rs)).atCode code = (BMap.get code rs).map Response.ser :=
  get_map_keys (g := Key.num) (fun _ _ h => by injection h) Response.ser code rs

theorem jsonSchema_response (r : Response) : r.ser.jsonSchema = r.schema.map Ref.ser := by
  obtain ⟨desc, schema⟩ := r
  cases schema with
  | none => simp [Response.ser, Value.jsonSchema, Value.at_map]
  | some s =>
    unfold Response.ser
    exact jsonSchema_contentOf _ s (by simp)

section
variable {reason : Nat → Option String} {api : Api} {d : Opg}

/-- What an operation of the document allows, by what is declared for the status. -/
theorem answers_iff (excl : Bool) (h : Composed reason api d) (distinct : d.ser.DistinctKeys) {ps op} (ho : OpWritten api d.ser ps op)
    (a : Answer) : d.ser.Answers excl op a ↔
      Answering (fun t j => ∃ s, PlacedAt api d.ser t s ∧ op.responseSchema a.status = some s ∧ Accepts excl d.ser s j)
        (fun r j => Accepts excl d.ser r.ser j) ps a := by
  obtain ⟨o, hin, rfl, -⟩ := ho.opIn h distinct
  have hr := (h.operations hin).responses a.status
  unfold Value.Answers Answering
  rw [at_responses, responseSchema_ser]
  constructor
  · rintro ⟨_, r, e, hc, hb⟩
    cases e
    rw [atCode_responses] at hc
    obtain ⟨r', hg, rfl⟩ := Option.map_eq_some_iff.1 hc
    rw [hg] at hr
    rw [jsonSchema_response] at hb
    cases hl : lastOf (OpProp.response? a.status) ps with
    | none => rw [hl] at hr; cases hr
    | some x =>
      rw [hl] at hr
      obtain ⟨desc, decl⟩ := x
      obtain ⟨r2, e2, hro⟩ := hr
      cases e2
      have hs := hro.schema
      refine ⟨desc, decl, rfl, ?_⟩
      cases decl with
      | absent =>
        have hs : r'.schema = none := hs
        rw [hs] at hb
        rcases hb with ⟨-, hb⟩ | ⟨s, j, e, -⟩
        · rw [hb]; exact .absent
        · cases e
      | type t =>
        obtain ⟨x, hs, -⟩ := hs
        rw [hs] at hb
        rcases hb with ⟨e, -⟩ | ⟨s, j, e, hb, ha⟩
        · cases e
        · cases e
          rw [hb]
          have hv : o.ser.responseSchema a.status = some x.ser := by rw [responseSchema_ser, hg]; show r'.schema.map _ = _; rw [hs]; rfl
          exact .type ⟨_, .response ho hl hv, by rw [← responseSchema_ser]; exact hv, ha⟩
      | raw x =>
        have hs : r'.schema = x := hs
        rw [hs] at hb
        cases x with
        | none =>
          rcases hb with ⟨-, hb⟩ | ⟨s, j, e, -⟩
          · rw [hb]; exact .none
          · cases e
        | some x =>
          rcases hb with ⟨e, -⟩ | ⟨s, j, e, hb, ha⟩
          · cases e
          · cases e
            rw [hb]
            exact .raw ha
  · rintro ⟨desc, decl, hl, ha⟩
    rw [hl] at hr
    obtain ⟨r, hg, hro⟩ := hr
    refine ⟨_, r.ser, rfl, by rw [atCode_responses, hg]; rfl, ?_⟩
    have hs := hro.schema
    rw [jsonSchema_response]
    generalize hbody : a.body = body at ha
    cases ha with
    | absent =>
      have hs : r.schema = none := hs
      rw [hs]
      exact .inl ⟨rfl, rfl⟩
    | type hok =>
      obtain ⟨s, -, hv, hacc⟩ := hok
      rw [hg] at hv
      exact .inr ⟨s, _, hv, rfl, hacc⟩
    | none =>
      have hs : r.schema = Option.none := hs
      rw [hs]
      exact .inl ⟨rfl, rfl⟩
    | raw hok =>
      have hs : r.schema = some _ := hs
      rw [hs]
      exact .inr ⟨_, _, rfl, rfl, hok⟩

end

theorem Answering.mono {ok ok' : Ty → Json → Prop} {given given' : Ref → Json → Prop} {ps a} (h : Answering ok given ps a)
    (f : ∀ t j, (∃ description, lastOf (OpProp.response? a.status) ps = some (description, .type t)) → a.body = some j → ok t j → ok' t j)
    (g : ∀ r j, given r j → given' r j) : Answering ok' given' ps a := by
  obtain ⟨desc, decl, hl, ha⟩ := h
  refine ⟨desc, decl, hl, ?_⟩
  generalize hb : a.body = body at ha f
  cases ha with
  | absent => exact .absent
  | type h => exact .type (f _ _ ⟨_, hl⟩ rfl h)
  | none => exact .none
  | raw h => exact .raw (g _ _ h)

/-- **C114**. A response that follows the description follows the document, if the schemas of the document accept the values of the types.
Missing: schemas that do not (`c114_is_false`). -/
theorem c114_sent_partial (excl : Bool) (env : Env) (reason : Nat → Option String) (api : Api) (d : Opg) (h : Describes env reason api d)
    (distinct : d.ser.DistinctKeys) (ok : Ty → Json → Prop)
    (types : ∀ t s, PlacedAt api d.ser t s → ∀ j, ok t j → Accepts excl d.ser s j) (ps : List OpProp) (op : Value)
    (ho : OpWritten api d.ser ps op) (a : Answer) (sent : Answering ok (fun r j => Accepts excl d.ser r.ser j) ps a) :
    d.ser.Answers excl op a := by
  obtain ⟨-, -, -, h4, -⟩ := c81_placed env reason api d h distinct
  refine (answers_iff excl h.composed distinct ho a).2 (sent.mono (fun t j hd _ hj => ?_) fun _ _ h => h)
  obtain ⟨desc, hd⟩ := hd
  obtain ⟨s, hs, hp⟩ := h4 ps op a.status desc t ho hd
  exact ⟨s, hp, hs, types t s hp j hj⟩

/-- **C114**. A response that follows the document follows the description, if the schemas of the document accept only values of the types.
Missing: schemas that accept more (`c88_is_false_range`). -/
theorem c114_received_partial (excl : Bool) (env : Env) (reason : Nat → Option String) (api : Api) (d : Opg) (h : Describes env reason api d)
    (distinct : d.ser.DistinctKeys) (ok : Ty → Json → Prop)
    (types : ∀ t s, PlacedAt api d.ser t s → ∀ j, j.Distinct → Accepts excl d.ser s j → ok t j) (ps : List OpProp) (op : Value)
    (ho : OpWritten api d.ser ps op) (a : Answer) (plain : ∀ j, a.body = some j → j.Distinct) (got : d.ser.Answers excl op a) :
    Answering ok (fun r j => Accepts excl d.ser r.ser j) ps a :=
  ((answers_iff excl h.composed distinct ho a).1 got).mono (fun t j _ hb ⟨s, hp, _, hj⟩ => types t s hp j (plain j hb) hj) fun _ _ h => h

/-- **C114**, with what serde writes: the responses of a service that writes the declared types follow the document, for types that
are faithful to their values (C40).  Missing: other types. -/
theorem c114_written_partial (env : Env) (s : Serde) (reason : Nat → Option String) (api : Api) (d : Opg) (h : Describes env reason api d)
    (distinct : d.ser.DistinctKeys) (unique : NamesUnique env api.roots)
    (derived : ∀ i, Reached env api.roots (.named i) → ∃ o input, Derived o env i input)
    (faithful : ∀ t, Reached env api.roots t → Faithful env s t) (finite : s.nonFinite = false) (ps : List OpProp) (op : Value)
    (ho : OpWritten api d.ser ps op) (a : Answer) (sent : Answering (Ser env s) (fun r j => Accepts false d.ser r.ser j) ps a) :
    d.ser.Answers false op a :=
  c114_sent_partial false env reason api d h distinct _
    (fun t v hp => c81_accepts_partial env s reason api d h distinct unique derived faithful finite t v hp) ps op ho a sent

/-- **C114**, with what serde reads: a client that has the declared types reads every response that follows the document, for types
that read what their schema accepts (C86).  Missing: other types. -/
theorem c114_read_partial (excl : Bool) (env : Env) (rd : Reader) (reason : Nat → Option String) (api : Api) (d : Opg)
    (h : Describes env reason api d) (distinct : d.ser.DistinctKeys) (unique : NamesUnique env api.roots)
    (derived : ∀ i, Reached env api.roots (.named i) → ∃ o input, Derived o env i input)
    (readable : ∀ t, Reached env api.roots t → Readable env rd t) (ps : List OpProp) (op : Value)
    (ho : OpWritten api d.ser ps op) (a : Answer) (plain : ∀ j, a.body = some j → j.Distinct) (got : d.ser.Answers excl op a) :
    Answering (Reads env rd) (fun r j => Accepts excl d.ser r.ser j) ps a :=
  c114_received_partial excl env reason api d h distinct _
    (fun t v hp => c88_requests_partial excl env rd reason api d h distinct unique derived readable t v hp) ps op ho a plain got

namespace Sample

def singleOp : List OpProp := [.response 200 none (.type (.wrap .tuple1 (.prim .u8)))]
def singleApi : Api := [.paths [.mk [.literal "a"] [.operation .get singleOp]]]
def singleDoc : Opg := (describeApi (⟨env, 10, reason⟩ : Ctx) singleApi).getD .empty

theorem singleDoc_described : Describes env reason singleApi singleDoc := ⟨10, rfl⟩

theorem singleDoc_distinct : singleDoc.ser.DistinctKeys := by
  refine c20_distinct_keys_partial _ (c25_described_documents _ _ _ _ singleDoc_described ?_) ?_
  · intro r hr
    simp [Api.parts, Api.pathList, singleApi, Section.pathList, pathParts, itemParts, singleOp, opParts, PathSeg.parts,
      ResponseDecl.parts] at hr
  · exact ⟨by show (List.map _ _).Nodup; decide +kernel, ⟨⟨trivial, ⟨⟨trivial, trivial⟩, trivial⟩⟩, trivial⟩⟩

end Sample

/-- C114 is false without the conditions on types: a service that answers with a tuple of one component writes an array, while
the document promises a number. -/
theorem c114_is_false : ∃ (env : Env) (s : Serde) (reason : Nat → Option String) (api : Api) (d : Opg) (ps : List OpProp) (op : Value)
    (a : Answer), Describes env reason api d ∧ d.ser.DistinctKeys ∧ OpWritten api d.ser ps op ∧
    (∀ given, Answering (Ser env s) given ps a) ∧ ¬ d.ser.Answers false op a := by
  have hop : OpWritten singleApi singleDoc.ser singleOp _ := .mk (m := .get) (.top (i := 0) rfl (.cons (.literal "a") .nil) rfl rfl) rfl rfl
  refine ⟨_, serde, _, _, _, singleOp, _, ⟨200, some (.arr [.int 1])⟩, singleDoc_described, singleDoc_distinct, hop,
    fun given => ⟨none, _, rfl, .type (.tuple1 (.prim ⟨1, rfl⟩))⟩, fun h => ?_⟩
  obtain ⟨desc, decl, hl, ha⟩ := (answers_iff false singleDoc_described.composed singleDoc_distinct hop _).1 h
  cases hl
  cases ha with
  | type h =>
    obtain ⟨s, -, hs, ha⟩ := h
    have e : s = Ref.ser (.inline ⟨none, .single ⟨false, .integer (some "uint8") none⟩⟩) := by
      have := hs.symm.trans (b := some _) rfl
      injection this
    rw [e] at ha
    have hv := accepts_ser.1 ha
    refine not_valid_inline ?_ hv
    exact not_valid_type (fun h => h) (fun h => nomatch h)

namespace Sample

/-- The hypotheses hold of the operation that changes a book: its document allows exactly the answers the description allows. -/
example : ∃ op, OpWritten tillApi tillDoc.ser tillOp op ∧
    (∀ n, tillDoc.ser.Answers false op ⟨200, some (.obj [("name", .str n)])⟩) ∧ ¬ tillDoc.ser.Answers false op ⟨200, none⟩ ∧
    (∀ body, ¬ tillDoc.ser.Answers false op ⟨404, body⟩) ∧
    ∀ j, j.Distinct → tillDoc.ser.Answers false op ⟨200, some j⟩ → Reads shop (rust true) (.named 3) j := by
  obtain ⟨h1, -, h3, -⟩ := c81_placed shop reason tillApi tillDoc tillDoc_described tillDoc_distinct
  obtain ⟨v, hv⟩ := h1 tillPath (List.mem_singleton.2 rfl)
  obtain ⟨op, -, hop⟩ := h3 _ _ .put tillOp hv rfl
  have unique := namesUnique_of_closed tillApi_closed (by decide +kernel)
  have all := fun a => c114_read_partial false shop (rust true) reason tillApi tillDoc tillDoc_described tillDoc_distinct unique
    (fun i h => shop_derived (h.mem_closed tillApi_closed)) (fun t h => shop_readable (h.mem_closed tillApi_closed)) tillOp op hop a
  refine ⟨op, hop, fun n => ?_, fun h => ?_, fun body h => ?_, fun j hj h => ?_⟩
  · refine c114_written_partial shop serde reason tillApi tillDoc tillDoc_described tillDoc_distinct unique
      (fun i h => shop_derived (h.mem_closed tillApi_closed)) (fun t h => shop_faithful (h.mem_closed tillApi_closed)) rfl tillOp op hop _
      ⟨none, _, rfl, .type ?_⟩
    exact .struct (ps := [(field "name" (.prim .string), .str n)]) rfl rfl (.keep rfl .nil) (by simp [field])
      (by simp only [List.mem_singleton]; rintro p rfl _; exact .prim ⟨n, rfl⟩)
  · obtain ⟨_, _, hl, ha⟩ := all ⟨200, none⟩ (fun _ h => nomatch h) h
    cases hl
    cases ha
  · obtain ⟨_, _, hl, -⟩ := (answers_iff false tillDoc_described.composed tillDoc_distinct hop _).1 h
    cases hl
  · obtain ⟨_, _, hl, ha⟩ := all _ (fun _ h => by cases h; exact hj) h
    cases hl
    cases ha with
    | type h => exact h

end Sample

end Verif
