import Verif.Props.Published
import Verif.Props.Reads

/-!
C88: the requests that a published document allows are the ones that the service reads.
-/

namespace Verif

/-- C88: a JSON value that the schema written where the description has a type accepts is read by serde as a value of
the type, references being looked up in the document itself.  Missing: types that are not readable (C86), names used
for several types, and repeated keys, in the document (C20) or in the value. -/
theorem c88_requests_partial (x : Bool) (env : Env) (rd : Reader) (reason : Nat → Option String) (api : Api) (d : Opg)
    (h : Describes env reason api d) (distinct : d.ser.DistinctKeys) (unique : NamesUnique env api.roots)
    (derived : ∀ i, Reached env api.roots (.named i) → ∃ o input, Derived o env i input)
    (readable : ∀ t, Reached env api.roots t → Readable env rd t)
    (t : Ty) (v : Value) (placed : PlacedAt api d.ser t v) (j : Json) (once : j.Distinct)
    (accepted : Accepts x d.ser v j) : Reads env rd t j := by
  obtain ⟨r, rfl, hm, hp⟩ := placed.mentioned h distinct
  obtain ⟨rs, sx, hr, es, -⟩ := h.registry
  exact c86_accepted_is_read_partial x env rd _ rs sx unique (callsOf_mentions _) hr derived readable d.components.schemas
    (fun n m hg => by rw [← es]; exact hg) t false {} r (mention_call hp) rfl rfl hm j once (accepts_ser.1 accepted)

/-- C88, the other direction: a JSON value that serde reads as a value of the type, in the strict reading of structs as
objects, is accepted by the written schema.  Missing: types that are not documented in full (C87), the lenient
readings, names used for several types, repeated keys, and the exclusive reading of `oneOf`. -/
theorem c88_complete_partial (env : Env) (rd : Reader) (reason : Nat → Option String) (api : Api) (d : Opg)
    (h : Describes env reason api d) (distinct : d.ser.DistinctKeys) (unique : NamesUnique env api.roots)
    (derived : ∀ i, Reached env api.roots (.named i) → ∃ o input, Derived o env i input)
    (documented : ∀ t, Reached env api.roots t → Documented env rd t) (strict : rd.lenient = false)
    (t : Ty) (v : Value) (placed : PlacedAt api d.ser t v) (j : Json) (read : Reads env rd t j) :
    Accepts false d.ser v j := by
  obtain ⟨r, rfl, hm, hp⟩ := placed.mentioned h distinct
  obtain ⟨rs, sx, hr, es, -⟩ := h.registry
  exact accepts_ser.2 (c87_read_is_accepted_partial env rd _ rs sx unique (callsOf_mentions _) hr derived documented strict
    d.components.schemas (fun n m hg => by rw [← es]; exact hg) t false {} r (mention_call hp) ⟨by simp, rfl⟩ hm j read)

namespace Sample

def addOp : List OpProp := [.body (.type (.named 0)), .response 200 none (.type (.named 3))]
def booksPath : PathDecl := .mk [.literal "books"] [.operation .post addOp]
/-- `paths: { ("books"): { POST: { body: Book, 200: Author } } }` -/
def shopApi : Api := [.paths [booksPath]]
def shopDoc : Opg := (describeApi (⟨shop, 10, reason⟩ : Ctx) shopApi).getD .empty

theorem shopDoc_described : Describes shop reason shopApi shopDoc := ⟨10, rfl⟩

theorem shopDoc_distinct : shopDoc.ser.DistinctKeys := by
  refine c20_distinct_keys_partial _ (c25_described_documents _ _ _ _ shopDoc_described ?_) ?_
  · intro r hr
    simp [Api.parts, Api.pathList, shopApi, Section.pathList, pathParts, booksPath, itemParts, addOp, opParts,
      PathSeg.parts, ResponseDecl.parts, BodyDecl.parts] at hr
  · refine ⟨?_, ?_⟩
    · show (List.map _ _).Nodup
      decide +kernel
    · exact ⟨⟨trivial, ⟨⟨trivial, trivial⟩, trivial⟩⟩, trivial⟩

theorem shopApi_closed : closedList shop shopApi.roots shopTypes = true := by
  have : shopApi.roots = [(.named 0, true), (.named 3, true)] := by
    simp [Api.roots, Api.parts, Api.pathList, shopApi, Section.pathList, pathParts, booksPath, itemParts, addOp, opParts,
      PathSeg.parts, ResponseDecl.parts, BodyDecl.parts, callsOf, Part.call?, rootsOf]
  rw [this]
  decide +kernel

/-- The hypotheses hold of an API with a body of nested types: what its document allows in requests is what is read. -/
example : ∃ v, PlacedAt shopApi shopDoc.ser (.named 0) v ∧
    (∀ x j, j.Distinct → Accepts x shopDoc.ser v j → Reads shop (rust true) (.named 0) j) ∧
    ∀ j, j.Distinct → (Accepts false shopDoc.ser v j ↔ Reads shop (rust false) (.named 0) j) := by
  obtain ⟨h1, -, h3, -, h5, -⟩ := c81_placed shop reason shopApi shopDoc shopDoc_described shopDoc_distinct
  obtain ⟨v, hv⟩ := h1 booksPath (List.mem_singleton.2 rfl)
  obtain ⟨op, -, hop⟩ := h3 _ _ .post addOp hv rfl
  obtain ⟨t, w, ht, -, hw⟩ := h5 _ _ _ hop rfl
  cases ht
  have unique : NamesUnique shop shopApi.roots := namesUnique_of_closed shopApi_closed (by decide +kernel)
  refine ⟨w, hw, fun x j => ?_, fun j hj => ⟨?_, ?_⟩⟩
  · exact c88_requests_partial x shop (rust true) reason shopApi shopDoc shopDoc_described shopDoc_distinct unique
      (fun i h => shop_derived (h.mem_closed shopApi_closed)) (fun t h => shop_readable (h.mem_closed shopApi_closed)) _ w hw j
  · exact c88_requests_partial false shop (rust false) reason shopApi shopDoc shopDoc_described shopDoc_distinct unique
      (fun i h => shop_derived (h.mem_closed shopApi_closed)) (fun t h => shop_readable (h.mem_closed shopApi_closed)) _ w hw j hj
  · exact c88_complete_partial shop (rust false) reason shopApi shopDoc shopDoc_described shopDoc_distinct unique
      (fun i h => shop_derived (h.mem_closed shopApi_closed)) (fun t h => shop_documented (h.mem_closed shopApi_closed)) rfl _ w hw j

def levelOp : List OpProp := [.body (.type (.prim .u8))]
def levelPath : PathDecl := .mk [.literal "level"] [.operation .put levelOp]
/-- `paths: { ("level"): { PUT: { body: u8 } } }` -/
def levelApi : Api := [.paths [levelPath]]
def levelDoc : Opg := (describeApi (⟨shop, 10, reason⟩ : Ctx) levelApi).getD .empty

theorem levelDoc_described : Describes shop reason levelApi levelDoc := ⟨10, rfl⟩

theorem levelDoc_distinct : levelDoc.ser.DistinctKeys := by
  refine c20_distinct_keys_partial _ (c25_described_documents _ _ _ _ levelDoc_described ?_) ?_
  · intro r hr
    simp [Api.parts, Api.pathList, levelApi, Section.pathList, pathParts, levelPath, itemParts, levelOp, opParts,
      PathSeg.parts, BodyDecl.parts] at hr
  · refine ⟨?_, ?_⟩
    · show (List.map _ _).Nodup
      decide +kernel
    · exact ⟨⟨trivial, ⟨⟨trivial, trivial⟩, trivial⟩⟩, trivial⟩

end Sample

open Sample in
/-- C88 is false of bounded numbers: a body of type `u8` is documented as any integer, so that 300 is allowed by the
document and refused by the service. -/
theorem c88_is_false_range : ∃ (env : Env) (reason : Nat → Option String) (api : Api) (d : Opg) (t : Ty)
    (v : Value) (j : Json), Describes env reason api d ∧ d.ser.DistinctKeys ∧ PlacedAt api d.ser t v ∧ j.Distinct ∧
      Accepts true d.ser v j ∧ ¬ Reads env (rust true) t j := by
  refine ⟨shop, reason, levelApi, levelDoc, .prim .u8, Ref.ser (.inline ⟨none, .single ⟨false, .integer (some "uint8") none⟩⟩),
    .int 300, levelDoc_described, levelDoc_distinct, ?_, .int, accepts_ser.2 (.inline .integer), ?_⟩
  · exact .body (.mk (m := .put) (.top (i := 0) rfl (.cons (.literal "level") .nil) rfl rfl) rfl rfl) rfl rfl rfl
  · intro h
    cases h with
    | scalar _ h =>
      obtain ⟨i, h1, h2, h3⟩ := h
      cases h1
      simp [intRange] at h3

end Verif
