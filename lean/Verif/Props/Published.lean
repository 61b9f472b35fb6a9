import Verif.Proof.Published
/-!
# Published documents are right about the values of an API (C81)
-/

namespace Verif

open Sample

theorem Composed.placed {reason : Nat → Option String} {api : Api} {d : Opg} (h : Composed reason api d) (distinct : d.ser.DistinctKeys) :
    (∀ decl ∈ api.pathList, ∃ v, ItemWritten api d.ser decl v) ∧
    (∀ ps op name n ds decl, OpWritten api d.ser ps op →
      lastOf (CallbackDecl.named? name) (ps.flatMap OpProp.callbackList) = some (.ident n ds) → decl ∈ ds →
      ∃ v, ItemWritten api d.ser decl v) ∧
    (∀ decl v m ps, ItemWritten api d.ser decl v → lastOf (ItemProp.operation? m) decl.props = some ps →
      ∃ op, v.at m.asStr = some op ∧ OpWritten api d.ser ps op) ∧
    (∀ ps op code description t, OpWritten api d.ser ps op →
      lastOf (OpProp.response? code) ps = some (description, .type t) →
      ∃ v, op.responseSchema code = some v ∧ PlacedAt api d.ser t v) ∧
    (∀ ps op decl, OpWritten api d.ser ps op → lastOf OpProp.body? ps = some decl →
      ∃ t v, decl.typeOf = some t ∧ op.bodySchema = some v ∧ PlacedAt api d.ser t v) ∧
    (∀ ps op name decl, OpWritten api d.ser ps op →
      lastOf (ParamDecl.named? name) (ps.flatMap OpProp.paramList) = some decl →
      ∃ v, op.parameterSchema name = some v ∧ PlacedAt api d.ser decl.typeOf v) ∧
    (∀ decl item name p, ItemWritten api d.ser decl item →
      lastOf (ParamDecl.named? name) (decl.props.flatMap ItemProp.paramList) = some p →
      ∃ v, item.parameterSchema name = some v ∧ PlacedAt api d.ser p.typeOf v) ∧
    (∀ decl item name t, ItemWritten api d.ser decl item →
      lastOf (ParamDecl.named? name) (decl.props.flatMap ItemProp.paramList) = none →
      lastOf (PathSeg.typeOf? name) decl.segments = some t →
      ∃ v, item.parameterSchema name = some v ∧ PlacedAt api d.ser t v) := by
  refine ⟨?_, ?_, ?_, ?_, ?_, ?_, ?_, ?_⟩
  · intro decl hm
    obtain ⟨i, hi⟩ := List.getElem?_of_mem hm
    obtain ⟨⟨p, pv⟩, hpv, hs⟩ := h.order.get hi
    have hne : d.ser.at "paths" = some (.map (serPaths d.paths)) := by
      rw [at_paths, serPaths_map]
      cases hd : d.paths with
      | nil => rw [hd] at hpv; simp at hpv
      | cons _ _ => rfl
    exact ⟨pv.ser, .top hi hs hne (at_path (distinct.at hne) hpv)⟩
  · intro ps op name n ds decl hw hc hm
    obtain ⟨o, ho, rfl, hod⟩ := hw.opIn h distinct
    obtain ⟨i, hi⟩ := List.getElem?_of_mem hm
    have hnone := (h.operations ho).callbacks name
    cases hg : BMap.get name o.callbacks with
    | none => rw [hnone.1 hg] at hc; cases hc
    | some c' =>
      have hcp := h.callbacks ho hc hg
      obtain ⟨⟨p, pv⟩, hpv, hs⟩ := Pointwise.get hcp hi
      have hcs : o.ser.at "callbacks" = some (.map (serCallbacks o.callbacks)) := by
        rw [at_callbacks, Read.serCallbacks_eq]
        cases hd : o.callbacks with
        | nil => rw [hd] at hg; cases hg
        | cons _ _ => rfl
      have hn : (Value.map (serCallbacks o.callbacks)).at name = some c'.ser := by rw [at_callback, hg]; rfl
      have hd' := (hod.at hcs).at hn
      obtain ⟨paths⟩ := c'
      rw [CallbackObject.ser] at hn hd'
      exact ⟨pv.ser, .callback hw hc hi hs hcs hn (at_path hd' hpv)⟩
  · intro decl v m ps hw hm
    obtain ⟨p, pv, hi, rfl, -⟩ := hw.itemIn h distinct
    obtain ⟨o, ho, -⟩ := h.operation hi hm
    have : pv.ser.at m.asStr = some o.ser := by rw [at_method, ho]; rfl
    exact ⟨o.ser, this, .mk hw hm this⟩
  · intro ps op code description t hw hl
    obtain ⟨o, ho, rfl, -⟩ := hw.opIn h distinct
    have hr := (h.operations ho).responses code
    rw [hl] at hr
    obtain ⟨r, hg, ro⟩ := hr
    obtain ⟨x, hx, -⟩ := ro.schema
    have : o.ser.responseSchema code = some x.ser := by rw [responseSchema_ser, hg]; simp [hx]
    exact ⟨_, this, .response hw hl this⟩
  · intro ps op decl hw hl
    obtain ⟨o, ho, rfl, -⟩ := hw.opIn h distinct
    have hb := (h.operations ho).body
    rw [hl] at hb
    obtain ⟨b, hg, bo⟩ := hb
    obtain ⟨t, ht, -⟩ := bo.schema
    have ht' : decl.typeOf = some t := by cases decl <;> exact ht
    have : o.ser.bodySchema = some b.schema.ser := by rw [bodySchema_ser, hg]; rfl
    exact ⟨t, _, ht', this, .body hw hl ht' this⟩
  · intro ps op name decl hw hl
    obtain ⟨o, ho, rfl, -⟩ := hw.opIn h distinct
    have hb := (h.operations ho).parameters name
    rw [hl] at hb
    obtain ⟨p, hg, po⟩ := hb
    obtain ⟨r, hr, -⟩ := po.schema
    have : o.ser.parameterSchema name = some r.ser := by rw [parameterSchema_op, hg]; simp [hr]
    exact ⟨_, this, .parameter hw hl this⟩
  · intro decl item name p hw hl
    obtain ⟨_, pv, hi, rfl, -⟩ := hw.itemIn h distinct
    obtain ⟨x, hg, po⟩ := (h.items hi).parameters name p hl
    obtain ⟨r, hr, -⟩ := po.schema
    have : pv.ser.parameterSchema name = some r.ser := by rw [parameterSchema_item, hg]; simp [hr]
    exact ⟨_, this, .common hw hl this⟩
  · intro decl item name t hw hn hl
    obtain ⟨_, pv, hi, rfl, -⟩ := hw.itemIn h distinct
    have hb := (h.items hi).template name hn
    rw [hl] at hb
    obtain ⟨x, hg, po⟩ := hb
    obtain ⟨r, hr, -⟩ := po.schema
    have : pv.ser.parameterSchema name = some r.ser := by rw [parameterSchema_item, hg]; simp [hr]
    exact ⟨_, this, .template hw hn hl this⟩

/-- C81, the places: in a written document without repeated keys, every described path has its item under its text,
every operation stands under its method, and every response, body and parameter described by a type has a schema, in
callbacks at any depth as well.  Callbacks with a literal name are left out: their paths are not written. -/
theorem c81_placed (env : Env) (reason : Nat → Option String) (api : Api) (d : Opg) (h : Describes env reason api d)
    (distinct : d.ser.DistinctKeys) :
    (∀ decl ∈ api.pathList, ∃ v, ItemWritten api d.ser decl v) ∧
    (∀ ps op name n ds decl, OpWritten api d.ser ps op →
      lastOf (CallbackDecl.named? name) (ps.flatMap OpProp.callbackList) = some (.ident n ds) → decl ∈ ds →
      ∃ v, ItemWritten api d.ser decl v) ∧
    (∀ decl v m ps, ItemWritten api d.ser decl v → lastOf (ItemProp.operation? m) decl.props = some ps →
      ∃ op, v.at m.asStr = some op ∧ OpWritten api d.ser ps op) ∧
    (∀ ps op code description t, OpWritten api d.ser ps op →
      lastOf (OpProp.response? code) ps = some (description, .type t) →
      ∃ v, op.responseSchema code = some v ∧ PlacedAt api d.ser t v) ∧
    (∀ ps op decl, OpWritten api d.ser ps op → lastOf OpProp.body? ps = some decl →
      ∃ t v, decl.typeOf = some t ∧ op.bodySchema = some v ∧ PlacedAt api d.ser t v) ∧
    (∀ ps op name decl, OpWritten api d.ser ps op →
      lastOf (ParamDecl.named? name) (ps.flatMap OpProp.paramList) = some decl →
      ∃ v, op.parameterSchema name = some v ∧ PlacedAt api d.ser decl.typeOf v) ∧
    (∀ decl item name p, ItemWritten api d.ser decl item →
      lastOf (ParamDecl.named? name) (decl.props.flatMap ItemProp.paramList) = some p →
      ∃ v, item.parameterSchema name = some v ∧ PlacedAt api d.ser p.typeOf v) ∧
    (∀ decl item name t, ItemWritten api d.ser decl item →
      lastOf (ParamDecl.named? name) (decl.props.flatMap ItemProp.paramList) = none →
      lastOf (PathSeg.typeOf? name) decl.segments = some t →
      ∃ v, item.parameterSchema name = some v ∧ PlacedAt api d.ser t v) :=
  h.composed.placed distinct

/-- C81: in a published document, the schema written where the description has a type accepts every JSON value that
serde writes for the type, references being looked up in the document itself.  Missing: types that are not faithful
(C40), names used for several types, repeated keys (C20), and the exclusive reading of `oneOf` (C41). -/
theorem c81_accepts_partial (env : Env) (s : Serde) (reason : Nat → Option String) (api : Api) (d : Opg)
    (h : Describes env reason api d) (distinct : d.ser.DistinctKeys) (unique : NamesUnique env api.roots)
    (derived : ∀ i, Reached env api.roots (.named i) → ∃ o input, Derived o env i input)
    (faithful : ∀ t, Reached env api.roots t → Faithful env s t) (finite : s.nonFinite = false)
    (t : Ty) (v : Value) (placed : PlacedAt api d.ser t v) (j : Json) (written : Ser env s t j) :
    Accepts false d.ser v j := by
  obtain ⟨r, rfl, hm, hp⟩ := placed.mentioned h distinct
  obtain ⟨rs, sx, hr, es, -⟩ := h.registry
  exact accepts_ser.2 (c40_conforms_partial env s _ rs sx unique (callsOf_mentions _) hr derived faithful finite
    d.components.schemas (fun n m hg => by rw [← es]; exact hg) t false {} r (mention_call hp) ⟨by simp, rfl⟩ hm j written)

/-- C81, the other direction: a JSON value that the written schema accepts is, for precise types (C79), one that serde
writes for the type, up to the order of the entries of structs, further entries of structs, and integers for floats.
Missing: types that are not precise, names used for several types, and repeated keys. -/
theorem c81_only_partial (x : Bool) (env : Env) (s : Serde) (reason : Nat → Option String) (api : Api) (d : Opg)
    (h : Describes env reason api d) (distinct : d.ser.DistinctKeys) (unique : NamesUnique env api.roots)
    (derived : ∀ i, Reached env api.roots (.named i) → ∃ o input, Derived o env i input)
    (precise : ∀ t, Reached env api.roots t → Precise env s t)
    (t : Ty) (v : Value) (placed : PlacedAt api d.ser t v) (j : Json) (accepted : Accepts x d.ser v j) :
    ∃ j', Ser env s t j' ∧ Covers env t j' j := by
  obtain ⟨r, rfl, hm, hp⟩ := placed.mentioned h distinct
  obtain ⟨rs, sx, hr, es, -⟩ := h.registry
  exact c79_precise_partial x env s _ rs sx unique (callsOf_mentions _) hr derived precise d.components.schemas
    (fun n m hg => by rw [← es]; exact hg) t false {} r (mention_call hp) rfl rfl hm j (accepts_ser.1 accepted)

/-- Without the hypothesis on keys it is false: of a path that is described twice, a reader that takes the first entry
finds the schema of the first description only. -/
theorem c81_is_false_repeated : ∃ (env : Env) (s : Serde) (reason : Nat → Option String) (api : Api) (d : Opg) (t : Ty)
    (v : Value) (j : Json), Describes env reason api d ∧ PlacedAt api d.ser t v ∧ Ser env s t j ∧
      ¬ Accepts false d.ser v j := by
  refine ⟨env, serde, reason, [.paths [.mk [.literal "a"] [.operation .get [.response 200 none (.type (.prim .u32))]],
      .mk [.literal "a"] [.operation .get [.response 200 none (.type (.prim .string))]]]], _, .prim .string,
    Ref.ser (.inline ⟨none, .single ⟨false, .integer (some "uint32") none⟩⟩), .str "x", ⟨10, rfl⟩, ?_, .prim ⟨_, rfl⟩, ?_⟩
  · exact .response (code := 200) (.mk (m := .get) (.top (i := 1) rfl (.cons (.literal "a") .nil) rfl rfl) rfl rfl) rfl rfl
  · intro ha
    have := accepts_ser.1 ha
    cases this with
    | inline h => cases h

namespace Sample

/-- `("done"): { POST: { body: Left } }` -/
def donePath : PathDecl := .mk [.literal "done"] [.operation .post [.body (.type (.named 0))]]
def rightOp : List OpProp := [.callbacks [.ident "onDone" [donePath]], .response 200 none (.type (.named 1))]
def rightPath : PathDecl := .mk [.literal "right"] [.operation .get rightOp]
/-- `paths: { ("right"): { GET: { callbacks: { onDone: { ("done"): { POST: { body: Left } } } }, 200: Right } } }` -/
def publishedApi : Api := [.paths [rightPath]]
def published : Opg := (describeApi (⟨diamond, 10, reason⟩ : Ctx) publishedApi).getD .empty

theorem published_described : Describes diamond reason publishedApi published := ⟨10, rfl⟩

theorem published_distinct : published.ser.DistinctKeys := by
  refine c20_distinct_keys_partial _ (c25_described_documents _ _ _ _ published_described ?_) ?_
  · intro r hr
    simp [Api.parts, Api.pathList, publishedApi, Section.pathList, pathParts, rightPath, itemParts, rightOp, opParts,
      callbackParts, PathSeg.parts, ResponseDecl.parts, BodyDecl.parts, donePath] at hr
  · refine ⟨?_, ?_⟩
    · show (List.map _ _).Nodup
      decide +kernel
    · exact ⟨⟨trivial, ⟨⟨trivial, ⟨⟨by show (List.map _ _).Nodup; decide +kernel,
        ⟨⟨trivial, ⟨⟨trivial, trivial⟩, trivial⟩⟩, trivial⟩⟩, trivial⟩⟩, trivial⟩⟩, trivial⟩

theorem published_roots : publishedApi.roots = rootsOf diamondCalls := by
  simp [Api.roots, Api.parts, Api.pathList, publishedApi, Section.pathList, pathParts, rightPath, itemParts, rightOp, opParts,
    callbackParts, PathSeg.parts, ResponseDecl.parts, BodyDecl.parts, donePath, callsOf, Part.call?, rootsOf, diamondCalls]

/-- The hypotheses hold of a described API with a callback; what is sent there is accepted, and nothing else. -/
example : ∃ right left, PlacedAt publishedApi published.ser (.named 1) right ∧
    PlacedAt publishedApi published.ser (.named 0) left ∧
    (∀ j, Ser diamond serde (.named 1) j → Accepts false published.ser right j) ∧
    (∀ j, Accepts true published.ser left j → ∃ j', Ser diamond serde (.named 0) j' ∧ Covers diamond (.named 0) j' j) := by
  obtain ⟨h1, h2, h3, h4, h5, -⟩ := c81_placed diamond reason publishedApi published published_described published_distinct
  obtain ⟨v, hv⟩ := h1 rightPath (List.mem_singleton.2 rfl)
  obtain ⟨op, -, hop⟩ := h3 _ _ .get rightOp hv rfl
  obtain ⟨right, -, hright⟩ := h4 _ _ 200 none (.named 1) hop rfl
  obtain ⟨w, hw⟩ := h2 _ _ "onDone" _ _ donePath hop rfl (List.mem_singleton.2 rfl)
  obtain ⟨op', -, hop'⟩ := h3 _ _ .post _ hw rfl
  obtain ⟨t, left, ht, -, hleft⟩ := h5 _ _ _ hop' rfl
  cases ht
  refine ⟨right, left, hright, hleft, fun j => ?_, fun j => ?_⟩
  · exact c81_accepts_partial diamond serde reason publishedApi published published_described published_distinct
      (published_roots ▸ diamond_unique) (fun i _ => diamond_derived i) (fun _ h => diamond_faithful (published_roots ▸ h)) rfl (.named 1) right hright j
  · exact c81_only_partial true diamond serde reason publishedApi published published_described published_distinct
      (published_roots ▸ diamond_unique) (fun i _ => diamond_derived i) (fun _ h => diamond_precise (published_roots ▸ h)) (.named 0) left hleft j

end Sample

end Verif
