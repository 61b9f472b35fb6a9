import Verif.Proof.DocInj
import Verif.Proof.DocForall
/-!
# Serialized documents (C20, C21, C22, C23, C25, C26)
-/

namespace Verif

/-! ## A sample document -/

namespace Sample

/-- `{ "type": "object", "properties": {"a": {"$ref": ..}, "b": {"type": "boolean", "nullable": true}}, .. }` -/
def schema : Model := ⟨some "doc", .single ⟨false, .object ⟨[("a", .link "A"),
  ("b", .inline ⟨none, .single ⟨true, .boolean⟩⟩)], none, ["b"]⟩⟩⟩

def callbackItem : PathValue := ⟨none, none, [(.put, { Operation.empty with responses := [(200, ⟨"ok", none⟩)] })], []⟩

def operation : Operation := { Operation.empty with
  tags := ["t"]
  security := [[("basic", [])]]
  requestBody := some ⟨none, true, .link "A"⟩
  responses := [(200, ⟨"ok", some (.inline schema)⟩), (404, ⟨"", none⟩)]
  callbacks := [("done", ⟨[([.path "url"], callbackItem)]⟩)] }

def document : Opg where
  openapi := openapiVersion
  info := { title := "T", version := "1" }
  tags := [("t", ⟨some "tag"⟩)]
  servers := [⟨"https://x", none⟩]
  paths := [([.path "pets", .parameter "id"], ⟨none, none, [(.get, operation), (.post, Operation.empty)],
    [("id", ⟨none, .path, true, false, some (.inline ⟨none, .single ⟨false, .boolean⟩⟩)⟩)]⟩)]
  components := ⟨[("A", schema)], [("basic", .http (.basic none))]⟩

theorem schema_sorted : schema.PropsSorted := by
  intro o ho
  simp [schema, Model.objects, ModelData.objects, ModelType.objects, TypeDesc.objects, propsObjects,
    Ref.objects, optObjects] at ho
  subst ho
  simp [BMap.Sorted]
  decide

theorem document_sorted : document.MapsSorted where
  tags := by simp [document, BMap.Sorted]
  paths := by
    simp [Opg.Forall, document, forallPaths, PathValue.Forall, docSorted, forallOps, operation, Operation.empty,
      Operation.Forall, forallCallbacks, CallbackObject.Forall, callbackItem, BMap.Sorted, Operation.refs, PathValue.refs,
      propsSorted_inline]
    refine ⟨⟨by decide, ?_⟩, ⟨by decide, ?_⟩⟩
    · simp [Model.PropsSorted, Model.objects, ModelData.objects, ModelType.objects, TypeDesc.objects]
    · rintro r (rfl | ⟨a, b, ⟨_, rfl⟩ | ⟨_, rfl⟩, h⟩)
      · simp [Ref.PropsSorted, Ref.objects]
      · cases h
        exact propsSorted_inline.2 schema_sorted
      · cases h
  components := by
    refine ⟨by simp [document, BMap.Sorted], by simp [document, BMap.Sorted], ?_⟩
    simp [document, schema_sorted]

theorem document_plain : document.Forall docPathsPlain := by
  simp [Opg.Forall, document, forallPaths, PathValue.Forall, docPathsPlain, forallOps, operation, Operation.empty,
    Operation.Forall, forallCallbacks, CallbackObject.Forall, callbackItem, PathElement.Plain]

theorem document_distinct : document.Forall docPathsDistinct := by
  simp [Opg.Forall, document, forallPaths, PathValue.Forall, docPathsDistinct, forallOps, operation, Operation.empty,
    Operation.Forall, forallCallbacks, CallbackObject.Forall, callbackItem]

end Sample

open Sample

/-! ## C20 -/

/-- C20 is false: `paths` is a vector, so a path described twice is written twice. -/
theorem c20_is_false : ∃ d : Opg, d.MapsSorted ∧ ¬ d.ser.DistinctKeys := by
  refine ⟨{ Opg.empty with paths := [([.path "a"], .empty), ([.path "a"], .empty)] }, ⟨?_, ?_, ?_⟩, ?_⟩
  · simp [Opg.empty, BMap.Sorted]
  · simp [Opg.Forall, forallPaths, PathValue.Forall, PathValue.empty, docSorted, forallOps, BMap.Sorted, PathValue.refs]
  · exact ⟨by simp [Opg.empty, Components.empty, BMap.Sorted], by simp [Opg.empty, Components.empty, BMap.Sorted],
      by simp [Opg.empty, Components.empty]⟩
  · simp [Opg.ser, Opg.empty, entriesOf, nonEmptySeq, nonEmptyMap, serPaths, Value.DistinctKeys, distinctMap, BMap.keys,
      UrlPath.render]

/-- C20 for documents that do not describe a path (or a callback's path) twice.  Missing: the other documents, for
which it is false (`c20_is_false`). -/
theorem c20_distinct_keys_partial (d : Opg) (h : d.MapsSorted) (hp : d.Forall docPathsDistinct) : d.ser.DistinctKeys := by
  refine doc_good good_distinct (Opg.forall_imp ⟨?_, ?_, ?_⟩ d h.paths hp) (fun _ => h.components.schemas)
    (fun _ => h.components.security) (fun b hb => ⟨fun _ => h.components.models b hb, fun _ _ => trivial⟩)
  · exact fun o ho _ => ⟨fun _ => ⟨ho.1, ho.2.2.1, ho.2.2.2.1⟩, fun r hr => ⟨fun _ => ho.2.2.2.2 r hr, fun _ _ => trivial⟩⟩
  · exact fun v hv _ => ⟨fun _ => hv.1, fun r hr => ⟨fun _ => hv.2.2 r hr, fun _ _ => trivial⟩⟩
  · exact fun ps _ hps _ => hps

example : document.ser.DistinctKeys := c20_distinct_keys_partial _ document_sorted document_distinct

/-! ## C21 -/

/-- C21: a schema is determined by its serialized form, even if the order of the entries of JSON objects is
forgotten. -/
theorem c21_schema_injective (m m' : Model) (h : m.PropsSorted) (h' : m'.PropsSorted)
    (e : m.ser.normal = m'.ser.normal) : m = m' :=
  Model.ser_inj m m' h h' (sameEntries_of_normal e (nodup_model m) (nodup_model m'))

/-- C21 for references: links, inline schemas and `{}` are told apart. -/
theorem c21_reference_injective (r r' : Ref) (h : r.PropsSorted) (h' : r'.PropsSorted)
    (e : r.ser.normal = r'.ser.normal) : r = r' := Ref.ser_inj r r' h h' e

/-- The order of entries does not matter: these two values are the same JSON. -/
example : (Value.map [(.str "type", .str "boolean"), (.str "nullable", .bool true)]).normal =
    (Model.ser ⟨none, .single ⟨true, .boolean⟩⟩).normal := rfl

example : schema.PropsSorted ∧ schema.ser = .map [(.str "description", .str "doc"), (.str "type", .str "object"),
    (.str "properties", .map [(.str "a", .map [(.str "$ref", .str "#/components/schemas/A")]),
      (.str "b", .map [(.str "nullable", .bool true), (.str "type", .str "boolean")])]),
    (.str "required", .seq [.str "b"])] := ⟨schema_sorted, rfl⟩

/-! ## C22, C23 -/

/-- C23, first part: a path is written as `/` and the literal, or `/{` parameter `}`, for each element. -/
theorem c23_render (p : UrlPath) : UrlPath.render p = String.join (p.map fun e =>
    match e with
    | .path s => "/" ++ s
    | .parameter s => "/{" ++ s ++ "}") := by
  apply String.toList_inj.1
  rw [UrlPath.render_toList, String.toList_join, List.flatMap_map, List.flatMap_def, List.flatMap_def]
  congr 1
  apply List.map_congr_left
  intro e _
  cases e <;> simp [PathElement.segment, String.toList_append]

example : UrlPath.render [.path "pets", .parameter "id"] = "/pets/{id}" := rfl

/-- C23 is false: different element lists can be written the same way, because literals are not escaped. -/
theorem c23_is_false : (∃ p p' : UrlPath, p ≠ p' ∧ UrlPath.render p = UrlPath.render p') ∧
    UrlPath.render [.path "a/b"] = UrlPath.render [.path "a", .path "b"] ∧
    UrlPath.render [.path "{x}"] = UrlPath.render [.parameter "x"] :=
  ⟨⟨[.path "a/b"], [.path "a", .path "b"], by decide, rfl⟩, rfl, rfl⟩

/-- C23, second part, for elements without `/` and literals not of the form `{..}`.  Missing: the other paths, for
which it is false (`c23_is_false`). -/
theorem c23_render_injective_partial (p p' : UrlPath) (h : ∀ e ∈ p, e.Plain) (h' : ∀ e ∈ p', e.Plain)
    (e : UrlPath.render p = UrlPath.render p') : p = p' := render_inj h h' e

example : ∀ e ∈ [PathElement.path "pets", .parameter "id", .path ""], e.Plain := by simp [PathElement.Plain]

/-- C22 is false: documents that differ only in how a path is split are written the same way. -/
theorem c22_is_false : ∃ d d' : Opg, d.MapsSorted ∧ d'.MapsSorted ∧ d ≠ d' ∧ d.ser = d'.ser := by
  have hs : ∀ p : UrlPath, ({ Opg.empty with paths := [(p, .empty)] } : Opg).MapsSorted := by
    intro p
    refine ⟨by simp [Opg.empty, BMap.Sorted], ?_, ?_⟩
    · simp [Opg.Forall, forallPaths, PathValue.Forall, PathValue.empty, docSorted, forallOps, BMap.Sorted, PathValue.refs]
    · exact ⟨by simp [Opg.empty, Components.empty, BMap.Sorted], by simp [Opg.empty, Components.empty, BMap.Sorted],
        by simp [Opg.empty, Components.empty]⟩
  refine ⟨_, _, hs [.path "a/b"], hs [.path "a", .path "b"], ?_, rfl⟩
  intro h
  have := congrArg (fun d => d.paths.map Prod.fst) h
  simp at this

/-- C22 for documents with readable paths.  Missing: paths whose segments contain `/` or are literals of the form
`{..}`, for which it is false (`c22_is_false`). -/
theorem c22_document_injective_partial (d d' : Opg) (s : d.MapsSorted) (s' : d'.MapsSorted)
    (p : d.Forall docPathsPlain) (p' : d'.Forall docPathsPlain) (h : d.ser = d'.ser) : d = d' := doc_inj s s' p p' h

example : document.MapsSorted ∧ document.Forall docPathsPlain := ⟨document_sorted, document_plain⟩

/-! ## C25 -/

section
variable {K V : Type} [Ord K] [DecidableEq K] [Std.TransOrd K] [Std.LawfulEqOrd K]

/-- C25, maps: whatever is inserted, in whatever order, the bindings are kept in strictly increasing key order. -/
theorem c25_maps_sorted (kvs : List (K × V)) :
    (kvs.foldl (fun m kv => BMap.insert kv.1 kv.2 m) []).Pairwise fun a b => compare a.1 b.1 = .lt :=
  BMap.sorted_insertAll kvs BMap.sorted_nil

/-- C25, maps: inserting bindings with distinct keys in any order yields the same map, with exactly those bindings. -/
theorem c25_insertion_order (kvs kvs' : List (K × V)) (p : kvs.Perm kvs') (n : (kvs.map Prod.fst).Nodup) :
    kvs.foldl (fun m kv => BMap.insert kv.1 kv.2 m) [] = kvs'.foldl (fun m kv => BMap.insert kv.1 kv.2 m) [] ∧
    ∀ k v, (k, v) ∈ kvs.foldl (fun m kv => BMap.insert kv.1 kv.2 m) [] ↔ (k, v) ∈ kvs := by
  refine ⟨BMap.insertAll_perm p n BMap.sorted_nil, fun k v => ?_⟩
  have hs := BMap.sorted_insertAll kvs (BMap.sorted_nil (K := K) (V := V))
  have hg : BMap.get k (BMap.insertAll kvs []) = BMap.get k kvs := by
    rw [BMap.get_insertAll, BMap.get_perm (List.reverse_perm kvs)]
    · cases BMap.get k kvs <;> rfl
    · rw [BMap.keys, List.map_reverse]; exact (List.reverse_perm _).nodup_iff.2 n
  rw [show kvs.foldl (fun m kv => BMap.insert kv.1 kv.2 m) [] = BMap.insertAll kvs [] from rfl,
    ← BMap.get_iff_mem hs, hg]
  exact ⟨BMap.mem_of_get, BMap.get_of_mem_nodup n⟩
end

example : (["b", "a", "c"].map fun k => (k, 0)).foldl (fun m kv => BMap.insert kv.1 kv.2 m) [] =
    [("a", 0), ("b", 0), ("c", 0)] := rfl

/-- The keys of the entries of a map, which are strings in increasing order. -/
def Value.StringsAscending (v : Value) : Prop :=
  ∃ es : List (String × Value), v = .map (es.map fun e => (.str e.1, e.2)) ∧ es.Pairwise fun a b => compare a.1 b.1 = .lt

/-- The elements of a sequence, which have names in increasing order. -/
def Value.NamesAscending (v : Value) : Prop :=
  ∃ es : List (String × Value), v = .seq (es.map Prod.snd) ∧ (∀ e ∈ es, e.2.at "name" = some (.str e.1)) ∧
    es.Pairwise fun a b => compare a.1 b.1 = .lt

theorem Value.at_map (es : List (Key × Value)) (k : String) : (Value.map es).at k = lk k es := rfl

theorem nonEmptySeq_some {vs : List Value} {v : Value} (h : nonEmptySeq vs = some v) : v = .seq vs := by
  unfold nonEmptySeq at h; split at h
  · cases h
  · injection h with h; exact h.symm

theorem nonEmptyMap_some {es : List (Key × Value)} {v : Value} (h : nonEmptyMap es = some v) : v = .map es := by
  unfold nonEmptyMap at h; split at h
  · cases h
  · injection h with h; exact h.symm

theorem nonEmptySeq_none {vs : List Value} : nonEmptySeq vs = none ↔ vs = [] := by
  unfold nonEmptySeq; split <;> simp_all

theorem nonEmptyMap_none {es : List (Key × Value)} : nonEmptyMap es = none ↔ es = [] := by
  unfold nonEmptyMap; split <;> simp_all

theorem serParameters_ascending {ps : List (String × OperationParameter)} (h : BMap.Sorted ps) :
    (Value.seq (serParameters ps)).NamesAscending := by
  refine ⟨ps.map fun p => (p.1, p.2.ser p.1), ?_, ?_, ?_⟩
  · simp [serParameters]
  · rintro e he
    obtain ⟨p, -, rfl⟩ := List.mem_map.1 he
    simp [OperationParameter.ser, Value.at_map]
  · rw [List.pairwise_map]; exact h

/-- C25 in the serialized document: schemas and security schemes are written in key order, tags in name order. -/
theorem c25_document_ascending (d : Opg) (h : d.MapsSorted) :
    (∀ v, d.components.ser.at "schemas" = some v → v.StringsAscending) ∧
    (∀ v, d.components.ser.at "securitySchemes" = some v → v.StringsAscending) ∧
    (∀ v, d.ser.at "tags" = some v → v.NamesAscending) := by
  refine ⟨fun v hv => ?_, fun v hv => ?_, fun v hv => ?_⟩
  · simp [Components.ser, Value.at_map] at hv
    rw [nonEmptyMap_some hv]
    exact ⟨d.components.schemas.map fun b => (b.1, b.2.ser), by simp, by rw [List.pairwise_map]; exact h.components.schemas⟩
  · simp [Components.ser, Value.at_map] at hv
    rw [nonEmptyMap_some hv]
    exact ⟨d.components.securitySchemes.map fun b => (b.1, b.2.ser), by simp,
      by rw [List.pairwise_map]; exact h.components.security⟩
  · simp [Opg.ser, Value.at_map] at hv
    rw [nonEmptySeq_some hv]
    refine ⟨d.tags.map fun t => (t.1, t.2.ser t.1), by simp, ?_, by rw [List.pairwise_map]; exact h.tags⟩
    rintro e he
    obtain ⟨p, -, rfl⟩ := List.mem_map.1 he
    simp [Tag.ser, Value.at_map]

/-- C25 in a serialized operation: parameters are written in name order, callbacks in key order and responses in the
order of their status codes. -/
theorem c25_operation_ascending (o : Operation) (h : docSorted.op o) :
    (∀ v, o.ser.at "parameters" = some v → v.NamesAscending) ∧
    (∀ v, o.ser.at "callbacks" = some v → v.StringsAscending) ∧
    ∃ rs : List (Nat × Value), o.ser.at "responses" = some (.map (rs.map fun r => (.num r.1, r.2))) ∧
      rs.Pairwise fun a b => a.1 < b.1 := by
  obtain ⟨tags, summary, id, desc, depr, sec, body, resp, params, callbacks⟩ := o
  obtain ⟨h1, h2, h3, -⟩ := h
  refine ⟨fun v hv => ?_, fun v hv => ?_, ?_⟩
  · simp [Operation.ser, Value.at_map] at hv
    rw [nonEmptySeq_some hv]
    exact serParameters_ascending h2
  · simp [Operation.ser, Value.at_map] at hv
    rw [nonEmptyMap_some hv]
    have hc : ∀ cs : List (String × CallbackObject), serCallbacks cs = cs.map fun c => (.str c.1, c.2.ser) := by
      intro cs
      induction cs with
      | nil => simp [serCallbacks]
      | cons c cs ih => obtain ⟨k, c⟩ := c; simp [serCallbacks, ih]
    exact ⟨callbacks.map fun b => (b.1, b.2.ser), by simp [hc], by rw [List.pairwise_map]; exact h3⟩
  · refine ⟨resp.map fun r => (r.1, r.2.ser), ?_, ?_⟩
    · simp [Operation.ser, Value.at_map, serResponses]
    · rw [List.pairwise_map]
      exact h1.imp fun h => Nat.compare_eq_lt.1 h

theorem serOperations_map (os : List (HttpMethod × Operation)) :
    serOperations os = os.map fun b => (.str b.1.asStr, b.2.ser) := by
  induction os with
  | nil => simp [serOperations]
  | cons c cs ih => obtain ⟨k, c⟩ := c; simp [serOperations, ih]

theorem serPaths_map (ps : List (UrlPath × PathValue)) :
    serPaths ps = ps.map fun b => (.str (UrlPath.render b.1), b.2.ser) := by
  induction ps with
  | nil => simp [serPaths]
  | cons c cs ih => obtain ⟨k, c⟩ := c; simp [serPaths, ih]

theorem lk_serOperations_none {k : String} (os : List (HttpMethod × Operation)) (h : ∀ m : HttpMethod, m.asStr ≠ k) :
    lk k (serOperations os) = none := by
  rw [serOperations_map]
  induction os with
  | nil => rfl
  | cons b os ih => rw [List.map_cons, lk_cons_str, if_neg fun e => h _ e.symm, ih]

/-- The methods in the order in which they are declared in the crate (and in the OpenAPI specification, but for the
last two). -/
def methodOrder : List HttpMethod := [.get, .put, .post, .delete, .options, .head, .patch, .trace]

/-- C25 in a serialized path item: parameters are written in name order, operations in the order of the methods. -/
theorem c25_item_ascending (v : PathValue) (h : docSorted.item v) :
    (∀ w, v.ser.at "parameters" = some w → w.NamesAscending) ∧
    (v.operations.map Prod.fst).Sublist methodOrder ∧
    ∃ before after, v.ser = .map (before ++ v.operations.map (fun b => (.str b.1.asStr, b.2.ser)) ++ after) := by
  obtain ⟨s, d, ops, ps⟩ := v
  obtain ⟨h1, h2, -⟩ := h
  refine ⟨fun w hw => ?_, ?_, ⟨entriesOf [("summary", optStr s), ("description", optStr d)],
    entriesOf [("parameters", nonEmptySeq (serParameters ps))], ?_⟩⟩
  · rw [PathValue.ser, Value.at_map, lk_append, lk_append, lk_serOperations_none _ (by intro m; cases m <;> decide)] at hw
    simp at hw
    rw [nonEmptySeq_some hw]
    exact serParameters_ascending h2
  · have hp : (ops.map Prod.fst).Pairwise fun a b => a.rank < b.rank := by
      rw [List.pairwise_map]
      exact List.Pairwise.imp (fun h => Nat.compare_eq_lt.1 h) h1
    have key : ∀ (n : Nat) (ms : List HttpMethod), ms.Pairwise (fun a b => a.rank < b.rank) → (∀ m ∈ ms, n ≤ m.rank) →
        ms.Sublist (methodOrder.drop n) := by
      intro n ms
      induction ms generalizing n with
      | nil => intros; exact List.nil_sublist _
      | cons m ms ih =>
        intro hp hn
        obtain ⟨hm, hp⟩ := List.pairwise_cons.1 hp
        have h := ih (m.rank + 1) hp hm
        have e : methodOrder.drop m.rank = m :: methodOrder.drop (m.rank + 1) := by cases m <;> rfl
        have h' : (m :: ms).Sublist (methodOrder.drop m.rank) := e ▸ List.Sublist.cons_cons _ h
        refine h'.trans ?_
        have := hn m (List.mem_cons_self ..)
        obtain ⟨k, hk⟩ := Nat.le.dest this
        rw [← hk, ← List.drop_drop]
        exact List.drop_sublist _ _
    exact key 0 _ hp fun _ _ => Nat.zero_le _
  · simp [PathValue.ser, serOperations_map]

/-- C25 in a serialized object schema: properties are written in key order and required names as declared. -/
theorem c25_object_ascending (o : ModelObject) (description : Option String) (nullable : Bool) (h : BMap.Sorted o.properties) :
    (∀ v, (Model.ser ⟨description, .single ⟨nullable, .object o⟩⟩).at "properties" = some v → v.StringsAscending) ∧
    (o.required ≠ [] → (Model.ser ⟨description, .single ⟨nullable, .object o⟩⟩).at "required" =
      some (.seq (o.required.map Value.str))) := by
  obtain ⟨ps, ad, req⟩ := o
  constructor
  · intro v hv
    have hl : (Model.ser ⟨description, .single ⟨nullable, .object ⟨ps, ad, req⟩⟩⟩).at "properties" =
        nonEmptyMap (serProps ps) := by
      simp [Model.ser, Model.entries, ModelData.entries, ModelType.entries, TypeDesc.entries, ModelObject.entries,
        Value.at_map, lk_append]
    rw [hl] at hv
    rw [nonEmptyMap_some hv]
    have hc : ∀ cs : List (String × Ref), serProps cs = cs.map fun c => (.str c.1, c.2.ser) := by
      intro cs
      induction cs with
      | nil => simp [serProps]
      | cons c cs ih => obtain ⟨k, c⟩ := c; simp [serProps, ih]
    exact ⟨ps.map fun b => (b.1, b.2.ser), by simp [hc], by rw [List.pairwise_map]; exact h⟩
  · intro hr
    have hl : (Model.ser ⟨description, .single ⟨nullable, .object ⟨ps, ad, req⟩⟩⟩).at "required" =
        nonEmptySeq (strs req) := by
      simp [Model.ser, Model.entries, ModelData.entries, ModelType.entries, TypeDesc.entries, ModelObject.entries,
        Value.at_map, lk_append]
    rw [hl]
    cases req with
    | nil => exact absurd rfl hr
    | cons r rs => rfl

/-- C25, sequences: paths and servers are written in the order of the document; so are the paths of callbacks. -/
theorem c25_declaration_order (d : Opg) :
    (d.paths ≠ [] → d.ser.at "paths" = some (.map (d.paths.map fun p => (.str (UrlPath.render p.1), p.2.ser)))) ∧
    (d.servers ≠ [] → d.ser.at "servers" = some (.seq (d.servers.map Server.ser))) ∧
    ∀ c : CallbackObject, c.ser = .map (c.paths.map fun p => (.str (UrlPath.render p.1), p.2.ser)) := by
  refine ⟨fun h => ?_, fun h => ?_, fun c => ?_⟩
  · simp only [Opg.ser, Value.at_map, lk_entriesOf, serPaths_map]
    obtain ⟨_, _, _, _, _ | ⟨p, ps⟩, _⟩ := d
    · exact absurd rfl h
    · simp [nonEmptyMap]
  · simp only [Opg.ser, Value.at_map, lk_entriesOf]
    obtain ⟨_, _, _, _ | ⟨p, ps⟩, _, _⟩ := d
    · exact absurd rfl h
    · simp [nonEmptySeq]
  · obtain ⟨ps⟩ := c
    rw [CallbackObject.ser, serPaths_map]
    rfl

example : document.MapsSorted ∧ document.paths ≠ [] ∧ document.servers ≠ [] ∧ document.components.ser.at "schemas" ≠ none :=
  ⟨document_sorted, by simp [document], by simp [document], by simp [document, Components.ser, Value.at_map, nonEmptyMap]⟩

/-! ## C26 -/

/-- C26 for the document: `openapi`, `info` with `title` and `version`, and `components` are always written; empty
collections are not. -/
theorem c26_document (d : Opg) :
    d.ser.at "openapi" = some (.str d.openapi) ∧
    (∃ info, d.ser.at "info" = some info ∧ info.at "title" = some (.str d.info.title) ∧
      info.at "version" = some (.str d.info.version) ∧ info.at "description" = d.info.description.map Value.str) ∧
    (∃ c, d.ser.at "components" = some c ∧ (c.at "schemas" = none ↔ d.components.schemas = []) ∧
      (c.at "securitySchemes" = none ↔ d.components.securitySchemes = [])) ∧
    (d.ser.at "tags" = none ↔ d.tags = []) ∧ (d.ser.at "servers" = none ↔ d.servers = []) ∧
    (d.ser.at "paths" = none ↔ d.paths = []) := by
  refine ⟨?_, ⟨d.info.ser, ?_, ?_, ?_, ?_⟩, ⟨d.components.ser, ?_, ?_, ?_⟩, ?_, ?_, ?_⟩ <;>
    simp [Opg.ser, Info.ser, Components.ser, Value.at_map, nonEmptyMap_none, nonEmptySeq_none, serPaths_map, optStr]

/-- C26 for tags and servers. -/
theorem c26_tag_server (name : String) (t : Tag) (s : Server) :
    (t.ser name).at "name" = some (.str name) ∧ (t.ser name).at "description" = t.description.map Value.str ∧
    s.ser.at "url" = some (.str s.url) ∧ s.ser.at "description" = s.description.map Value.str := by
  simp [Tag.ser, Server.ser, Value.at_map, optStr]

theorem flag_eq (b : Bool) : (flag b = none ↔ b = false) ∧ (flag b = some (.bool true) ↔ b = true) := by
  cases b <;> simp [flag]

/-- C26 for operations: `responses` is always written; what is absent, false or empty is not. -/
theorem c26_operation (o : Operation) :
    (∃ rs, o.ser.at "responses" = some (.map rs)) ∧
    o.ser.at "summary" = o.summary.map Value.str ∧ o.ser.at "operationId" = o.operationId.map Value.str ∧
    o.ser.at "description" = o.description.map Value.str ∧
    o.ser.at "deprecated" = (if o.deprecated then some (.bool true) else none) ∧
    (o.ser.at "tags" = none ↔ o.tags = []) ∧ (o.ser.at "security" = none ↔ o.security = []) ∧
    o.ser.at "requestBody" = o.requestBody.map RequestBody.ser ∧
    (o.ser.at "parameters" = none ↔ o.parameters = []) ∧ (o.ser.at "callbacks" = none ↔ o.callbacks = []) := by
  obtain ⟨tags, summary, id, desc, depr, sec, body, resp, params, callbacks⟩ := o
  have hc : serCallbacks callbacks = [] ↔ callbacks = [] := by
    cases callbacks with
    | nil => simp [serCallbacks]
    | cons c cs => obtain ⟨k, c⟩ := c; simp [serCallbacks]
  refine ⟨⟨serResponses resp, ?_⟩, ?_, ?_, ?_, ?_, ?_, ?_, ?_, ?_, ?_⟩ <;>
    simp [Operation.ser, Value.at_map, nonEmptyMap_none, nonEmptySeq_none, optStr, flag, strs, serParameters, hc]

/-- C26 for responses: `description` is always written, `content` iff there is a schema. -/
theorem c26_response (r : Response) :
    r.ser.at "description" = some (.str r.description) ∧ (r.ser.at "content" = none ↔ r.schema = none) := by
  simp [Response.ser, Value.at_map]

/-- C26 for parameters: `name` and `in` are always written. -/
theorem c26_parameter (name : String) (p : OperationParameter) :
    (p.ser name).at "name" = some (.str name) ∧
    (∃ place ∈ ["query", "header", "path", "cookie"], (p.ser name).at "in" = some (.str place)) ∧
    (p.ser name).at "description" = p.description.map Value.str ∧
    (p.ser name).at "required" = (if p.required then some (.bool true) else none) ∧
    (p.ser name).at "deprecated" = (if p.deprecated then some (.bool true) else none) ∧
    (p.ser name).at "schema" = p.schema.map Ref.ser := by
  refine ⟨?_, ⟨p.parameterIn.asStr, by cases p.parameterIn <;> decide, ?_⟩, ?_⟩ <;>
    simp [OperationParameter.ser, Value.at_map, optStr, flag]

/-- C26 for request bodies: `content` is always written; the description is written as `null` when absent. -/
theorem c26_request_body (b : RequestBody) :
    (∃ media, b.ser.at "content" = some (.map [(.str "application/json", media)]) ∧ media.at "schema" = some b.schema.ser) ∧
    b.ser.at "required" = (if b.required then some (.bool true) else none) ∧
    b.ser.at "description" = some (match b.description with | some d => .str d | none => .null) := by
  refine ⟨⟨.map [(.str "schema", b.schema.ser)], ?_, ?_⟩, ?_⟩ <;>
    simp [RequestBody.ser, Value.at_map, contentOf, flag]
  cases b.description <;> rfl

/-- C26 for path items: what is absent or empty is not written. -/
theorem c26_path_item (v : PathValue) :
    v.ser.at "summary" = v.summary.map Value.str ∧ v.ser.at "description" = v.description.map Value.str ∧
    (v.ser.at "parameters" = none ↔ v.parameters = []) := by
  obtain ⟨s, d, ops, ps⟩ := v
  refine ⟨?_, ?_, ?_⟩ <;>
    rw [PathValue.ser, Value.at_map, lk_append, lk_append, lk_serOperations_none _ (by intro m; cases m <;> decide)] <;>
    simp [optStr, nonEmptySeq_none, serParameters]

/-- C26 for schemas: absent descriptions and examples, false flags and empty collections are not written. -/
theorem c26_object_schema (description : Option String) (nullable : Bool) (o : ModelObject) :
    (Model.ser ⟨description, .single ⟨nullable, .object o⟩⟩).at "type" = some (.str "object") ∧
    (Model.ser ⟨description, .single ⟨nullable, .object o⟩⟩).at "description" = description.map Value.str ∧
    (Model.ser ⟨description, .single ⟨nullable, .object o⟩⟩).at "nullable" = (if nullable then some (.bool true) else none) ∧
    ((Model.ser ⟨description, .single ⟨nullable, .object o⟩⟩).at "properties" = none ↔ o.properties = []) ∧
    ((Model.ser ⟨description, .single ⟨nullable, .object o⟩⟩).at "required" = none ↔ o.required = []) ∧
    ((Model.ser ⟨description, .single ⟨nullable, .object o⟩⟩).at "additionalProperties" = none ↔
      o.additional = none) := by
  obtain ⟨ps, ad, req⟩ := o
  have hc : serProps ps = [] ↔ ps = [] := by
    cases ps with
    | nil => simp [serProps]
    | cons c cs => obtain ⟨k, c⟩ := c; simp [serProps]
  have ha : serOptRef ad = none ↔ ad = none := by cases ad <;> simp [serOptRef]
  refine ⟨?_, ?_, ?_, ?_, ?_, ?_⟩ <;>
    simp [Model.ser, Model.entries, ModelData.entries, ModelType.entries, TypeDesc.entries, ModelObject.entries,
        Value.at_map, lk_append, nonEmptyMap_none, nonEmptySeq_none, optStr, flag, hc, strs, ha]

/-- C26 for the whole document, at any depth: `false` is never written, and `null` only as the `description` of a
request body (a map with a `content`). -/
theorem c26_no_false_or_null (d : Opg) : d.ser.Pruned := by
  refine doc_good good_pruned (Opg.forall_always ⟨?_, ?_, ?_⟩ d) (fun h => h.elim) (fun h => h.elim)
    (fun b hb => ⟨fun h => h.elim, fun _ _ => trivial⟩)
  · exact fun o => ⟨fun h => h.elim, fun r hr => ⟨fun h => h.elim, fun _ _ => trivial⟩⟩
  · exact fun v => ⟨fun h => h.elim, fun r hr => ⟨fun h => h.elim, fun _ _ => trivial⟩⟩
  · exact fun ps h => h.elim

/-- `Pruned` is not trivial: a `null` elsewhere, or a `false`, is not pruned. -/
example : ¬ (Value.map [(.str "x", .seq [.bool false])]).Pruned ∧ ¬ (Value.map [(.str "description", .null)]).Pruned ∧
    ¬ (Value.map [(.str "content", .null)]).Pruned ∧
    (Value.map [(.str "description", .null), (.str "content", .str "")]).Pruned := by
  simp [Value.Pruned, prunedSeq, prunedMap, BMap.keys]

example : (RequestBody.ser ⟨none, false, .any⟩).at "description" = some .null := rfl

end Verif
