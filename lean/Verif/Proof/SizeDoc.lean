import Verif.Spec.SizeDoc
import Verif.Proof.Size
import Verif.Proof.ApiDoc
/-!
# Sizes of described documents
-/

namespace Verif

/-! ## Written documents -/

theorem nodesSeq_append (xs ys : List Value) : nodesSeq (xs ++ ys) = nodesSeq xs + nodesSeq ys := by
  induction xs with
  | nil => simp [nodesSeq]
  | cons x xs ih => simp only [List.cons_append, nodesSeq, ih]; omega

theorem total_flatMap {α β : Type} (S : β → Nat) (f : α → List β) (xs : List α) :
    total S (xs.flatMap f) = total (fun a => total S (f a)) xs := by
  induction xs with
  | nil => rfl
  | cons x xs ih => simp only [List.flatMap_cons, total_append, total, ih]

theorem nodes_optional (k : String) (v : Option Value) :
    nodesMap (entriesOf [(k, v)]) = (match v with | none => 0 | some v => 1 + v.nodes) := by
  cases v <;> simp [entriesOf, nodesMap]

theorem nodes_nonEmptyMap_le (k : String) (es : List (Key × Value)) :
    nodesMap (entriesOf [(k, nonEmptyMap es)]) ≤ 2 + nodesMap es := by
  rw [nodes_nonEmptyMap]; split <;> omega

theorem nodes_nonEmptySeq_le (k : String) (es : List Value) :
    nodesMap (entriesOf [(k, nonEmptySeq es)]) ≤ 2 + nodesSeq es := by
  rw [nodes_nonEmptySeq]; split <;> omega

/-- The number of nodes of a schema that may be absent. -/
def refNodes : Option Ref → Nat
  | none => 0
  | some r => r.ser.nodes

theorem OperationParameter.nodes_le (name : String) (p : OperationParameter) :
    (p.ser name).nodes ≤ 12 + refNodes p.schema := by
  have h1 := nodes_optStr "description" p.description
  have h2 := nodes_flag "required" p.required
  have h3 := nodes_flag "deprecated" p.deprecated
  have h4 : nodesMap (entriesOf [("schema", p.schema.map Ref.ser)]) ≤ 1 + refNodes p.schema := by
    cases p.schema <;> simp [entriesOf, nodesMap, refNodes]
  have h5 : nodesMap (entriesOf [("name", some (.str name))]) = 2 := rfl
  have h6 : nodesMap (entriesOf [("in", some (.str p.parameterIn.asStr))]) = 2 := rfl
  simp only [OperationParameter.ser, Value.nodes, nodes_entriesOf]
  omega

theorem contentOf_nodes (r : Ref) : (contentOf r).nodes = 4 + r.ser.nodes := by
  simp [contentOf, Value.nodes, nodesMap]; omega

theorem RequestBody.nodes_le (b : RequestBody) : b.ser.nodes ≤ 10 + b.schema.ser.nodes := by
  obtain ⟨d, q, s⟩ := b
  have h1 := nodes_flag "required" q
  have h3 : nodesMap (entriesOf [("content", some (contentOf s))]) = 5 + s.ser.nodes := by
    simp only [entriesOf, nodesMap, contentOf_nodes]; omega
  cases d with
  | none =>
    have h2 : nodesMap (entriesOf [("description", some .null)]) = 2 := rfl
    simp only [RequestBody.ser, Value.nodes, nodes_entriesOf]
    omega
  | some d =>
    have h2 : nodesMap (entriesOf [("description", some (.str d))]) = 2 := rfl
    simp only [RequestBody.ser, Value.nodes, nodes_entriesOf]
    omega

theorem Response.nodes_le (r : Response) : r.ser.nodes ≤ 8 + refNodes r.schema := by
  have h1 : nodesMap (entriesOf [("description", some (.str r.description))]) = 2 := rfl
  have h2 : nodesMap (entriesOf [("content", r.schema.map contentOf)]) ≤ 5 + refNodes r.schema := by
    cases r.schema with
    | none => simp [entriesOf, nodesMap]
    | some r => simp only [Option.map_some, entriesOf, nodesMap, contentOf_nodes, refNodes]; omega
  simp only [Response.ser, Value.nodes, nodes_entriesOf]
  omega

/-- What the parts of an operation add. -/
def Operation.load (o : Operation) : Nat :=
  o.tags.length + nodesSeq (o.security.map serSecurity) +
    nodesMap (entriesOf [("requestBody", o.requestBody.map RequestBody.ser)]) + nodesMap (serResponses o.responses) +
    nodesSeq (serParameters o.parameters) + nodesMap (serCallbacks o.callbacks)

theorem Operation.nodes_le (o : Operation) : o.ser.nodes ≤ 19 + o.load := by
  obtain ⟨tags, summary, operationId, description, deprecated, security, requestBody, responses, parameters, callbacks⟩ := o
  have h1 := nodes_nonEmptySeq_le "tags" (strs tags)
  rw [nodesSeq_strs] at h1
  have h2 := nodes_optStr "summary" summary
  have h3 := nodes_optStr "operationId" operationId
  have h4 := nodes_optStr "description" description
  have h5 := nodes_flag "deprecated" deprecated
  have h6 := nodes_nonEmptySeq_le "security" (security.map serSecurity)
  have h7 : nodesMap (entriesOf [("responses", some (.map (serResponses responses)))]) = 2 + nodesMap (serResponses responses) := by
    simp only [entriesOf, nodesMap, Value.nodes]; omega
  have h8 := nodes_nonEmptySeq_le "parameters" (serParameters parameters)
  have h9 := nodes_nonEmptyMap_le "callbacks" (serCallbacks callbacks)
  simp only [Operation.ser, Value.nodes, nodes_entriesOf, Operation.load]
  omega

/-- What the parts of a path item add. -/
def PathValue.load (v : PathValue) : Nat := nodesMap (serOperations v.operations) + nodesSeq (serParameters v.parameters)

theorem PathValue.nodes_le (v : PathValue) : v.ser.nodes ≤ 7 + v.load := by
  obtain ⟨summary, description, operations, parameters⟩ := v
  have h1 := nodes_optStr "summary" summary
  have h2 := nodes_optStr "description" description
  have h3 := nodes_nonEmptySeq_le "parameters" (serParameters parameters)
  simp only [PathValue.ser, Value.nodes, nodesMap_append, nodes_entriesOf, PathValue.load]
  omega

theorem SecurityScheme.nodes_le (s : SecurityScheme) : s.ser.nodes ≤ 9 := by
  rcases s with (d | ⟨f, d⟩) | a
  · have := nodes_optStr "description" d
    simp only [SecurityScheme.ser, Value.nodes, nodesMap]; omega
  · have h1 := nodes_optStr "description" d
    have h2 := nodes_optStr "bearerFormat" f
    simp only [SecurityScheme.ser, Value.nodes, nodesMap, nodes_entriesOf]; omega
  · have h1 := nodes_optStr "description" a.description
    have h2 : nodesMap (entriesOf [("in", some (.str a.parameterIn.asStr))]) = 2 := rfl
    have h3 : nodesMap (entriesOf [("name", some (.str a.name))]) = 2 := rfl
    simp only [SecurityScheme.ser, Value.nodes, nodesMap, nodes_entriesOf]; omega

theorem params_insert (k : String) (p : OperationParameter) (ps : List (String × OperationParameter)) :
    nodesSeq (serParameters (BMap.insert k p ps)) ≤ nodesSeq (serParameters ps) + (p.ser k).nodes := by
  induction ps with
  | nil => simp [BMap.insert, serParameters, nodesSeq]
  | cons b ps ih =>
    unfold BMap.insert
    split <;> simp only [serParameters, List.map_cons, nodesSeq] at * <;> omega

theorem responses_insert (k : Nat) (r : Response) (rs : List (Nat × Response)) :
    nodesMap (serResponses (BMap.insert k r rs)) ≤ nodesMap (serResponses rs) + (1 + r.ser.nodes) := by
  induction rs with
  | nil => simp [BMap.insert, serResponses, nodesMap]
  | cons b rs ih =>
    unfold BMap.insert
    split <;> simp only [serResponses, List.map_cons, nodesMap] at * <;> omega

theorem callbacks_insert (k : String) (v : CallbackObject) (cs : List (String × CallbackObject)) :
    nodesMap (serCallbacks (BMap.insert k v cs)) ≤ nodesMap (serCallbacks cs) + (1 + v.ser.nodes) := by
  induction cs with
  | nil => simp [BMap.insert, serCallbacks, nodesMap]
  | cons b cs ih =>
    obtain ⟨k', v'⟩ := b
    unfold BMap.insert
    split <;> simp only [serCallbacks, nodesMap] at * <;> omega

theorem operations_insert (k : HttpMethod) (v : Operation) (os : List (HttpMethod × Operation)) :
    nodesMap (serOperations (BMap.insert k v os)) ≤ nodesMap (serOperations os) + (1 + v.ser.nodes) := by
  induction os with
  | nil => simp [BMap.insert, serOperations, nodesMap]
  | cons b os ih =>
    obtain ⟨k', v'⟩ := b
    unfold BMap.insert
    split <;> simp only [serOperations, nodesMap] at * <;> omega

theorem security_insert (k : String) (m : List (String × List String)) :
    (serSecurity (BMap.insert k [] m)).nodes ≤ (serSecurity m).nodes + 2 := by
  simp only [serSecurity, Value.nodes]
  induction m with
  | nil => simp [BMap.insert, nodesMap, nodesSeq, strs, Value.nodes]
  | cons b m ih =>
    unfold BMap.insert
    split <;> simp only [List.map_cons, nodesMap, nodesSeq, strs, List.map_nil, Value.nodes] at * <;> omega

theorem length_insert {K V : Type} [Ord K] (k : K) (v : V) (m : List (K × V)) : (BMap.insert k v m).length ≤ m.length + 1 := by
  induction m with
  | nil => simp [BMap.insert]
  | cons b m ih =>
    unfold BMap.insert
    split <;> simp only [List.length_cons] at * <;> omega

theorem length_insertAll {K V : Type} [Ord K] (kvs : List (K × V)) : ∀ m : List (K × V),
    (BMap.insertAll kvs m).length ≤ m.length + kvs.length := by
  induction kvs with
  | nil => intro m; simp [BMap.insertAll]
  | cons b kvs ih =>
    intro m
    have h1 := ih (BMap.insert b.1 b.2 m)
    have h2 := length_insert b.1 b.2 m
    simp only [BMap.insertAll, List.foldl_cons, List.length_cons] at *
    omega

/-! ## Running descriptions -/

/-- A bound on the written security schemes of a registry. -/
def Components.load (cx : Components) : Nat := 10 * cx.securitySchemes.length

section
variable {κ : Type} [Mentioner κ] {c : κ} {W : Ty → Nat}

/-- Mentions of types are no larger than that, and leave the security schemes. -/
def Bounded (c : κ) (W : Ty → Nat) : Prop :=
  ∀ t cx r cx', ask c t cx = some (r, cx') → r.ser.nodes ≤ W t ∧ cx'.load = cx.load

theorem paramProps_size (hb : Bounded c W) : ∀ (ps : List ParamProp) {p p' : OperationParameter} {cx cx' : Components},
    runParamProps c ps p cx = some (p', cx') →
    refNodes p'.schema ≤ refNodes p.schema + total (Part.weight W) (ps.flatMap ParamProp.parts) ∧ cx'.load = cx.load
  | [], p, p', cx, cx', h => by
    simp only [runParamProps, act_pure] at h
    obtain ⟨rfl, rfl⟩ := h
    exact ⟨Nat.le_add_right _ _, rfl⟩
  | .description _ :: ps, p, p', cx, cx', h => by
    simp only [runParamProps] at h
    have := paramProps_size hb ps h
    exact this
  | .required _ :: ps, p, p', cx, cx', h => by
    simp only [runParamProps] at h
    have := paramProps_size hb ps h
    exact this
  | .deprecated _ :: ps, p, p', cx, cx', h => by
    simp only [runParamProps] at h
    have := paramProps_size hb ps h
    exact this
  | .schema t :: ps, p, p', cx, cx', h => by
    simp only [runParamProps, act_bind] at h
    obtain ⟨r, cx1, h1, h2⟩ := h
    obtain ⟨b1, l1⟩ := hb _ _ _ _ h1
    obtain ⟨b2, l2⟩ := paramProps_size hb ps h2
    simp only [List.flatMap_cons, ParamProp.parts, total_append, total, Part.weight, refNodes] at *
    omega

theorem param_size (hb : Bounded c W) (d : ParamDecl) {q : String × OperationParameter} {cx cx' : Components}
    (h : d.run c cx = some (q, cx')) :
    (q.2.ser q.1).nodes ≤ 12 + total (Part.weight W) d.parts ∧ cx'.load = cx.load := by
  cases d with
  | header name ps =>
    simp only [ParamDecl.run, act_bind, act_pure] at h
    obtain ⟨r, cx1, h1, p, cx2, h2, rfl, rfl⟩ := h
    obtain ⟨b1, l1⟩ := hb _ _ _ _ h1
    obtain ⟨b2, l2⟩ := paramProps_size hb ps h2
    have := p.nodes_le name
    simp only [ParamDecl.parts, total, Part.weight, refNodes] at *
    omega
  | query name t ps =>
    simp only [ParamDecl.run, act_bind, act_pure] at h
    obtain ⟨r, cx1, h1, p, cx2, h2, rfl, rfl⟩ := h
    obtain ⟨b1, l1⟩ := hb _ _ _ _ h1
    obtain ⟨b2, l2⟩ := paramProps_size hb ps h2
    have := p.nodes_le name
    simp only [ParamDecl.parts, total, Part.weight, refNodes] at *
    omega

theorem ParamDecl.nodes_pos (d : ParamDecl) : 1 ≤ d.nodes := by cases d <;> simp [ParamDecl.nodes]

theorem params_size (hb : Bounded c W) : ∀ (ds : List ParamDecl) {ps ps' : List (String × OperationParameter)} {cx cx' : Components},
    runParameters c ds ps cx = some (ps', cx') →
    nodesSeq (serParameters ps') ≤ nodesSeq (serParameters ps) + 30 * total ParamDecl.nodes ds +
      total (Part.weight W) (ds.flatMap ParamDecl.parts) ∧ cx'.load = cx.load
  | [], ps, ps', cx, cx', h => by
    simp only [runParameters, act_pure] at h
    obtain ⟨rfl, rfl⟩ := h
    exact ⟨by simp only [total]; omega, rfl⟩
  | d :: ds, ps, ps', cx, cx', h => by
    simp only [runParameters, act_bind] at h
    obtain ⟨⟨name, p⟩, cx1, h1, h2⟩ := h
    obtain ⟨b1, l1⟩ := param_size hb d h1
    obtain ⟨b2, l2⟩ := params_size hb ds h2
    have h3 := params_insert name p ps
    have := d.nodes_pos
    simp only [List.flatMap_cons, total_append, total] at *
    omega

theorem urlParam_size (hb : Bounded c W) {name : String} {t : Ty} {ps : List (String × OperationParameter)}
    {q : PathElement × List (String × OperationParameter)} {cx cx' : Components} (h : urlParam c name t ps cx = some (q, cx')) :
    nodesSeq (serParameters q.2) ≤ nodesSeq (serParameters ps) + 12 + W t ∧ cx'.load = cx.load := by
  simp only [urlParam, act_bind, act_pure] at h
  obtain ⟨r, cx1, h1, rfl, rfl⟩ := h
  obtain ⟨b1, l1⟩ := hb _ _ _ _ h1
  have h2 := params_insert name ⟨none, .path, true, false, some r⟩ ps
  have h3 := OperationParameter.nodes_le name ⟨none, .path, true, false, some r⟩
  simp only [refNodes] at *
  omega

theorem seg_size (hb : Bounded c W) (s : PathSeg) {ps : List (String × OperationParameter)}
    {q : PathElement × List (String × OperationParameter)} {cx cx' : Components} (h : s.run c ps cx = some (q, cx')) :
    nodesSeq (serParameters q.2) ≤ nodesSeq (serParameters ps) + 12 + total (Part.weight W) s.parts ∧ cx'.load = cx.load := by
  cases s with
  | literal s =>
    simp only [PathSeg.run, act_pure] at h
    obtain ⟨rfl, rfl⟩ := h
    exact ⟨by simp only; omega, rfl⟩
  | bare p t =>
    simp only [PathSeg.run] at h
    cases hn : bareName p.print with
    | none => simp [hn] at h
    | some name =>
      rw [hn] at h
      have := urlParam_size hb h
      simpa only [PathSeg.parts, total, Part.weight, Nat.add_zero] using this
  | named n t =>
    have := urlParam_size hb (name := n) h
    simpa only [PathSeg.parts, total, Part.weight, Nat.add_zero] using this

theorem url_size (hb : Bounded c W) : ∀ (ss : List PathSeg) {ps : List (String × OperationParameter)}
    {q : UrlPath × List (String × OperationParameter)} {cx cx' : Components}, runUrl c ss ps cx = some (q, cx') →
    nodesSeq (serParameters q.2) ≤ nodesSeq (serParameters ps) + 30 * ss.length +
      total (Part.weight W) (ss.flatMap PathSeg.parts) ∧ cx'.load = cx.load
  | [], ps, q, cx, cx', h => by
    simp only [runUrl, act_pure] at h
    obtain ⟨rfl, rfl⟩ := h
    exact ⟨by simp only [List.length_nil]; omega, rfl⟩
  | s :: ss, ps, q, cx, cx', h => by
    simp only [runUrl, act_bind, act_pure] at h
    obtain ⟨⟨e, ps1⟩, cx1, h1, ⟨es, ps2⟩, cx2, h2, rfl, rfl⟩ := h
    obtain ⟨b1, l1⟩ := seg_size hb s h1
    obtain ⟨b2, l2⟩ := url_size hb ss h2
    simp only [List.flatMap_cons, total_append, List.length_cons] at *
    omega

theorem bodyProps_size (hb : Bounded c W) : ∀ (ps : List BodyProp) {d : Option String} {r : Bool} {s : Option Ref}
    {q : Option String × Bool × Option Ref} {cx cx' : Components}, runBodyProps c ps d r s cx = some (q, cx') →
    refNodes q.2.2 ≤ refNodes s + total (Part.weight W) (ps.flatMap BodyProp.parts) ∧ cx'.load = cx.load
  | [], d, r, s, q, cx, cx', h => by
    simp only [runBodyProps, act_pure] at h
    obtain ⟨rfl, rfl⟩ := h
    exact ⟨Nat.le_add_right _ _, rfl⟩
  | .description _ :: ps, d, r, s, q, cx, cx', h => bodyProps_size hb ps (s := s) h
  | .required _ :: ps, d, r, s, q, cx, cx', h => bodyProps_size hb ps (s := s) h
  | .schema t :: ps, d, r, s, q, cx, cx', h => by
    simp only [runBodyProps, act_bind] at h
    obtain ⟨r, cx1, h1, h2⟩ := h
    obtain ⟨b1, l1⟩ := hb _ _ _ _ h1
    obtain ⟨b2, l2⟩ := bodyProps_size hb ps h2
    simp only [List.flatMap_cons, BodyProp.parts, total_append, total, Part.weight, refNodes] at *
    omega

theorem body_size (hb : Bounded c W) (b : BodyDecl) {q : RequestBody} {cx cx' : Components} (h : b.run c cx = some (q, cx')) :
    q.ser.nodes ≤ 10 + total (Part.weight W) b.parts ∧ cx'.load = cx.load := by
  have := q.nodes_le
  cases b with
  | props ps =>
    simp only [BodyDecl.run, act_bind] at h
    obtain ⟨⟨d, r, s⟩, cx1, h1, h2⟩ := h
    obtain ⟨b1, l1⟩ := bodyProps_size hb ps h1
    cases s with
    | none => simp at h2
    | some s =>
      simp only [act_pure] at h2
      obtain ⟨rfl, rfl⟩ := h2
      simp only [BodyDecl.parts, refNodes] at *
      omega
  | type t =>
    simp only [BodyDecl.run, act_bind, act_pure] at h
    obtain ⟨r, cx1, h1, rfl, rfl⟩ := h
    obtain ⟨b1, l1⟩ := hb _ _ _ _ h1
    simp only [BodyDecl.parts, total, Part.weight] at *
    omega

theorem response_size (hb : Bounded c W) {code : Nat} {d : Option String} (s : ResponseDecl) {q : Response} {cx cx' : Components}
    (h : runResponse c code d s cx = some (q, cx')) :
    q.ser.nodes ≤ 8 + total (Part.weight W) s.parts ∧ cx'.load = cx.load := by
  simp only [runResponse, act_bind] at h
  obtain ⟨r, cx1, h1, h2⟩ := h
  split at h2
  · simp only [act_pure] at h2
    obtain ⟨rfl, rfl⟩ := h2
    have := Response.nodes_le ⟨d.getD ((Mentioner.reason c code).getD ""), r⟩
    cases s with
    | absent =>
      simp only [ResponseDecl.run, act_pure] at h1
      obtain ⟨rfl, rfl⟩ := h1
      exact ⟨Nat.le_trans this (by simp [refNodes]), rfl⟩
    | type t =>
      simp only [ResponseDecl.run, act_bind, act_pure] at h1
      obtain ⟨r, cx2, h1, rfl, rfl⟩ := h1
      obtain ⟨b1, l1⟩ := hb _ _ _ _ h1
      simp only [ResponseDecl.parts, total, Part.weight, refNodes] at *
      omega
    | raw s =>
      simp only [ResponseDecl.run, act_pure] at h1
      obtain ⟨rfl, rfl⟩ := h1
      cases s with
      | none => exact ⟨Nat.le_trans this (by simp [refNodes]), rfl⟩
      | some r => exact ⟨Nat.le_trans this (by simp [refNodes, ResponseDecl.parts, total, Part.weight]), rfl⟩
  · simp at h2

theorem mentionScheme_load (cx : Components) (n : String) (s : SecurityScheme) :
    (cx.mentionSecurityScheme n s).2.load ≤ cx.load + 10 := by
  unfold Components.mentionSecurityScheme Components.load
  split
  · exact Nat.le_add_right _ _
  · have := length_insert n s cx.securitySchemes
    simp only
    omega

theorem securityItem_size (s : SecurityDecl) {q : String} {cx cx' : Components} (h : s.run cx = some (q, cx')) :
    cx'.load ≤ cx.load + 10 := by
  cases s with
  | literal n rs =>
    simp only [SecurityDecl.run] at h
    split at h
    · simp only [act_pure] at h; rw [← h.2]; omega
    · simp at h
  | scheme n v rs =>
    simp only [SecurityDecl.run] at h
    split at h
    · simp only [Option.some.injEq] at h
      have := mentionScheme_load cx n v
      rw [h] at this
      exact this
    · simp at h

theorem securityItems_size : ∀ (ss : List SecurityDecl) {m m' : List (String × List String)} {cx cx' : Components},
    runSecurityItems ss m cx = some (m', cx') →
    (serSecurity m').nodes + cx'.load ≤ (serSecurity m).nodes + cx.load + 12 * ss.length
  | [], m, m', cx, cx', h => by
    simp only [runSecurityItems, act_pure] at h
    obtain ⟨rfl, rfl⟩ := h
    omega
  | s :: ss, m, m', cx, cx', h => by
    simp only [runSecurityItems, act_bind] at h
    obtain ⟨n, cx1, h1, h2⟩ := h
    have b1 := securityItem_size s h1
    have b2 := securityItems_size ss h2
    have b3 := security_insert n m
    simp only [List.length_cons]
    omega

theorem security_size : ∀ (alts : List (List SecurityDecl)) {ms : List (List (String × List String))} {cx cx' : Components},
    runSecurity alts cx = some (ms, cx') →
    nodesSeq (ms.map serSecurity) + cx'.load ≤ cx.load + 12 * total (fun alt => 1 + alt.length) alts
  | [], ms, cx, cx', h => by
    simp only [runSecurity, act_pure] at h
    obtain ⟨rfl, rfl⟩ := h
    simp only [List.map_nil, nodesSeq, total]; omega
  | [] :: _, ms, cx, cx', h => by simp [runSecurity] at h
  | (s :: ss) :: alts, ms, cx, cx', h => by
    simp only [runSecurity, act_bind, act_pure] at h
    obtain ⟨m, cx1, h1, ms1, cx2, h2, rfl, rfl⟩ := h
    have b1 := securityItems_size (s :: ss) h1
    have b2 := security_size alts h2
    have b3 : (serSecurity []).nodes = 1 := rfl
    simp only [List.map_cons, nodesSeq, total]
    omega

mutual
theorem op_size (hb : Bounded c W) : ∀ (ps : List OpProp) {o o' : Operation} {cx cx' : Components},
    runOpProps c ps o cx = some (o', cx') →
    o'.load + cx'.load ≤ o.load + cx.load + 30 * nodesOp ps + total (Part.weight W) (opParts ps)
  | [], o, o', cx, cx', h => by
    simp only [runOpProps, act_pure] at h
    obtain ⟨rfl, rfl⟩ := h
    omega
  | .summary s :: ps, o, o', cx, cx', h => by
    simp only [runOpProps] at h
    have := op_size hb ps h
    simp only [Operation.withSummary, Operation.load, nodesOp, opParts] at *
    omega
  | .operationId s :: ps, o, o', cx, cx', h => by
    simp only [runOpProps] at h
    have := op_size hb ps h
    simp only [Operation.withOperationId, Operation.load, nodesOp, opParts] at *
    omega
  | .description s :: ps, o, o', cx, cx', h => by
    simp only [runOpProps] at h
    have := op_size hb ps h
    simp only [Operation.withDescription, Operation.load, nodesOp, opParts] at *
    omega
  | .deprecated b :: ps, o, o', cx, cx', h => by
    simp only [runOpProps] at h
    have := op_size hb ps h
    simp only [Operation.markDeprecated, Operation.load, nodesOp, opParts] at *
    omega
  | .tags ts :: ps, o, o', cx, cx', h => by
    simp only [runOpProps] at h
    have := op_size hb ps h
    simp only [Operation.load, nodesOp, opParts, List.length_append] at *
    omega
  | .parameters ds :: ps, o, o', cx, cx', h => by
    simp only [runOpProps, act_bind] at h
    obtain ⟨m, cx1, h1, h2⟩ := h
    obtain ⟨b1, l1⟩ := params_size hb ds h1
    have := op_size hb ps h2
    simp only [Operation.load, nodesOp, opParts, total_append] at *
    omega
  | .callbacks cs :: ps, o, o', cx, cx', h => by
    simp only [runOpProps, act_bind] at h
    obtain ⟨m, cx1, h1, h2⟩ := h
    have b1 := callbacks_size hb cs h1
    have := op_size hb ps h2
    simp only [Operation.load, nodesOp, opParts, total_append] at *
    omega
  | .security alts :: ps, o, o', cx, cx', h => by
    simp only [runOpProps, act_bind] at h
    obtain ⟨ms, cx1, h1, h2⟩ := h
    have b1 := security_size alts h1
    have := op_size hb ps h2
    simp only [Operation.load, nodesOp, opParts, total_append, List.map_append, nodesSeq_append] at *
    omega
  | .body b :: ps, o, o', cx, cx', h => by
    simp only [runOpProps, act_bind] at h
    obtain ⟨q, cx1, h1, h2⟩ := h
    obtain ⟨b1, l1⟩ := body_size hb b h1
    have := op_size hb ps h2
    have e : nodesMap (entriesOf [("requestBody", some q.ser)]) = 1 + q.ser.nodes := by simp [entriesOf, nodesMap]
    simp only [Operation.withRequestBody, Operation.load, nodesOp, opParts, total_append, Option.map_some] at *
    omega
  | .response code d s :: ps, o, o', cx, cx', h => by
    simp only [runOpProps, act_bind] at h
    obtain ⟨q, cx1, h1, h2⟩ := h
    obtain ⟨b1, l1⟩ := response_size hb s h1
    have := op_size hb ps h2
    have b2 := responses_insert code q o.responses
    simp only [Operation.load, nodesOp, opParts, total_append] at *
    omega
theorem callbacks_size (hb : Bounded c W) : ∀ (cs : List CallbackDecl) {m m' : List (String × CallbackObject)} {cx cx' : Components},
    runCallbacks c cs m cx = some (m', cx') →
    nodesMap (serCallbacks m') + cx'.load ≤
      nodesMap (serCallbacks m) + cx.load + 30 * nodesCallbacks cs + total (Part.weight W) (callbackParts cs)
  | [], m, m', cx, cx', h => by
    simp only [runCallbacks, act_pure] at h
    obtain ⟨rfl, rfl⟩ := h
    omega
  | .literal n ps :: cs, m, m', cx, cx', h => by
    simp only [runCallbacks] at h
    split at h
    · simp only [act_pure] at h
      obtain ⟨rfl, rfl⟩ := h
      have := callbacks_insert n ⟨[]⟩ m
      have e : (CallbackObject.mk []).ser.nodes = 1 := rfl
      simp only [nodesCallbacks]
      omega
    · simp at h
  | .ident n ps :: cs, m, m', cx, cx', h => by
    simp only [runCallbacks, act_bind] at h
    obtain ⟨qs, cx1, h1, h2⟩ := h
    have b1 := paths_size hb ps h1
    have b2 := callbacks_size hb cs h2
    have b3 := callbacks_insert n ⟨qs⟩ m
    simp only [nodesCallbacks, callbackParts, total_append, CallbackObject.ser, Value.nodes] at *
    omega
theorem paths_size (hb : Bounded c W) : ∀ (ds : List PathDecl) {qs : List (UrlPath × PathValue)} {cx cx' : Components},
    runPaths c ds cx = some (qs, cx') →
    nodesMap (serPaths qs) + cx'.load ≤ cx.load + 30 * nodesPaths ds + total (Part.weight W) (pathParts ds)
  | [], qs, cx, cx', h => by
    simp only [runPaths, act_pure] at h
    obtain ⟨rfl, rfl⟩ := h
    simp only [serPaths, nodesMap]
    omega
  | .mk segs props :: ds, qs, cx, cx', h => by
    simp only [runPaths, act_bind, act_pure] at h
    obtain ⟨⟨p, v⟩, cx1, h1, qs1, cx2, h2, rfl, rfl⟩ := h
    have b2 := paths_size hb ds h2
    simp only [PathDecl.run] at h1
    split at h1
    · simp at h1
    · simp only [act_bind, act_pure] at h1
      obtain ⟨⟨path, ps⟩, cx3, h3, v1, cx4, h4, e1, rfl⟩ := h1
      cases e1
      obtain ⟨b3, l3⟩ := url_size hb segs h3
      have b4 := item_size hb props h4
      have b5 := v.nodes_le
      have e : nodesSeq (serParameters []) = 0 := rfl
      have e' : nodesMap (serOperations []) = 0 := rfl
      simp only [serPaths, nodesMap, nodesPaths, pathParts, total_append, PathValue.load, PathValue.empty] at *
      omega
theorem item_size (hb : Bounded c W) : ∀ (ps : List ItemProp) {v v' : PathValue} {cx cx' : Components},
    runItemProps c ps v cx = some (v', cx') →
    v'.load + cx'.load ≤ v.load + cx.load + 30 * nodesItem ps + total (Part.weight W) (itemParts ps)
  | [], v, v', cx, cx', h => by
    simp only [runItemProps, act_pure] at h
    obtain ⟨rfl, rfl⟩ := h
    omega
  | .summary s :: ps, v, v', cx, cx', h => by
    simp only [runItemProps] at h
    have := item_size hb ps h
    simp only [PathValue.load, nodesItem, itemParts] at *
    omega
  | .description s :: ps, v, v', cx, cx', h => by
    simp only [runItemProps] at h
    have := item_size hb ps h
    simp only [PathValue.load, nodesItem, itemParts] at *
    omega
  | .parameters ds :: ps, v, v', cx, cx', h => by
    simp only [runItemProps, act_bind] at h
    obtain ⟨m, cx1, h1, h2⟩ := h
    obtain ⟨b1, l1⟩ := params_size hb ds h1
    have := item_size hb ps h2
    simp only [PathValue.load, nodesItem, itemParts, total_append] at *
    omega
  | .operation k os :: ps, v, v', cx, cx', h => by
    simp only [runItemProps, act_bind] at h
    obtain ⟨o, cx1, h1, h2⟩ := h
    have b1 := op_size hb os h1
    have b2 := item_size hb ps h2
    have b3 := operations_insert k o v.operations
    have b4 := o.nodes_le
    have e : Operation.empty.load = 0 := rfl
    simp only [PathValue.load, nodesItem, itemParts, total_append] at *
    omega
end

theorem schemes_size : ∀ (ds : List SchemeDecl) {u : Unit} {cx cx' : Components}, runSchemes ds cx = some (u, cx') →
    cx'.load ≤ cx.load + 10 * ds.length
  | [], u, cx, cx', h => by
    simp only [runSchemes, act_pure] at h
    obtain ⟨-, rfl⟩ := h
    omega
  | d :: ds, u, cx, cx', h => by
    simp only [runSchemes] at h
    cases hs : d.scheme with
    | none => simp [hs] at h
    | some q =>
      obtain ⟨name, s⟩ := q
      rw [hs] at h
      simp only [act_bind] at h
      obtain ⟨_, cx1, h1, h2⟩ := h
      have b := schemes_size ds h2
      have e : cx1 = { cx with securitySchemes := BMap.insert name s cx.securitySchemes } := by
        cases h1; rfl
      subst e
      have := length_insert name s cx.securitySchemes
      simp only [Components.load, List.length_cons] at *
      omega

/-- What the parts of a document add. -/
def Opg.load (d : Opg) : Nat := 5 * d.tags.length + 5 * d.servers.length + nodesMap (serPaths d.paths)

theorem serPaths_append (ps qs : List (UrlPath × PathValue)) : serPaths (ps ++ qs) = serPaths ps ++ serPaths qs := by
  induction ps with
  | nil => rfl
  | cons b ps ih => obtain ⟨p, v⟩ := b; simp [serPaths, ih]

theorem section_size (hb : Bounded c W) (s : Section) {d d' : Opg} {cx cx' : Components} (h : s.run c d cx = some (d', cx')) :
    d'.load + cx'.load ≤ d.load + cx.load + 30 * s.nodes + total (Part.weight W) (pathParts s.pathList) := by
  cases s with
  | info ps =>
    simp only [Section.run] at h
    cases hi : runInfo ps none none none with
    | none => simp [hi] at h
    | some i =>
      rw [hi] at h
      simp only [act_pure] at h
      obtain ⟨rfl, rfl⟩ := h
      simp only [Opg.load]; omega
  | tags ts =>
    simp only [Section.run, act_pure] at h
    obtain ⟨rfl, rfl⟩ := h
    have := length_insertAll (ts.map fun t => (t.1, (⟨t.2⟩ : Tag))) d.tags
    simp only [Opg.load, Section.nodes, List.length_map] at *
    omega
  | servers ss =>
    simp only [Section.run, act_pure] at h
    obtain ⟨rfl, rfl⟩ := h
    simp only [Opg.load, Section.nodes, List.length_append, List.length_map]
    omega
  | securitySchemes ss =>
    simp only [Section.run, act_bind, act_pure] at h
    obtain ⟨u, cx1, h1, rfl, rfl⟩ := h
    have := schemes_size ss h1
    simp only [Section.nodes]
    omega
  | paths ps =>
    simp only [Section.run, act_bind, act_pure] at h
    obtain ⟨qs, cx1, h1, rfl, rfl⟩ := h
    have := paths_size hb ps h1
    simp only [Opg.load, Section.nodes, Section.pathList, serPaths_append, nodesMap_append]
    omega

theorem sections_size (hb : Bounded c W) : ∀ (ss : Api) {d d' : Opg} {cx cx' : Components},
    runSections c ss d cx = some (d', cx') →
    d'.load + cx'.load ≤ d.load + cx.load + 30 * Api.nodes ss + total (Part.weight W) (pathParts (ss.flatMap Section.pathList))
  | [], d, d', cx, cx', h => by
    simp only [runSections, act_pure] at h
    obtain ⟨rfl, rfl⟩ := h
    omega
  | s :: ss, d, d', cx, cx', h => by
    simp only [runSections, act_bind] at h
    obtain ⟨d1, cx1, h1, h2⟩ := h
    have b1 := section_size hb s h1
    have b2 := sections_size hb ss h2
    simp only [Api.nodes, total, List.flatMap_cons, pathParts_append, total_append] at *
    omega

end

/-! ## Whole documents -/

theorem Info.nodes_le (i : Info) : i.ser.nodes ≤ 7 := by
  have h1 := nodes_optStr "description" i.description
  have h2 : nodesMap (entriesOf [("title", some (.str i.title))]) = 2 := rfl
  have h3 : nodesMap (entriesOf [("version", some (.str i.version))]) = 2 := rfl
  simp only [Info.ser, Value.nodes, nodes_entriesOf]
  omega

theorem Opg.nodes_le (d : Opg) : d.ser.nodes ≤
    24 + d.load + d.components.load + total (fun b : String × Model => 1 + b.2.ser.nodes) d.components.schemas := by
  have h1 : nodesMap (entriesOf [("openapi", some (.str d.openapi))]) = 2 := rfl
  have h2 : nodesMap (entriesOf [("info", some d.info.ser)]) = 1 + d.info.ser.nodes := by simp [entriesOf, nodesMap]
  have h2' := d.info.nodes_le
  have h3 := nodes_nonEmptySeq_le "tags" (d.tags.map fun t => t.2.ser t.1)
  have h3' : ∀ ts : List (String × Tag), nodesSeq (ts.map fun t => t.2.ser t.1) ≤ 5 * ts.length := by
    intro ts
    induction ts with
    | nil => simp [nodesSeq]
    | cons t ts ih =>
      have a := nodes_optStr "description" t.2.description
      have b : nodesMap (entriesOf [("name", some (.str t.1))]) = 2 := rfl
      simp only [List.map_cons, nodesSeq, Tag.ser, Value.nodes, nodes_entriesOf, List.length_cons] at *
      omega
  have h3' := h3' d.tags
  have h4 := nodes_nonEmptySeq_le "servers" (d.servers.map Server.ser)
  have h4' : ∀ ss : List Server, nodesSeq (ss.map Server.ser) ≤ 5 * ss.length := by
    intro ss
    induction ss with
    | nil => simp [nodesSeq]
    | cons s ss ih =>
      have a := nodes_optStr "description" s.description
      have b : nodesMap (entriesOf [("url", some (.str s.url))]) = 2 := rfl
      simp only [List.map_cons, nodesSeq, Server.ser, Value.nodes, nodes_entriesOf, List.length_cons] at *
      omega
  have h4' := h4' d.servers
  have h5 := nodes_nonEmptyMap_le "paths" (serPaths d.paths)
  have h6 : nodesMap (entriesOf [("components", some d.components.ser)]) = 1 + d.components.ser.nodes := by
    simp [entriesOf, nodesMap]
  have h7 := nodes_nonEmptyMap_le "schemas" (d.components.schemas.map fun b => (.str b.1, b.2.ser))
  have h7' : ∀ es : List (String × Model), nodesMap (es.map fun b => (Key.str b.1, b.2.ser)) =
      total (fun b : String × Model => 1 + b.2.ser.nodes) es := by
    intro es
    induction es with
    | nil => rfl
    | cons e es ih => simp only [List.map_cons, nodesMap, total, ih]
  rw [h7'] at h7
  have h8 := nodes_nonEmptyMap_le "securitySchemes" (d.components.securitySchemes.map fun b => (.str b.1, b.2.ser))
  have h8' : ∀ es : List (String × SecurityScheme), nodesMap (es.map fun b => (Key.str b.1, b.2.ser)) ≤ 10 * es.length := by
    intro es
    induction es with
    | nil => simp [nodesMap]
    | cons e es ih =>
      have := e.2.nodes_le
      simp only [List.map_cons, nodesMap, List.length_cons]
      omega
  have h8' := h8' d.components.securitySchemes
  have h9 : d.components.ser.nodes = 1 + (nodesMap (entriesOf [("schemas", nonEmptyMap (d.components.schemas.map fun b => (.str b.1, b.2.ser)))]) +
      nodesMap (entriesOf [("securitySchemes", nonEmptyMap (d.components.securitySchemes.map fun b => (.str b.1, b.2.ser)))])) := by
    simp only [Components.ser, Value.nodes, nodes_entriesOf]
  simp only [Opg.ser, Value.nodes, nodes_entriesOf, Opg.load, Components.load]
  omega

theorem describe_size {κ : Type} [Mentioner κ] {c : κ} {W : Ty → Nat} (hb : Bounded c W) {api : Api} {d : Opg}
    (h : describeApi c api = some d) : d.ser.nodes ≤ 30 * (1 + api.nodes) + total (Part.weight W) api.parts +
      total (fun b : String × Model => 1 + b.2.ser.nodes) d.components.schemas := by
  unfold describeApi at h
  split at h
  · cases h
  · rename_i d0 cx hr
    cases h
    have b1 := sections_size hb api hr
    have b2 := Opg.nodes_le { d0 with components := cx }
    have e : Opg.empty.load = 0 := rfl
    have e' : Components.empty.load = 0 := rfl
    have e2 : Opg.load { d0 with components := cx } = d0.load := rfl
    have e3 : pathParts (api.flatMap Section.pathList) = api.parts := rfl
    rw [e3] at b1
    simp only at b2 ⊢
    omega

theorem bounded_ctx {env : Env} {S : Nat → Nat} (sizes : ∀ j m, HasSchema env (.named j) m → m.ser.nodes ≤ S j)
    (n : Nat) (reason : Nat → Option String) :
    Bounded (⟨env, n, reason⟩ : Ctx) fun t => 40 * t.nodes + total S (t.placed env) := by
  intro t cx r cx' h
  have h' : mentionSchema env n t false {} cx = some (r, cx') := h
  constructor
  · have := mention_cost (B := Ty.bound env S) (fun t => t.bound_ge) (fun t cx m cx' h => schema_bound sizes n t cx m cx' h) rfl h'
    have b := mention_bound (env := env) (S := S) t false
    simp only [Bool.not_false, Bool.true_and] at b
    exact Nat.le_trans this b
  · have f := mentionWith_frame (sec := cx.securitySchemes) (fun h => getSchema_frame n h) h'
    have e : cx.withSecurity cx.securitySchemes = cx := rfl
    rw [e] at f
    have f' := f.symm.trans h'
    simp only [Option.some.injEq, Prod.mk.injEq, true_and] at f'
    rw [← f']
    rfl

end Verif
