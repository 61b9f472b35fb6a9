import Verif.Spec.Json
/-!
# Documents (specification)
-/

namespace Verif

/-- Predicates on the parts of a document: operations, path items, and lists of paths. -/
structure DocPred where
  op : Operation → Prop := fun _ => True
  item : PathValue → Prop := fun _ => True
  paths : List (UrlPath × PathValue) → Prop := fun _ => True

mutual
/-- The predicates hold of the path item and of everything in it, callbacks at any depth included. -/
def PathValue.Forall (P : DocPred) : PathValue → Prop
  | ⟨s, d, ops, ps⟩ => P.item ⟨s, d, ops, ps⟩ ∧ forallOps P ops
def Operation.Forall (P : DocPred) : Operation → Prop
  | ⟨tags, summary, id, desc, depr, sec, body, resp, params, callbacks⟩ =>
    P.op ⟨tags, summary, id, desc, depr, sec, body, resp, params, callbacks⟩ ∧ forallCallbacks P callbacks
def CallbackObject.Forall (P : DocPred) : CallbackObject → Prop
  | ⟨paths⟩ => P.paths paths ∧ forallPaths P paths
def forallPaths (P : DocPred) : List (List PathElement × PathValue) → Prop
  | [] => True
  | (_, v) :: ps => v.Forall P ∧ forallPaths P ps
def forallOps (P : DocPred) : List (HttpMethod × Operation) → Prop
  | [] => True
  | (_, o) :: os => o.Forall P ∧ forallOps P os
def forallCallbacks (P : DocPred) : List (String × CallbackObject) → Prop
  | [] => True
  | (_, c) :: cs => c.Forall P ∧ forallCallbacks P cs
end

/-- The predicates hold everywhere in the document. -/
def Opg.Forall (P : DocPred) (d : Opg) : Prop := P.paths d.paths ∧ forallPaths P d.paths

/-- The references directly in an operation: request body, responses, parameters. -/
def Operation.refs (o : Operation) : List Ref :=
  (o.requestBody.toList.map RequestBody.schema) ++ o.responses.flatMap (fun r => r.2.schema.toList) ++
    o.parameters.flatMap (fun p => p.2.schema.toList)

/-- The references directly in a path item: its parameters. -/
def PathValue.refs (v : PathValue) : List Ref := v.parameters.flatMap fun p => p.2.schema.toList

/-- All `BTreeMap`s of the document are in key order (the representation invariant of `BTreeMap`). -/
def docSorted : DocPred where
  op o := BMap.Sorted o.responses ∧ BMap.Sorted o.parameters ∧ BMap.Sorted o.callbacks ∧
    (∀ s ∈ o.security, BMap.Sorted s) ∧ ∀ r ∈ o.refs, r.PropsSorted
  item v := BMap.Sorted v.operations ∧ BMap.Sorted v.parameters ∧ ∀ r ∈ v.refs, r.PropsSorted

structure Components.MapsSorted (c : Components) : Prop where
  schemas : BMap.Sorted c.schemas
  security : BMap.Sorted c.securitySchemes
  models : ∀ b ∈ c.schemas, b.2.PropsSorted

structure Opg.MapsSorted (d : Opg) : Prop where
  tags : BMap.Sorted d.tags
  paths : d.Forall docSorted
  components : d.components.MapsSorted

/-- Within each list of paths, no two paths are written the same way. -/
def docPathsDistinct : DocPred where
  paths ps := (ps.map fun p => UrlPath.render p.1).Nodup

/-- A path segment that can be read back: no `/` inside, and a literal is not of the form `{..}`. -/
def PathElement.Plain : PathElement → Prop
  | .path s => '/' ∉ s.toList ∧ ∀ p : List Char, s.toList ≠ '{' :: (p ++ ['}'])
  | .parameter s => '/' ∉ s.toList

def docPathsPlain : DocPred where
  paths ps := ∀ p ∈ ps, ∀ e ∈ p.1, e.Plain

mutual
/-- No `false` at any depth, and `null` only as the `description` of a map that has a `content`. -/
def Value.Pruned : Value → Prop
  | .null => False
  | .bool b => b = true
  | .str _ => True
  | .seq vs => prunedSeq vs
  | .map es => prunedMap (.str "content" ∈ BMap.keys es) es
def prunedSeq : List Value → Prop
  | [] => True
  | v :: vs => v.Pruned ∧ prunedSeq vs
def prunedMap (content : Prop) : List (Key × Value) → Prop
  | [] => True
  | (.str "description", .null) :: es => content ∧ prunedMap content es
  | (_, v) :: es => v.Pruned ∧ prunedMap content es
end

end Verif
