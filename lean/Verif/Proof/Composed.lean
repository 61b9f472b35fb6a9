import Verif.Proof.Mixed
/-!
# Documents by their descriptions

What a document says at the places of its description, but for the schemas, in programs of derived impls as well as in programs with
impls written by hand.
-/

namespace Verif

/-- The document is put together as the description says. -/
structure Composed (reason : Nat → Option String) (api : Api) (d : Opg) : Prop where
  order : Pointwise (fun decl pv => Pointwise SegOf decl.segments pv.1) api.pathList d.paths
  items : ∀ {decl p v}, ItemIn api d decl (p, v) → ItemBy (fun _ _ => True) decl p v
  operations : ∀ {ps o}, OpIn api d ps o → OperationBy (fun _ _ => True) reason ps o
  callbacks : ∀ {ps o}, OpIn api d ps o → ∀ {name c c'}, lastOf (CallbackDecl.named? name) (ps.flatMap OpProp.callbackList) = some c →
    BMap.get name o.callbacks = some c' →
    match c with
    | .literal _ _ => c'.paths = []
    | .ident _ ds => Pointwise (fun decl pv => Pointwise SegOf decl.segments pv.1) ds c'.paths
  sorted : forallPaths (docAll (fun _ => True) fun _ => True) d.paths

theorem composed_of {κ : Type} [Mentioner κ] {c : κ} {api : Api} {d : Opg} (h : describeApi c api = some d) :
    Composed (Mentioner.reason c) api d := by
  let _ : Telling κ := ⟨fun _ _ _ => True, fun _ => trivial⟩
  have made := describeApi_made h
  refine ⟨made.of_get fun i _ _ hd hpv => (PathDecl.run_step (made.at hd hpv)).2.1, fun hi => (hi.madeFrom made).itemOf,
    fun ho => (ho.madeFrom made).operationOf, ?_, ?_⟩
  · intro ps o ho name c' c'' hc hc'
    obtain ⟨_, _, hm⟩ := ho.madeFrom made
    have hcb := (runOpProps_step _ hm).callbacks name
    rw [hc, hc'] at hcb
    obtain ⟨v, hv, hmade⟩ := hcb
    cases hv
    cases c' with
    | literal n ps => exact hmade
    | ident n ds => exact Pointwise.of_get hmade fun i decl pv hd hpv => (PathDecl.run_step (Pointwise.at hmade hd hpv)).2.1
  · obtain ⟨rs, -, f⟩ := describeApi_went h
    exact f _ _ ⟨fun _ _ => trivial, fun _ _ => trivial, fun _ _ _ => trivial, fun _ _ => trivial⟩

theorem Describes.composed {env : Env} {reason : Nat → Option String} {api : Api} {d : Opg} (h : Describes env reason api d) :
    Composed reason api d := by
  obtain ⟨fuel, h⟩ := h
  exact composed_of h

theorem DescribesVia.composed {w : Ty → Impl Ty} {reason : Nat → Option String} {api : Api} {d : Opg} (h : DescribesVia w reason api d) :
    Composed reason api d := by
  obtain ⟨fuel, h⟩ := h
  exact composed_of h

theorem Composed.operation {reason : Nat → Option String} {api : Api} {d : Opg} (h : Composed reason api d) {decl p v}
    (hi : ItemIn api d decl (p, v)) {m ps} (hm : lastOf (ItemProp.operation? m) decl.props = some ps) :
    ∃ o, BMap.get m v.operations = some o ∧ OpIn api d ps o := by
  cases ho : BMap.get m v.operations with
  | none => rw [((h.items hi).operations m).1 ho] at hm; cases hm
  | some o => exact ⟨o, rfl, .mk hi hm ho⟩

end Verif
