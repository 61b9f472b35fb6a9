import Verif.Props.OpenApiMixed
import Verif.Props.PublishedReads
import Verif.Proof.Whole
/-!
# C28, C69: required names and component names of documents
-/

namespace Verif

open Sample

/-- **C28** (documents).  In the components of a described document, and in the schemas that its operations and path items
show, every required name is a property of the same object, at any depth; schemas that the description gives as Rust
expressions have to be so as well. -/
theorem c28_document (env : Env) (reason : Nat → Option String) (api : Api) (d : Opg) (h : Describes env reason api d)
    (raws : ∀ r, Part.raw r ∈ api.parts → ∀ o ∈ r.objects, ∀ name ∈ o.required, name ∈ BMap.keys o.properties) :
    (∀ c m, BMap.get c d.components.schemas = some m → ∀ o ∈ m.objects, ∀ name ∈ o.required, name ∈ BMap.keys o.properties) ∧
    (∀ ps op, OpIn api d ps op → ∀ r ∈ op.refs, ∀ o ∈ r.objects, ∀ name ∈ o.required, name ∈ BMap.keys o.properties) ∧
    ∀ decl p v, ItemIn api d decl (p, v) → ∀ r ∈ v.refs, ∀ o ∈ r.objects, ∀ name ∈ o.required, name ∈ BMap.keys o.properties := by
  obtain ⟨rs, sx, run, es, hp⟩ := h.registry
  have good := run.good (W := True) (callsOf_mentions _) Components.good_empty
  have h2 := hp (fun r => ∀ o ∈ r.objects, ∀ name ∈ o.required, name ∈ BMap.keys o.properties) (fun _ => True)
    ⟨fun r hr o ho => ((good.2 r hr).2 o ho trivial).2, raws, fun _ _ _ => trivial, fun _ _ => trivial⟩
  exact ⟨fun c m hm o ho => ((good.1 (c, m) (by rw [es]; exact BMap.mem_of_get hm)).2 o ho trivial).2,
    fun ps op ho => (ho.holds h2).op.2.1, fun decl p v hi => (hi.holds h2).item.2⟩

/-- **C28** (documents, hand written impls).  The same holds if the impls written by hand make only schemas that require what
they declare, as long as the schemas that they ask for do. -/
theorem c28_mixed (env : Env) (custom : Nat → Option (Impl Ty)) (whole : ∀ i im, custom i = some im → im.Whole)
    (reason : Nat → Option String) (api : Api) (d : Opg) (h : DescribesVia (impls env custom) reason api d)
    (raws : ∀ r, Part.raw r ∈ api.parts → r.Whole) :
    (∀ c m, BMap.get c d.components.schemas = some m → ∀ o ∈ m.objects, ∀ name ∈ o.required, name ∈ BMap.keys o.properties) ∧
    (∀ ps op, OpIn api d ps op → ∀ r ∈ op.refs, ∀ o ∈ r.objects, ∀ name ∈ o.required, name ∈ BMap.keys o.properties) ∧
    ∀ decl p v, ItemIn api d decl (p, v) → ∀ r ∈ v.refs, ∀ o ∈ r.objects, ∀ name ∈ o.required, name ∈ BMap.keys o.properties := by
  obtain ⟨h1, h2⟩ := h.whole (impls_whole env custom whole) raws
  exact ⟨fun c m hm o ho => (h1 _ (BMap.mem_of_get hm) o ho).2,
    fun ps op hop r hr o ho => ((hop.holds h2).op.2.1 r hr o ho).2, fun decl p v hi r hr o ho => ((hi.holds h2).item.2 r hr o ho).2⟩

/-- The hypothesis of `c28_mixed` is needed: what a hand written impl returns is registered as it is. -/
theorem c28_whole_needed : ∃ (env : Env) (custom : Nat → Option (Impl Ty)) (reason : Nat → Option String) (api : Api) (d : Opg) (m : Model),
    DescribesVia (impls env custom) reason api d ∧ (∀ r, Part.raw r ∉ api.parts) ∧ BMap.get "Figure" d.components.schemas = some m ∧
    ∃ o ∈ m.objects, ∃ name ∈ o.required, name ∉ BMap.keys o.properties :=
  ⟨framed, framedHand, reason, [.paths [.mk [.literal "a"] [.operation .get [.response 200 none (.type (.named 1))]]]], _, _,
    ⟨10, rfl⟩, fun r hr => by
      simp [Api.parts, Api.pathList, Section.pathList, pathParts, itemParts, opParts, PathSeg.parts, ResponseDecl.parts] at hr,
    rfl, _, .head _, _, .head _, nofun⟩

/-- The hypotheses of `c28_mixed` hold of the sample program, where `Pet` is documented by hand. -/
example : (∀ i im, byHand i = some im → im.Whole) ∧ DescribesVia (impls env byHand) reason api mixedDoc ∧
    (∀ r, Part.raw r ∈ api.parts → r.Whole) ∧
    1 ≤ (mixedDoc.components.schemas.flatMap fun b => b.2.objects.flatMap (·.required)).length := by
  refine ⟨fun i im h => ?_, mixed_described, fun r hr => ?_, ?_⟩
  · unfold byHand at h
    split at h
    · cases h
      have str_whole : str.Whole := fun o ho => by simp [str, Model.objects, ModelData.objects, ModelType.objects, TypeDesc.objects] at ho
      have rest : ∀ r : Ref, r.Whole → Model.Whole ⟨none, .oneOf [.link "Kind", r]⟩ := fun r hr =>
        Model.whole_iff.2 (Model.all_oneOf.2 fun x hx => by
          simp only [List.mem_cons, List.not_mem_nil, or_false] at hx
          rcases hx with rfl | rfl
          · exact Ref.all_link.2 trivial
          · exact Ref.whole_iff.1 hr)
      refine ⟨fun b => ?_, nofun, nofun⟩
      cases b with
      | true => exact rest
      | false => exact ⟨str_whole, rest⟩
    · cases h
  · simp [Api.parts, Api.pathList, api, Section.pathList, pathParts, usersPath, itemParts, getOp, opParts, callbackParts, PathSeg.parts,
      ParamDecl.parts, ParamProp.parts, SecurityDecl.parts, ResponseDecl.parts, BodyDecl.parts, callbackPath] at hr
  · decide +kernel

theorem typeName_reached {env : Env} {roots : List (Ty × Bool)} : ∀ {t : Ty} {name : String}, Reached env roots t → typeName env t = some name →
    ∃ i, Reached env roots (.named i) ∧ name = (env.decl i).ident
  | .wrap _ t, _, hr, h => typeName_reached (t := t) (.step hr (b := false) ⟨_, rfl, List.mem_singleton.2 rfl⟩) h
  | .option t, _, hr, h => typeName_reached (t := t) (.step hr (b := false) ⟨_, rfl, List.mem_singleton.2 rfl⟩) h
  | .named i, _, hr, h => by
    simp only [typeName, Container.typeName] at h
    split at h
    · cases h
    · exact ⟨i, hr, by injection h with h; exact h.symm⟩
  | .prim _, _, _, h | .tuple _, _, _, h | .seq _ _, _, _, h | .dict _ _, _, _, h | .unit, _, _, h | .uuid, _, _, h
  | .naiveDateTime, _, _, h | .dateTime, _, _, h | .naiveDate, _, _, h => by cases h

/-- **C69**, in documents of programs whose used types have plain ASCII identifiers: the component names are legal, and each is
the identifier of a type that the description leads to.  Missing: other identifiers, of which it is false (`c69_is_false`). -/
theorem c69_document_partial (env : Env) (reason : Nat → Option String) (api : Api) (d : Opg) (h : Describes env reason api d)
    (plain : ∀ i, Reached env api.roots (.named i) → PlainIdent (env.decl i).ident) :
    ∀ name ∈ BMap.keys d.components.schemas, LegalName name ∧ ∃ i, Reached env api.roots (.named i) ∧ name = (env.decl i).ident := by
  obtain ⟨rs, sx, run, es, -⟩ := h.registry
  rw [← es]
  intro name hn
  obtain ⟨b, hb, rfl⟩ := List.mem_map.1 hn
  obtain ⟨t, hl, ht, -⟩ := named_calls run (callsOf_mentions _) (fun _ hx => hx) (fun _ hb => by cases hb) b hb
  obtain ⟨i, hr, hi⟩ := typeName_reached (linked_reached hl) ht
  exact ⟨hi ▸ (plain i hr).legal, i, hr, hi⟩

/-- **C69** (documents), exactly: if each name is used by reference for one type only, the component names are legal if and
only if the names of the types used by reference are. -/
theorem c69_document_exact (env : Env) (reason : Nat → Option String) (api : Api) (d : Opg) (h : Describes env reason api d)
    (unique : NamesUnique env api.roots) :
    (∀ name ∈ BMap.keys d.components.schemas, LegalName name) ↔
      ∀ t name, Linked env api.roots t → typeName env t = some name → LegalName name := by
  obtain ⟨rs, sx, run, es, -⟩ := h.registry
  rw [← es]
  exact c69_exact env _ rs sx unique (callsOf_mentions _) run

/-- The hypotheses of `c28_document` and `c69_document_partial` hold of a description of all shapes of types. -/
example : ∃ d, Describes zoo reason zooApi d ∧ (∀ r, Part.raw r ∉ zooApi.parts) ∧
    (∀ i, Reached zoo zooApi.roots (.named i) → PlainIdent (zoo.decl i).ident) ∧ (BMap.keys d.components.schemas).length = 10 ∧
    1 ≤ (d.components.schemas.flatMap fun b => b.2.objects.flatMap (·.required)).length :=
  ⟨_, ⟨10, rfl⟩, by rw [zooApi_parts]; simp, fun i _ => zoo_plain i, rfl, by decide +kernel⟩

/-- Those of `c69_document_exact` hold of the book shop. -/
example : Describes shop reason shopApi shopDoc ∧ NamesUnique shop shopApi.roots :=
  ⟨shopDoc_described, namesUnique_of_closed shopApi_closed (by decide +kernel)⟩

end Verif
