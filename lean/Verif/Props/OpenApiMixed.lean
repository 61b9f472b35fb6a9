import Verif.Proof.Lawful
import Verif.Props.OpenApi
import Verif.Props.Handmade
import Verif.Props.LocalMixed
/-!
# C67, C68: legal documents, in programs with hand written impls
-/

namespace Verif

open Sample

/-- The impls of the types that an API leads to; a fixed one for all others. -/
noncomputable def onlyLed (w : Ty → Impl Ty) (roots : List (Ty × Bool)) (t : Ty) : Impl Ty :=
  open Classical in if LedTo w roots t then w t else { schema := .ret ⟨none, .single ⟨false, .boolean⟩⟩, name := none }

theorem onlyLed_eq {w : Ty → Impl Ty} {roots t} (h : LedTo w roots t) : onlyLed w roots t = w t := if_pos h

theorem onlyLed_lawful {w : Ty → Impl Ty} {roots} (h : ∀ t, LedTo w roots t → (w t).Lawful) (t : Ty) : (onlyLed w roots t).Lawful := by
  unfold onlyLed
  split
  · rename_i ht
    exact h t ht
  · exact ⟨⟨trivial, nofun⟩, nofun, nofun, nofun⟩

theorem LegalLed.describes {env : Env} {custom : Nat → Option (Impl Ty)} {api : Api} (h : LegalLed env custom api)
    {reason : Nat → Option String} {d : Opg} (hd : DescribesVia (impls env custom) reason api d) :
    ∃ w, (∀ t, (w t).Lawful) ∧ DescribesVia w reason api d :=
  ⟨onlyLed (impls env custom) api.roots, onlyLed_lawful fun t ht => impls_lawful env custom t (fun i im e => by subst e; exact h.byHand i im ht)
    (h.derived t ht) (fun n => h.names t n ht),
    (c91_impls (impls env custom) _ reason api (fun _ => onlyLed_eq) d).2 hd⟩

/-- **C67**, in programs with hand written impls: if those make legal schemas (and security schemes are legal), all components and all schemas
that operations and path items show are legal.  Missing: degenerate types, as in `c67_generated_partial`, and impls that make legal schemas which require what they do not
have, of which it is false (`c67_mixed_is_false`). -/
theorem c67_mixed_partial (env : Env) (custom : Nat → Option (Impl Ty)) (reason : Nat → Option String) (api : Api) (d : Opg)
    (h : DescribesVia (impls env custom) reason api d) (legal : LegalLed env custom api) (schemes : LegalSchemes api)
    (raws : ∀ r, Part.raw r ∈ api.parts → r.Legal) :
    (∀ name m, BMap.get name d.components.schemas = some m → LegalName name ∧ LegalSchema m.ser) ∧
    (∀ ps o, OpIn api d ps o → ∀ r ∈ o.refs, LegalSchema r.ser) ∧
    ∀ decl p v, ItemIn api d decl (p, v) → ∀ r ∈ v.refs, LegalSchema r.ser := by
  obtain ⟨w, hw, h⟩ := legal.describes h
  obtain ⟨h1, h2⟩ := h.fine hw schemes raws
  refine ⟨fun name m hm => ?_, fun ps o ho r hr => ?_, fun decl p v hi r hr => ?_⟩
  · obtain ⟨a, b⟩ := h1.models _ (BMap.mem_of_get hm)
    exact ⟨a, Model.ser_legal m b.1⟩
  · exact Ref.ser_legal r ((ho.holds h2).op.2.1 r hr)
  · exact Ref.ser_legal r ((hi.holds h2).item.2 r hr)

/-- **C68**, in programs with hand written impls: such a document is legal if the description has a path, and responses with real status codes
in all operations.  Missing: as in C67, and descriptions without these or with illegal security schemes (`c68_is_false`). -/
theorem c68_mixed_partial (env : Env) (custom : Nat → Option (Impl Ty)) (reason : Nat → Option String) (api : Api) (d : Opg)
    (h : DescribesVia (impls env custom) reason api d) (legal : LegalLed env custom api) (schemes : LegalSchemes api)
    (raws : ∀ r, Part.raw r ∈ api.parts → r.Legal) (paths : api.pathList ≠ [])
    (responses : ∀ ps, DeclaredOp api ps → ∃ code t s, OpProp.response code t s ∈ ps)
    (codes : ∀ ps, DeclaredOp api ps → ∀ code t s, OpProp.response code t s ∈ ps → 100 ≤ code ∧ code ≤ 599) :
    LegalDocument d.ser := by
  obtain ⟨h1, h2, h3⟩ := c67_mixed_partial env custom reason api d h legal schemes raws
  obtain ⟨w, hw, h⟩ := legal.describes h
  obtain ⟨h4, -⟩ := h.fine hw schemes raws
  obtain ⟨fuel, h⟩ := h
  exact document_legal ((describeApi_complete_iff h h4.schemas h4.security).2
    ⟨paths, fun ps o ho => responses ps ho.declared, fun ps o ho => codes ps ho.declared, h2, h3, h1,
      fun _ _ hs => h4.schemes _ (BMap.mem_of_get hs)⟩)

/-- **C68**, exactly, in programs with hand written impls: what `describe_api!` produces is written as a legal OpenAPI document if and only if
some path is described, every operation written declares a response and only real status codes, the schemas written, the names of components
and the security schemes are legal. -/
theorem c68_mixed_exact (env : Env) (custom : Nat → Option (Impl Ty)) (sorts : ∀ i im, custom i = some im → im.Sorts)
    (reason : Nat → Option String) (api : Api) (d : Opg) (h : DescribesVia (impls env custom) reason api d)
    (raws : ∀ r, Part.raw r ∈ api.parts → r.PropsSorted) : LegalDocument d.ser ↔ LegalMixed api d := by
  have sorted := c118_sorted env custom sorts reason api d h raws
  obtain ⟨fuel, h⟩ := h
  exact (c68_serialization d sorted).trans (describeApi_complete_iff h sorted.components.schemas sorted.components.security)

namespace Sample

theorem sketch_sorts (i : Nat) (im : Impl Ty) (h : sketchHand i = some im) : im.Sorts := by
  match i, h with
  | 1, h => cases h; exact ⟨fun o ho => by simp [str, Model.objects, ModelData.objects, ModelType.objects, TypeDesc.objects] at ho, nofun, nofun⟩

theorem sketch_legal : LegalLed drawing sketchHand sketchApi where
  byHand i im _ h := by
    match i, h with
    | 1, h =>
      cases h
      refine ⟨⟨nofun, fun o ho => ?_⟩, nofun, nofun, fun n e => by cases e; exact PlainIdent.legal (by simp [PlainIdent])⟩
      simp [str, Model.objects, ModelData.objects, ModelType.objects, TypeDesc.objects] at ho
  derived t h hc := by
    rcases sketch_led h with rfl | rfl
    · constructor <;> intro fs hd <;> simp [drawing, action, container, containerAttrs] at hd ⊢ <;> subst hd <;>
        simp [variantAs, variantAttrs, DistinctRequired, serialFields, field, Field.key]
    · cases hc 1 rfl
  names t n h e := by
    rcases sketch_led h with rfl | rfl <;> cases e <;> exact PlainIdent.legal (by simp [PlainIdent, drawing, action, container])

mutual
theorem sketch_path : ∀ {decl}, DeclaredPath sketchApi decl → decl = sketchPath
  | _, .top h => by
    simp [sketchApi, Api.pathList, Section.pathList] at h
    exact h
  | _, .callback h hc hd => by
    cases sketch_op h
    simp [sketchOp, OpProp.callbackList] at hc
theorem sketch_op : ∀ {ps}, DeclaredOp sketchApi ps → ps = sketchOp
  | _, .mk h ho => by
    cases sketch_path h
    simp [sketchPath, PathDecl.props] at ho
    exact ho.2
end

/-- The hypotheses hold of a document with a type documented by hand, which is legal. -/
example : LegalDocument sketchDoc.ser ∧ (BMap.keys sketchDoc.components.schemas).length = 2 ∧ LegalMixed sketchApi sketchDoc := by
  have hl : LegalDocument sketchDoc.ser := c68_mixed_partial drawing sketchHand reason sketchApi sketchDoc sketchDoc_described sketch_legal
    ⟨nofun, nofun, by simp [sketchApi_parts]⟩ (by simp [sketchApi_parts]) nofun (fun ps h => by cases sketch_op h; exact ⟨_, _, _, .head _⟩)
    (fun ps h code t s hm => by cases sketch_op h; cases List.mem_singleton.1 hm; exact ⟨by decide, by decide⟩)
  exact ⟨hl, rfl, (c68_mixed_exact drawing sketchHand sketch_sorts reason sketchApi sketchDoc sketchDoc_described
    (by simp [sketchApi_parts])).1 hl⟩

/-- `#[serde(tag = "kind")] enum Action { Draw(Figure) }` -/
def framed : Env := ⟨fun _ => container "Action" (fun a => { a with tagType := .internal "kind", modelType := .oneOf })
  (.enum [variantAs "Draw" "Draw" .newType [field "0" (.named 1)]]), fun s => s⟩
/-- `impl OpgModel for Figure`, documented as an object that requires `kind` without saying what it is. -/
def framedFigure : Model := ⟨none, .single ⟨false, .object ⟨[], none, ["kind"]⟩⟩⟩
def framedHand : Nat → Option (Impl Ty)
  | 1 => some { schema := .ret framedFigure, name := some "Figure" }
  | _ => none
def framedDoc : Opg := (describeApi (⟨impls framed framedHand, 10, reason⟩ : MixedCtx) sketchApi).getD .empty

end Sample

/-- C67 is false of hand written impls whose schemas are legal, but require what is not among the properties: an enum with a tag of that name
requires it twice. -/
theorem c67_mixed_is_false : DescribesVia (impls framed framedHand) reason sketchApi framedDoc ∧ LegalSchema framedFigure.ser ∧
    LegalDecl (framed.decl 0) ∧ ∃ m, BMap.get "Action" framedDoc.components.schemas = some m ∧ ¬ LegalSchema m.ser := by
  refine ⟨⟨10, rfl⟩, (Model.legal_iff _).2 ?_, ?_, _, rfl, fun h => ?_⟩
  · simp [framedFigure, Model.Legal, ModelData.Legal, ModelType.Legal, TypeDesc.Legal, ModelObject.Legal, legalProps, legalOpt]
  · constructor <;> intro fs hd <;> simp [framed, container, containerAttrs] at hd ⊢ <;> subst hd <;>
      simp [variantAs, variantAttrs, DistinctRequired, serialFields, field, Field.key]
  · exact absurd ((Model.legal_iff _).1 h).2.1.1 (by decide)

end Verif
