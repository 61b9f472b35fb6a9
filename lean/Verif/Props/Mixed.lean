import Verif.Props.Api
import Verif.Props.Custom
import Verif.Proof.Mixed
/-!
# C104: described APIs of programs with hand written impls
-/

namespace Verif

/-- **C104** (refinement).  Where no impl is written by hand, the documents are those of the other theorems. -/
theorem c104_derived (env : Env) (reason : Nat → Option String) (api : Api) (d : Opg) :
    DescribesVia (impls env fun _ => none) reason api d ↔ Describes env reason api d := by
  constructor
  · intro h
    obtain ⟨n, h⟩ := h.succ
    exact ⟨n, describeApi_same (askAlike_derived env n) api (fun _ _ => trivial) h⟩
  · rintro ⟨n, h⟩
    exact ⟨n + 1, describeApi_same (askAlike_derived' env n) api (fun _ _ => trivial) h⟩

/-- **C104** (one document).  A description has one document. -/
theorem c104_deterministic (w : Ty → Impl Ty) (reason : Nat → Option String) (api : Api) (d d' : Opg)
    (h : DescribesVia w reason api d) (h' : DescribesVia w reason api d') : d = d' := by
  obtain ⟨n, h⟩ := h
  obtain ⟨k, h'⟩ := h'
  have h1 := describeVia_mono (Nat.le_max_left n k) h
  have h2 := describeVia_mono (Nat.le_max_right n k) h'
  rw [h1] at h2
  exact Option.some.inj h2

/-- **C104** (schemas).  The schemas of the document are those left by mentioning, in order, what the description mentions. -/
theorem c104_schemas (w : Ty → Impl Ty) (reason : Nat → Option String) (api : Api) (d : Opg) (h : DescribesVia w reason api d) :
    ∃ rs cx, ProgReturns w (partsProg api.parts) .empty rs cx ∧ cx.schemas = d.components.schemas := by
  obtain ⟨n, h⟩ := h.succ
  obtain ⟨rs, hw, -⟩ := describeApi_went h
  obtain ⟨cx, h1, h2⟩ := hw.prog rfl
  exact ⟨rs, cx, ⟨n + 1, h1⟩, h2⟩

/-- **C104** (references).  If the hand written impls use only names that they know to be registered, and so do the schemas
that the description gives as Rust expressions, then every `$ref` in the document, at any depth, is
`#/components/schemas/` and the name of a written component. -/
theorem c104_refs (env : Env) (custom : Nat → Option (Impl Ty)) (candid : ∀ i im, custom i = some im → im.Candid)
    (reason : Nat → Option String) (api : Api) (d : Opg) (h : DescribesVia (impls env custom) reason api d)
    (raws : ∀ r, Part.raw r ∈ api.parts → ∀ l ∈ r.links, l ∈ BMap.keys d.components.schemas) :
    ∀ s ∈ d.ser.refStrings, ∃ name components schemas v, s = "#/components/schemas/" ++ name ∧
      d.ser.at "components" = some components ∧ components.at "schemas" = some schemas ∧ schemas.at name = some v := by
  obtain ⟨n, h⟩ := h
  obtain ⟨rs, hw, hp⟩ := describeApi_went h
  obtain ⟨h1, h2⟩ := hw.links (ask_kept n) (ask_resolves (impls_candid env custom candid) n) fun _ _ hm => (List.not_mem_nil hm).elim
  refine refs_written (fun b hb l hl => h1 b.1 b.2 hb l hl) (hp _ _ ⟨fun r hr => ⟨h2 r hr, fun _ _ f => f.elim⟩,
    fun r hr => ⟨raws r hr, fun _ _ f => f.elim⟩, fun _ _ _ => trivial, fun _ _ => trivial⟩)

/-- **C104** (security).  Whatever the impls do, every name in a security requirement is the name of a security scheme of the
document, if the names given as literals are. -/
theorem c104_security (w : Ty → Impl Ty) (reason : Nat → Option String) (api : Api) (d : Opg) (h : DescribesVia w reason api d)
    (literals : ∀ name, Part.literal name ∈ api.parts → name ∈ BMap.keys d.components.securitySchemes) :
    d.Forall { op := fun o => ∀ m ∈ o.security, ∀ b ∈ m, b.1 ∈ BMap.keys d.components.securitySchemes } := by
  obtain ⟨n, h⟩ := h
  obtain ⟨rs, hw, hp⟩ := describeApi_went h
  have hd := hp (fun _ => True) (· ∈ BMap.keys d.components.securitySchemes)
    ⟨fun _ _ => trivial, fun _ _ => trivial, (hw.keysKept (ask_kept n)).2, literals⟩
  exact Opg.forall_imp (P := docAll (fun _ => True) (· ∈ BMap.keys d.components.securitySchemes))
    (Q := docAll (fun _ => True) (· ∈ BMap.keys d.components.securitySchemes))
    ⟨fun o ho _ m hm => (ho.2.2 m hm).2, fun _ _ _ => trivial, fun _ _ _ => trivial⟩ d ⟨trivial, hd⟩ ⟨trivial, hd⟩

/-- **C104** (only schemas).  Two programs that differ in their impls give documents that differ, besides the registered
components, in schemas only: at each place, both have answers to a mention of the same type. -/
theorem c104_only_schemas (w w' : Ty → Impl Ty) (reason : Nat → Option String) (api : Api) (d d' : Opg)
    (h : DescribesVia w reason api d) (h' : DescribesVia w' reason api d') :
    d.Along (fun r r' => r = r' ∨ ∃ t, Part.mention t ∈ api.parts ∧ MentionsVia w t r ∧ MentionsVia w' t r')
      { d' with components := d.components } := describeApi_any h h'

/-- **C104** (documenting types by hand).  Replacing derived impls by hand written ones changes schemas only. -/
theorem c104_by_hand (env : Env) (custom : Nat → Option (Impl Ty)) (reason : Nat → Option String) (api : Api) (d d' : Opg)
    (derived : Describes env reason api d) (byHand : DescribesVia (impls env custom) reason api d') :
    d.Along (fun r r' => r = r' ∨ ∃ t, Part.mention t ∈ api.parts ∧ Mentions env t false {} r ∧ MentionsVia (impls env custom) t r')
      { d' with components := d.components } := by
  have := describeApi_any ((c104_derived env reason api d).2 derived) byHand
  have e : ∀ t r, MentionsVia (impls env fun _ => none) t r ↔ Mentions env t false {} r := fun t r =>
    exists_congr fun cx => exists_congr fun cx' => (c103_derived env t cx cx').1 false {} r
  simp only [e] at this
  exact this

namespace Sample

/-- The document of the sample description where `Pet` is documented by hand. -/
def mixedDoc : Opg := (describeApi (⟨impls env byHand, 10, reason⟩ : MixedCtx) api).getD .empty

theorem mixed_described : DescribesVia (impls env byHand) reason api mixedDoc := ⟨10, rfl⟩

theorem byHand_candid (i : Nat) (im : Impl Ty) (h : byHand i = some im) : im.Candid := by
  unfold byHand at h
  split at h
  · cases h; exact petImpl_candid
  · cases h

end Sample

open Sample

/-- `c104_refs`, `c104_by_hand`: the derived document has `Pet` where the other has `Animal`. -/
example : (∀ i im, byHand i = some im → im.Candid) ∧ DescribesVia (impls env byHand) reason api mixedDoc ∧
    (∀ r, Part.raw r ∈ api.parts → ∀ l ∈ r.links, l ∈ BMap.keys mixedDoc.components.schemas) ∧
    Describes env reason api apiDoc ∧
    BMap.keys apiDoc.components.schemas = ["Owner", "Pet", "User"] ∧
    BMap.keys mixedDoc.components.schemas = ["Animal", "Kind", "Owner", "User"] ∧
    mixedDoc.components.schemas.flatMap (fun b => b.2.links) = ["Kind", "Animal", "User", "Animal"] := by
  refine ⟨byHand_candid, mixed_described, ?_, api_described, rfl, rfl, rfl⟩
  intro r hr
  simp [Api.parts, Api.pathList, api, Section.pathList, pathParts, usersPath, itemParts, getOp, opParts, callbackParts, PathSeg.parts,
    ParamDecl.parts, ParamProp.parts, SecurityDecl.parts, ResponseDecl.parts, BodyDecl.parts, callbackPath] at hr

/-- `c104_security`: the description uses a declared scheme by a literal, and one by a variable. -/
example : (∀ name, Part.literal name ∈ api.parts → name ∈ BMap.keys mixedDoc.components.securitySchemes) ∧
    Part.literal "key" ∈ api.parts := by
  refine ⟨fun name hn => ?_, ?_⟩
  · simp [Api.parts, Api.pathList, api, Section.pathList, pathParts, usersPath, itemParts, getOp, opParts, callbackParts, PathSeg.parts,
      ParamDecl.parts, ParamProp.parts, SecurityDecl.parts, ResponseDecl.parts, BodyDecl.parts, callbackPath] at hn
    subst hn
    decide +kernel
  · simp [Api.parts, Api.pathList, api, Section.pathList, pathParts, usersPath, itemParts, getOp, opParts, callbackParts, PathSeg.parts,
      ParamDecl.parts, ParamProp.parts, SecurityDecl.parts, ResponseDecl.parts, BodyDecl.parts, callbackPath]

/-- **C104** is about impls that know their names: one that does not puts a reference to nowhere into the document. -/
theorem c104_candid_needed : ∃ (env : Env) (custom : Nat → Option (Impl Ty)) (reason : Nat → Option String) (api : Api) (d : Opg),
    DescribesVia (impls env custom) reason api d ∧ "#/components/schemas/Nowhere" ∈ d.ser.refStrings ∧
      BMap.keys d.components.schemas = ["Loose"] :=
  ⟨env, fun _ => some looseImpl, reason,
    [.paths [.mk [.literal "a"] [.operation .get [.response 200 none (.type (.named 0))]]]], _,
    ⟨10, rfl⟩, by decide +kernel, rfl⟩

end Verif
