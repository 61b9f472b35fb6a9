import Verif.Props.Generation
import Verif.Props.Mixed
/-!
# C13: the registries of documents verify
-/

namespace Verif

/-- **C13** (documents, hand written impls).  If the hand written impls use only names that they know to be registered,
then the components of a described document have no dangling link at any depth, and `verify_schemas` returns `Ok` on them.
Schemas that the description gives as Rust expressions play no role: they are not components. -/
theorem c13_mixed (env : Env) (custom : Nat → Option (Impl Ty)) (candid : ∀ i im, custom i = some im → im.Candid)
    (reason : Nat → Option String) (api : Api) (d : Opg) (h : DescribesVia (impls env custom) reason api d) :
    d.components.NoDangling ∧ d.components.verifySchemas = .ok () := by
  obtain ⟨n, h⟩ := h
  obtain ⟨rs, hw, -⟩ := describeApi_went h
  obtain ⟨h1, -⟩ := hw.links (ask_kept n) (ask_resolves (impls_candid env custom candid) n) fun _ _ hm => (List.not_mem_nil hm).elim
  exact ⟨h1, (c11_verify_direct d.components).1.2 fun name m hm l hl => h1 name m hm l (directLinks_subset m l hl)⟩

/-- **C13** (documents).  `verify_schemas` returns `Ok` on the components of every described document. -/
theorem c13_document (env : Env) (reason : Nat → Option String) (api : Api) (d : Opg) (h : Describes env reason api d) :
    d.components.NoDangling ∧ d.components.verifySchemas = .ok () :=
  c13_mixed env (fun _ => none) (fun _ _ e => nomatch e) reason api d ((c104_derived env reason api d).2 h)

open Sample

/-- `c13_document`, `c13_mixed`: documents with several components that link each other. -/
example : Describes env reason api apiDoc ∧ BMap.keys apiDoc.components.schemas = ["Owner", "Pet", "User"] ∧
    (∀ i im, byHand i = some im → im.Candid) ∧ DescribesVia (impls env byHand) reason api mixedDoc ∧
    mixedDoc.components.schemas.flatMap (fun b => b.2.links) = ["Kind", "Animal", "User", "Animal"] :=
  ⟨api_described, rfl, byHand_candid, mixed_described, rfl⟩

/-- The hypothesis of `c13_mixed` is needed: of a document whose impls link to what they do not know, `verify_schemas` tells
the missing name. -/
theorem c13_candid_needed : ∃ (env : Env) (custom : Nat → Option (Impl Ty)) (reason : Nat → Option String) (api : Api) (d : Opg),
    DescribesVia (impls env custom) reason api d ∧ d.components.verifySchemas = .error "Nowhere" :=
  ⟨env, fun _ => some looseImpl, reason,
    [.paths [.mk [.literal "a"] [.operation .get [.response 200 none (.type (.named 0))]]]], _, ⟨10, rfl⟩, rfl⟩

end Verif
