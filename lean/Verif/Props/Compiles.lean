import Verif.Proof.Compiles
import Verif.Props.Api
import Verif.Props.Grow
import Verif.Props.Mixed
/-!
# Descriptions that give a document

C110: which descriptions `describe_api!` makes a document of.
-/

namespace Verif

open Sample

/-- **C110**. A description gives a document exactly if each of its parts is in order, and the registry answers when asked
for its types in turn. -/
theorem c110_exact (env : Env) (reason : Nat → Option String) (api : Api) :
    (∃ d, Describes env reason api d) ↔ api.Ok ∧ ∃ rs cx, CallsReturn env .empty (callsOf api.parts) rs cx := by
  constructor
  · rintro ⟨d, h⟩
    obtain ⟨rs, sx, hr, -⟩ := h.registry
    exact ⟨h.ok, rs, sx, hr⟩
  · rintro ⟨ok, rs, cx, h⟩
    exact describes_of_ok ok h

/-- **C110**, in terms of types: if each name is used for one type, a description gives a document exactly if its parts are
in order and the types it mentions have finite expansions. -/
theorem c110_types (env : Env) (reason : Nat → Option String) (api : Api) (unique : NamesUnique env api.roots) :
    (∃ d, Describes env reason api d) ↔ api.Ok ∧ ∀ t ∈ api.mentions, Expands env t := by
  rw [c110_exact]
  refine and_congr_right fun _ => ⟨?_, fun h => ?_⟩
  · rintro ⟨rs, cx, h⟩ t ht
    obtain ⟨p, hp, e⟩ := List.mem_filterMap.1 ht
    have ht : .mention t ∈ api.parts := by cases p <;> cases e; exact hp
    exact grounded_calls unique.agree h (callsOf_mentions _) (fun _ h => h) grounded_empty (t, true) (roots_mem.2 ⟨t, ht, rfl⟩)
  · refine expands_calls _ (fun x hx => ?_) _
    obtain ⟨t, ht, rfl⟩ := roots_mem.1 hx
    exact h t (List.mem_filterMap.2 ⟨_, ht, rfl⟩)

/-- **C110**, whatever the types: a description that is in order gives a document if the expansions of its types are
finite, and so do all rearrangements of its sections. -/
theorem c110_any_order (env : Env) (reason : Nat → Option String) (api api' : Api) (same : ∀ s, s ∈ api' → s ∈ api) (ok : api.Ok)
    (finite : ∀ t ∈ api.mentions, Expands env t) : ∃ d, Describes env reason api' d := by
  refine (c110_exact env reason api').2 ⟨fun s hs => ok s (same s hs), expands_calls _ (fun x hx => ?_) _⟩
  obtain ⟨t, ht, rfl⟩ := roots_mem.1 hx
  have sub : ∀ p ∈ api'.parts, p ∈ api.parts := by
    intro p hp
    have flat : ∀ a : Api, a.parts = a.flatMap fun s => pathParts s.pathList := by
      intro a
      induction a with
      | nil => simp [Api.parts, Api.pathList, pathParts]
      | cons s a ih => rw [← List.singleton_append, Api.parts_append, ih]; simp [Api.parts, Api.pathList]
    rw [flat] at hp ⊢
    obtain ⟨s, hs, hp⟩ := List.mem_flatMap.1 hp
    exact List.mem_flatMap.2 ⟨s, same s hs, hp⟩
  exact finite t (List.mem_filterMap.2 ⟨_, sub _ ht, rfl⟩)

/-- **C110**, for programs with hand written impls: a description gives a document exactly if its parts are in order and
mentioning its types in turn returns. -/
theorem c110_mixed (w : Ty → Impl Ty) (reason : Nat → Option String) (api : Api) :
    (∃ d, DescribesVia w reason api d) ↔ api.Ok ∧ ∃ rs cx, ProgReturns w (partsProg api.parts) .empty rs cx := by
  constructor
  · rintro ⟨d, h⟩
    obtain ⟨rs, cx, hr, -⟩ := c104_schemas w reason api d h
    exact ⟨h.ok, rs, cx, hr⟩
  · rintro ⟨ok, rs, cx, h⟩
    exact describesVia_of_ok ok h

/-- The sample description is in order. -/
example : Sample.api.Ok ∧ (∃ rs cx, CallsReturn env .empty (callsOf Sample.api.parts) rs cx) :=
  (c110_exact env reason Sample.api).1 ⟨_, api_described⟩

/-- A response with a code that does not fit, a body without schema, roles, and an incomplete scheme: no document. -/
example (env : Env) (reason : Nat → Option String) (d : Opg) :
    ¬ Describes env reason [.paths [.mk [.literal "a"] [.operation .get [.response 65536 none .absent]]]] d ∧
    ¬ Describes env reason [.paths [.mk [.literal "a"] [.operation .get [.body (.props [.description "b"])]]]] d ∧
    ¬ Describes env reason [.paths [.mk [.literal "a"] [.operation .get [.security [[.literal "s" ["admin"]]]]]]] d ∧
    ¬ Describes env reason [.securitySchemes [.apiKey "k" [.description "b"]]] d ∧
    ¬ Describes env reason [.info [.title "a", .title "a"]] d := by
  refine ⟨fun h => ?_, fun h => ?_, fun h => ?_, fun h => ?_, fun h => ?_⟩
  · have := ((c110_exact _ _ _).1 ⟨d, h⟩).1
    simp [Api.Ok, Section.Ok, PathsOk, ItemOk, OpOk] at this
  · have := ((c110_exact _ _ _).1 ⟨d, h⟩).1
    simp [Api.Ok, Section.Ok, PathsOk, ItemOk, OpOk, BodyDecl.Ok] at this
  · have := ((c110_exact _ _ _).1 ⟨d, h⟩).1
    simp [Api.Ok, Section.Ok, PathsOk, ItemOk, OpOk, SecurityDecl.Ok] at this
  · have := ((c110_exact _ _ _).1 ⟨d, h⟩).1
    simp [Api.Ok, Section.Ok, SchemeOf, lastOf, ApiKeyProp.name?] at this
  · have := ((c110_exact _ _ _).1 ⟨d, h⟩).1
    simp [Api.Ok, Section.Ok, InfoProp.title?] at this

/-- A description in order that mentions a recursive struct has no document. -/
example : Api.Ok [.paths [.mk [.literal "a"] [.operation .get [.body (.type (.named 2))]]]] ∧
    ¬ ∃ d, Describes Sample.env reason [.paths [.mk [.literal "a"] [.operation .get [.body (.type (.named 2))]]]] d := by
  refine ⟨by simp [Api.Ok, Section.Ok, PathsOk, ItemOk, OpOk, BodyDecl.Ok, PathSeg.Ok], fun h => ?_⟩
  obtain ⟨-, rs, cx, h⟩ := (c110_exact _ _ _).1 h
  simp only [Api.parts, Api.pathList, Section.pathList, pathParts, itemParts, opParts, PathSeg.parts, BodyDecl.parts,
    List.flatMap_cons, List.flatMap_nil, List.append_nil, List.nil_append] at h
  cases h with
  | mention h _ =>
  refine c07_recursive_never_returns Sample.env (.named 2) (.named 2) Sample.recursive_unique (.inl rfl) ?_ ?_
  rotate_left
  · rcases mentionReturns_iff.1 h with ⟨l, -, -, ⟨hk, -⟩ | ⟨-, m, cx2, hs, -⟩⟩ | ⟨-, m, hs, -⟩
    · cases hk
    · exact ⟨m, cx2, hs⟩
    · exact ⟨m, _, hs⟩
  have a : Asks Sample.env (.named 2) (.option (.wrap .box (.named 2))) true :=
    ⟨_, rfl, by change _ ∈ [_, _]; simp [Sample.field]⟩
  have b : Asks Sample.env (.option (.wrap .box (.named 2))) (.wrap .box (.named 2)) false :=
    ⟨_, rfl, by simp [ModelExpr.asked]⟩
  have c : Asks Sample.env (.wrap .box (.named 2)) (.named 2) false := ⟨_, rfl, by simp [ModelExpr.asked]⟩
  exact .more a (.more b (.one c))

/-- The hypotheses hold of two descriptions of one program, one after the other, and in the other order. -/
example : (∃ d, Describes shop reason (shopApi ++ authorApi) d) ∧ ∃ d, Describes shop reason (authorApi ++ shopApi) d := by
  obtain ⟨d, h, -⟩ := c92_join_partial shop reason shopApi authorApi shopDoc authorDoc shopDoc_described authorDoc_described
    shopAuthor_unique
  obtain ⟨ok, finite⟩ := (c110_types shop reason _ shopAuthor_unique).1 ⟨d, h⟩
  exact ⟨⟨d, h⟩, c110_any_order shop reason _ (authorApi ++ shopApi) (fun s hs => by simpa [or_comm] using hs) ok finite⟩

/-- A program in which `Pet` is documented by hand. -/
example : Sample.api.Ok ∧ ∃ rs cx, ProgReturns (impls env byHand) (partsProg Sample.api.parts) .empty rs cx :=
  (c110_mixed _ reason Sample.api).1 ⟨_, mixed_described⟩

/-- No document if a hand written impl asks for the schema it is asked for. -/
example : ¬ ∃ d, DescribesVia (fun _ => { schema := .getSchema (.named 0) .ret, name := some "Loop" }) reason
    [.paths [.mk [.literal "a"] [.operation .get [.body (.type (.named 0))]]]] d := by
  intro h
  obtain ⟨-, rs, cx, n, h⟩ := (c110_mixed _ _ _).1 h
  have loop : ∀ n cx, runProg (fun _ => { schema := .getSchema (Ty.named 0) .ret, name := some "Loop" }) n Model (.getSchema (.named 0) .ret) cx = none := by
    intro n
    induction n with
    | zero => intro cx; rfl
    | succ n ih => intro cx; rw [runProg, Prog.exec]; simp only [implOps, ih]
  cases n with
  | zero => cases h
  | succ n =>
    simp only [Api.parts, Api.pathList, Section.pathList, pathParts, itemParts, opParts, PathSeg.parts, BodyDecl.parts,
      List.flatMap_cons, List.flatMap_nil, List.append_nil, List.nil_append, partsProg, runProg, Prog.exec] at h
    simp only [implOps, mentionVia, Impl.runSelect, loop] at h
    cases h

end Verif
