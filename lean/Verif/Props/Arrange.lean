import Verif.Proof.Arrange
import Verif.Proof.Sections
import Verif.Props.Compiles
/-!
# Descriptions that say the same

C109: a document shows what a description says last under each key, and nothing else of its order.
-/

namespace Verif

open Sample

theorem infoOf_empty {i : Info} (h : i = Opg.empty.info) : InfoOf [] i := by
  subst h
  exact ⟨rfl, rfl, rfl⟩

theorem DocStep.infoOf {c : Ctx} {api : Api} {d : Opg} {cx} (s : DocStep c api .empty d .empty cx) :
    InfoOf ((lastOf Section.info? api).getD []) d.info := by
  have h := s.info
  cases hi : lastOf Section.info? api with
  | none =>
    rw [hi] at h
    have h : some d.info = some Opg.empty.info := h
    exact infoOf_empty (Option.some.inj h)
  | some ps =>
    rw [hi] at h
    obtain ⟨i, e, h⟩ := h
    cases e
    exact h

theorem givens_true (parts : List Part) (rs : List Ref) : Givens (fun _ => True) (fun _ => True) parts rs :=
  ⟨fun _ _ => trivial, fun _ _ => trivial, fun _ _ _ => trivial, fun _ _ => trivial⟩

/-- **C109**. Two descriptions that say the same about information, tags, servers and paths (the last declaration under each
key says the same, and what has an order in the document is in the same order) give documents that agree on them. -/
theorem c109_document (env : Env) (reason : Nat → Option String) (api api' : Api) (d d' : Opg) (h : Describes env reason api d)
    (h' : Describes env reason api' d') (says : api.Says api') :
    d.openapi = d'.openapi ∧ d.info = d'.info ∧ d.tags = d'.tags ∧ d.servers = d'.servers ∧ d.paths = d'.paths := by
  obtain ⟨rs, sx, -, -, f⟩ := h.registry
  obtain ⟨rs', sx', -, -, f'⟩ := h'.registry
  obtain ⟨c, rfl, rfl, s⟩ := h.step
  obtain ⟨c', he, hr0, s'⟩ := h'.step
  refine ⟨s.openapi.trans s'.openapi.symm, ?_, ?_, ?_, ?_⟩
  · have i := s.infoOf
    have i' := s'.infoOf
    have : ∀ {i i' : Info}, i.title = i'.title → i.description = i'.description → i.version = i'.version → i = i' := by
      rintro ⟨a, b, c⟩ ⟨a', b', c'⟩ rfl rfl rfl; rfl
    exact this (i.title.trans (says.info.title.trans i'.title.symm))
      (i.description.trans (says.info.description.trans i'.description.symm))
      (i.version.trans (says.info.version.trans i'.version.symm))
  · refine BMap.ext (s.tagsSorted (by simp [Opg.empty, BMap.Sorted])) (s'.tagsSorted (by simp [Opg.empty, BMap.Sorted])) fun name => ?_
    rw [s.tags, s'.tags, says.tags]
  · rw [s.servers, s'.servers, says.servers]
  · obtain ⟨items, _, e, hm, -⟩ := s.paths
    obtain ⟨items', _, e', hm', -⟩ := s'.paths
    have e : d.paths = items := e
    have e' : d'.paths = items' := e'
    subst e e'
    exact paths_one he.symm hr0.symm says.paths hm hm' (f _ _ (givens_true _ _)) (f' _ _ (givens_true _ _))

theorem Api.SameSchemes.equal {env : Env} {reason reason' : Nat → Option String} {api api' : Api} {d d' : Opg}
    (h : Describes env reason api d) (h' : Describes env reason' api' d') (same : api.SameSchemes api') :
    d.components.securitySchemes = d'.components.securitySchemes := by
  obtain ⟨c, -, -, s⟩ := h.step
  obtain ⟨c', -, -, s'⟩ := h'.step
  refine BMap.ext (s.schemesSorted (by simp [Components.empty, BMap.Sorted])) (s'.schemesSorted (by simp [Components.empty, BMap.Sorted]))
    fun name => ?_
  have a := s.schemes name
  have a' := s'.schemes name
  have hd := same.declared name
  have hu := same.used name
  unfold SchemeAfter at a a'
  generalize lastOf (SchemeDecl.named? name) (api.flatMap Section.schemeList) = o at a hd hu
  generalize lastOf (SchemeDecl.named? name) (api'.flatMap Section.schemeList) = o' at a' hd
  cases hd with
  | none =>
    simp only at a a'
    rw [a, a']
    exact congrArg _ (hu rfl)
  | some hd =>
    obtain ⟨x, e, hx⟩ := a
    obtain ⟨x', e', hx'⟩ := a'
    rw [e, e', schemeOf_unique ((hd x).1 hx) hx']

theorem opg_ext {d d' : Opg} (h : d.openapi = d'.openapi ∧ d.info = d'.info ∧ d.tags = d'.tags ∧ d.servers = d'.servers ∧ d.paths = d'.paths)
    (hs : d.components.schemas = d'.components.schemas) (hc : d.components.securitySchemes = d'.components.securitySchemes) : d = d' := by
  obtain ⟨h1, h2, h3, h4, h5⟩ := h
  cases d with | mk a b c d e f =>
  cases d' with | mk a' b' c' d' e' f' =>
  simp only at *
  have : ∀ {c c' : Components}, c.schemas = c'.schemas → c.securitySchemes = c'.securitySchemes → c = c' := by
    rintro ⟨_, _⟩ ⟨_, _⟩ rfl rfl; rfl
  subst h1 h2 h3 h4 h5
  simp only [Opg.mk.injEq, true_and]
  exact this hs hc

/-- **C109**, for whole documents: if moreover the same types are mentioned, names are used consistently, and the descriptions
declare and use the same security schemes, then the documents are equal. -/
theorem c109_whole (env : Env) (reason : Nat → Option String) (api api' : Api) (d d' : Opg) (h : Describes env reason api d)
    (h' : Describes env reason api' d') (says : api.Says api') (schemes : api.SameSchemes api')
    (consistent : NamesConsistent env (api.mentions.map fun t => (t, true))) (same : ∀ t, t ∈ api.mentions ↔ t ∈ api'.mentions) :
    d = d' :=
  opg_ext (c109_document env reason api api' d d' h h' says)
    (c64_order_independent env reason reason api api' d d' h h' consistent same) (schemes.equal h h')

/-- **C109**, for sections: sections can be moved past sections of other kinds, whatever the types: the one description gives
a document exactly if the other does, and it is the same. -/
theorem c109_sections (env : Env) (reason : Nat → Option String) (api api' : Api) (d : Opg) (moved : SameByKind Section.kind api api') :
    Describes env reason api d ↔ Describes env reason api' d := by
  have key : ∀ {api api' : Api} {d : Opg}, SameByKind Section.kind api api' → Describes env reason api d → Describes env reason api' d := by
    intro api api' d moved h
    obtain ⟨k1, k2, k3, k4, k5⟩ := moved.sections
    have hp : api.parts = api'.parts := by rw [Api.parts, Api.parts, k5]
    obtain ⟨ok, hc⟩ := (c110_exact env reason api).1 ⟨d, h⟩
    rw [hp] at hc
    obtain ⟨d', h'⟩ := (c110_exact env reason api').2 ⟨fun s hs => ok s ((moved.mem s).2 hs), hc⟩
    have says : api.Says api' := ⟨by rw [k1]; exact ⟨rfl, rfl, rfl⟩, fun name => by rw [k2], k3, by rw [k5]; exact pathsSay_refl _⟩
    have schemes : api.SameSchemes api' := ⟨fun name => by rw [k4]; exact .refl_of (fun _ _ => .rfl) _, fun name _ => by rw [hp]⟩
    obtain ⟨rs, sx, hr, hs, -⟩ := h.registry
    obtain ⟨rs', sx', hr', hs', -⟩ := h'.registry
    rw [hp] at hr
    obtain ⟨-, rfl⟩ := hr.unique hr'
    rw [opg_ext (c109_document env reason api api' d d' h h' says) (hs.symm.trans hs') (schemes.equal h h')]
    exact h'
  exact ⟨key moved, key moved.symm⟩

/-- **C109**, for sections of programs with hand written impls, whatever those impls do. -/
theorem c109_mixed (w : Ty → Impl Ty) (reason : Nat → Option String) (api api' : Api) (d : Opg)
    (moved : SameByKind Section.kind api api') : DescribesVia w reason api d ↔ DescribesVia w reason api' d :=
  ⟨describeVia_moved moved, describeVia_moved moved.symm⟩

/-- **C109**, for operations: properties can be moved past properties about something else. -/
theorem c109_operation (ps ps' : List OpProp) (same : SameByKind OpProp.kind ps ps') : OpSays ps ps' :=
  opSays_of same (opCallbacks_refl ps)

/-- **C109**, for path items: properties can be moved past properties about something else. -/
theorem c109_item (ps ps' : List ItemProp) (same : SameByKind ItemProp.kind ps ps') : ItemSays ps ps' :=
  itemSays_of same (itemOperations_refl ps)

theorem lastOf_again {α β : Type} {f : α → Option β} {p : α} {ps : List α} (again : (f p).isSome = true → ∃ q ∈ ps, (f q).isSome = true) :
    lastOf f (p :: ps) = lastOf f ps := by
  rw [lastOf_cons]
  cases hp : f p with
  | none => simp
  | some b =>
    obtain ⟨q, hq, e⟩ := again (by rw [hp]; rfl)
    obtain ⟨b', e⟩ := Option.isSome_iff_exists.1 e
    cases hl : lastOf f ps with
    | some x => rfl
    | none =>
      have := List.getLast?_eq_none_iff.1 hl
      exact absurd (List.mem_filterMap.2 ⟨q, hq, e⟩) (by rw [this]; exact List.not_mem_nil)

/-- **C109**, for declarations that are overridden: of several summaries, operation ids, descriptions, marks as deprecated,
bodies, or responses for one code, all but the last can be left out. -/
theorem c109_overridden (p : OpProp) (ps : List OpProp) (single : p.kind ∉ [.tags, .parameters, .callbacks, .security])
    (again : ∃ q ∈ ps, q.kind = p.kind) : OpSays (p :: ps) ps := by
  obtain ⟨q, hq, hk⟩ := again
  have r : OpSays ps ps := c109_operation ps ps fun _ => rfl
  obtain ⟨-, -, -, -, -, security, body, -, parameters, callbacks⟩ := r
  have h1 : OpProp.tagList p = [] := by cases p <;> first | rfl | exact absurd (by simp [OpProp.kind]) single
  have h2 : OpProp.paramList p = [] := by cases p <;> first | rfl | exact absurd (by simp [OpProp.kind]) single
  have h3 : OpProp.callbackList p = [] := by cases p <;> first | rfl | exact absurd (by simp [OpProp.kind]) single
  have h4 : OpProp.securityList p = [] := by cases p <;> first | rfl | exact absurd (by simp [OpProp.kind]) single
  have l : ∀ {β : Type} {f : OpProp → Option β}, ((f p).isSome = true → (f q).isSome = true) → lastOf f (p :: ps) = lastOf f ps :=
    fun h => lastOf_again fun hp => ⟨q, hq, h hp⟩
  refine .mk (l ?_) (l ?_) (l ?_) (congrArg (Option.getD · false) (l ?_)) (by rw [List.flatMap_cons, h1, List.nil_append])
    (by rw [List.flatMap_cons, h4, List.nil_append]; exact security) ((l (f := OpProp.body?) ?_).symm ▸ body) (fun code => l ?_)
    (by rw [List.flatMap_cons, h2, List.nil_append]; exact parameters)
    (by rw [List.flatMap_cons, h3, List.nil_append]; exact callbacks)
  case refine_6 =>
    cases p <;> cases q <;> simp [OpProp.response?, OpProp.kind] at hk ⊢
    intro h
    rw [hk]; exact h
  all_goals
    cases p <;> cases q <;> first | (intro h; cases h; done) | (intro _; rfl) | cases hk

/-! ## Examples -/

/-- Sections of the sample description can be moved. -/
example : Describes Sample.env reason [.servers [("https://x", none)], .paths [usersPath, .mk [.literal "pets"] []],
    .info [.title "T", .version "1"], .servers [("https://y", some "second")],
    .securitySchemes [.apiKey "key" [.name "k"], .http "basic" [.basic, .description "b"]],
    .paths [.mk [.literal "pets", .bare (.mk false [("models", []), ("PetId", [])]) (.prim .u32)] []],
    .tags [("t", none), ("a", none), ("t", some "tag")]] apiDoc := by
  refine (c109_sections _ _ _ _ _ ?_).1 api_described
  intro k
  cases k <;> rfl

/-- The same description in a program where some impls are written by hand. -/
example : DescribesVia (impls Sample.env byHand) reason (Sample.api.filter (·.kind ≠ .securitySchemes) ++
    Sample.api.filter (·.kind = .securitySchemes)) mixedDoc := by
  refine (c109_mixed _ _ _ _ _ ?_).1 mixed_described
  intro k
  cases k <;> rfl

/-- The sample operation with its properties in another order and without what it overrides, as part of another document. -/
def Sample.getOpAgain : List OpProp := [.callbacks [.ident "onDone" [callbackPath]], .response 200 none (.type (.named 0)), .response 404 none .absent,
  .security [[.scheme "basic" (.http (.basic none)) []], [.scheme "basic" (.http (.bearer none none)) [], .literal "key" []]],
  .tags ["a"], .parameters [.query "limit" (.prim .u32) []], .parameters [.header "X-Request" [.required true]], .tags ["b"], .summary "Get a user"]

theorem Sample.getOpAgain_says : OpSays getOp getOpAgain := by
  refine .mk rfl rfl rfl rfl rfl ?_ .none ?_ ?_ ?_
  · refine .cons (fun _ => .rfl) (.cons (fun name => ?_) .nil)
    simp [SecurityDecl.name, or_comm]
  · intro code
    by_cases h : code = 200
    · subst h; rfl
    · by_cases h' : code = 404
      · subst h'; rfl
      · have n : ∀ ps ∈ [getOp, getOpAgain], lastOf (OpProp.response? code) ps = none := by
          intro ps hp
          rw [lastOf_none]
          intro a ha
          simp only [List.mem_cons, List.not_mem_nil, or_false] at hp
          rcases hp with rfl | rfl <;> simp only [getOp, getOpAgain, List.mem_cons, List.not_mem_nil, or_false] at ha <;>
            rcases ha with rfl | rfl | rfl | rfl | rfl | rfl | rfl | rfl | rfl <;>
            first | rfl | exact if_neg (Ne.symm h) | exact if_neg (Ne.symm h')
        rw [n _ (by simp), n _ (by simp)]
  · intro name
    by_cases h : name = "limit"
    · subst h; exact .some ⟨rfl, rfl, rfl, rfl, rfl⟩
    · by_cases h' : name = "X-Request"
      · subst h'; exact .some ⟨rfl, rfl, rfl, rfl, rfl⟩
      · have n : ∀ ps ∈ [getOp, getOpAgain], lastOf (ParamDecl.named? name) (ps.flatMap OpProp.paramList) = none := by
          intro ps hp
          rw [lastOf_none]
          intro a ha
          simp only [List.mem_cons, List.not_mem_nil, or_false] at hp
          rcases hp with rfl | rfl <;>
            simp [getOp, getOpAgain, OpProp.paramList] at ha <;> rcases ha with rfl | rfl | rfl <;>
            first | exact if_neg (Ne.symm h) | exact if_neg (Ne.symm h')
        rw [n _ (by simp), n _ (by simp)]
        exact .none
  · intro name
    by_cases h : name = "onDone"
    · subst h; exact .ident (pathsSay_refl _)
    · have n : ∀ ps ∈ [getOp, getOpAgain], lastOf (CallbackDecl.named? name) (ps.flatMap OpProp.callbackList) = none := by
        intro ps hp
        rw [lastOf_none]
        intro a ha
        simp only [List.mem_cons, List.not_mem_nil, or_false] at hp
        rcases hp with rfl | rfl <;>
          simp [getOp, getOpAgain, OpProp.callbackList] at ha <;> subst ha <;> exact if_neg (Ne.symm h)
      rw [n _ (by simp), n _ (by simp)]
      exact .none

/-- The documents of descriptions with one operation or the other. -/
example : ∃ d d', Describes Sample.env reason [.paths [.mk [.literal "a"] [.description "x", .description "d", .operation .get getOp]]] d ∧
    Describes Sample.env reason [.paths [], .paths [.mk [.literal "a"] [.operation .get getOpAgain, .description "d"]]] d' ∧
    d.paths = d'.paths ∧ d.components.schemas.length = 3 ∧ d'.components.schemas.length = 2 := by
  refine ⟨_, _, ⟨10, rfl⟩, ⟨10, rfl⟩, ?_, rfl, rfl⟩
  refine (c109_document Sample.env reason [.paths [.mk [.literal "a"] [.description "x", .description "d", .operation .get getOp]]]
    [.paths [], .paths [.mk [.literal "a"] [.operation .get getOpAgain, .description "d"]]] _ _ ⟨10, rfl⟩ ⟨10, rfl⟩ ?_).2.2.2.2
  refine ⟨⟨rfl, rfl, rfl⟩, fun _ => rfl, rfl, .cons (.refl _) (.mk rfl rfl (fun _ => .none) fun m => ?_) .nil⟩
  cases m <;> first | exact .none | exact .some getOpAgain_says

/-- A repeated summary. -/
example : OpSays [.summary "a", .tags ["t"], .summary "b"] [.tags ["t"], .summary "b"] :=
  c109_overridden _ _ (by simp [OpProp.kind]) ⟨.summary "b", by simp, rfl⟩

/-- The hypotheses of `c109_whole` hold of two descriptions put together, with a tag before them that is described again. -/
example : ∃ d, Describes shop reason (shopApi ++ authorApi) d ∧
    Describes shop reason (.tags [("authors", none)] :: (shopApi ++ authorApi)) d := by
  obtain ⟨d, h, -⟩ := c92_join_partial shop reason shopApi authorApi shopDoc authorDoc shopDoc_described authorDoc_described
    shopAuthor_unique
  obtain ⟨ok, hc⟩ := (c110_exact shop reason _).1 ⟨d, h⟩
  obtain ⟨d', h'⟩ := (c110_exact shop reason (.tags [("authors", none)] :: (shopApi ++ authorApi))).2
    ⟨List.forall_mem_cons.2 ⟨trivial, ok⟩, hc⟩
  have e : d = d' := by
    refine c109_whole shop reason _ _ d d' h h' ⟨⟨rfl, rfl, rfl⟩, fun name => ?_, rfl, pathsSay_refl _⟩
      ⟨fun name => .refl_of (fun _ _ => .rfl) _, fun _ _ => rfl⟩ ?_ fun t => .rfl
    · show _ = lastOf (tagNamed? name) (("authors", none) :: (shopApi ++ authorApi).flatMap Section.tagList)
      refine (lastOf_again fun hn => ⟨("authors", some "Who writes"), ?_, ?_⟩).symm
      · simp [authorApi, Section.tagList]
      · unfold tagNamed? at hn ⊢
        split at hn
        · rename_i e; rw [if_pos e]; rfl
        · cases hn
    · have : (Api.mentions (shopApi ++ authorApi)).map (fun t => (t, true)) = Api.roots (shopApi ++ authorApi) := (rootsOf_callsOf _).symm
      rw [this]
      exact shopAuthor_unique.consistent
  subst e
  exact ⟨d, h, h'⟩

end Verif
