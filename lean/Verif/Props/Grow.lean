import Verif.Proof.Grow
import Verif.Props.Local
/-!
# C92: descriptions with common parts, and descriptions put together
-/

namespace Verif

/-! ## C92 -/

/-- **C92**, for paths: a path declared alike in two descriptions, at the top or in a callback, has the same path item
in both documents. -/
theorem c92_same_item (env : Env) (reason : Nat → Option String) (api api' : Api) (d d' : Opg)
    (h : Describes env reason api d) (h' : Describes env reason api' d') (decl : PathDecl) (pv pv' : UrlPath × PathValue)
    (hi : ItemIn api d decl pv) (hi' : ItemIn api' d' decl pv') : pv = pv' :=
  ItemIn.unique h h' hi hi'

theorem roots_mem {api : Api} {x : Ty × Bool} : x ∈ api.roots ↔ ∃ t, .mention t ∈ api.parts ∧ x = (t, true) := by
  rw [Api.roots, rootsOf_eq]
  simp only [callsOf, List.mem_filterMap]
  constructor
  · rintro ⟨c, ⟨p, hp, hc⟩, hx⟩
    cases p <;> simp only [Part.call?, reduceCtorEq, Option.some.injEq] at hc <;> subst hc <;>
      simp only [Option.some.injEq, reduceCtorEq] at hx
    exact ⟨_, hp, hx.symm⟩
  · rintro ⟨t, ht, rfl⟩
    exact ⟨_, ⟨_, ht, rfl⟩, rfl⟩

/-- **C92**, for schemas: an API is described together with further paths, anywhere among its own ones, and types of one
name have one schema.  Then all schemas of the smaller document are in the larger one.  Missing from the full property:
names may clash, see `c92_is_false`. -/
theorem c92_schemas_kept_partial (env : Env) (reason : Nat → Option String) (api api' : Api) (d d' : Opg)
    (h : Describes env reason api d) (h' : Describes env reason api' d')
    (more : ∀ p ∈ api.pathList, p ∈ api'.pathList) (consistent : NamesConsistent env api'.roots) (name : String) (m : Model)
    (hm : BMap.get name d.components.schemas = some m) : BMap.get name d'.components.schemas = some m := by
  obtain ⟨rs, sx, hr, hs, -⟩ := h.registry
  obtain ⟨rs', sx', hr', hs', -⟩ := h'.registry
  have hroots : ∀ x, x ∈ api.roots → x ∈ api'.roots := by
    intro x hx
    obtain ⟨t, ht, rfl⟩ := roots_mem.1 hx
    obtain ⟨p, hp, ht⟩ := mem_pathParts.1 ht
    exact roots_mem.2 ⟨t, mem_pathParts.2 ⟨p, more p hp, ht⟩, rfl⟩
  have hc : NamesConsistent env api.roots := fun t t' n hl hl' =>
    consistent t t' n (linked_congr hroots hl) (linked_congr hroots hl')
  rw [← hs] at hm
  rw [← hs']
  obtain ⟨t, hl, hx⟩ := (registry_spec hc (callsOf_mentions _) hr name m).1 hm
  exact (registry_spec consistent (callsOf_mentions _) hr' name m).2 ⟨t, linked_congr hroots hl, hx⟩

/-- **C92**, for schemas: an API is described with further paths after its own ones.  Then all schemas of the smaller
document are in the larger one, whatever the names of the types are. -/
theorem c92_schemas_kept_at_end (env : Env) (reason : Nat → Option String) (api api' : Api) (d d' : Opg)
    (h : Describes env reason api d) (h' : Describes env reason api' d') (more : api.pathList <+: api'.pathList)
    (name : String) (m : Model) (hm : BMap.get name d.components.schemas = some m) :
    BMap.get name d'.components.schemas = some m := by
  obtain ⟨rs, sx, hr, hs, -⟩ := h.registry
  obtain ⟨rs', sx', hr', hs', -⟩ := h'.registry
  obtain ⟨l, hl⟩ := more
  rw [Api.parts, ← hl, pathParts_append, callsOf_append] at hr'
  obtain ⟨rs1, rs2, cx1, h1, h2⟩ := hr'.split
  obtain ⟨-, rfl⟩ := hr.unique h1
  rw [← hs] at hm
  rw [← hs']
  exact h2.keeps.schemas name m hm

theorem InfoOf.unique {ps i j} (h : InfoOf ps i) (h' : InfoOf ps j) : i = j := by
  obtain ⟨t, v, d⟩ := h
  obtain ⟨t', v', d'⟩ := h'
  cases i; cases j
  simp only at t v d t' v' d'
  subst t v d t' v' d'
  rfl

theorem schemeAfter_isSome {name decls parts new} (h : SchemeAfter name decls parts none new) :
    new.isSome = ((lastOf (SchemeDecl.named? name) decls).isSome || (parts.findSome? (Part.scheme? name)).isSome) := by
  unfold SchemeAfter at h
  split at h
  · rename_i e
    obtain ⟨s, rfl, -⟩ := h
    rw [e]; rfl
  · rename_i e
    rw [e, h]; simp

theorem reached_union {env : Env} {r r1 r2 : List (Ty × Bool)} (h : ∀ x, x ∈ r → x ∈ r1 ∨ x ∈ r2) {t}
    (ht : Reached env r t) : Reached env r1 t ∨ Reached env r2 t := by
  induction ht with
  | root h' => exact (h _ h').imp .root .root
  | step _ ha ih => exact ih.imp (.step · ha) (.step · ha)

/-- **C92**, for descriptions put together: the document of two descriptions one after the other consists of the
documents of both.  Paths and servers follow one another; a tag is the one of the second if it has one; a scheme is there
if one of the two has it. -/
theorem c92_together (env : Env) (reason : Nat → Option String) (api api' : Api) (d d' d'' : Opg)
    (h : Describes env reason api d) (h' : Describes env reason api' d') (h'' : Describes env reason (api ++ api') d'') :
    d''.paths = d.paths ++ d'.paths ∧
    d''.servers = d.servers ++ d'.servers ∧
    d''.info = (if (lastOf Section.info? api').isSome then d'.info else d.info) ∧
    (∀ name, BMap.get name d''.tags = (BMap.get name d'.tags).or (BMap.get name d.tags)) ∧
    (∀ name, (BMap.get name d''.components.securitySchemes).isSome =
      ((BMap.get name d.components.securitySchemes).isSome || (BMap.get name d'.components.securitySchemes).isSome)) ∧
    (∀ name m, BMap.get name d.components.schemas = some m → BMap.get name d''.components.schemas = some m) := by
  obtain ⟨c, -, -, s⟩ := h.step
  obtain ⟨c', -, -, s'⟩ := h'.step
  obtain ⟨c'', -, -, s''⟩ := h''.step
  refine ⟨?_, ?_, ?_, fun name => ?_, fun name => ?_, c92_schemas_kept_at_end env reason api (api ++ api') d d'' h h'' ?_⟩
  · obtain ⟨n, hn⟩ := h.made
    obtain ⟨k, hk⟩ := h'.made
    obtain ⟨l, hl⟩ := h''.made
    rw [Api.pathList_append] at hl
    obtain ⟨bs, bs', e, h1, h2⟩ := hl.unappend
    rw [e, pointwise_unique (fun _ _ _ a b => a.unique b) h1 hn, pointwise_unique (fun _ _ _ a b => a.unique b) h2 hk]
  · rw [s.servers, s'.servers, s''.servers]
    simp [Opg.empty]
  · have e := s.info
    have e' := s'.info
    have e'' := s''.info
    rw [lastOf_append] at e''
    cases hi : lastOf Section.info? api' with
    | some i =>
      rw [hi] at e' e''
      obtain ⟨_, e1, h1⟩ := e'
      obtain ⟨_, e2, h2⟩ := e''
      have := h2.unique h1
      simp_all
    | none =>
      rw [hi] at e''
      cases hj : lastOf Section.info? api with
      | some i =>
        rw [hj] at e e''
        obtain ⟨_, e1, h1⟩ := e
        obtain ⟨_, e2, h2⟩ := e''
        have := h2.unique h1
        simp_all
      | none =>
        rw [hj] at e e''
        have e1 : some d.info = _ := e
        have e2 : some d''.info = _ := e''
        simp_all
  · rw [s.tags, s'.tags, s''.tags, List.flatMap_append, lastOf_append]
    simp [Opg.empty]
  · have e := s.schemes name
    have e' := s'.schemes name
    have e'' := s''.schemes name
    rw [List.flatMap_append, List.flatMap_append, pathParts_append] at e''
    rw [schemeAfter_isSome e, schemeAfter_isSome e', schemeAfter_isSome e'', lastOf_append, List.findSome?_append]
    simp only [Option.isSome_or]
    ac_rfl
  · rw [Api.pathList_append]; exact List.prefix_append _ _

/-- **C92**, for descriptions put together: if names are used for one type each, and both descriptions have a document,
then so has one after the other, and its schemas are those of the two documents, which agree on common names. -/
theorem c92_join_partial (env : Env) (reason : Nat → Option String) (api api' : Api) (d d' : Opg)
    (h : Describes env reason api d) (h' : Describes env reason api' d') (unique : NamesUnique env (Api.roots (api ++ api'))) :
    ∃ d'', Describes env reason (api ++ api') d'' ∧
      (∀ name, BMap.get name d''.components.schemas =
        (BMap.get name d.components.schemas).or (BMap.get name d'.components.schemas)) ∧
      ∀ name m m', BMap.get name d.components.schemas = some m → BMap.get name d'.components.schemas = some m' → m = m' := by
  have hroots : ∀ x, x ∈ Api.roots (api ++ api') ↔ x ∈ api.roots ∨ x ∈ api'.roots := by
    intro x
    simp only [roots_mem, Api.parts_append, List.mem_append]
    constructor
    · rintro ⟨t, h | h, rfl⟩
      · exact .inl ⟨t, h, rfl⟩
      · exact .inr ⟨t, h, rfl⟩
    · rintro (⟨t, h, rfl⟩ | ⟨t, h, rfl⟩)
      · exact ⟨t, .inl h, rfl⟩
      · exact ⟨t, .inr h, rfl⟩
  obtain ⟨rs, sx, hr, hs, -⟩ := h.registry
  obtain ⟨rs', sx', hr', hs', -⟩ := h'.registry
  have hx : ∀ t, .mention t ∈ api'.parts → Expands env t := by
    have hu : NamesUnique env api'.roots := fun t t' n hl hl' =>
      unique t t' n (linked_congr (fun x hx => (hroots x).2 (.inr hx)) hl)
        (linked_congr (fun x hx => (hroots x).2 (.inr hx)) hl')
    intro t ht
    exact grounded_calls hu.agree hr' (callsOf_mentions _) (fun _ h => h) grounded_empty (t, true) (roots_mem.2 ⟨t, ht, rfl⟩)
  obtain ⟨d'', h''⟩ := describes_append h h' hx
  have k := c92_schemas_kept_partial env reason api (api ++ api') d d'' h h''
    (by rw [Api.pathList_append]; exact fun p hp => List.mem_append_left _ hp) unique.consistent
  have k' := c92_schemas_kept_partial env reason api' (api ++ api') d' d'' h' h''
    (by rw [Api.pathList_append]; exact fun p hp => List.mem_append_right _ hp) unique.consistent
  refine ⟨d'', h'', fun name => ?_, fun name m m' hm hm' => ?_⟩
  · obtain ⟨rs'', sx'', hr'', hs'', -⟩ := h''.registry
    cases hd : BMap.get name d.components.schemas with
    | some m => exact k name m hd
    | none =>
      cases hd' : BMap.get name d'.components.schemas with
      | some m => exact k' name m hd'
      | none =>
        cases hd'' : BMap.get name d''.components.schemas with
        | none => rfl
        | some m =>
          rw [← hs''] at hd''
          obtain ⟨t, hl, hn, hx⟩ := (registry_spec unique.consistent (callsOf_mentions _) hr'' name m).1 hd''
          have : Linked env api.roots t ∨ Linked env api'.roots t := by
            rcases hl with hl | ⟨u, hu, ha⟩
            · exact ((hroots _).1 hl).imp .inl .inl
            · exact (reached_union (fun x => (hroots x).1) hu).imp (fun h => .inr ⟨u, h, ha⟩) fun h => .inr ⟨u, h, ha⟩
          have hc : ∀ {r}, (∀ x, x ∈ r → x ∈ Api.roots (api ++ api')) → NamesConsistent env r := fun hs t t' n hl hl' =>
            unique.consistent t t' n (linked_congr hs hl) (linked_congr hs hl')
          rcases this with hl | hl
          · have := (registry_spec (hc fun x hx => (hroots x).2 (.inl hx)) (callsOf_mentions _) hr name m).2 ⟨t, hl, hn, hx⟩
            rw [hs, hd] at this; cases this
          · have := (registry_spec (hc fun x hx => (hroots x).2 (.inr hx)) (callsOf_mentions _) hr' name m).2 ⟨t, hl, hn, hx⟩
            rw [hs', hd'] at this; cases this
  · have := k name m hm
    rw [k' name m' hm'] at this
    cases this; rfl

/-! ## C92 is false of the code in general -/

namespace Sample

/-- Two structs `Item` and two structs `Node`, in different modules; one `Node` is recursive. -/
def clashes : Env := ⟨fun
  | 0 => struct "Item" [field "tag" (.named 2)]
  | 1 => struct "Item" []
  | 2 => struct "Node" [field "n" (.prim .u32)]
  | _ => struct "Node" [field "next" (.wrap .box (.named 3))], id⟩

def itemsApi : Api := [.paths [.mk [.literal "items"] [.operation .get [.response 200 none (.type (.named 1))]]]]
def nodesApi : Api := [.paths [.mk [.literal "nodes"] [.operation .get
  [.response 200 none (.type (.named 0)), .response 400 none (.type (.named 3))]]]]

theorem node_diverges (n : Nat) : ∀ cx : Components, BMap.containsKey "Node" cx.schemas = false →
    getSchema clashes n (.named 3) cx = none ∧ getSchema clashes n (.wrap .box (.named 3)) cx = none := by
  induction n with
  | zero => intro cx _; exact ⟨rfl, rfl⟩
  | succ n ih =>
    intro cx h
    obtain ⟨h3, hb⟩ := ih cx h
    constructor
    · cases hx : getSchema clashes (n + 1) (.named 3) cx with
      | none => rfl
      | some x =>
        obtain ⟨m, cx'⟩ := x
        obtain ⟨n1, e, as, hn, he, hr, hm⟩ := getSchema_some hx
        cases hn
        cases he
        change runReqs clashes _ [.mention (.wrap .box (.named 3)) false _] cx = _ at hr
        have : mentionWith clashes (getSchema clashes n) (.wrap .box (.named 3)) false
            (ParamsExpr.eval clashes (field "next" (.wrap .box (.named 3))).attrs.params) cx = none := by
          rw [mentionWith_eq]
          simp only [show linkName clashes (.wrap .box (.named 3)) false = some "Node" from rfl, h, hb]
          rfl
        simp [runReqs, Req.run, this] at hr
    · rw [getSchema]
      simp only [show schemaExpr clashes (.wrap .box (.named 3)) = some (.getSchema (.named 3)) from rfl, ModelExpr.eval]
      exact h3

theorem node_mention {cx r cx'} (h : MentionReturns clashes (.named 3) false {} cx r cx')
    (hc : BMap.containsKey "Node" cx.schemas = false) : False := by
  obtain ⟨k, h⟩ := h
  unfold mentionSchema at h
  rw [mentionWith_eq] at h
  simp [show linkName clashes (.named 3) false = some "Node" from rfl, hc, (node_diverges k cx hc).1] at h

/-- `{ GET: { 200: Option<Pet> } }` and `{ GET: { 200: Pet } }` -/
def maybePath : PathDecl := .mk [.literal "maybe"] [.operation .get [.response 200 none (.type (.option (.named 1)))]]
def petPath : PathDecl := .mk [.literal "pet"] [.operation .get [.response 200 none (.type (.named 1))]]

theorem clashes_calls : callsOf (Api.parts (itemsApi ++ nodesApi)) =
    [.mention (.named 1) false {}, .mention (.named 0) false {}, .mention (.named 3) false {}] := by
  simp [Api.parts, Api.pathList, itemsApi, nodesApi, Section.pathList, pathParts, itemParts, opParts, PathSeg.parts,
    ResponseDecl.parts, callsOf, Part.call?]

end Sample

open Sample in
/-- C92 is false if names clash: a further path in front of the others makes the schema of `Pet` nullable. -/
theorem c92_is_false : ∃ (env : Env) (reason : Nat → Option String) (decl more : PathDecl) (d d' : Opg) (name : String)
    (m m' : Model), Describes env reason [.paths [decl]] d ∧ Describes env reason [.paths [more, decl]] d' ∧
    BMap.get name d.components.schemas = some m ∧ BMap.get name d'.components.schemas = some m' ∧ m ≠ m' := by
  refine ⟨Sample.env, reason, petPath, maybePath, _, _, "Pet", _, _, ⟨10, rfl⟩, ⟨10, rfl⟩, rfl, rfl, ?_⟩
  intro h
  have := congrArg (fun m : Model => nullableAt "Pet" ⟨[("Pet", m)], []⟩) h
  exact absurd this (by decide)

open Sample in
/-- C92 is false if names clash: two descriptions have a document each, but not one after the other. -/
theorem c92_is_false_joined : ∃ (env : Env) (reason : Nat → Option String) (api api' : Api) (d d' : Opg),
    Describes env reason api d ∧ Describes env reason api' d' ∧ ¬ ∃ d'', Describes env reason (api ++ api') d'' := by
  refine ⟨clashes, reason, itemsApi, nodesApi, _, _, ⟨10, rfl⟩, ⟨10, rfl⟩, ?_⟩
  rintro ⟨d'', h⟩
  obtain ⟨rs, sx, hr, -⟩ := h.registry
  rw [clashes_calls] at hr
  cases hr with
  | mention h1 hr =>
    cases hr with
    | mention h2 hr =>
      cases hr with
      | mention h3 hr =>
        obtain ⟨-, rfl⟩ := h1.unique (⟨10, rfl⟩ : MentionReturns clashes (.named 1) false {} .empty _ _)
        obtain ⟨-, rfl⟩ := h2.unique (⟨10, rfl⟩ : MentionReturns clashes (.named 0) false {} _ _ _)
        exact node_mention h3 rfl

namespace Sample

def authorPath : PathDecl := .mk [.literal "authors"] [.operation .get [.response 200 none (.type (.named 3))]]
/-- A second description of the same program: `tags: {authors}`, `paths: { ("authors"): { GET: { 200: Author } } }` -/
def authorApi : Api := [.tags [("authors", some "Who writes")], .paths [authorPath]]
def authorDoc : Opg := (describeApi (⟨shop, 10, reason⟩ : Ctx) authorApi).getD .empty

theorem authorDoc_described : Describes shop reason authorApi authorDoc := ⟨10, rfl⟩

theorem shopAuthor_unique : NamesUnique shop (Api.roots (shopApi ++ authorApi)) := by
  have hc : closedList shop (Api.roots (shopApi ++ authorApi)) shopTypes = true := by
    have : Api.roots (shopApi ++ authorApi) = [(.named 0, true), (.named 3, true), (.named 3, true)] := by
      simp [Api.roots, Api.parts, Api.pathList, shopApi, authorApi, Section.pathList, pathParts, booksPath, authorPath,
        itemParts, addOp, opParts, PathSeg.parts, ResponseDecl.parts, BodyDecl.parts, callsOf, Part.call?, rootsOf]
    rw [this]
    decide +kernel
  exact namesUnique_of_closed hc (by decide +kernel)

/-- The hypotheses hold of two descriptions that share a type. -/
example : ∃ d'', Describes shop reason (shopApi ++ authorApi) d'' ∧ d''.paths = shopDoc.paths ++ authorDoc.paths ∧
    BMap.keys authorDoc.components.schemas = ["Author"] ∧ (BMap.get "Author" d''.components.schemas).isSome := by
  obtain ⟨d'', h, hs, -⟩ := c92_join_partial shop reason shopApi authorApi shopDoc authorDoc shopDoc_described
    authorDoc_described shopAuthor_unique
  refine ⟨d'', h, (c92_together shop reason shopApi authorApi shopDoc authorDoc d'' shopDoc_described
    authorDoc_described h).1, rfl, ?_⟩
  rw [hs]
  rfl

/-- A description with a path in front of another one. -/
example : ∃ d', Describes shop reason [.paths [authorPath, booksPath]] d' ∧
    ∀ name m, BMap.get name shopDoc.components.schemas = some m → BMap.get name d'.components.schemas = some m := by
  refine ⟨_, ⟨10, rfl⟩, c92_schemas_kept_partial shop reason shopApi [.paths [authorPath, booksPath]] shopDoc _
    shopDoc_described ⟨10, rfl⟩ (fun p hp => ?_) (NamesUnique.consistent ?_)⟩
  · simp [Api.pathList, Section.pathList, shopApi] at hp ⊢
    exact .inr hp
  · have hc : closedList shop (Api.roots [.paths [authorPath, booksPath]]) shopTypes = true := by
      have : Api.roots [.paths [authorPath, booksPath]] = [(.named 3, true), (.named 0, true), (.named 3, true)] := by
        simp [Api.roots, Api.parts, Api.pathList, Section.pathList, pathParts, booksPath, authorPath,
          itemParts, addOp, opParts, PathSeg.parts, ResponseDecl.parts, BodyDecl.parts, callsOf, Part.call?, rootsOf]
      rw [this]
      decide +kernel
    exact namesUnique_of_closed hc (by decide +kernel)

/-- A path of two descriptions. -/
example : ∃ pv d', Describes shop reason [.paths [authorPath, booksPath]] d' ∧ ItemIn shopApi shopDoc booksPath pv ∧
    ItemIn [.paths [authorPath, booksPath]] d' booksPath pv := by
  refine ⟨_, _, ⟨10, rfl⟩, .top (i := 0) rfl rfl, ?_⟩
  exact .top (i := 1) rfl rfl

end Sample

end Verif
