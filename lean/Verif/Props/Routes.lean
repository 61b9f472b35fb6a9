import Verif.Proof.Routes
import Verif.Props.Api
/-!
# C94: requests and the paths of a document
-/

namespace Verif

open Sample

/-- **C94**, exactly: the URLs that a described path stands for are those that match the text the path has in the
document, with the same texts for the same parameters, if and only if its literals contain no `{` and the names of its
parameters no `}`. -/
theorem c94_exact (env : Env) (reason : Nat → Option String) (api : Api) (d : Opg) (h : Describes env reason api d)
    (decl : PathDecl) (p : UrlPath) (v : PathValue) (hi : ItemIn api d decl (p, v)) :
    (∀ url bs, (∃ bs', bs'.map (fun b => (b.1.1, b.2)) = bs ∧ Serves decl.segments url bs') ↔
      Matches (UrlPath.render p).toList url bs) ↔ ∀ s ∈ decl.segments, s.NoBraces := by
  have hp := (c58_path_item env reason api d h decl p v hi).path
  rw [UrlPath.render_toList]
  constructor
  · intro hm
    obtain ⟨url, bs, hs, hx⟩ := serves_x hp
    exact matches_noBraces hp hs hx ((hm url (nameTexts bs)).1 ⟨bs, rfl, hs⟩)
  · intro hc url bs
    exact serves_matches hp hc url bs

/-- C94 is false of a literal with braces: the document's path matches `/5`, the described one is only `/{x}`. -/
theorem c94_is_false : ∃ (env : Env) (reason : Nat → Option String) (api : Api) (d : Opg) (decl : PathDecl) (p : UrlPath)
    (v : PathValue), Describes env reason api d ∧ ItemIn api d decl (p, v) ∧
    Matches (UrlPath.render p).toList "/5".toList [("x", "5")] ∧ ∀ bs, ¬ Serves decl.segments "/5".toList bs := by
  refine ⟨env, reason, [.paths [.mk [.literal "{x}"] []]], _, .mk [.literal "{x}"] [], [.path "{x}"], _, ⟨10, rfl⟩,
    .top (i := 0) rfl rfl, ?_, ?_⟩
  · exact .char (by decide) (.parameter (name := "x") (w := "5") (by decide) ⟨by decide, by decide⟩ .nil)
  · intro bs h
    generalize hu : "/5".toList = u at h
    cases h with
    | literal h => simp at hu
    | typed hb => cases hb

/-- C94: a URL determines what the parameters of a path stand for. -/
theorem c94_values (ss : List PathSeg) (url : List Char) (bs bs') (h : Serves ss url bs) (h' : Serves ss url bs') :
    bs = bs' := h.unique h'

/-- C94: the parameters a document declares to be in the path are in the text of the path, for all paths and callback
paths; those of operations are never declared to be in the path. -/
theorem c94_path_parameters (env : Env) (reason : Nat → Option String) (api : Api) (d : Opg)
    (h : Describes env reason api d) :
    (∀ decl p v, ItemIn api d decl (p, v) → ∀ name param, BMap.get name v.parameters = some param →
      param.parameterIn = .path → .parameter name ∈ p) ∧
    (∀ ps o, OpIn api d ps o → ∀ name param, BMap.get name o.parameters = some param → param.parameterIn ≠ .path) := by
  constructor
  · intro decl p v hi name param hg hin
    have io := c58_path_item env reason api d h decl p v hi
    cases hl : lastOf (ParamDecl.named? name) (decl.props.flatMap ItemProp.paramList) with
    | some x =>
      obtain ⟨y, hy, po⟩ := io.parameters name x hl
      rw [hg] at hy
      cases hy
      have := po.place
      rw [hin] at this
      cases x <;> cases this
    | none =>
      have ht := io.template name hl
      cases hty : lastOf (PathSeg.typeOf? name) decl.segments with
      | none =>
        rw [hty] at ht
        rw [show BMap.get name v.parameters = none from ht] at hg
        cases hg
      | some t =>
        obtain ⟨s, hs, hst⟩ := List.mem_filterMap.1 (List.mem_of_getLast? hty)
        obtain ⟨e, he, hse⟩ := io.path.mem_left hs
        simp only [PathSeg.typeOf?, Option.bind_eq_some_iff] at hst
        obtain ⟨b, hb, hst⟩ := hst
        split at hst
        · next hn =>
          rw [hse.parameter hb, hn] at he
          exact he
        · cases hst
  · intro ps o ho name param hg hin
    have := (c58_operation env reason api d h ps o ho).parameters name
    cases hl : lastOf (ParamDecl.named? name) (ps.flatMap OpProp.paramList) with
    | none =>
      rw [hl] at this
      rw [show BMap.get name o.parameters = none from this] at hg
      cases hg
    | some x =>
      rw [hl] at this
      obtain ⟨y, hy, po⟩ := this
      rw [hg] at hy
      cases hy
      have := po.place
      rw [hin] at this
      cases x <;> cases this

/-- C94: the text that a URL has for a parameter is described by the schema of the parameter's type, if the path uses
the name for one type only and declares no other parameter of that name. -/
theorem c94_typed (env : Env) (reason : Nat → Option String) (api : Api) (d : Opg) (h : Describes env reason api d)
    (decl : PathDecl) (p : UrlPath) (v : PathValue) (hi : ItemIn api d decl (p, v)) (url : List Char) (bs)
    (hs : Serves decl.segments url bs) (name : String) (t : Ty) (w : String) (hb : ((name, t), w) ∈ bs)
    (once : ∀ s ∈ decl.segments, ∀ t', s.param? = some (name, t') → t' = t)
    (hd : ∀ x ∈ decl.props.flatMap ItemProp.paramList, x.name ≠ name) :
    ∃ param r, BMap.get name v.parameters = some param ∧ param.parameterIn = .path ∧ param.required = true ∧
      param.schema = some r ∧ Mentions env t false {} r := by
  have io := c58_path_item env reason api d h decl p v hi
  have hseg : ∀ {ss url bs}, Serves ss url bs → ((name, t), w) ∈ bs → ∃ s ∈ ss, s.param? = some (name, t) := by
    intro ss url bs hs hb
    induction hs with
    | nil => cases hb
    | literal _ ih => obtain ⟨s, hs, e⟩ := ih hb; exact ⟨s, List.mem_cons_of_mem _ hs, e⟩
    | typed e _ _ ih =>
      cases hb with
      | head => exact ⟨_, List.mem_cons_self, e⟩
      | tail _ hb => obtain ⟨s, hs, e⟩ := ih hb; exact ⟨s, List.mem_cons_of_mem _ hs, e⟩
  obtain ⟨s, hs, e⟩ := hseg hs hb
  obtain ⟨el, hel, hso⟩ := io.path.mem_left hs
  have hn : .parameter name ∈ p := by rw [hso.parameter e] at hel; exact hel
  obtain ⟨param, t', hg, hin, hr, hl, r, hsch, hm⟩ := c56_template_parameters_partial env reason api d h decl p v hi name hn hd
  refine ⟨param, r, hg, hin, hr, hsch, ?_⟩
  obtain ⟨s', hs', hst⟩ := List.mem_filterMap.1 (List.mem_of_getLast? hl)
  simp only [PathSeg.typeOf?, Option.bind_eq_some_iff] at hst
  obtain ⟨b, hb, hst⟩ := hst
  split at hst
  · next hn =>
    cases hst
    rw [← once s' hs' b.2 (by rw [hb, ← hn])]
    exact hm
  · cases hst

/-- C94: two described paths stand for a common URL if and only if they have equally many pieces and these overlap one
by one: equal literals, or a parameter and a literal that is not empty, or two parameters. -/
theorem c94_ambiguous (env : Env) (reason : Nat → Option String) (api : Api) (d : Opg) (h : Describes env reason api d)
    (decl decl' : PathDecl) (i i' : UrlPath × PathValue) (hi : ItemIn api d decl i) (hi' : ItemIn api d decl' i') :
    (∃ url bs bs', Serves decl.segments url bs ∧ Serves decl'.segments url bs') ↔
      Pointwise Overlap (decl.segments.flatMap PathSeg.pieces) (decl'.segments.flatMap PathSeg.pieces) := by
  have hp := (c58_path_item env reason api d h decl i.1 i.2 hi).path
  have hp' := (c58_path_item env reason api d h decl' i'.1 i'.2 hi').path
  rw [← overlap_iff (pieces_noSlash _) (pieces_noSlash _)]
  constructor
  · rintro ⟨url, bs, bs', h, h'⟩
    obtain ⟨xs, e, hx, h⟩ := (serves_pieces hp url).1 ⟨bs, h⟩
    obtain ⟨xs', e', hx', h'⟩ := (serves_pieces hp' url).1 ⟨bs', h'⟩
    cases urlOf_inj hx hx' (e.symm.trans e')
    exact ⟨xs, hx, h, h'⟩
  · rintro ⟨xs, hx, h, h'⟩
    obtain ⟨bs, h⟩ := (serves_pieces hp (urlOf xs)).2 ⟨xs, rfl, hx, h⟩
    obtain ⟨bs', h'⟩ := (serves_pieces hp' (urlOf xs)).2 ⟨xs, rfl, hx, h'⟩
    exact ⟨_, bs, bs', h, h'⟩

theorem Sample.users_served (w : String) (hw : Filling w) :
    Serves usersPath.segments ('/' :: ("users".toList ++ '/' :: (w.toList ++ []))) [(("id", .prim .u32), w)] :=
  .literal (.typed rfl hw .nil)

/-- `/users/{id}` of the sample stands for `/users/7`, and no other path does. -/
example : ∃ v, ItemIn api apiDoc usersPath ([.path "users", .parameter "id"], v) ∧
    (∀ s ∈ usersPath.segments, s.NoBraces) ∧
    Matches "/users/{id}".toList "/users/7".toList [("id", "7")] ∧ ¬ Matches "/users/{id}".toList "/users/7/8".toList [("id", "7/8")] := by
  have hi : ItemIn api apiDoc usersPath ([.path "users", .parameter "id"], _) := .top (i := 0) rfl rfl
  have hc : ∀ s ∈ usersPath.segments, s.NoBraces := by
    simp [usersPath, PathDecl.segments, PathSeg.NoBraces, PathSeg.param?]
  have key := (c94_exact env reason api apiDoc api_described usersPath _ _ hi).2 hc
  refine ⟨_, hi, hc, ?_, ?_⟩
  · exact (key _ _).1 ⟨_, rfl, users_served "7" ⟨by decide, by decide⟩⟩
  · intro h
    obtain ⟨bs, e, h⟩ := (key _ _).2 h
    generalize hu : "/users/7/8".toList = u at h
    cases h with
    | typed hb => cases hb
    | literal h =>
      cases h with
      | typed hb hw h =>
        cases h
        simp only [List.map_cons, List.map_nil, List.cons.injEq, Prod.mk.injEq, and_true] at e
        exact hw.2 (by rw [e.2]; decide)

/-- The value of `id` in `/users/7` is described by the parameter of the document. -/
example : ∃ v param r, ItemIn api apiDoc usersPath ([.path "users", .parameter "id"], v) ∧
    BMap.get "id" v.parameters = some param ∧ param.schema = some r ∧ Mentions env (.prim .u32) false {} r := by
  have hi : ItemIn api apiDoc usersPath ([.path "users", .parameter "id"], _) := .top (i := 0) rfl rfl
  obtain ⟨param, r, h, _, _, h', h''⟩ := c94_typed env reason api apiDoc api_described usersPath _ _ hi _ _
    (users_served "7" ⟨by decide, by decide⟩) "id" (.prim .u32) "7" List.mem_cons_self
    (by
      simp only [usersPath, PathDecl.segments, List.mem_cons, List.not_mem_nil, or_false]
      rintro s (rfl | rfl) t h
      · cases h
      · simp only [PathSeg.param?, Option.some.injEq, Prod.mk.injEq, true_and] at h
        exact h.symm)
    (by simp [usersPath, PathDecl.props, ItemProp.paramList])
  exact ⟨_, param, r, hi, h, h', h''⟩

/-- `/users/{id}` and `/{kind}/me` stand for a common URL, `/users/{id}` and `/users` do not. -/
example : Pointwise Overlap (usersPath.segments.flatMap PathSeg.pieces)
      ([.named "kind" (.prim .string), PathSeg.literal "me"].flatMap PathSeg.pieces) ∧
    ¬ Pointwise Overlap (usersPath.segments.flatMap PathSeg.pieces) ([PathSeg.literal "users"].flatMap PathSeg.pieces) := by
  constructor
  · exact .cons (by simp [Overlap]) (.cons (by simp [Overlap]) .nil)
  · intro h
    have := h.length_eq
    simp [usersPath, PathDecl.segments, PathSeg.pieces, Read.splitSlash] at this

end Verif
