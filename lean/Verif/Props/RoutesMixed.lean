import Verif.Props.Routes
import Verif.Props.Structure
/-!
# C56, C59, C61, C94: paths and operations, in programs with hand written impls
-/

namespace Verif

open Sample

/-- **C56** (hand written impls), for the template parameters of paths and callback paths, at any depth, whose name is not declared
again for the path: they are required path parameters with an answer of their type.  Missing: as in `c56_template_parameters_partial`. -/
theorem c56_mixed_partial (w : Ty → Impl Ty) (reason : Nat → Option String) (api : Api) (d : Opg) (h : DescribesVia w reason api d)
    (decl : PathDecl) (p : UrlPath) (v : PathValue) (hi : ItemIn api d decl (p, v)) (name : String) (hn : .parameter name ∈ p)
    (hd : ∀ x ∈ decl.props.flatMap ItemProp.paramList, x.name ≠ name) :
    ∃ param t, BMap.get name v.parameters = some param ∧ param.parameterIn = .path ∧ param.required = true ∧
      lastOf (PathSeg.typeOf? name) decl.segments = some t ∧ ∃ r, param.schema = some r ∧ MentionsVia w t r := by
  have io := c117_items w reason api d h decl p v hi
  have ht := io.template name (lastOf_none.2 fun x hx => by simp [ParamDecl.named?, hd x hx])
  obtain ⟨t, e⟩ := segOf_typeOf io.path hn
  rw [e] at ht
  obtain ⟨param, hg, u⟩ := ht
  exact ⟨param, t, hg, u.place, u.required, e, u.schema⟩

/-- **C94**, exactly (hand written impls).  Whatever the impls do, the URLs that a described path stands for are those that match the
text the path has in the document, with the same texts for the same parameters, if and only if its literals contain no `{` and the names
of its parameters no `}`. -/
theorem c94_mixed_exact (w : Ty → Impl Ty) (reason : Nat → Option String) (api : Api) (d : Opg) (h : DescribesVia w reason api d)
    (decl : PathDecl) (p : UrlPath) (v : PathValue) (hi : ItemIn api d decl (p, v)) :
    (∀ url bs, (∃ bs', bs'.map (fun b => (b.1.1, b.2)) = bs ∧ Serves decl.segments url bs') ↔
      Matches (UrlPath.render p).toList url bs) ↔ ∀ s ∈ decl.segments, s.NoBraces := by
  have hp := (c117_items w reason api d h decl p v hi).path
  rw [UrlPath.render_toList]
  constructor
  · intro hm
    obtain ⟨url, bs, hs, hx⟩ := serves_x hp
    exact matches_noBraces hp hs hx ((hm url (nameTexts bs)).1 ⟨bs, rfl, hs⟩)
  · intro hc url bs
    exact serves_matches hp hc url bs

/-- **C94** (hand written impls).  The parameters a document declares to be in the path are in the text of the path, and those of
operations are never declared to be in the path. -/
theorem c94_mixed_parameters (w : Ty → Impl Ty) (reason : Nat → Option String) (api : Api) (d : Opg) (h : DescribesVia w reason api d) :
    (∀ decl p v, ItemIn api d decl (p, v) → ∀ name param, BMap.get name v.parameters = some param →
      param.parameterIn = .path → .parameter name ∈ p) ∧
    (∀ ps o, OpIn api d ps o → ∀ name param, BMap.get name o.parameters = some param → param.parameterIn ≠ .path) := by
  constructor
  · intro decl p v hi name param hg hin
    have io := c117_items w reason api d h decl p v hi
    cases hl : lastOf (ParamDecl.named? name) (decl.props.flatMap ItemProp.paramList) with
    | some x =>
      obtain ⟨y, hy, po⟩ := io.parameters name x hl
      rw [hg] at hy
      cases hy
      have := po.place
      rw [hin] at this
      cases x <;> cases this
    | none =>
      have ht := io.template name hl
      cases hty : lastOf (PathSeg.typeOf? name) decl.segments with
      | none =>
        rw [hty] at ht
        rw [show BMap.get name v.parameters = none from ht] at hg
        cases hg
      | some t =>
        obtain ⟨s, hs, hst⟩ := List.mem_filterMap.1 (List.mem_of_getLast? hty)
        obtain ⟨e, he, hse⟩ := io.path.mem_left hs
        simp only [PathSeg.typeOf?, Option.bind_eq_some_iff] at hst
        obtain ⟨b, hb, hst⟩ := hst
        split at hst
        · next hn =>
          rw [hse.parameter hb, hn] at he
          exact he
        · cases hst
  · intro ps o ho name param hg hin
    have := (c117_operations w reason api d h ps o ho).parameters name
    cases hl : lastOf (ParamDecl.named? name) (ps.flatMap OpProp.paramList) with
    | none =>
      rw [hl] at this
      rw [show BMap.get name o.parameters = none from this] at hg
      cases hg
    | some x =>
      rw [hl] at this
      obtain ⟨y, hy, po⟩ := this
      rw [hg] at hy
      cases hy
      have := po.place
      rw [hin] at this
      cases x <;> cases this

/-- The paths of the sample, where a type is documented by hand. -/
example : DescribesVia (impls env byHand) reason api mixedDoc ∧
    ∃ v, ItemIn api mixedDoc usersPath ([.path "users", .parameter "id"], v) ∧ (BMap.get "id" v.parameters).isSome = true ∧
    (∀ x ∈ usersPath.props.flatMap ItemProp.paramList, x.name ≠ "id") ∧ ∃ o, OpIn api mixedDoc getOp o ∧ o.parameters ≠ [] :=
  ⟨mixed_described, _, .top (i := 0) rfl rfl, rfl, by simp [usersPath, PathDecl.props, ItemProp.paramList],
    _, .mk (m := .get) (.top (i := 0) rfl rfl) rfl rfl, nofun⟩

/-- **C61**, exactly (hand written impls).  Whatever the impls do, the callback of a name, as it is last declared, is written with the
paths declared for it, in their order, if and only if its name is an identifier or no path is declared for it. -/
theorem c61_mixed_exact (w : Ty → Impl Ty) (reason : Nat → Option String) (api : Api) (d : Opg) (h : DescribesVia w reason api d)
    (ps : List OpProp) (o : Operation) (ho : OpIn api d ps o) (name : String) (decl : CallbackDecl)
    (hd : lastOf (CallbackDecl.named? name) (ps.flatMap OpProp.callbackList) = some decl) :
    (∃ c, BMap.get name o.callbacks = some c ∧
      Pointwise (fun x pv => ItemIn api d x pv ∧ Pointwise SegOf x.segments pv.1) decl.paths c.paths) ↔
      decl.IsIdent ∨ decl.paths = [] := by
  cases hg : BMap.get name o.callbacks with
  | none => rw [((c117_operations w reason api d h ps o ho).callbacks name).1 hg] at hd; cases hd
  | some c =>
    have hc := h.composed.callbacks ho hd hg
    cases decl with
    | ident n ds =>
      refine ⟨fun _ => .inl trivial, fun _ => ⟨c, rfl, ?_⟩⟩
      have hc : Pointwise (fun decl pv => Pointwise SegOf decl.segments pv.1) ds c.paths := hc
      exact Pointwise.of_get hc fun i x pv hx hpv => ⟨.callback ho hd hg hx hpv, hc.at hx hpv⟩
    | literal n ds =>
      have hc : c.paths = [] := hc
      constructor
      · rintro ⟨_, e, hp⟩
        cases e
        rw [hc] at hp
        generalize (CallbackDecl.literal n ds).paths = l at hp ⊢
        cases hp
        exact .inr rfl
      · rintro (hi | he)
        · exact hi.elim
        · exact ⟨c, rfl, by rw [he, hc]; exact .nil⟩

/-- Strings are documented by the library. -/
theorem mentionsVia_string {env : Env} {custom : Nat → Option (Impl Ty)} {r : Ref} (h : MentionsVia (impls env custom) (.prim .string) r) :
    r = .inline ⟨none, .single ⟨false, .string none none none⟩⟩ := by
  obtain ⟨cx, cx', n, h⟩ := h
  have h := runProg_mono (impls env custom) (Nat.le_add_right n 10) _ _ _ h
  have e : runProg (impls env custom) (n + 10) _ (.mention (.prim .string) false {} .ret) cx =
      some (.inline ⟨none, .single ⟨false, .string none none none⟩⟩, cx) := rfl
  rw [e] at h
  cases h
  rfl

/-- **C59** (hand written impls), for parameters: a header is required and a string unless said otherwise, a query parameter is not
required and has an answer of its type. -/
theorem c59_mixed_parameters (env : Env) (custom : Nat → Option (Impl Ty)) (reason : Nat → Option String) (api : Api) (d : Opg)
    (h : DescribesVia (impls env custom) reason api d)
    (ps : List OpProp) (o : Operation) (ho : OpIn api d ps o) (name : String) (decl : ParamDecl)
    (hd : lastOf (ParamDecl.named? name) (ps.flatMap OpProp.paramList) = some decl) :
    ∃ p, BMap.get name o.parameters = some p ∧ ParamBy (MentionsVia (impls env custom)) decl p ∧
      (decl = .header name [] → p.parameterIn = .header ∧ p.required = true ∧ p.deprecated = false ∧ p.description = none ∧
        p.schema = some (.inline ⟨none, .single ⟨false, .string none none none⟩⟩)) ∧
      (∀ t, decl = .query name t [] → p.parameterIn = .query ∧ p.required = false ∧ p.deprecated = false ∧
        p.description = none ∧ ∃ r, p.schema = some r ∧ MentionsVia (impls env custom) t r) := by
  have hp := (c117_operations _ reason api d h ps o ho).parameters name
  rw [hd] at hp
  obtain ⟨p, hg, hp⟩ := hp
  refine ⟨p, hg, hp, ?_, ?_⟩
  · rintro rfl
    obtain ⟨r, hr, hm⟩ := hp.schema
    exact ⟨hp.place, hp.required, hp.deprecated, hp.description, by rw [hr, mentionsVia_string hm]⟩
  · rintro t rfl
    exact ⟨hp.place, hp.required, hp.deprecated, hp.description, hp.schema⟩

/-- **C59** (hand written impls), for bodies and responses. -/
theorem c59_mixed_bodies (w : Ty → Impl Ty) (reason : Nat → Option String) (api : Api) (d : Opg) (h : DescribesVia w reason api d)
    (ps : List OpProp) (o : Operation) (ho : OpIn api d ps o) :
    (∀ decl, lastOf OpProp.body? ps = some decl → ∃ b, o.requestBody = some b ∧ ∀ t, decl = .type t ∨ decl = .props [.schema t] →
      b.required = true ∧ b.description = some "" ∧ MentionsVia w t b.schema) ∧
    (∀ code description s, lastOf (OpProp.response? code) ps = some (description, s) → ∃ r, BMap.get code o.responses = some r ∧
      r.description = (match description, reason code with | some t, _ => t | none, some t => t | none, none => "") ∧
      (s = .absent → r.schema = none) ∧ (∀ t, s = .type t → ∃ x, r.schema = some x ∧ MentionsVia w t x) ∧
      ∀ x, s = .raw x → r.schema = x) := by
  have hop := c117_operations w reason api d h ps o ho
  constructor
  · intro decl hd
    have hb := hop.body
    rw [hd] at hb
    obtain ⟨b, hg, hb⟩ := hb
    refine ⟨b, hg, ?_⟩
    rintro t (rfl | rfl)
    · obtain ⟨t', ht, hm⟩ := hb.schema
      cases ht
      exact ⟨hb.required, hb.description, hm⟩
    · obtain ⟨t', ht, hm⟩ := hb.schema
      cases ht
      exact ⟨hb.required, hb.description, hm⟩
  · intro code description s hd
    have hr := hop.responses code
    rw [hd] at hr
    obtain ⟨r, hg, hr⟩ := hr
    refine ⟨r, hg, ?_, ?_, ?_, ?_⟩
    · rw [hr.description]
      cases description <;> cases reason code <;> rfl
    · rintro rfl; exact hr.schema
    · rintro t rfl; exact hr.schema
    · rintro x rfl; exact hr.schema

/-- The operation of the sample, with its callback, parameters and responses. -/
example : DescribesVia (impls env byHand) reason api mixedDoc ∧ ∃ o, OpIn api mixedDoc getOp o ∧
    lastOf (CallbackDecl.named? "onDone") (getOp.flatMap OpProp.callbackList) = some (.ident "onDone" [callbackPath]) ∧
    (BMap.get "onDone" o.callbacks).map (fun c => c.paths.map fun p => UrlPath.render p.1) = some ["/done"] ∧
    lastOf (ParamDecl.named? "X-Request") (getOp.flatMap OpProp.paramList) = some (.header "X-Request" []) ∧
    lastOf (OpProp.response? 404) getOp = some (none, .absent) ∧ (BMap.get 404 o.responses).isSome = true :=
  ⟨mixed_described, _, .mk (m := .get) (.top (i := 0) rfl rfl) rfl rfl, rfl, rfl, rfl, rfl, rfl⟩

end Verif
