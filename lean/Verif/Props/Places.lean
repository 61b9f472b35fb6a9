import Verif.Spec.Places
import Verif.Proof.Arrange
import Verif.Props.Api
/-!
# The parameters of a request

C111: the parameters an operation has according to the document are those that were declared for it.
-/

namespace Verif

open Sample

theorem ParamBy.placed {M : Ty → Ref → Prop} {d : ParamDecl} {p} (h : ParamBy M d p) : p.parameterIn = d.place := by
  rw [h.place]; cases d <;> rfl

/-- The last declaration of a name is the last one in its place. -/
theorem at_of_named {name : String} : ∀ {ds : List ParamDecl} {d}, lastOf (ParamDecl.named? name) ds = some d →
    lastOf (ParamDecl.at? name d.place) ds = some d
  | [], _, h => by cases h
  | a :: ds, d, h => by
    rw [lastOf_cons] at h ⊢
    cases hl : lastOf (ParamDecl.named? name) ds with
    | some d' =>
      rw [hl] at h
      cases h
      rw [at_of_named hl]
      rfl
    | none =>
      rw [hl, Option.none_or] at h
      have hn : lastOf (ParamDecl.at? name d.place) ds = none := lastOf_none.2 fun x hx => by
        have := lastOf_none.1 hl x hx
        unfold ParamDecl.named? at this
        unfold ParamDecl.at?
        split at this
        · cases this
        · rw [if_neg fun e => absurd e.1 ‹_›]
      rw [hn, Option.none_or]
      unfold ParamDecl.named? at h
      split at h
      · cases h; unfold ParamDecl.at?; rw [if_pos ⟨‹_›, rfl⟩]
      · cases h

theorem named_is {name : String} {ds : List ParamDecl} {d} (h : lastOf (ParamDecl.named? name) ds = some d) : d ∈ ds ∧ d.name = name := by
  obtain ⟨a, ha, e⟩ := lastOf_mem h
  unfold ParamDecl.named? at e
  split at e
  · cases e; exact ⟨ha, ‹_›⟩
  · cases e

theorem at_mem {name : String} {place} {ds : List ParamDecl} {d} (h : lastOf (ParamDecl.at? name place) ds = some d) :
    d ∈ ds ∧ d.name = name ∧ d.place = place := by
  obtain ⟨a, ha, e⟩ := lastOf_mem h
  unfold ParamDecl.at? at e
  split at e
  · cases e; exact ⟨ha, ‹_›⟩
  · cases e

theorem named_some {name : String} {ds : List ParamDecl} {d} (hd : d ∈ ds) (hn : d.name = name) :
    ∃ d', lastOf (ParamDecl.named? name) ds = some d' := by
  cases h : lastOf (ParamDecl.named? name) ds with
  | some d' => exact ⟨d', rfl⟩
  | none =>
    have := lastOf_none.1 h d hd
    simp [ParamDecl.named?, hn] at this

/-- If no name is declared for two places, the last declaration for a place is the last of the name. -/
theorem named_of_at {name : String} {place} {ds : List ParamDecl} {d} (one : OnePlace ds) (h : lastOf (ParamDecl.at? name place) ds = some d) :
    lastOf (ParamDecl.named? name) ds = some d := by
  obtain ⟨hm, hn, hp⟩ := at_mem h
  obtain ⟨d', h'⟩ := named_some hm hn
  obtain ⟨hm', hn'⟩ := named_is h'
  have e : d'.place = place := (one d' hm' d hm (hn'.trans hn.symm)).trans hp
  have := at_of_named h'
  rw [e, h] at this
  rw [h', this]

theorem at_none {name : String} {place} {ds : List ParamDecl} (h : lastOf (ParamDecl.named? name) ds = none) :
    lastOf (ParamDecl.at? name place) ds = none := by
  cases h' : lastOf (ParamDecl.at? name place) ds with
  | none => rfl
  | some d =>
    obtain ⟨hm, hn, -⟩ := at_mem h'
    obtain ⟨d', e⟩ := named_some hm hn
    rw [h] at e; cases e

section
variable {env : Env} {reason : Nat → Option String} {api : Api} {d : Opg}

/-- What an operation lists under a name. -/
theorem listed_op (h : Describes env reason api d) {ps : List OpProp} {o : Operation} (ho : OpIn api d ps o) (name : String) :
    (∃ x p, lastOf (ParamDecl.named? name) (ps.flatMap OpProp.paramList) = some x ∧ BMap.get name o.parameters = some p ∧ ParamOf env x p) ∨
    (lastOf (ParamDecl.named? name) (ps.flatMap OpProp.paramList) = none ∧ BMap.get name o.parameters = none) := by
  have hp := (c58_operation env reason api d h ps o ho).parameters name
  cases hl : lastOf (ParamDecl.named? name) (ps.flatMap OpProp.paramList) with
  | none => rw [hl] at hp; exact .inr ⟨rfl, hp⟩
  | some x =>
    rw [hl] at hp
    obtain ⟨p, hg, hp⟩ := hp
    exact .inl ⟨x, p, rfl, hg, hp⟩

/-- What a path item lists under a name. -/
theorem listed_item (h : Describes env reason api d) {decl : PathDecl} {p : UrlPath} {v : PathValue} (hi : ItemIn api d decl (p, v))
    (name : String) :
    (∃ x p, lastOf (ParamDecl.named? name) (decl.props.flatMap ItemProp.paramList) = some x ∧ BMap.get name v.parameters = some p ∧
      ParamOf env x p) ∨
    (lastOf (ParamDecl.named? name) (decl.props.flatMap ItemProp.paramList) = none ∧
      ((∃ t p, lastOf (PathSeg.typeOf? name) decl.segments = some t ∧ BMap.get name v.parameters = some p ∧ UrlParam env t p) ∨
      (lastOf (PathSeg.typeOf? name) decl.segments = none ∧ BMap.get name v.parameters = none))) := by
  have io := c58_path_item env reason api d h decl p v hi
  cases hl : lastOf (ParamDecl.named? name) (decl.props.flatMap ItemProp.paramList) with
  | some x =>
    obtain ⟨p, hg, hp⟩ := io.parameters name x hl
    exact .inl ⟨x, p, rfl, hg, hp⟩
  | none =>
    have ht := io.template name hl
    refine .inr ⟨rfl, ?_⟩
    cases hs : lastOf (PathSeg.typeOf? name) decl.segments with
    | none => rw [hs] at ht; exact .inr ⟨rfl, ht⟩
    | some t =>
      rw [hs] at ht
      obtain ⟨p, hg, hp⟩ := ht
      exact .inl ⟨t, p, rfl, hg, hp⟩
end

theorem own_names {decl : PathDecl} (own : OwnNames decl) {name : String} {t : Ty} (h : lastOf (PathSeg.typeOf? name) decl.segments = some t) :
    lastOf (ParamDecl.named? name) (decl.props.flatMap ItemProp.paramList) = none := by
  cases hl : lastOf (ParamDecl.named? name) (decl.props.flatMap ItemProp.paramList) with
  | none => rfl
  | some x =>
    obtain ⟨hx, rfl⟩ := named_is hl
    obtain ⟨s, hs, e⟩ := lastOf_mem h
    exact absurd e (own s hs x hx t)

/-- C111 is false: parameters are listed by name alone, so that of two parameters of one name in different places, only the
last is in the document. -/
theorem c111_is_false : ∃ (env : Env) (reason : Nat → Option String) (api : Api) (d : Opg) (decl : PathDecl) (p : UrlPath) (v : PathValue)
    (ps : List OpProp) (o : Operation), Describes env reason api d ∧ ItemIn api d decl (p, v) ∧
    lastOf (ItemProp.operation? .get) decl.props = some ps ∧ BMap.get .get v.operations = some o ∧
    (∃ x, Meant env decl ps "version" .header x) ∧ ∀ x, ¬ Effective v o "version" .header x := by
  refine ⟨env, reason, [.paths [.mk [.literal "a"] [.operation .get [.parameters [.header "version" [], .query "version" (.prim .u32) []]]]]], _,
    .mk [.literal "a"] [.operation .get [.parameters [.header "version" [], .query "version" (.prim .u32) []]]], _, _,
    [.parameters [.header "version" [], .query "version" (.prim .u32) []]], _, ⟨10, rfl⟩, .top (i := 0) rfl rfl, rfl, rfl,
    ⟨⟨none, .header, true, false, some (.inline ⟨none, .single ⟨false, .string none none none⟩⟩)⟩, ?_⟩, ?_⟩
  · show ParamOf env (.header "version" []) _
    exact ⟨rfl, rfl, rfl, rfl, _, rfl, .empty, .empty, 1, rfl⟩
  · rintro x (⟨h, e⟩ | ⟨-, h, -⟩)
    · cases h; cases e
    · cases h

/-- **C111**. The parameters an operation has according to the document are exactly those declared for it, if neither the
operation nor its path declares one name for two places, and the path does not declare the name of one of its segments. -/
theorem c111_effective_partial (env : Env) (reason : Nat → Option String) (api : Api) (d : Opg) (h : Describes env reason api d)
    (decl : PathDecl) (p : UrlPath) (v : PathValue) (hi : ItemIn api d decl (p, v)) (m : HttpMethod) (ps : List OpProp) (o : Operation)
    (hm : lastOf (ItemProp.operation? m) decl.props = some ps) (ho : BMap.get m v.operations = some o)
    (operation : OnePlace (ps.flatMap OpProp.paramList)) (path : OnePlace (decl.props.flatMap ItemProp.paramList)) (own : OwnNames decl)
    (name : String) (place : ParameterIn) (x : OperationParameter) : Effective v o name place x ↔ Meant env decl ps name place x := by
  have hop : OpIn api d ps o := .mk hi hm ho
  have item : lastOf (ParamDecl.at? name place) (ps.flatMap OpProp.paramList) = none →
      ((BMap.get name v.parameters = some x ∧ x.parameterIn = place) ↔ Meant env decl ps name place x) := by
    intro hn
    unfold Meant
    rw [hn]
    rcases listed_item h hi name with ⟨y, q, hl, hg, hq⟩ | ⟨hl, ⟨t, q, hs, hg, hq⟩ | ⟨hs, hg⟩⟩
    · constructor
      · rintro ⟨e, hp⟩
        rw [hg] at e
        cases e
        rw [hq.placed] at hp
        subst hp
        rw [at_of_named hl]
        exact hq
      · intro e
        cases ha : lastOf (ParamDecl.at? name place) (decl.props.flatMap ItemProp.paramList) with
        | some z =>
          rw [ha] at e
          have := named_of_at path ha
          rw [hl] at this
          cases this
          have e : ParamOf env y x := e
          rw [paramOf_one (.refl y) e hq]
          exact ⟨hg, hq.placed.trans (at_mem ha).2.2⟩
        | none =>
          rw [ha] at e
          cases hs : lastOf (PathSeg.typeOf? name) decl.segments with
          | none => rw [hs] at e; exact e.elim
          | some t => rw [own_names own hs] at hl; cases hl
    · rw [at_none hl, hs, hg]
      constructor
      · rintro ⟨e, hp⟩
        cases e
        exact ⟨hp.symm.trans hq.place, hq⟩
      · rintro ⟨e, hu⟩
        rw [urlParam_one hu hq]
        exact ⟨rfl, hq.place.trans e.symm⟩
    · rw [at_none hl, hs, hg]
      exact ⟨fun e => (nomatch e.1), fun e => e.elim⟩
  rcases listed_op h hop name with ⟨y, q, hl, hg, hq⟩ | ⟨hl, hg⟩
  · by_cases hp : y.place = place
    · subst hp
      have : Meant env decl ps name y.place x ↔ ParamOf env y x := by unfold Meant; rw [at_of_named hl]
      rw [this]
      constructor
      · rintro (⟨e, -⟩ | ⟨no, -⟩)
        · rw [hg] at e; cases e; exact hq
        · exact absurd hq.placed (no q hg)
      · intro e
        rw [paramOf_one (.refl y) e hq]
        exact .inl ⟨hg, hq.placed⟩
    · have hn : lastOf (ParamDecl.at? name place) (ps.flatMap OpProp.paramList) = none := by
        cases ha : lastOf (ParamDecl.at? name place) (ps.flatMap OpProp.paramList) with
        | none => rfl
        | some z =>
          have := named_of_at operation ha
          rw [hl] at this
          cases this
          exact absurd (at_mem ha).2.2 hp
      rw [← item hn]
      constructor
      · rintro (⟨e, e'⟩ | ⟨-, e⟩)
        · rw [hg] at e; cases e; exact absurd (hq.placed.symm.trans e') hp
        · exact e
      · exact fun e => .inr ⟨fun q' e' => by rw [hg] at e'; cases e'; rw [hq.placed]; exact hp, e⟩
  · rw [← item (at_none hl)]
    constructor
    · rintro (⟨e, -⟩ | ⟨-, e⟩)
      · rw [hg] at e; cases e
      · exact e
    · exact fun e => .inr ⟨fun q' e' => (by rw [hg] at e'; exact nomatch e'), e⟩

/-- **C111**, exactly, for operations: each declared parameter is listed in its place if and only if no name is declared for
two places. -/
theorem c111_operation_exact (env : Env) (reason : Nat → Option String) (api : Api) (d : Opg) (h : Describes env reason api d)
    (ps : List OpProp) (o : Operation) (ho : OpIn api d ps o) :
    (∀ x ∈ ps.flatMap OpProp.paramList, ∃ p, BMap.get x.name o.parameters = some p ∧ p.parameterIn = x.place) ↔
    OnePlace (ps.flatMap OpProp.paramList) := by
  constructor
  · intro all x hx y hy hn
    obtain ⟨p, hg, hp⟩ := all x hx
    obtain ⟨q, hg', hq⟩ := all y hy
    rw [hn, hg'] at hg
    cases hg
    exact hp.symm.trans hq
  · intro one x hx
    rcases listed_op h ho x.name with ⟨y, p, hl, hg, hp⟩ | ⟨hl, -⟩
    · obtain ⟨hy, hn⟩ := named_is hl
      exact ⟨p, hg, hp.placed.trans (one y hy x hx hn)⟩
    · obtain ⟨y, hy⟩ := named_some hx rfl
      rw [hl] at hy; cases hy

/-- **C111**, exactly, for paths: each declared parameter and each segment with a type is listed in its place if and only if
no name is declared for two places. -/
theorem c111_path_exact (env : Env) (reason : Nat → Option String) (api : Api) (d : Opg) (h : Describes env reason api d)
    (decl : PathDecl) (p : UrlPath) (v : PathValue) (hi : ItemIn api d decl (p, v)) :
    ((∀ x ∈ decl.props.flatMap ItemProp.paramList, ∃ q, BMap.get x.name v.parameters = some q ∧ q.parameterIn = x.place) ∧
      ∀ s ∈ decl.segments, ∀ name t, s.typeOf? name = some t → ∃ q, BMap.get name v.parameters = some q ∧ q.parameterIn = .path) ↔
    OnePlace (decl.props.flatMap ItemProp.paramList) ∧ OwnNames decl := by
  constructor
  · rintro ⟨all, segs⟩
    refine ⟨fun x hx y hy hn => ?_, fun s hs x hx t ht => ?_⟩
    · obtain ⟨p, hg, hp⟩ := all x hx
      obtain ⟨q, hg', hq⟩ := all y hy
      rw [hn, hg'] at hg
      cases hg
      exact hp.symm.trans hq
    · obtain ⟨p, hg, hp⟩ := all x hx
      obtain ⟨q, hg', hq⟩ := segs s hs x.name t ht
      rw [hg'] at hg
      cases hg
      rw [hq] at hp
      cases x <;> cases hp
  · rintro ⟨one, own⟩
    refine ⟨fun x hx => ?_, fun s hs name t ht => ?_⟩
    · obtain ⟨y, hy⟩ := named_some hx rfl
      rcases listed_item h hi x.name with ⟨z, q, hl, hg, hq⟩ | ⟨hl, -⟩
      · obtain ⟨hz, hn⟩ := named_is hl
        exact ⟨q, hg, hq.placed.trans (one z hz x hx hn)⟩
      · rw [hl] at hy; cases hy
    · have ht' : ∃ t', lastOf (PathSeg.typeOf? name) decl.segments = some t' := by
        cases e : lastOf (PathSeg.typeOf? name) decl.segments with
        | some t' => exact ⟨t', rfl⟩
        | none => rw [lastOf_none.1 e s hs] at ht; cases ht
      obtain ⟨t', ht'⟩ := ht'
      have hn := own_names own ht'
      rcases listed_item h hi name with ⟨z, q, hl, -⟩ | ⟨-, ⟨t, q, -, hg, hq⟩ | ⟨hs', -⟩⟩
      · rw [hn] at hl; cases hl
      · exact ⟨q, hg, hq.place⟩
      · rw [ht'] at hs'; cases hs'

/-- The hypotheses hold of the sample: `GET /users/{id}` has the parameter of its path, a header and a query parameter. -/
example : OnePlace (getOp.flatMap OpProp.paramList) ∧ OnePlace (usersPath.props.flatMap ItemProp.paramList) ∧ OwnNames usersPath ∧
    (∃ x, Effective usersItem getOperation "id" .path x) ∧ (∃ x, Effective usersItem getOperation "X-Request" .header x) ∧
    ∃ x, Effective usersItem getOperation "limit" .query x := by
  refine ⟨?_, ?_, ?_, ⟨_, .inr ⟨?_, rfl, rfl⟩⟩, ⟨_, .inl ⟨rfl, rfl⟩⟩, ⟨_, .inl ⟨rfl, rfl⟩⟩⟩
  · intro x hx y hy hn
    simp [getOp, OpProp.paramList] at hx hy
    rcases hx with rfl | rfl | rfl <;> rcases hy with rfl | rfl | rfl <;> first | rfl | simp [ParamDecl.name] at hn
  · intro x hx
    simp [usersPath, PathDecl.props, ItemProp.paramList] at hx
  · intro s _ x hx
    simp [usersPath, PathDecl.props, ItemProp.paramList] at hx
  · intro q hq
    cases hq

end Verif
