import Verif.Spec.Exchange
import Verif.Props.Access
import Verif.Props.Places
import Verif.Props.Routes
import Verif.Props.PublishedReads
import Verif.Proof.OpenApiExact
/-!
# Whole requests

C113: a document takes the requests that its description takes.
-/

namespace Verif

open Sample

theorem place_text {a b : ParameterIn} (h : a.asStr = b.asStr) : a = b := by
  cases a <;> cases b <;> first | rfl | (revert h; decide)

theorem lists_of {v : Value} {ps : List (String × OperationParameter)} (h : v.at "parameters" = nonEmptySeq (serParameters ps))
    (sorted : BMap.Sorted ps) (name : String) (place : ParameterIn) (x : Value) :
    v.Lists name place x ↔ ∃ q, BMap.get name ps = some q ∧ q.parameterIn = place ∧ x = q.ser name := by
  have at1 : ∀ (k : String) (q : OperationParameter), (q.ser k).at "name" = some (.str k) := by
    intro k q; simp [OperationParameter.ser, Value.at_map]
  have at2 : ∀ (k : String) (q : OperationParameter), (q.ser k).at "in" = some (.str q.parameterIn.asStr) := by
    intro k q; simp [OperationParameter.ser, Value.at_map]
  constructor
  · rintro ⟨l, hl, hx, hn, hp⟩
    rw [h] at hl
    unfold nonEmptySeq at hl
    split at hl
    · cases hl
    · cases hl
      obtain ⟨⟨k, q⟩, hm, rfl⟩ := List.mem_map.1 hx
      rw [at1] at hn
      rw [at2] at hp
      cases hn
      refine ⟨q, BMap.get_of_mem sorted hm, place_text ?_, rfl⟩
      injection hp with hp
      injection hp with hp
  · rintro ⟨q, hg, rfl, rfl⟩
    have hm := BMap.mem_of_get hg
    refine ⟨serParameters ps, ?_, List.mem_map.2 ⟨_, hm, rfl⟩, at1 _ _, at2 _ _⟩
    rw [h]
    unfold nonEmptySeq
    rw [if_neg]
    cases ps with
    | nil => cases hm
    | cons a as => simp [serParameters]

theorem at_parameters_op (o : Operation) : o.ser.at "parameters" = nonEmptySeq (serParameters o.parameters) := by
  obtain ⟨tags, summary, id, desc, depr, sec, body, resp, params, callbacks⟩ := o
  simp [Operation.ser, Value.at_map]

theorem at_parameters_item (v : PathValue) : v.ser.at "parameters" = nonEmptySeq (serParameters v.parameters) := by
  obtain ⟨s, d, ops, ps⟩ := v
  rw [PathValue.ser, Value.at_map, lk_append, lk_append, lk_serOperations_none _ (by intro m; cases m <;> decide)]
  simp

theorem isRequired_param (name : String) (q : OperationParameter) : (q.ser name).isRequired = q.required := by
  have : (q.ser name).at "required" = flag q.required := by simp [OperationParameter.ser, Value.at_map]
  unfold Value.isRequired
  rw [this]
  cases q.required <;> rfl

theorem at_body (o : Operation) : o.ser.at "requestBody" = o.requestBody.map RequestBody.ser := by
  obtain ⟨tags, summary, id, desc, depr, sec, body, resp, params, callbacks⟩ := o
  simp [Operation.ser, Value.at_map]

theorem isRequired_body (b : RequestBody) : b.ser.isRequired = b.required := by
  have : b.ser.at "required" = flag b.required := by simp [RequestBody.ser, Value.at_map]
  unfold Value.isRequired
  rw [this]
  cases b.required <;> rfl

theorem jsonSchema_body (b : RequestBody) : b.ser.jsonSchema = some b.schema.ser := by
  unfold RequestBody.ser
  exact jsonSchema_contentOf _ b.schema (by simp)

section
variable {env : Env} {reason : Nat → Option String} {api : Api} {d : Opg}

theorem hasParameter_ser (h : Composed reason api d) {decl : PathDecl} {p : UrlPath} {v : PathValue} (hi : ItemIn api d decl (p, v))
    {m ps o} (hm : lastOf (ItemProp.operation? m) decl.props = some ps) (ho : BMap.get m v.operations = some o)
    (name : String) (place : ParameterIn) (x : Value) :
    Value.HasParameter v.ser o.ser name place x ↔ ∃ q, Effective v o name place q ∧ x = q.ser name := by
  have all := h.sorted
  have so : BMap.Sorted o.parameters := (OpIn.holds all (.mk hi hm ho)).op.1.2.1
  have sv : BMap.Sorted v.parameters := (ItemIn.holds all hi).item.1.2
  have lo := lists_of (at_parameters_op o) so name place
  have lv := lists_of (at_parameters_item v) sv name place
  unfold Value.HasParameter Effective
  rw [lo, lv]
  constructor
  · rintro (⟨q, h1, h2, rfl⟩ | ⟨no, q, h1, h2, rfl⟩)
    · exact ⟨q, .inl ⟨h1, h2⟩, rfl⟩
    · exact ⟨q, .inr ⟨fun q' h1 h2 => no (q'.ser name) ((lo _).2 ⟨q', h1, h2, rfl⟩), h1, h2⟩, rfl⟩
  · rintro ⟨q, ⟨h1, h2⟩ | ⟨no, h1, h2⟩, rfl⟩
    · exact .inl ⟨q, h1, h2, rfl⟩
    · refine .inr ⟨fun y hy => ?_, q, h1, h2, rfl⟩
      obtain ⟨q', h1, h2, -⟩ := (lo y).1 hy
      exact no q' h1 h2

theorem never_path {name : String} {ds : List ParamDecl} : lastOf (ParamDecl.at? name .path) ds = none := by
  cases h : lastOf (ParamDecl.at? name .path) ds with
  | none => rfl
  | some x =>
    have := (at_mem h).2.2
    cases x <;> cases this

theorem ParamBy.isRequired {M : Ty → Ref → Prop} {x : ParamDecl} {q} (h : ParamBy M x q) : q.required = x.isRequired := by
  rw [h.required]
  unfold ParamDecl.isRequired
  cases x <;> rfl

/-- What an operation lists under a name. -/
theorem Composed.listed_op (h : Composed reason api d) {ps : List OpProp} {o : Operation} (ho : OpIn api d ps o) (name : String) :
    (∃ x p, lastOf (ParamDecl.named? name) (ps.flatMap OpProp.paramList) = some x ∧ BMap.get name o.parameters = some p ∧
      ParamBy (fun _ _ => True) x p) ∨
    (lastOf (ParamDecl.named? name) (ps.flatMap OpProp.paramList) = none ∧ BMap.get name o.parameters = none) := by
  have hp := (h.operations ho).parameters name
  cases hl : lastOf (ParamDecl.named? name) (ps.flatMap OpProp.paramList) with
  | none => rw [hl] at hp; exact .inr ⟨rfl, hp⟩
  | some x =>
    rw [hl] at hp
    obtain ⟨p, hg, hp⟩ := hp
    exact .inl ⟨x, p, rfl, hg, hp⟩

/-- What a path item lists under a name. -/
theorem Composed.listed_item (h : Composed reason api d) {decl : PathDecl} {p : UrlPath} {v : PathValue} (hi : ItemIn api d decl (p, v))
    (name : String) :
    (∃ x p, lastOf (ParamDecl.named? name) (decl.props.flatMap ItemProp.paramList) = some x ∧ BMap.get name v.parameters = some p ∧
      ParamBy (fun _ _ => True) x p) ∨
    (lastOf (ParamDecl.named? name) (decl.props.flatMap ItemProp.paramList) = none ∧
      ((∃ t p, lastOf (PathSeg.typeOf? name) decl.segments = some t ∧ BMap.get name v.parameters = some p ∧ UrlBy (fun _ _ => True) t p) ∨
      (lastOf (PathSeg.typeOf? name) decl.segments = none ∧ BMap.get name v.parameters = none))) := by
  have io := h.items hi
  cases hl : lastOf (ParamDecl.named? name) (decl.props.flatMap ItemProp.paramList) with
  | some x =>
    obtain ⟨p, hg, hp⟩ := io.parameters name x hl
    exact .inl ⟨x, p, rfl, hg, hp⟩
  | none =>
    have ht := io.template name hl
    refine .inr ⟨rfl, ?_⟩
    cases hs : lastOf (PathSeg.typeOf? name) decl.segments with
    | none => rw [hs] at ht; exact .inr ⟨rfl, ht⟩
    | some t =>
      rw [hs] at ht
      obtain ⟨p, hg, hp⟩ := ht
      exact .inl ⟨t, p, rfl, hg, hp⟩

/-- A declared parameter is in the document, with the schema of its type. -/
theorem declared_placed (h : Composed reason api d) {decl : PathDecl} {p : UrlPath} {v : PathValue} (hi : ItemIn api d decl (p, v))
    (hw : ItemWritten api d.ser decl v.ser) {m ps o} (hm : lastOf (ItemProp.operation? m) decl.props = some ps)
    (ho : BMap.get m v.operations = some o) (hwo : OpWritten api d.ser ps o.ser) (clear : decl.Clear) {name place x}
    (hd : declaredFor decl ps name place = some x) :
    ∃ q r, Effective v o name place q ∧ ParamBy (fun _ _ => True) x q ∧ q.schema = some r ∧ PlacedAt api d.ser x.typeOf r.ser := by
  unfold declaredFor at hd
  cases h1 : lastOf (ParamDecl.at? name place) (ps.flatMap OpProp.paramList) with
  | some y =>
    rw [h1] at hd
    cases hd
    have hn := named_of_at (clear.operations m ps hm) h1
    rcases h.listed_op (.mk hi hm ho) name with ⟨y, q, hl, hg, hq⟩ | ⟨hl, -⟩
    · rw [hn] at hl
      cases hl
      obtain ⟨r, hr, -⟩ := hq.schema
      refine ⟨q, r, .inl ⟨hg, hq.placed.trans (at_mem h1).2.2⟩, hq, hr, .parameter hwo hn ?_⟩
      rw [parameterSchema_op, hg]
      show q.schema.map Ref.ser = _
      rw [hr]; rfl
    · rw [hn] at hl; cases hl
  | none =>
    rw [h1, Option.none_or] at hd
    have hn := named_of_at clear.path hd
    rcases h.listed_item hi name with ⟨y, q, hl, hg, hq⟩ | ⟨hl, -⟩
    · rw [hn] at hl
      cases hl
      obtain ⟨r, hr, -⟩ := hq.schema
      refine ⟨q, r, .inr ⟨fun q' hg' hp' => ?_, hg, hq.placed.trans (at_mem hd).2.2⟩, hq, hr, .common hw hn ?_⟩
      · rcases h.listed_op (.mk hi hm ho) name with ⟨z, q'', hl', hg'', hq''⟩ | ⟨-, hg''⟩
        · rw [hg'] at hg''
          cases hg''
          have := at_of_named hl'
          rw [← hq''.placed, hp', h1] at this
          cases this
        · rw [hg'] at hg''; cases hg''
      · rw [parameterSchema_item, hg]
        show q.schema.map Ref.ser = _
        rw [hr]; rfl
    · rw [hn] at hl; cases hl

/-- A parameter of the document that is not in the path is declared. -/
theorem effective_declared (h : Composed reason api d) {decl : PathDecl} {p : UrlPath} {v : PathValue} (hi : ItemIn api d decl (p, v))
    {m ps o} (hm : lastOf (ItemProp.operation? m) decl.props = some ps) (ho : BMap.get m v.operations = some o) {name place q}
    (hne : place ≠ .path) (he : Effective v o name place q) : ∃ x, declaredFor decl ps name place = some x := by
  unfold declaredFor
  rcases he with ⟨hg, hp⟩ | ⟨-, hg, hp⟩
  · rcases h.listed_op (.mk hi hm ho) name with ⟨y, q', hl, hg', hq⟩ | ⟨-, hg'⟩
    · rw [hg] at hg'
      cases hg'
      have := at_of_named hl
      rw [← hq.placed, hp] at this
      rw [this]
      exact ⟨_, rfl⟩
    · rw [hg] at hg'; cases hg'
  · rcases h.listed_item hi name with ⟨y, q', hl, hg', hq⟩ | ⟨-, ⟨t, q', -, hg', hq⟩ | ⟨-, hg'⟩⟩
    · rw [hg] at hg'
      cases hg'
      have := at_of_named hl
      rw [← hq.placed, hp] at this
      rw [this]
      cases lastOf (ParamDecl.at? name place) (ps.flatMap OpProp.paramList) <;> exact ⟨_, rfl⟩
    · rw [hg] at hg'
      cases hg'
      exact absurd (hp.symm.trans hq.place) hne
    · rw [hg] at hg'; cases hg'

theorem served_segment {ss : List PathSeg} {url bs} (hs : Serves ss url bs) {b} (hb : b ∈ bs) : ∃ s ∈ ss, s.param? = some b.1 := by
  induction hs with
  | nil => cases hb
  | literal _ ih => obtain ⟨s, hs, e⟩ := ih hb; exact ⟨s, List.mem_cons_of_mem _ hs, e⟩
  | typed e _ _ ih =>
    cases hb with
    | head => exact ⟨_, List.mem_cons_self, e⟩
    | tail _ hb => obtain ⟨s, hs, e⟩ := ih hb; exact ⟨s, List.mem_cons_of_mem _ hs, e⟩

theorem typeOf_served {decl : PathDecl} (clear : decl.Clear) {url bs} (hs : Serves decl.segments url bs) {name t text}
    (hb : ((name, t), text) ∈ bs) : lastOf (PathSeg.typeOf? name) decl.segments = some t := by
  obtain ⟨s, hm, e⟩ := served_segment hs hb
  have e : s.param? = some (name, t) := e
  cases hl : lastOf (PathSeg.typeOf? name) decl.segments with
  | none =>
    have := lastOf_none.1 hl s hm
    simp [PathSeg.typeOf?, e] at this
  | some t' =>
    obtain ⟨s', hm', e'⟩ := lastOf_mem hl
    unfold PathSeg.typeOf? at e'
    obtain ⟨⟨n, t''⟩, hp, e'⟩ := Option.bind_eq_some_iff.1 e'
    simp only at e'
    split at e'
    · rename_i hn
      cases e'
      subst hn
      rw [clear.types s hm s' hm' n t t' e hp]
    · cases e'

/-- For one operation: a request that is in order according to the document is so according to the description if schemas accept only
values of their types, and conversely if they accept all of them. -/
theorem suits_both {excl : Bool} {ok : Ty → Json → Prop} (h : Composed reason api d)
    (access : ∀ ps op, OpWritten api d.ser ps op → ∀ shown, d.ser.Permits op shown ↔ api.Permits ps shown) {decl : PathDecl} (clear : decl.Clear) {p : UrlPath} {v : PathValue} (hi : ItemIn api d decl (p, v)) (hw : ItemWritten api d.ser decl v.ser)
    {m ps o} (hm : lastOf (ItemProp.operation? m) decl.props = some ps) (ho : BMap.get m v.operations = some o)
    (hwo : OpWritten api d.ser ps o.ser) {req : Request} (plain : req.Plain) {bs} (hs : Serves decl.segments req.url bs) :
    ((∀ t s, PlacedAt api d.ser t s → ∀ j, j.Distinct → Accepts excl d.ser s j → ok t j) →
      d.ser.Suits excl v.ser o.ser (nameTexts bs) req → api.Suits ok decl ps bs req) ∧
    ((∀ t s, PlacedAt api d.ser t s → ∀ j, j.Distinct → ok t j → Accepts excl d.ser s j) →
      api.Suits ok decl ps bs req → d.ser.Suits excl v.ser o.ser (nameTexts bs) req) := by
  have has := hasParameter_ser h hi hm ho
  have hop := h.operations (.mk hi hm ho)
  have template : ∀ {name t}, lastOf (PathSeg.typeOf? name) decl.segments = some t → ∃ q r, Effective v o name .path q ∧ q.schema = some r ∧
      PlacedAt api d.ser t r.ser := by
    intro name t ht
    have hn := own_names clear.own ht
    rcases h.listed_item hi name with ⟨y, q, hl, hg, hq⟩ | ⟨-, ⟨t', q, ht', hg, hq⟩ | ⟨ht', -⟩⟩
    · rw [hn] at hl; cases hl
    · rw [ht] at ht'
      cases ht'
      obtain ⟨r, hr, -⟩ := hq.schema
      refine ⟨q, r, .inr ⟨fun q' hg' hp' => ?_, hg, hq.place⟩, hr, .template hw hn ht ?_⟩
      · rcases h.listed_op (.mk hi hm ho) name with ⟨z, q'', -, hg'', hq''⟩ | ⟨-, hg''⟩
        · rw [hg'] at hg''
          cases hg''
          rw [hq''.placed] at hp'
          cases z <;> cases hp'
        · rw [hg'] at hg''; cases hg''
      · rw [parameterSchema_item, hg]
        show q.schema.map Ref.ser = _
        rw [hr]; rfl
    · rw [ht] at ht'; cases ht'
  have effective_one : ∀ {name place q q'}, Effective v o name place q → Effective v o name place q' → q = q' := by
    rintro name place q q' (⟨h1, h2⟩ | ⟨h1, h2, h3⟩) (⟨h1', h2'⟩ | ⟨h1', h2', h3'⟩)
    · rw [h1] at h1'; injection h1'
    · exact absurd h2 (h1' q h1)
    · exact absurd h2' (h1 q' h1')
    · rw [h2] at h2'; injection h2'
  have schema : ∀ {name} {q : OperationParameter} {r : Ref}, q.schema = some r → ∀ {j},
      (d.ser.SchemaAccepts excl ((q.ser name).at "schema") j ↔ Accepts excl d.ser r.ser j) := by
    intro name q r hr j
    rw [schema_ser, hr]
    exact ⟨fun ⟨s, e, a⟩ => by cases e; exact a, fun a => ⟨_, rfl, a⟩⟩
  constructor
  · intro types su
    refine ⟨(access ps _ hwo _).1 su.security, fun name place x hd => ?_, fun b hb => ?_,
      fun b hb => ?_⟩
    · obtain ⟨q, r, he, hq, hr, hp⟩ := declared_placed h hi hw hm ho hwo clear hd
      have hne : place ≠ .path := by
        rintro rfl
        unfold declaredFor at hd
        rw [never_path, never_path] at hd
        cases hd
      obtain ⟨there, right⟩ := su.parameters name place _ hne ((has name place _).2 ⟨q, he, rfl⟩)
      rw [isRequired_param, hq.isRequired] at there
      exact ⟨there, fun j hj => types _ _ hp j (plain.sent _ _ _ hj) ((schema hr).1 (right j hj))⟩
    · obtain ⟨⟨name, t⟩, text⟩ := b
      obtain ⟨q, r, he, hr, hp⟩ := template (typeOf_served clear hs hb)
      obtain ⟨j, hj, a⟩ := su.path name _ ((has name .path _).2 ⟨q, he, rfl⟩) text (List.mem_map.2 ⟨_, hb, rfl⟩)
      exact ⟨j, hj, types _ _ hp j (plain.decode _ _ hj) ((schema hr).1 a)⟩
    · have hl := hop.body
      rw [hb] at hl
      obtain ⟨y, hy, hbo⟩ := hl
      obtain ⟨t, ht, hmen⟩ := hbo.schema
      have hty : b.typeOf = some t := by cases b <;> exact ht
      obtain ⟨there, right⟩ := su.body y.ser (by rw [at_body, hy]; rfl)
      rw [isRequired_body, hbo.required] at there
      have hpl : PlacedAt api d.ser t y.schema.ser := .body hwo hb hty (by rw [bodySchema_ser, hy]; rfl)
      refine ⟨by cases b <;> exact there, fun j hj => ⟨t, hty, ?_⟩⟩
      obtain ⟨s, e, a⟩ := right j hj
      rw [jsonSchema_body] at e
      cases e
      exact types t _ hpl j (plain.body j hj) a
  · intro types su
    refine ⟨(access ps _ hwo _).2 su.security, fun name place x hne hx => ?_, fun name x hx text ht => ?_,
      fun b hb => ?_⟩
    · obtain ⟨q, he, rfl⟩ := (has name place x).1 hx
      obtain ⟨y, hd⟩ := effective_declared h hi hm ho hne he
      obtain ⟨q', r, he', hq, hr, hp⟩ := declared_placed h hi hw hm ho hwo clear hd
      cases effective_one he he'
      obtain ⟨there, right⟩ := su.parameters name place y hd
      refine ⟨?_, fun j hj => (schema hr).2 (types _ _ hp j (plain.sent _ _ _ hj) (right j hj))⟩
      rw [isRequired_param, hq.isRequired]
      exact there
    · obtain ⟨q, he, rfl⟩ := (has name .path x).1 hx
      obtain ⟨⟨⟨n, t⟩, text'⟩, hb, e⟩ := List.mem_map.1 ht
      cases e
      obtain ⟨q', r, he', hr, hp⟩ := template (typeOf_served clear hs hb)
      cases effective_one he he'
      obtain ⟨j, hj, a⟩ := su.path _ hb
      exact ⟨j, hj, (schema hr).2 (types _ _ hp j (plain.decode _ _ hj) a)⟩
    · rw [at_body] at hb
      obtain ⟨y, hy, rfl⟩ := Option.map_eq_some_iff.1 hb
      have hl := hop.body
      cases hbd : lastOf OpProp.body? ps with
      | none => rw [hbd, hy] at hl; cases hl
      | some bd =>
        rw [hbd] at hl
        obtain ⟨y', hy', hbo⟩ := hl
        rw [hy] at hy'
        cases hy'
        obtain ⟨there, right⟩ := su.body bd hbd
        rw [isRequired_body, jsonSchema_body, hbo.required]
        refine ⟨by cases bd <;> exact there, fun j hj => ⟨_, rfl, ?_⟩⟩
        obtain ⟨t, ht, a⟩ := right j hj
        have hpl : PlacedAt api d.ser t y.schema.ser := .body hwo hbd ht (by rw [bodySchema_ser, hy]; rfl)
        exact types t _ hpl j (plain.body j hj) a
end

/-- A request that the document takes is taken by the description if schemas accept only values of their types, and conversely if they
accept all of them. -/
theorem takes_both (excl : Bool) {reason : Nat → Option String} {api : Api} {d : Opg} (h : Composed reason api d)
    (distinct : d.ser.DistinctKeys)
    (access : ∀ ps op, OpWritten api d.ser ps op → ∀ shown, d.ser.Permits op shown ↔ api.Permits ps shown) (clear : ∀ decl ∈ api.pathList, decl.Clear) (ok : Ty → Json → Prop)
    (req : Request) (plain : req.Plain) :
    ((∀ t s, PlacedAt api d.ser t s → ∀ j, j.Distinct → Accepts excl d.ser s j → ok t j) → d.ser.Takes excl req → api.Takes ok req) ∧
    ((∀ t s, PlacedAt api d.ser t s → ∀ j, j.Distinct → ok t j → Accepts excl d.ser s j) → api.Takes ok req → d.ser.Takes excl req) := by
  have hpw := h.order
  have one_path : ∀ {i : Nat} {decl p v}, api.pathList[i]? = some decl → d.paths[i]? = some (p, v) →
      d.ser.at "paths" = some (.map (serPaths d.paths)) ∧ (Value.map (serPaths d.paths)).at (UrlPath.render p) = some v.ser ∧
      ItemWritten api d.ser decl v.ser := by
    intro i decl p v hi hv
    have hp : d.ser.at "paths" = some (.map (serPaths d.paths)) := by
      rw [at_paths, serPaths_map]
      cases hd : d.paths with
      | nil => rw [hd] at hv; simp at hv
      | cons _ _ => rfl
    have ha := at_path (distinct.at hp) hv
    exact ⟨hp, ha, .top hi (hpw.at hi hv) hp ha⟩
  constructor
  · rintro types ⟨paths, text, item, op, bs, hp, hi, hmatch, hop, su⟩
    have e : paths = .map (serPaths d.paths) := by rw [at_paths] at hp; exact nonEmptyMap_some hp
    subst e
    have hmem := BMap.mem_of_get (show BMap.get (.str text) (serPaths d.paths) = some item from hi)
    rw [serPaths_map] at hmem
    obtain ⟨⟨p, v⟩, hpv, e⟩ := List.mem_map.1 hmem
    cases e
    obtain ⟨i, decl, hid, hiv⟩ := hpw.get_right hpv
    obtain ⟨-, -, hw⟩ := one_path hid hiv
    have hin : ItemIn api d decl (p, v) := .top hid hiv
    have hdm := List.mem_of_getElem? hid
    rw [at_method] at hop
    obtain ⟨o, ho, rfl⟩ := Option.map_eq_some_iff.1 hop
    have io := h.items hin
    cases hm : lastOf (ItemProp.operation? req.method) decl.props with
    | none => rw [(io.operations _).2 hm] at ho; cases ho
    | some ps =>
      have hwo : OpWritten api d.ser ps o.ser := .mk hw hm (by rw [at_method, ho]; rfl)
      rw [UrlPath.render_toList] at hmatch
      obtain ⟨bs', rfl, hs⟩ := (serves_matches io.path (clear decl hdm).braces req.url bs).2 hmatch
      exact ⟨decl, hdm, ps, bs', hs, hm, (suits_both h access (clear decl hdm) hin hw hm ho hwo plain hs).1 types su⟩
  · rintro types ⟨decl, hdm, ps, bs, hs, hm, su⟩
    obtain ⟨i, hid⟩ := List.getElem?_of_mem hdm
    obtain ⟨⟨p, v⟩, hiv, _⟩ := hpw.get hid
    obtain ⟨hp, ha, hw⟩ := one_path hid hiv
    have hin : ItemIn api d decl (p, v) := .top hid hiv
    obtain ⟨o, ho, -⟩ := h.operation hin hm
    have hat : v.ser.at req.method.asStr = some o.ser := by rw [at_method, ho]; rfl
    exact ⟨_, _, _, _, _, hp, ha, (by rw [UrlPath.render_toList]; exact (serves_matches (h.items hin).path (clear decl hdm).braces req.url _).1 ⟨bs, rfl, hs⟩), hat,
      (suits_both h access (clear decl hdm) hin hw hm ho (.mk hw hm hat) plain hs).2 types su⟩

/-- **C113**. A document takes exactly the requests that its description takes: path, method, parameters, body and security
together.  Where the document has schemas for types, they are to accept the values of the types (C81, C88); the paths have no
braces in literals, and one type and one place for each name (C94, C111); security names are used for one scheme (C112).
Missing: descriptions with such names (`c113_is_false`). -/
theorem c113_requests_partial (excl : Bool) (env : Env) (reason : Nat → Option String) (api : Api) (d : Opg) (h : Describes env reason api d)
    (distinct : d.ser.DistinctKeys) (one : api.OneScheme) (clear : ∀ decl ∈ api.pathList, decl.Clear) (ok : Ty → Json → Prop)
    (types : ∀ t s, PlacedAt api d.ser t s → ∀ j, j.Distinct → (Accepts excl d.ser s j ↔ ok t j)) (req : Request) (plain : req.Plain) :
    d.ser.Takes excl req ↔ api.Takes ok req :=
  have both := takes_both excl h.composed distinct (c112_access_partial env reason api d h distinct one) clear ok req plain
  ⟨both.1 fun t s hp j hj => (types t s hp j hj).1, both.2 fun t s hp j hj => (types t s hp j hj).2⟩

/-- **C113**, with what serde reads: the requests a document takes are those of which the service reads every part, for types
whose schemas agree with what is read (C86, C87).
Missing: as in `c113_requests_partial`. -/
theorem c113_read_partial (env : Env) (rd : Reader) (reason : Nat → Option String) (api : Api) (d : Opg) (h : Describes env reason api d)
    (distinct : d.ser.DistinctKeys) (one : api.OneScheme) (clear : ∀ decl ∈ api.pathList, decl.Clear) (unique : NamesUnique env api.roots)
    (derived : ∀ i, Reached env api.roots (.named i) → ∃ o input, Derived o env i input)
    (readable : ∀ t, Reached env api.roots t → Readable env rd t) (documented : ∀ t, Reached env api.roots t → Documented env rd t)
    (strict : rd.lenient = false) (req : Request) (plain : req.Plain) : d.ser.Takes false req ↔ api.Takes (Reads env rd) req :=
  c113_requests_partial false env reason api d h distinct one clear _ (fun t s hp j hj =>
    ⟨c88_requests_partial false env rd reason api d h distinct unique derived readable t s hp j hj,
      c88_complete_partial env rd reason api d h distinct unique derived documented strict t s hp j⟩) req plain

theorem suits_operations (excl : Bool) {reason : Nat → Option String} {api : Api} {d : Opg} (h : Composed reason api d)
    (distinct : d.ser.DistinctKeys)
    (access : ∀ ps op, OpWritten api d.ser ps op → ∀ shown, d.ser.Permits op shown ↔ api.Permits ps shown) (ok : Ty → Json → Prop)
    (types : ∀ t s, PlacedAt api d.ser t s → ∀ j, j.Distinct → (Accepts excl d.ser s j ↔ ok t j)) (decl : PathDecl) (clear : decl.Clear)
    (item : Value) (hw : ItemWritten api d.ser decl item) (req : Request) (plain : req.Plain) (bs : List ((String × Ty) × String))
    (hs : Serves decl.segments req.url bs) :
    (∃ op, item.at req.method.asStr = some op ∧ d.ser.Suits excl item op (nameTexts bs) req) ↔
      ∃ ps, lastOf (ItemProp.operation? req.method) decl.props = some ps ∧ api.Suits ok decl ps bs req := by
  obtain ⟨p, v, hin, rfl, -⟩ := hw.itemIn h distinct
  constructor
  · rintro ⟨op, hop, su⟩
    rw [at_method] at hop
    obtain ⟨o, ho, rfl⟩ := Option.map_eq_some_iff.1 hop
    cases hm : lastOf (ItemProp.operation? req.method) decl.props with
    | none => rw [((h.items hin).operations _).2 hm] at ho; cases ho
    | some ps =>
      exact ⟨ps, rfl, (suits_both h access clear hin hw hm ho (.mk hw hm (by rw [at_method, ho]; rfl)) plain hs).1
        (fun t s hp j hj => (types t s hp j hj).1) su⟩
  · rintro ⟨ps, hm, su⟩
    obtain ⟨o, ho, -⟩ := h.operation hin hm
    have hat : v.ser.at req.method.asStr = some o.ser := by rw [at_method, ho]; rfl
    exact ⟨_, hat, (suits_both h access clear hin hw hm ho (.mk hw hm hat) plain hs).2 (fun t s hp j hj => (types t s hp j hj).2) su⟩

/-- **C113**, for every path item, in `paths` or in a callback: a request to its path is in order for an operation of the document
exactly if it is in order for the declared one.  In callbacks it is the service that sends the request.
Missing: as in `c113_requests_partial`. -/
theorem c113_operations_partial (excl : Bool) (env : Env) (reason : Nat → Option String) (api : Api) (d : Opg)
    (h : Describes env reason api d) (distinct : d.ser.DistinctKeys) (one : api.OneScheme) (ok : Ty → Json → Prop)
    (types : ∀ t s, PlacedAt api d.ser t s → ∀ j, j.Distinct → (Accepts excl d.ser s j ↔ ok t j)) (decl : PathDecl) (clear : decl.Clear)
    (item : Value) (hw : ItemWritten api d.ser decl item) (req : Request) (plain : req.Plain) (bs : List ((String × Ty) × String))
    (hs : Serves decl.segments req.url bs) :
    (∃ op, item.at req.method.asStr = some op ∧ d.ser.Suits excl item op (nameTexts bs) req) ↔
      ∃ ps, lastOf (ItemProp.operation? req.method) decl.props = some ps ∧ api.Suits ok decl ps bs req :=
  suits_operations excl h.composed distinct (c112_access_partial env reason api d h distinct one) ok types decl clear item hw req plain bs hs

def Sample.versionOp : List OpProp := [.parameters [.header "version" [], .query "version" (.prim .u32) []]]
def Sample.versionApi : Api := [.paths [.mk [.literal "a"] [.operation .get versionOp]]]
def Sample.versionDoc : Opg := (describeApi (⟨Sample.env, 10, reason⟩ : Ctx) versionApi).getD .empty

/-- C113 is false without the conditions: the document takes a request without the header that the description requires,
since a query parameter of the same name replaces it. -/
theorem c113_is_false : ∃ (env : Env) (reason : Nat → Option String) (api : Api) (d : Opg) (req : Request), Describes env reason api d ∧
    d.ser.DistinctKeys ∧ req.Plain ∧ d.ser.Takes true req ∧ ∀ ok, ¬ api.Takes ok req := by
  have h : Describes Sample.env reason versionApi versionDoc := ⟨10, rfl⟩
  have hin : ItemIn versionApi versionDoc (.mk [.literal "a"] [.operation .get versionOp]) _ :=
    .top (i := 0) rfl rfl
  have hd := c20_distinct_keys_partial _ (c25_described_documents _ _ _ _ h (by
    intro r hr
    simp [versionApi, versionOp, Api.parts, Api.pathList, Section.pathList, pathParts, itemParts, opParts, PathSeg.parts,
      ParamDecl.parts, ParamProp.parts] at hr))
    ⟨by show (List.map _ _).Nodup; decide +kernel, ⟨⟨trivial, ⟨⟨trivial, trivial⟩, trivial⟩⟩, trivial⟩⟩
  have has := hasParameter_ser h.composed hin (m := .get) (ps := versionOp) rfl rfl
  refine ⟨_, _, _, _, ⟨.get, "/a".toList, fun _ _ => none, fun _ => none, none, fun _ => False⟩, h, hd,
    ⟨fun _ _ _ h => (nomatch h), fun _ _ h => (nomatch h), fun _ h => (nomatch h)⟩, ?_, ?_⟩
  · refine ⟨_, "/a", _, _, [], rfl, rfl, .char (by decide) (.char (by decide) .nil), rfl, .inl rfl, fun name place p _ hp => ?_,
      fun name p _ text ht => (nomatch ht), fun b hb => (nomatch hb)⟩
    refine ⟨fun hr => ?_, fun j hj => (nomatch hj)⟩
    obtain ⟨q, he, rfl⟩ := (has name place p).1 hp
    rw [isRequired_param] at hr
    rcases he with ⟨hg, -⟩ | ⟨-, hg, -⟩
    · have hg := BMap.mem_of_get hg
      cases List.mem_singleton.1 hg
      cases hr
    · cases hg
  · rintro ok ⟨decl, hm, ps, bs, -, ho, su⟩
    cases List.mem_singleton.1 hm
    cases ho
    exact (su.parameters "version" .header _ rfl).there rfl rfl

namespace Sample

def tillOp : List OpProp := [.parameters [.query "draft" (.prim .bool) []], .body (.type (.named 0)), .security [[.literal "key" []]],
  .response 200 none (.type (.named 3))]
def tillPath : PathDecl := .mk [.literal "books", .named "id" (.prim .string)] [.parameters [.header "X-Shop" []], .operation .put tillOp,
  .operation .delete []]
def tillApi : Api := [.securitySchemes [.apiKey "key" [.name "k"]], .paths [tillPath]]
def tillDoc : Opg := (describeApi (⟨shop, 10, reason⟩ : Ctx) tillApi).getD .empty

theorem tillDoc_described : Describes shop reason tillApi tillDoc := ⟨10, rfl⟩

theorem tillDoc_distinct : tillDoc.ser.DistinctKeys := by
  refine c20_distinct_keys_partial _ (c25_described_documents _ _ _ _ tillDoc_described ?_) ?_
  · intro r hr
    simp [Api.parts, Api.pathList, tillApi, Section.pathList, pathParts, tillPath, itemParts, tillOp, opParts, SecurityDecl.parts,
      ParamDecl.parts, PathSeg.parts, ResponseDecl.parts, BodyDecl.parts] at hr
  · refine ⟨?_, ?_⟩
    · show (List.map _ _).Nodup
      decide +kernel
    · exact ⟨⟨trivial, ⟨⟨trivial, trivial⟩, ⟨⟨trivial, trivial⟩, trivial⟩⟩⟩, trivial⟩

theorem tillApi_closed : closedList shop tillApi.roots shopTypes = true := by
  have : tillApi.roots = [(.prim .string, true), (.prim .string, true), (.prim .bool, true), (.named 0, true), (.named 3, true)] := by
    simp [Api.roots, Api.parts, Api.pathList, tillApi, Section.pathList, pathParts, tillPath, itemParts, tillOp, opParts, SecurityDecl.parts,
      ParamDecl.parts, PathSeg.parts, ResponseDecl.parts, BodyDecl.parts, callsOf, Part.call?, rootsOf]
    rfl
  rw [this]
  decide +kernel

theorem tillApi_one : tillApi.OneScheme := by
  have key : ∀ name s, tillApi.Calls name s → s = .apiKey ⟨.header, "k", none⟩ := by
    intro name s hs
    cases hs with
    | declared h hn hs =>
      simp [tillApi, Section.schemeList] at h
      subst h
      obtain ⟨n, e, rfl⟩ := hs
      cases e
      rfl
    | used h =>
      simp [Api.parts, Api.pathList, tillApi, Section.pathList, pathParts, tillPath, itemParts, tillOp, opParts, SecurityDecl.parts,
        ParamDecl.parts, PathSeg.parts, ResponseDecl.parts, BodyDecl.parts] at h
  intro name s s' h h'
  rw [key name s h, key name s' h']

theorem tillPath_clear : tillPath.Clear where
  braces s hs := by
    simp [tillPath, PathDecl.segments] at hs
    rcases hs with rfl | rfl
    · simp [PathSeg.NoBraces]
    · intro n t h; cases h; decide
  types s hs s' hs' name t t' h h' := by
    simp [tillPath, PathDecl.segments] at hs hs'
    rcases hs with rfl | rfl <;> rcases hs' with rfl | rfl <;> cases h <;> cases h' <;> rfl
  own s hs x hx t := by
    simp [tillPath, PathDecl.segments] at hs
    simp [tillPath, PathDecl.props, ItemProp.paramList] at hx
    subst hx
    rcases hs with rfl | rfl <;> simp [PathSeg.typeOf?, PathSeg.param?, ParamDecl.name]
  path x hx y hy _ := by
    simp [tillPath, PathDecl.props, ItemProp.paramList] at hx hy
    rw [hx, hy]
  operations m ps h x hx y hy _ := by
    cases m <;> first | (cases h; done) | skip
    · cases h
      have hx : x ∈ [ParamDecl.query "draft" (.prim .bool) []] := hx
      have hy : y ∈ [ParamDecl.query "draft" (.prim .bool) []] := hy
      rw [List.mem_singleton.1 hx, List.mem_singleton.1 hy]
    · cases h
      cases hx

/-- The hypotheses hold of an API with parameters in the path, a header and the query, with a body and security.  A deletion with
the header is taken; no change is taken without the key. -/
example : (∀ req : Request, req.Plain → (tillDoc.ser.Takes false req ↔ tillApi.Takes (Reads shop (rust false)) req)) ∧
    (∃ req, req.Plain ∧ req.method = .delete ∧ tillDoc.ser.Takes false req) ∧
    ∀ req, req.Plain → req.method = .put → (∀ k, ¬ req.shown (.apiKey k)) → ¬ tillDoc.ser.Takes false req := by
  have all := c113_read_partial shop (rust false) reason tillApi tillDoc tillDoc_described tillDoc_distinct tillApi_one
    (fun decl hd => by cases List.mem_singleton.1 hd; exact tillPath_clear) (namesUnique_of_closed tillApi_closed (by decide +kernel))
    (fun i h => shop_derived (h.mem_closed tillApi_closed)) (fun t h => shop_readable (h.mem_closed tillApi_closed))
    (fun t h => shop_documented (h.mem_closed tillApi_closed)) rfl
  refine ⟨all, ⟨⟨.delete, "/books/5".toList, fun _ _ => some (.str "a"), fun w => some (.str w), none, fun _ => False⟩,
    ⟨?_, ?_, ?_⟩, rfl, (all _ ⟨?_, ?_, ?_⟩).2 ?_⟩, ?_⟩
  iterate 2
    · intro _ _ j h; cases h; exact .str
    · intro _ j h; cases h; exact .str
    · intro j h; cases h
  · refine ⟨tillPath, .head _, [], [(("id", .prim .string), "5")], ?_, rfl, .inl rfl, fun name place x hx => ?_, fun b hb => ?_,
      fun b hb => (nomatch hb)⟩
    · exact .literal (s := "books") (.typed (w := "5") rfl ⟨by decide, by decide⟩ .nil)
    · have hx : lastOf (ParamDecl.at? name place) [.header "X-Shop" []] = some x := hx
      obtain ⟨hm, -, -⟩ := at_mem hx
      cases List.mem_singleton.1 hm
      exact ⟨fun _ e => (nomatch e), fun j hj => by cases hj; exact .scalar trivial ⟨"a", rfl⟩⟩
    · cases List.mem_singleton.1 hb
      exact ⟨_, rfl, .scalar trivial ⟨"5", rfl⟩⟩
  · rintro req hp hm no h
    obtain ⟨decl, hd, ps, bs, -, ho, su⟩ := (all req hp).1 h
    cases List.mem_singleton.1 hd
    rw [hm] at ho
    cases ho
    rcases su.security with e | ⟨alt, ha, hs⟩
    · cases e
    · have ha : alt ∈ [[SecurityDecl.literal "key" []]] := ha
      cases List.mem_singleton.1 ha
      obtain ⟨s, hw, hc⟩ := hs _ (.head _)
      have hw : tillApi.Calls "key" s := hw
      cases tillApi_one _ _ _ hw (.declared (decl := .apiKey "key" [.name "k"]) (.head _) rfl ⟨_, rfl, rfl⟩)
      exact no _ hc

/-- A callback that tells when a job is done. -/
def ringPath : PathDecl := .mk [.literal "done"] [.operation .put [.body (.type (.prim .string))]]
def ringOp : List OpProp := [.callbacks [.ident "onDone" [ringPath]]]
def ringApi : Api := [.paths [.mk [.literal "jobs"] [.operation .post ringOp]]]
def ringDoc : Opg := (describeApi (⟨shop, 10, reason⟩ : Ctx) ringApi).getD .empty

theorem ringDoc_described : Describes shop reason ringApi ringDoc := ⟨10, rfl⟩

/-- The hypotheses hold of an operation in a callback: its requests are those with a string for a body. -/
example : ∃ item, ItemWritten ringApi ringDoc.ser ringPath item ∧ ∀ body : Json, body.Distinct →
    ((∃ op, item.at "put" = some op ∧ ringDoc.ser.Suits false item op [] ⟨.put, "/done".toList, fun _ _ => none, fun _ => none, some body,
      fun _ => False⟩) ↔ Reads shop (rust false) (.prim .string) body) := by
  have distinct : ringDoc.ser.DistinctKeys := by
    refine c20_distinct_keys_partial _ (c25_described_documents _ _ _ _ ringDoc_described ?_) ?_
    · intro r hr
      simp [Api.parts, Api.pathList, ringApi, ringOp, ringPath, Section.pathList, pathParts, itemParts, opParts, callbackParts, PathSeg.parts,
        BodyDecl.parts] at hr
    · exact ⟨by show (List.map _ _).Nodup; decide +kernel, ⟨⟨trivial, ⟨⟨trivial, ⟨⟨by show (List.map _ _).Nodup; decide +kernel,
        ⟨⟨trivial, ⟨⟨trivial, trivial⟩, trivial⟩⟩, trivial⟩⟩, trivial⟩⟩, trivial⟩⟩, trivial⟩⟩
  have closed : closedList shop ringApi.roots [.prim .string] = true := by
    have : ringApi.roots = [(.prim .string, true)] := by
      simp [Api.roots, Api.parts, Api.pathList, ringApi, ringOp, ringPath, Section.pathList, pathParts, itemParts, opParts, callbackParts,
        PathSeg.parts, BodyDecl.parts, callsOf, Part.call?, rootsOf]
    rw [this]
    decide +kernel
  have unique := namesUnique_of_closed closed (by decide +kernel)
  have types : ∀ t s, PlacedAt ringApi ringDoc.ser t s → ∀ j : Json, j.Distinct →
      (Accepts false ringDoc.ser s j ↔ Reads shop (rust false) t j) := by
    have mem : ∀ {t}, t ∈ [Ty.prim .string] → t ∈ shopTypes := by
      intro t h
      rw [List.mem_singleton.1 h]
      simp [shopTypes]
    have derived : ∀ i, Reached shop ringApi.roots (.named i) → ∃ o input, Derived o shop i input := fun i h =>
      shop_derived (mem (h.mem_closed closed))
    exact fun t s hp j hj => ⟨c88_requests_partial false shop (rust false) reason ringApi ringDoc ringDoc_described distinct unique derived
        (fun t h => shop_readable (mem (h.mem_closed closed))) t s hp j hj,
      c88_complete_partial shop (rust false) reason ringApi ringDoc ringDoc_described distinct unique derived
        (fun t h => shop_documented (mem (h.mem_closed closed))) rfl t s hp j⟩
  have one : ringApi.OneScheme := by
    have none : ∀ name s, ¬ ringApi.Calls name s := by
      intro name s hs
      cases hs with
      | declared h => simp [ringApi, Section.schemeList] at h
      | used h =>
        simp [Api.parts, Api.pathList, ringApi, ringOp, ringPath, Section.pathList, pathParts, itemParts, opParts, callbackParts,
          PathSeg.parts, BodyDecl.parts] at h
    exact fun name s _ h => absurd h (none name s)
  have clear : ringPath.Clear := by
    refine ⟨?_, ?_, ?_, ?_, ?_⟩
    · simp [ringPath, PathDecl.segments, PathSeg.NoBraces]
    · simp [ringPath, PathDecl.segments, PathSeg.param?]
    · intro s _ x hx
      simp [ringPath, PathDecl.props, ItemProp.paramList] at hx
    · intro x hx
      simp [ringPath, PathDecl.props, ItemProp.paramList] at hx
    · intro m ps h x hx
      cases m <;> first | (cases h; done) | skip
      cases h
      cases hx
  have hw : ItemWritten ringApi ringDoc.ser ringPath _ :=
    .callback (name := "onDone") (i := 0) (p := [.path "done"])
      (.mk (m := .post) (ps := ringOp) (.top (i := 0) (p := [.path "jobs"]) rfl (.cons (.literal "jobs") .nil) rfl rfl) rfl rfl)
      rfl rfl (.cons (.literal "done") .nil) rfl rfl rfl
  refine ⟨_, hw, fun body hb => ?_⟩
  refine (c113_operations_partial false shop reason ringApi ringDoc ringDoc_described distinct one _ types ringPath clear _ hw
    ⟨.put, "/done".toList, fun _ _ => none, fun _ => none, some body, fun _ => False⟩
    ⟨fun _ _ j h => (nomatch h), fun _ j h => (nomatch h), fun j h => by cases h; exact hb⟩ [] (.literal (s := "done") .nil)).trans ?_
  constructor
  · rintro ⟨ps, hm, su⟩
    cases hm
    obtain ⟨t, ht, hr⟩ := (su.body _ rfl).right body rfl
    cases ht
    exact hr
  · intro hr
    refine ⟨_, rfl, .inl rfl, fun name place x hx => (nomatch hx), fun b hb => (nomatch hb), fun b hb => ?_⟩
    cases hb
    exact ⟨fun _ e => (nomatch e), fun j hj => by cases hj; exact ⟨_, rfl, hr⟩⟩

end Sample

end Verif
