import Verif.Spec.Api
import Verif.Proof.Returns
import Verif.Proof.DocForall
import Verif.Proof.Shapes
/-!
# Running descriptions
-/

namespace Verif

/-! ## Actions -/

@[simp] theorem act_pure {α : Type} {a b : α} {cx cx' : Components} :
    (pure a : Act α) cx = some (b, cx') ↔ a = b ∧ cx = cx' := by
  change (some (a, cx) = some (b, cx')) ↔ _
  simp

@[simp] theorem act_bind {α β : Type} {x : Act α} {f : α → Act β} {b : β} {cx cx' : Components} :
    (x >>= f) cx = some (b, cx') ↔ ∃ a cx1, x cx = some (a, cx1) ∧ f a cx1 = some (b, cx') := by
  change (StateT.bind x f cx = some (b, cx')) ↔ _
  unfold StateT.bind
  cases h : x cx with
  | none => simp
  | some p =>
    obtain ⟨a, cx1⟩ := p
    constructor
    · intro h'; exact ⟨a, cx1, rfl, h'⟩
    · rintro ⟨a', cx1', h1, h2⟩; cases h1; exact h2

@[simp] theorem act_failure {α : Type} {b : α} {cx cx' : Components} :
    (failure : Act α) cx = some (b, cx') ↔ False := by
  change (none = some (b, cx')) ↔ False
  simp

theorem ask_returns {c : Ctx} {t : Ty} {cx r cx'} (h : ask c t cx = some (r, cx')) :
    MentionReturns c.env t false {} cx r cx' := ⟨c.fuel, h⟩

theorem MentionReturns.mentions {env : Env} {t i p cx r cx'} (h : MentionReturns env t i p cx r cx') :
    Mentions env t i p r := ⟨cx, cx', h⟩

variable {env : Env}

theorem CallsReturn.append {cx calls rs cx1 calls' rs' cx2} (h : CallsReturn env cx calls rs cx1)
    (h' : CallsReturn env cx1 calls' rs' cx2) : CallsReturn env cx (calls ++ calls') (rs ++ rs') cx2 := by
  induction h with
  | nil => exact h'
  | mention hm _ ih => exact .mention hm (ih h')
  | addModel _ ih => exact .addModel (ih h')
  | security _ ih => exact .security (ih h')

theorem callsOf_append (ps qs : List Part) : callsOf (ps ++ qs) = callsOf ps ++ callsOf qs := by
  simp [callsOf]

variable {κ : Type} [Mentioner κ] {c : κ}

/-- The effect of a piece of evaluation: the calls of its parts return `rs`. -/
inductive Ran (c : κ) : List Part → List Ref → Components → Components → Prop
  | nil (cx) : Ran c [] [] cx cx
  | mention {t r ps rs cx cx1 cx2} (h : ask c t cx = some (r, cx1)) (rest : Ran c ps rs cx1 cx2) : Ran c (.mention t :: ps) (r :: rs) cx cx2
  | scheme {n s ps rs cx cx'} (t : Ran c ps rs (cx.mentionSecurityScheme n s).2 cx') : Ran c (.scheme n s :: ps) rs cx cx'
  | literal {n ps rs cx cx'} (t : Ran c ps rs cx cx') : Ran c (.literal n :: ps) rs cx cx'
  | raw {r ps rs cx cx'} (t : Ran c ps rs cx cx') : Ran c (.raw r :: ps) rs cx cx'

theorem Ran.append {ps qs rs rs' cx cx1 cx2} (h : Ran c ps rs cx cx1) (h' : Ran c qs rs' cx1 cx2) :
    Ran c (ps ++ qs) (rs ++ rs') cx cx2 := by
  induction h with
  | nil => exact h'
  | mention h _ ih => exact .mention h (ih h')
  | scheme _ ih => exact .scheme (ih h')
  | literal _ ih => exact .literal (ih h')
  | raw _ ih => exact .raw (ih h')

theorem Ran.ask {t : Ty} {cx r cx'} (h : ask c t cx = some (r, cx')) : Ran c [.mention t] [r] cx cx' :=
  .mention h (.nil _)

theorem Ran.calls {c : Ctx} {ps rs cx cx'} (h : Ran c ps rs cx cx') : CallsReturn c.env cx (callsOf ps) rs cx' := by
  induction h with
  | nil => exact .nil _
  | mention h _ ih => exact .mention (ask_returns h) ih
  | scheme _ ih => exact .security ih
  | literal _ ih => exact ih
  | raw _ ih => exact ih

/-- The result of a piece of evaluation is made of the answers `rs` to its calls and of its own parts: whatever holds
of those holds of the result. -/
structure Givens (P : Ref → Prop) (S : String → Prop) (parts : List Part) (rs : List Ref) : Prop where
  refs : ∀ r ∈ rs, P r
  raws : ∀ r, Part.raw r ∈ parts → P r
  schemes : ∀ n s, Part.scheme n s ∈ parts → S n
  literals : ∀ n, Part.literal n ∈ parts → S n

theorem Givens.left {P S ps qs rs rs'} (h : Givens P S (ps ++ qs) (rs ++ rs')) : Givens P S ps rs where
  refs r hr := h.refs r (List.mem_append_left _ hr)
  raws r hr := h.raws r (List.mem_append_left _ hr)
  schemes n s hr := h.schemes n s (List.mem_append_left _ hr)
  literals n hr := h.literals n (List.mem_append_left _ hr)

theorem Givens.right {P S ps qs rs rs'} (h : Givens P S (ps ++ qs) (rs ++ rs')) : Givens P S qs rs' where
  refs r hr := h.refs r (List.mem_append_right _ hr)
  raws r hr := h.raws r (List.mem_append_right _ hr)
  schemes n s hr := h.schemes n s (List.mem_append_right _ hr)
  literals n hr := h.literals n (List.mem_append_right _ hr)

/-- All schemas of parameters satisfy `P`; the map is in key order. -/
def ParamsAll (P : Ref → Prop) (ps : List (String × OperationParameter)) : Prop :=
  BMap.Sorted ps ∧ ∀ r ∈ ps.flatMap (fun p => p.2.schema.toList), P r

theorem ParamsAll.insert {P ps} (h : ParamsAll P ps) (name : String) {p : OperationParameter}
    (hp : ∀ r, p.schema = some r → P r) : ParamsAll P (BMap.insert name p ps) := by
  refine ⟨BMap.sorted_insert h.1, ?_⟩
  intro r hr
  obtain ⟨b, hb, hr⟩ := List.mem_flatMap.1 hr
  rcases BMap.mem_insert_sub hb with rfl | hb
  · exact hp r (by simpa using hr)
  · exact h.2 r (List.mem_flatMap.2 ⟨b, hb, hr⟩)

/-! ## Parameters -/

theorem runParamProps_ran (ps : List ParamProp) {p cx p' cx'}
    (h : runParamProps c ps p cx = some (p', cx')) :
    ∃ rs, Ran c (ps.flatMap ParamProp.parts) rs cx cx' ∧
      ∀ P S, Givens P S (ps.flatMap ParamProp.parts) rs → (∀ r, p.schema = some r → P r) → ∀ r, p'.schema = some r → P r := by
  induction ps generalizing p cx with
  | nil =>
    simp only [runParamProps, act_pure] at h
    obtain ⟨rfl, rfl⟩ := h
    exact ⟨[], .nil _, fun _ _ _ h => h⟩
  | cons q ps ih =>
    rw [List.flatMap_cons]
    cases q with
    | schema t =>
      simp only [runParamProps, act_bind] at h
      obtain ⟨r, cx1, h1, h⟩ := h
      obtain ⟨rs, hr, hp⟩ := ih h
      refine ⟨[r] ++ rs, (Ran.ask h1).append hr, fun P S g hs => hp P S g.right ?_⟩
      rintro r' hr'
      cases hr'
      exact g.refs _ (by simp)
    | _ =>
      simp only [runParamProps] at h
      obtain ⟨rs, hr, hp⟩ := ih h
      exact ⟨rs, hr, hp⟩

theorem ParamDecl.run_ran (d : ParamDecl) {cx x cx'} (h : d.run c cx = some (x, cx')) :
    x.1 = d.name ∧ ∃ rs, Ran c d.parts rs cx cx' ∧
      ∀ P S, Givens P S d.parts rs → ∀ r, x.2.schema = some r → P r := by
  cases d with
  | header name ps | query name t ps =>
    simp only [ParamDecl.run, act_bind, act_pure] at h
    obtain ⟨r, cx1, h1, p, cx2, h2, rfl, rfl⟩ := h
    obtain ⟨rs, hr, hp⟩ := runParamProps_ran ps h2
    refine ⟨rfl, [r] ++ rs, (Ran.ask h1).append hr, fun P S g => hp P S (Givens.right (ps := [_]) (rs := [r]) g) ?_⟩
    rintro r' hr'
    cases hr'
    exact g.refs _ (by simp)

theorem runParameters_ran (ds : List ParamDecl) {m cx m' cx'}
    (h : runParameters c ds m cx = some (m', cx')) :
    ∃ rs, Ran c (ds.flatMap ParamDecl.parts) rs cx cx' ∧
      ∀ P S, Givens P S (ds.flatMap ParamDecl.parts) rs → ParamsAll P m → ParamsAll P m' := by
  induction ds generalizing m cx with
  | nil =>
    simp only [runParameters, act_pure] at h
    obtain ⟨rfl, rfl⟩ := h
    exact ⟨[], .nil _, fun _ _ _ h => h⟩
  | cons d ds ih =>
    rw [List.flatMap_cons]
    simp only [runParameters, act_bind] at h
    obtain ⟨⟨name, p⟩, cx1, h1, h⟩ := h
    obtain ⟨-, rs, hr, hp⟩ := d.run_ran h1
    obtain ⟨rs', hr', hp'⟩ := ih h
    exact ⟨rs ++ rs', hr.append hr', fun P S g hm => hp' P S g.right (hm.insert name (hp P S g.left))⟩

theorem urlParam_ran {name t ps cx x cx'} (h : urlParam c name t ps cx = some (x, cx')) :
    ∃ rs, Ran c [.mention t] rs cx cx' ∧
      ∀ P S, Givens P S [.mention t] rs → ParamsAll P ps → ParamsAll P x.2 := by
  simp only [urlParam, act_bind, act_pure] at h
  obtain ⟨r, cx1, h1, rfl, rfl⟩ := h
  refine ⟨[r], .ask h1, fun P S g hm => hm.insert name ?_⟩
  rintro r' hr'
  cases hr'
  exact g.refs _ (by simp)

theorem PathSeg.run_ran (s : PathSeg) {ps cx x cx'} (h : s.run c ps cx = some (x, cx')) :
    ∃ rs, Ran c s.parts rs cx cx' ∧ ∀ P S, Givens P S s.parts rs → ParamsAll P ps → ParamsAll P x.2 := by
  cases s with
  | literal s =>
    simp only [PathSeg.run, act_pure] at h
    obtain ⟨rfl, rfl⟩ := h
    exact ⟨[], .nil _, fun _ _ _ h => h⟩
  | bare path t =>
    rw [PathSeg.run] at h
    cases hb : bareName path.print with
    | none => rw [hb] at h; exact absurd h (by simp)
    | some name => rw [hb] at h; exact urlParam_ran h
  | named name t => exact urlParam_ran h

theorem runUrl_ran (ss : List PathSeg) {ps cx x cx'} (h : runUrl c ss ps cx = some (x, cx')) :
    ∃ rs, Ran c (ss.flatMap PathSeg.parts) rs cx cx' ∧
      ∀ P S, Givens P S (ss.flatMap PathSeg.parts) rs → ParamsAll P ps → ParamsAll P x.2 := by
  induction ss generalizing ps cx x with
  | nil =>
    simp only [runUrl, act_pure] at h
    obtain ⟨rfl, rfl⟩ := h
    exact ⟨[], .nil _, fun _ _ _ h => h⟩
  | cons s ss ih =>
    rw [List.flatMap_cons]
    simp only [runUrl, act_bind, act_pure] at h
    obtain ⟨⟨e, ps1⟩, cx1, h1, ⟨es, ps2⟩, cx2, h2, rfl, rfl⟩ := h
    obtain ⟨rs, hr, hp⟩ := s.run_ran h1
    obtain ⟨rs', hr', hp'⟩ := ih h2
    exact ⟨rs ++ rs', hr.append hr', fun P S g hm => hp' P S g.right (hp P S g.left hm)⟩

/-! ## Bodies, responses, security -/

theorem runBodyProps_ran (ps : List BodyProp) {d q s cx x cx'}
    (h : runBodyProps c ps d q s cx = some (x, cx')) :
    ∃ rs, Ran c (ps.flatMap BodyProp.parts) rs cx cx' ∧
      ∀ P S, Givens P S (ps.flatMap BodyProp.parts) rs → (∀ r, s = some r → P r) → ∀ r, x.2.2 = some r → P r := by
  induction ps generalizing d q s cx with
  | nil =>
    simp only [runBodyProps, act_pure] at h
    obtain ⟨rfl, rfl⟩ := h
    exact ⟨[], .nil _, fun _ _ _ h => h⟩
  | cons a ps ih =>
    rw [List.flatMap_cons]
    cases a with
    | schema t =>
      simp only [runBodyProps, act_bind] at h
      obtain ⟨r, cx1, h1, h⟩ := h
      obtain ⟨rs, hr, hp⟩ := ih h
      refine ⟨[r] ++ rs, (Ran.ask h1).append hr, fun P S g hs => hp P S g.right ?_⟩
      rintro r' hr'
      cases hr'
      exact g.refs _ (by simp)
    | _ =>
      simp only [runBodyProps] at h
      exact ih h

theorem BodyDecl.run_ran (b : BodyDecl) {cx x cx'} (h : b.run c cx = some (x, cx')) :
    ∃ rs, Ran c b.parts rs cx cx' ∧ ∀ P S, Givens P S b.parts rs → P x.schema := by
  cases b with
  | props ps =>
    simp only [BodyDecl.run, act_bind] at h
    obtain ⟨⟨d, q, s⟩, cx1, h1, h⟩ := h
    obtain ⟨rs, hr, hp⟩ := runBodyProps_ran ps h1
    cases s with
    | none => simp at h
    | some s =>
      simp only [act_pure] at h
      obtain ⟨rfl, rfl⟩ := h
      exact ⟨rs, hr, fun P S g => hp P S g (by simp) _ rfl⟩
  | type t =>
    simp only [BodyDecl.run, act_bind, act_pure] at h
    obtain ⟨r, cx1, h1, rfl, rfl⟩ := h
    exact ⟨[r], .ask h1, fun P S g => g.refs _ (by simp)⟩

theorem ResponseDecl.run_ran (s : ResponseDecl) {cx x cx'} (h : s.run c cx = some (x, cx')) :
    ∃ rs, Ran c s.parts rs cx cx' ∧ ∀ P S, Givens P S s.parts rs → ∀ r, x = some r → P r := by
  cases s with
  | absent =>
    simp only [ResponseDecl.run, act_pure] at h
    obtain ⟨rfl, rfl⟩ := h
    exact ⟨[], .nil _, by simp⟩
  | type t =>
    simp only [ResponseDecl.run, act_bind, act_pure] at h
    obtain ⟨r, cx1, h1, rfl, rfl⟩ := h
    refine ⟨[r], .ask h1, fun P S g => ?_⟩
    rintro r' hr'
    cases hr'
    exact g.refs _ (by simp)
  | raw s =>
    simp only [ResponseDecl.run, act_pure] at h
    obtain ⟨rfl, rfl⟩ := h
    cases s with
    | none => exact ⟨[], .nil _, by simp⟩
    | some r =>
      refine ⟨[], .raw (.nil _), fun P S g => ?_⟩
      rintro r' hr'
      cases hr'
      exact g.raws _ (by simp [ResponseDecl.parts])

theorem runResponse_ran {code description s cx x cx'}
    (h : runResponse c code description s cx = some (x, cx')) :
    ∃ rs, Ran c s.parts rs cx cx' ∧ ∀ P S, Givens P S s.parts rs → ∀ r, x.schema = some r → P r := by
  simp only [runResponse, act_bind] at h
  obtain ⟨r, cx1, h1, h⟩ := h
  split at h
  · simp only [act_pure] at h
    obtain ⟨rfl, rfl⟩ := h
    exact s.run_ran h1
  · simp at h

theorem SecurityDecl.run_ran (s : SecurityDecl) {cx x cx'} (h : s.run cx = some (x, cx')) :
    x = s.name ∧ Ran c s.parts [] cx cx' := by
  cases s with
  | literal name roles =>
    simp only [SecurityDecl.run] at h
    split at h
    · simp only [act_pure] at h
      obtain ⟨rfl, rfl⟩ := h
      exact ⟨rfl, .literal (.nil _)⟩
    · simp at h
  | scheme name value roles =>
    simp only [SecurityDecl.run] at h
    split at h
    · have e : (cx.mentionSecurityScheme name value) = (x, cx') := Option.some.inj h
      have e1 : x = name := by
        have := congrArg Prod.fst e
        unfold Components.mentionSecurityScheme at this
        split at this <;> exact this.symm
      refine ⟨e1, .scheme ?_⟩
      rw [e]
      exact .nil _
    · simp at h

theorem mem_parts_name {S : String → Prop} {s : SecurityDecl} {ps : List Part} {rs P} (g : Givens P S ps rs)
    (h : ∀ p ∈ s.parts, p ∈ ps) : S s.name := by
  cases s with
  | literal n roles => exact g.literals n (h _ (by simp [SecurityDecl.parts]))
  | scheme n v roles => exact g.schemes n v (h _ (by simp [SecurityDecl.parts]))

theorem runSecurityItems_ran (ss : List SecurityDecl) {m cx m' cx'} (h : runSecurityItems ss m cx = some (m', cx')) :
    Ran c (ss.flatMap SecurityDecl.parts) [] cx cx' ∧
    ∀ P S rs, Givens P S (ss.flatMap SecurityDecl.parts) rs → (BMap.Sorted m ∧ ∀ b ∈ m, S b.1) →
      BMap.Sorted m' ∧ ∀ b ∈ m', S b.1 := by
  induction ss generalizing m cx with
  | nil =>
    simp only [runSecurityItems, act_pure] at h
    obtain ⟨rfl, rfl⟩ := h
    exact ⟨.nil _, fun _ _ _ _ h => h⟩
  | cons s ss ih =>
    rw [List.flatMap_cons]
    simp only [runSecurityItems, act_bind] at h
    obtain ⟨name, cx1, h1, h⟩ := h
    obtain ⟨rfl, hr⟩ := s.run_ran (c := c) h1
    obtain ⟨hr', hp⟩ := ih h
    refine ⟨hr.append hr', fun P S rs g hm => hp P S rs ⟨g.refs, fun r hr => g.raws r (List.mem_append_right _ hr),
      fun n s hr => g.schemes n s (List.mem_append_right _ hr), fun n hr => g.literals n (List.mem_append_right _ hr)⟩
      ⟨BMap.sorted_insert hm.1, ?_⟩⟩
    intro b hb
    rcases BMap.mem_insert_sub hb with rfl | hb
    · exact mem_parts_name g (fun p hp => List.mem_append_left _ hp)
    · exact hm.2 b hb

theorem runSecurity_ran (alts : List (List SecurityDecl)) {cx ms cx'} (h : runSecurity alts cx = some (ms, cx')) :
    Ran c (alts.flatMap fun alt => alt.flatMap SecurityDecl.parts) [] cx cx' ∧
    ∀ P S rs, Givens P S (alts.flatMap fun alt => alt.flatMap SecurityDecl.parts) rs →
      ∀ m ∈ ms, BMap.Sorted m ∧ ∀ b ∈ m, S b.1 := by
  induction alts generalizing cx ms with
  | nil =>
    simp only [runSecurity, act_pure] at h
    obtain ⟨rfl, rfl⟩ := h
    exact ⟨.nil _, by simp⟩
  | cons alt alts ih =>
    rw [List.flatMap_cons]
    cases alt with
    | nil => simp [runSecurity] at h
    | cons s ss =>
      simp only [runSecurity, act_bind, act_pure] at h
      obtain ⟨m, cx1, h1, ms', cx2, h2, rfl, rfl⟩ := h
      obtain ⟨hr, hp⟩ := runSecurityItems_ran (c := c) _ h1
      obtain ⟨hr', hp'⟩ := ih h2
      refine ⟨hr.append hr', fun P S rs g => ?_⟩
      intro m' hm'
      rcases List.mem_cons.1 hm' with rfl | hm'
      · exact hp P S rs ⟨g.refs, fun r hr => g.raws r (List.mem_append_left _ hr),
          fun n s hr => g.schemes n s (List.mem_append_left _ hr), fun n hr => g.literals n (List.mem_append_left _ hr)⟩
          ⟨BMap.sorted_nil, by simp⟩
      · exact hp' P S rs ⟨g.refs, fun r hr => g.raws r (List.mem_append_right _ hr),
          fun n s hr => g.schemes n s (List.mem_append_right _ hr), fun n hr => g.literals n (List.mem_append_right _ hr)⟩
          m' hm'

end Verif
