import Verif.Proof.ApiRun
/-!
# What each declaration of a description contributes
-/

namespace Verif

/-! ## Last values -/

@[simp] theorem lastOf_nil {α β : Type} (f : α → Option β) : lastOf f [] = none := rfl

theorem lastOf_cons {α β : Type} (f : α → Option β) (a : α) (l : List α) :
    lastOf f (a :: l) = (lastOf f l).or (f a) := by
  unfold lastOf
  cases h : f a with
  | none => simp [List.filterMap_cons, h]
  | some b =>
    simp only [List.filterMap_cons, h]
    cases hl : l.filterMap f with
    | nil => rfl
    | cons c cs =>
      rw [List.getLast?_cons_cons]
      cases hc : (c :: cs).getLast? with
      | none => simp at hc
      | some x => simp

theorem lastOf_append {α β : Type} (f : α → Option β) (l l' : List α) :
    lastOf f (l ++ l') = (lastOf f l').or (lastOf f l) := by
  induction l with
  | nil => simp
  | cons a l ih => rw [List.cons_append, lastOf_cons, lastOf_cons, ih, Option.or_assoc]

theorem lastOf_mem {α β : Type} {f : α → Option β} {l : List α} {b : β} (h : lastOf f l = some b) :
    ∃ a ∈ l, f a = some b := by
  unfold lastOf at h
  obtain ⟨a, ha, hb⟩ := List.mem_filterMap.1 (List.mem_of_getLast? h)
  exact ⟨a, ha, hb⟩

theorem lastOf_none {α β : Type} {f : α → Option β} {l : List α} : lastOf f l = none ↔ ∀ a ∈ l, f a = none := by
  unfold lastOf
  rw [List.getLast?_eq_none_iff, List.filterMap_eq_nil_iff]

section
variable {α β : Type} {P : α → β → Prop}

theorem Last.refl (o : Option β) : Last P none o o := rfl

theorem Last.trans {a b : Option α} {old mid new : Option β} (h : Last P b old mid) (h' : Last P a mid new) :
    Last P (a.or b) old new := by
  cases a with
  | some d => exact h'
  | none =>
    have e : new = mid := h'
    subst e
    exact h

theorem Last.of_eq {a : Option α} {o : Option β} (h : a = none) : Last P a o o := by rw [h]; rfl

theorem Last.none_eq {old new : Option β} (h : Last P none old new) : new = old := h

theorem Last.imp {Q : α → β → Prop} (i : ∀ a b, P a b → Q a b) {a : Option α} {old new : Option β} (h : Last P a old new) :
    Last Q a old new := by
  cases a with
  | none => exact h
  | some d => obtain ⟨v, hv, hp⟩ := h; exact ⟨v, hv, i _ _ hp⟩

/-- What a document holds under a key is what the last declaration means. -/
theorem Last.meaning {decl : Option α} {v : β} (h : Last P decl none (some v)) : ∃ d, decl = some d ∧ P d v := by
  cases decl with
  | none => exact absurd h (by simp [Last])
  | some d => obtain ⟨v', hv, hp⟩ := h; cases hv; exact ⟨d, rfl, hp⟩

end

theorem Last.inserted {κ α β : Type} [Ord κ] [DecidableEq κ] [Std.TransOrd κ] [Std.LawfulEqOrd κ] {P : α → β → Prop} {d : α} {v : β} (hp : P d v)
    (k name : κ) (m : List (κ × β)) :
    Last P (if k = name then some d else none) (BMap.get name m) (BMap.get name (BMap.insert k v m)) := by
  by_cases e : k = name
  · subst e
    rw [if_pos rfl, BMap.get_insert_self]
    exact ⟨_, rfl, hp⟩
  · rw [if_neg e, BMap.get_insert_ne (fun e' => e e'.symm)]
    exact rfl

/-! ## Parameters -/

/-- Schemas a type may be given where an API is described. -/
class Telling (κ : Type) [Mentioner κ] where
  told : κ → Ty → Ref → Prop
  tells : ∀ {c : κ} {t cx r cx'}, ask c t cx = some (r, cx') → told c t r

export Telling (told tells)

instance : Telling Ctx where
  told c t r := Mentions c.env t false {} r
  tells h := (ask_returns h).mentions

section
variable {κ : Type} [Mentioner κ] [Telling κ]

theorem runParamProps_fields {c : κ} (ps : List ParamProp) {p cx p' cx'} (h : runParamProps c ps p cx = some (p', cx')) :
    p'.parameterIn = p.parameterIn ∧ p'.description = (lastOf ParamProp.description? ps).or p.description ∧
    p'.required = (lastOf ParamProp.required? ps).getD p.required ∧
    p'.deprecated = (lastOf ParamProp.deprecated? ps).getD p.deprecated ∧
    Last (told c) (lastOf ParamProp.schema? ps) p.schema p'.schema := by
  induction ps generalizing p cx with
  | nil =>
    simp only [runParamProps, act_pure] at h
    obtain ⟨rfl, rfl⟩ := h
    exact ⟨rfl, rfl, rfl, rfl, rfl⟩
  | cons q ps ih =>
    simp only [lastOf_cons]
    cases q with
    | schema t =>
      simp only [runParamProps, act_bind] at h
      obtain ⟨r, cx1, h1, h⟩ := h
      obtain ⟨a1, a2, a3, a4, a5⟩ := ih h
      simp only [ParamProp.description?, ParamProp.required?, ParamProp.deprecated?, ParamProp.schema?, Option.or_none]
      exact ⟨a1, a2, a3, a4, Last.trans ⟨r, rfl, (tells h1)⟩ a5⟩
    | description s =>
      simp only [runParamProps] at h
      obtain ⟨a1, a2, a3, a4, a5⟩ := ih h
      simp only [ParamProp.description?, ParamProp.required?, ParamProp.deprecated?, ParamProp.schema?, Option.or_none]
      refine ⟨a1, ?_, a3, a4, a5⟩
      rw [a2, Option.or_assoc]; rfl
    | required b =>
      simp only [runParamProps] at h
      obtain ⟨a1, a2, a3, a4, a5⟩ := ih h
      simp only [ParamProp.description?, ParamProp.required?, ParamProp.deprecated?, ParamProp.schema?, Option.or_none]
      refine ⟨a1, a2, ?_, a4, a5⟩
      rw [a3]; cases lastOf ParamProp.required? ps <;> rfl
    | deprecated b =>
      simp only [runParamProps] at h
      obtain ⟨a1, a2, a3, a4, a5⟩ := ih h
      simp only [ParamProp.description?, ParamProp.required?, ParamProp.deprecated?, ParamProp.schema?, Option.or_none]
      refine ⟨a1, a2, a3, ?_, a5⟩
      rw [a4]; cases lastOf ParamProp.deprecated? ps <;> rfl

theorem Last.schema {M : Ty → Ref → Prop} {decl : Option Ty} {t : Ty} {r : Ref} {new : Option Ref} (hr : M t r)
    (h : Last M decl (some r) new) :
    ∃ r', new = some r' ∧ M (decl.getD t) r' := by
  cases decl with
  | none => exact ⟨r, h, hr⟩
  | some t' => exact h

theorem ParamDecl.run_paramOf {c : κ} (d : ParamDecl) {cx x cx'} (h : d.run c cx = some (x, cx')) :
    x.1 = d.name ∧ ParamBy (told c) d x.2 := by
  cases d with
  | header name ps =>
    simp only [ParamDecl.run, act_bind, act_pure] at h
    obtain ⟨r, cx1, h1, p, cx2, h2, rfl, rfl⟩ := h
    obtain ⟨a1, a2, a3, a4, a5⟩ := runParamProps_fields ps h2
    exact ⟨rfl, a1, by simpa [ParamDecl.props] using a2, a3, a4, a5.schema (tells h1)⟩
  | query name t ps =>
    simp only [ParamDecl.run, act_bind, act_pure] at h
    obtain ⟨r, cx1, h1, p, cx2, h2, rfl, rfl⟩ := h
    obtain ⟨a1, a2, a3, a4, a5⟩ := runParamProps_fields ps h2
    exact ⟨rfl, a1, by simpa [ParamDecl.props] using a2, a3, a4, a5.schema (tells h1)⟩

theorem runParameters_last {c : κ} (ds : List ParamDecl) {m cx m' cx'} (h : runParameters c ds m cx = some (m', cx'))
    (name : String) : Last (ParamBy (told c)) (lastOf (ParamDecl.named? name) ds) (BMap.get name m) (BMap.get name m') := by
  induction ds generalizing m cx with
  | nil =>
    simp only [runParameters, act_pure] at h
    obtain ⟨rfl, rfl⟩ := h
    exact rfl
  | cons d ds ih =>
    simp only [runParameters, act_bind] at h
    obtain ⟨⟨n, p⟩, cx1, h1, h⟩ := h
    obtain ⟨hn, hp⟩ := d.run_paramOf h1
    simp only at hn hp
    subst hn
    rw [lastOf_cons]
    refine Last.trans ?_ (ih h)
    exact .inserted hp d.name name m

/-! ## Urls -/

theorem urlParam_last {c : κ} {n t ps cx x cx'} (h : urlParam c n t ps cx = some (x, cx')) (name : String) :
    x.1 = .parameter n ∧
    Last (UrlBy (told c)) (if n = name then some t else none) (BMap.get name ps) (BMap.get name x.2) := by
  simp only [urlParam, act_bind, act_pure] at h
  obtain ⟨r, cx1, h1, rfl, rfl⟩ := h
  exact ⟨rfl, .inserted ⟨rfl, rfl, rfl, rfl, r, rfl, (tells h1)⟩ n name ps⟩

theorem PathSeg.run_last {c : κ} (s : PathSeg) {ps cx x cx'} (h : s.run c ps cx = some (x, cx')) (name : String) :
    SegOf s x.1 ∧ Last (UrlBy (told c)) (s.typeOf? name) (BMap.get name ps) (BMap.get name x.2) := by
  cases s with
  | literal s =>
    simp only [PathSeg.run, act_pure] at h
    obtain ⟨rfl, rfl⟩ := h
    exact ⟨.literal s, rfl⟩
  | bare path t =>
    rw [PathSeg.run] at h
    cases hb : bareName path.print with
    | none => rw [hb] at h; exact absurd h (by simp)
    | some n =>
      rw [hb] at h
      obtain ⟨h1, h2⟩ := urlParam_last h name
      rw [h1]
      refine ⟨.bare hb, ?_⟩
      simpa [PathSeg.typeOf?, PathSeg.param?, hb] using h2
  | named n t =>
    obtain ⟨h1, h2⟩ := urlParam_last h name
    rw [h1]
    exact ⟨.named n t, h2⟩

theorem runUrl_last {c : κ} (ss : List PathSeg) {ps cx x cx'} (h : runUrl c ss ps cx = some (x, cx')) (name : String) :
    Pointwise SegOf ss x.1 ∧
    Last (UrlBy (told c)) (lastOf (PathSeg.typeOf? name) ss) (BMap.get name ps) (BMap.get name x.2) := by
  induction ss generalizing ps cx x with
  | nil =>
    simp only [runUrl, act_pure] at h
    obtain ⟨rfl, rfl⟩ := h
    exact ⟨.nil, rfl⟩
  | cons s ss ih =>
    simp only [runUrl, act_bind, act_pure] at h
    obtain ⟨⟨e, ps1⟩, cx1, h1, ⟨es, ps2⟩, cx2, h2, rfl, rfl⟩ := h
    obtain ⟨a1, a2⟩ := s.run_last h1 name
    obtain ⟨b1, b2⟩ := ih h2
    refine ⟨.cons a1 b1, ?_⟩
    rw [lastOf_cons]
    exact Last.trans a2 b2

/-! ## Bodies, responses, security -/

theorem runBodyProps_fields {c : κ} (ps : List BodyProp) {d q s cx x cx'}
    (h : runBodyProps c ps d q s cx = some (x, cx')) :
    x.1 = (lastOf BodyProp.description? ps).or d ∧ x.2.1 = (lastOf BodyProp.required? ps).getD q ∧
    Last (told c) (lastOf BodyProp.schema? ps) s x.2.2 := by
  induction ps generalizing d q s cx with
  | nil =>
    simp only [runBodyProps, act_pure] at h
    obtain ⟨rfl, rfl⟩ := h
    exact ⟨rfl, rfl, rfl⟩
  | cons a ps ih =>
    simp only [lastOf_cons]
    cases a with
    | schema t =>
      simp only [runBodyProps, act_bind] at h
      obtain ⟨r, cx1, h1, h⟩ := h
      obtain ⟨a1, a2, a3⟩ := ih h
      simp only [BodyProp.description?, BodyProp.required?, BodyProp.schema?, Option.or_none]
      exact ⟨a1, a2, Last.trans ⟨r, rfl, (tells h1)⟩ a3⟩
    | description s =>
      simp only [runBodyProps] at h
      obtain ⟨a1, a2, a3⟩ := ih h
      simp only [BodyProp.description?, BodyProp.required?, BodyProp.schema?, Option.or_none]
      refine ⟨?_, a2, a3⟩
      rw [a1, Option.or_assoc]; rfl
    | required b =>
      simp only [runBodyProps] at h
      obtain ⟨a1, a2, a3⟩ := ih h
      simp only [BodyProp.description?, BodyProp.required?, BodyProp.schema?, Option.or_none]
      refine ⟨a1, ?_, a3⟩
      rw [a2]; cases lastOf BodyProp.required? ps <;> rfl

theorem BodyDecl.run_bodyOf {c : κ} (b : BodyDecl) {cx x cx'} (h : b.run c cx = some (x, cx')) : BodyBy (told c) b x := by
  cases b with
  | type t =>
    simp only [BodyDecl.run, act_bind, act_pure] at h
    obtain ⟨r, cx1, h1, rfl, rfl⟩ := h
    exact ⟨rfl, rfl, t, rfl, (tells h1)⟩
  | props ps =>
    simp only [BodyDecl.run, act_bind] at h
    obtain ⟨⟨d, q, s⟩, cx1, h1, h⟩ := h
    obtain ⟨a1, a2, a3⟩ := runBodyProps_fields ps h1
    simp only at a1 a2 a3
    cases s with
    | none => simp at h
    | some s =>
      simp only [act_pure] at h
      obtain ⟨rfl, rfl⟩ := h
      obtain ⟨t, ht, hm⟩ := a3.meaning
      refine ⟨?_, a2, t, ht, hm⟩
      subst a1
      change ((lastOf BodyProp.description? ps).or none).or (some "") = some ((lastOf BodyProp.description? ps).getD "")
      cases lastOf BodyProp.description? ps <;> rfl

theorem runResponse_responseOf {c : κ} {code description s cx x cx'}
    (h : runResponse c code description s cx = some (x, cx')) : ResponseBy (told c) (Mentioner.reason c) code (description, s) x := by
  simp only [runResponse, act_bind] at h
  obtain ⟨r, cx1, h1, h⟩ := h
  split at h
  · simp only [act_pure] at h
    obtain ⟨rfl, rfl⟩ := h
    refine ⟨rfl, ?_⟩
    cases s with
    | absent =>
      simp only [ResponseDecl.run, act_pure] at h1
      exact h1.1.symm
    | type t =>
      simp only [ResponseDecl.run, act_bind, act_pure] at h1
      obtain ⟨r', cx2, h2, rfl, rfl⟩ := h1
      exact ⟨r', rfl, (tells h2)⟩
    | raw s =>
      simp only [ResponseDecl.run, act_pure] at h1
      exact h1.1.symm
  · simp at h

theorem SecurityDecl.run_name (s : SecurityDecl) {cx x cx'} (h : s.run cx = some (x, cx')) : x = s.name := by
  cases s with
  | literal name roles =>
    simp only [SecurityDecl.run] at h
    split at h
    · exact (act_pure.1 h).1.symm
    · simp at h
  | scheme name value roles =>
    simp only [SecurityDecl.run] at h
    split at h
    · have := congrArg Prod.fst (show cx.mentionSecurityScheme name value = (x, cx') from Option.some.inj h)
      unfold Components.mentionSecurityScheme at this
      split at this <;> exact this.symm
    · simp at h

theorem runSecurityItems_names (ss : List SecurityDecl) {m cx m' cx'} (h : runSecurityItems ss m cx = some (m', cx'))
    (name : String) : BMap.get name m' = if (∃ s ∈ ss, s.name = name) then some [] else BMap.get name m := by
  induction ss generalizing m cx with
  | nil =>
    simp only [runSecurityItems, act_pure] at h
    obtain ⟨rfl, rfl⟩ := h
    simp
  | cons s ss ih =>
    simp only [runSecurityItems, act_bind] at h
    obtain ⟨n, cx1, h1, h⟩ := h
    cases s.run_name h1
    rw [ih h]
    by_cases e : s.name = name
    · subst e
      simp [BMap.get_insert]
    · rw [BMap.get_insert_ne (fun e' => e e'.symm)]
      simp [e]

theorem runSecurity_alternatives (alts : List (List SecurityDecl)) {cx ms cx'} (h : runSecurity alts cx = some (ms, cx')) :
    Pointwise AlternativeOf alts ms := by
  induction alts generalizing cx ms with
  | nil =>
    simp only [runSecurity, act_pure] at h
    obtain ⟨rfl, rfl⟩ := h
    exact .nil
  | cons alt alts ih =>
    cases alt with
    | nil => simp [runSecurity] at h
    | cons s ss =>
      simp only [runSecurity, act_bind, act_pure] at h
      obtain ⟨m, cx1, h1, ms', cx2, h2, rfl, rfl⟩ := h
      refine .cons ⟨by simp, fun name => ?_, fun name v hv => ?_⟩ (ih h2)
      · rw [runSecurityItems_names _ h1]
        simp only [BMap.get_nil, ite_eq_left_iff, reduceCtorEq, imp_false, Classical.not_not]
      · rw [runSecurityItems_names _ h1] at hv
        split at hv
        · exact (Option.some.inj hv).symm
        · simp at hv

theorem Pointwise.append {α β : Type} {R : α → β → Prop} {as bs as' bs'} (h : Pointwise R as bs) (h' : Pointwise R as' bs') :
    Pointwise R (as ++ as') (bs ++ bs') := by
  induction h with
  | nil => exact h'
  | cons h _ ih => exact .cons h ih

/-! ## Operations, callbacks, paths -/

/-- An operation evaluated from its properties. -/
def MadeOp (c : κ) (ps : List OpProp) (o : Operation) : Prop := ∃ cx cx', runOpProps c ps .empty cx = some (o, cx')
/-- A path and path item evaluated from their declaration. -/
def MadePath (c : κ) (d : PathDecl) (pv : UrlPath × PathValue) : Prop := ∃ cx cx', d.run c cx = some (pv, cx')
/-- A callback evaluated from its declaration. -/
def MadeCallback (c : κ) (d : CallbackDecl) (o : CallbackObject) : Prop :=
  match d with
  | .literal .. => o.paths = []
  | .ident _ ps => Pointwise (MadePath c) ps o.paths

omit [Telling κ] in
theorem runPaths_made {c : κ} (ds : List PathDecl) {cx ps cx'} (h : runPaths c ds cx = some (ps, cx')) :
    Pointwise (MadePath c) ds ps := by
  induction ds generalizing cx ps with
  | nil =>
    simp only [runPaths, act_pure] at h
    obtain ⟨rfl, rfl⟩ := h
    exact .nil
  | cons d ds ih =>
    simp only [runPaths, act_bind, act_pure] at h
    obtain ⟨p, cx1, h1, ps', cx2, h2, rfl, rfl⟩ := h
    exact .cons ⟨_, _, h1⟩ (ih h2)

omit [Telling κ] in
theorem runCallbacks_last {c : κ} (ds : List CallbackDecl) {m cx m' cx'} (h : runCallbacks c ds m cx = some (m', cx'))
    (name : String) : Last (MadeCallback c) (lastOf (CallbackDecl.named? name) ds) (BMap.get name m) (BMap.get name m') := by
  induction ds generalizing m cx with
  | nil =>
    simp only [runCallbacks, act_pure] at h
    obtain ⟨rfl, rfl⟩ := h
    exact rfl
  | cons d ds ih =>
    rw [lastOf_cons]
    cases d with
    | literal n ps =>
      rw [runCallbacks] at h
      cases ds with
      | cons d ds => simp at h
      | nil =>
        simp only [List.isEmpty_nil, if_true, act_pure] at h
        obtain ⟨rfl, rfl⟩ := h
        rw [lastOf_nil, Option.none_or]
        exact .inserted (P := MadeCallback c) (d := .literal n ps) (v := ⟨[]⟩) (by rfl) n name m
    | ident n ps =>
      simp only [runCallbacks, act_bind] at h
      obtain ⟨items, cx1, h1, h⟩ := h
      refine Last.trans ?_ (ih h)
      exact .inserted (P := MadeCallback c) (d := .ident n ps) (runPaths_made ps h1) n name m

/-- What the properties `ps` make of an operation `o`. -/
structure OpStep (c : κ) (ps : List OpProp) (o o' : Operation) : Prop where
  summary : o'.summary = (lastOf OpProp.summary? ps).or o.summary
  operationId : o'.operationId = (lastOf OpProp.operationId? ps).or o.operationId
  description : o'.description = (lastOf OpProp.description? ps).or o.description
  deprecated : o'.deprecated = (lastOf OpProp.deprecated? ps).getD o.deprecated
  tags : o'.tags = o.tags ++ ps.flatMap OpProp.tagList
  security : ∃ ms, o'.security = o.security ++ ms ∧ Pointwise AlternativeOf (ps.flatMap OpProp.securityList) ms
  body : Last (BodyBy (told c)) (lastOf OpProp.body? ps) o.requestBody o'.requestBody
  responses : ∀ code, Last (ResponseBy (told c) (Mentioner.reason c) code) (lastOf (OpProp.response? code) ps)
    (BMap.get code o.responses) (BMap.get code o'.responses)
  parameters : ∀ name, Last (ParamBy (told c)) (lastOf (ParamDecl.named? name) (ps.flatMap OpProp.paramList))
    (BMap.get name o.parameters) (BMap.get name o'.parameters)
  callbacks : ∀ name, Last (MadeCallback c) (lastOf (CallbackDecl.named? name) (ps.flatMap OpProp.callbackList))
    (BMap.get name o.callbacks) (BMap.get name o'.callbacks)

theorem OpStep.refl (c : κ) (o : Operation) : OpStep c [] o o where
  summary := rfl
  operationId := rfl
  description := rfl
  deprecated := rfl
  tags := by simp
  security := ⟨[], by simp, .nil⟩
  body := rfl
  responses _ := rfl
  parameters _ := rfl
  callbacks _ := rfl

theorem OpStep.trans {c : κ} {ps qs a b d} (h : OpStep c ps a b) (h' : OpStep c qs b d) : OpStep c (ps ++ qs) a d where
  summary := by rw [h'.summary, h.summary, lastOf_append, Option.or_assoc]
  operationId := by rw [h'.operationId, h.operationId, lastOf_append, Option.or_assoc]
  description := by rw [h'.description, h.description, lastOf_append, Option.or_assoc]
  deprecated := by rw [h'.deprecated, h.deprecated, lastOf_append]; cases lastOf OpProp.deprecated? qs <;> rfl
  tags := by rw [h'.tags, h.tags, List.flatMap_append, List.append_assoc]
  security := by
    obtain ⟨ms, h1, h2⟩ := h.security
    obtain ⟨ms', h1', h2'⟩ := h'.security
    exact ⟨ms ++ ms', by rw [h1', h1, List.append_assoc], by rw [List.flatMap_append]; exact h2.append h2'⟩
  body := by rw [lastOf_append]; exact h.body.trans h'.body
  responses code := by rw [lastOf_append]; exact (h.responses code).trans (h'.responses code)
  parameters name := by rw [List.flatMap_append, lastOf_append]; exact (h.parameters name).trans (h'.parameters name)
  callbacks name := by rw [List.flatMap_append, lastOf_append]; exact (h.callbacks name).trans (h'.callbacks name)

theorem runOpProp_step {c : κ} (q : OpProp) {ps o cx o' cx'} (h : runOpProps c (q :: ps) o cx = some (o', cx')) :
    ∃ o1 cx1, OpStep c [q] o o1 ∧ runOpProps c ps o1 cx1 = some (o', cx') := by
  have e := OpStep.refl c o
  cases q with
  | summary s =>
    rw [runOpProps] at h
    refine ⟨_, _, ?_, h⟩
    exact { e with summary := rfl }
  | operationId s =>
    rw [runOpProps] at h
    refine ⟨_, _, ?_, h⟩
    exact { e with operationId := rfl }
  | description s =>
    rw [runOpProps] at h
    refine ⟨_, _, ?_, h⟩
    exact { e with description := rfl }
  | deprecated b =>
    rw [runOpProps] at h
    refine ⟨_, _, ?_, h⟩
    exact { e with deprecated := rfl }
  | tags ts =>
    rw [runOpProps] at h
    refine ⟨_, _, ?_, h⟩
    exact { e with tags := by simp [OpProp.tagList] }
  | parameters ds =>
    simp only [runOpProps, act_bind] at h
    obtain ⟨m, cx1, h1, h⟩ := h
    refine ⟨_, _, ?_, h⟩
    have hl : ∀ name, _ := fun name => runParameters_last ds h1 name
    refine { e with parameters := ?_ }
    simpa [OpProp.paramList] using hl
  | callbacks ds =>
    simp only [runOpProps, act_bind] at h
    obtain ⟨m, cx1, h1, h⟩ := h
    refine ⟨_, _, ?_, h⟩
    have hl : ∀ name, _ := fun name => runCallbacks_last ds h1 name
    refine { e with callbacks := ?_ }
    simpa [OpProp.callbackList] using hl
  | security alts =>
    simp only [runOpProps, act_bind] at h
    obtain ⟨m, cx1, h1, h⟩ := h
    refine ⟨_, _, ?_, h⟩
    refine { e with security := ⟨m, rfl, ?_⟩ }
    simpa [OpProp.securityList] using runSecurity_alternatives alts h1
  | body b =>
    simp only [runOpProps, act_bind] at h
    obtain ⟨m, cx1, h1, h⟩ := h
    refine ⟨_, _, ?_, h⟩
    exact { e with body := ⟨m, rfl, b.run_bodyOf h1⟩ }
  | response code d s =>
    simp only [runOpProps, act_bind] at h
    obtain ⟨m, cx1, h1, h⟩ := h
    refine ⟨_, _, ?_, h⟩
    refine { e with responses := ?_ }
    intro code'
    simp only [lastOf_cons, lastOf_nil, Option.none_or, OpProp.response?]
    by_cases e : code = code'
    · subst e
      rw [if_pos rfl, BMap.get_insert_self]
      exact ⟨m, rfl, runResponse_responseOf h1⟩
    · rw [if_neg e, BMap.get_insert_ne (fun e' => e e'.symm)]
      exact rfl

theorem runOpProps_step {c : κ} (ps : List OpProp) {o cx o' cx'} (h : runOpProps c ps o cx = some (o', cx')) :
    OpStep c ps o o' := by
  induction ps generalizing o cx with
  | nil =>
    simp only [runOpProps, act_pure] at h
    obtain ⟨rfl, rfl⟩ := h
    exact .refl c o
  | cons q ps ih =>
    obtain ⟨o1, cx1, h1, h2⟩ := runOpProp_step q h
    exact h1.trans (ih h2)

/-- What the properties `ps` make of a path item `v`. -/
structure ItemStep (c : κ) (ps : List ItemProp) (v v' : PathValue) : Prop where
  summary : v'.summary = (lastOf ItemProp.summary? ps).or v.summary
  description : v'.description = (lastOf ItemProp.description? ps).or v.description
  operations : ∀ m, Last (MadeOp c) (lastOf (ItemProp.operation? m) ps) (BMap.get m v.operations) (BMap.get m v'.operations)
  parameters : ∀ name, Last (ParamBy (told c)) (lastOf (ParamDecl.named? name) (ps.flatMap ItemProp.paramList))
    (BMap.get name v.parameters) (BMap.get name v'.parameters)

theorem ItemStep.refl (c : κ) (v : PathValue) : ItemStep c [] v v := ⟨rfl, rfl, fun _ => rfl, fun _ => rfl⟩

theorem ItemStep.trans {c : κ} {ps qs a b d} (h : ItemStep c ps a b) (h' : ItemStep c qs b d) : ItemStep c (ps ++ qs) a d where
  summary := by rw [h'.summary, h.summary, lastOf_append, Option.or_assoc]
  description := by rw [h'.description, h.description, lastOf_append, Option.or_assoc]
  operations m := by rw [lastOf_append]; exact (h.operations m).trans (h'.operations m)
  parameters name := by rw [List.flatMap_append, lastOf_append]; exact (h.parameters name).trans (h'.parameters name)

theorem runItemProp_step {c : κ} (q : ItemProp) {ps v cx v' cx'} (h : runItemProps c (q :: ps) v cx = some (v', cx')) :
    ∃ v1 cx1, ItemStep c [q] v v1 ∧ runItemProps c ps v1 cx1 = some (v', cx') := by
  have e := ItemStep.refl c v
  cases q with
  | summary s =>
    rw [runItemProps] at h
    refine ⟨_, _, ?_, h⟩
    exact { e with summary := rfl }
  | description s =>
    rw [runItemProps] at h
    refine ⟨_, _, ?_, h⟩
    exact { e with description := rfl }
  | parameters ds =>
    simp only [runItemProps, act_bind] at h
    obtain ⟨m, cx1, h1, h⟩ := h
    refine ⟨_, _, ?_, h⟩
    have hl : ∀ name, _ := fun name => runParameters_last ds h1 name
    refine { e with parameters := ?_ }
    simpa [ItemProp.paramList] using hl
  | operation method os =>
    simp only [runItemProps, act_bind] at h
    obtain ⟨o, cx1, h1, h⟩ := h
    refine ⟨_, _, ?_, h⟩
    refine { e with operations := ?_ }
    intro m
    simp only [lastOf_cons, lastOf_nil, Option.none_or, ItemProp.operation?]
    exact .inserted (P := MadeOp c) ⟨_, _, h1⟩ method m v.operations

theorem runItemProps_step {c : κ} (ps : List ItemProp) {v cx v' cx'} (h : runItemProps c ps v cx = some (v', cx')) :
    ItemStep c ps v v' := by
  induction ps generalizing v cx with
  | nil =>
    simp only [runItemProps, act_pure] at h
    obtain ⟨rfl, rfl⟩ := h
    exact .refl c v
  | cons q ps ih =>
    obtain ⟨v1, cx1, h1, h2⟩ := runItemProp_step q h
    exact h1.trans (ih h2)

theorem PathDecl.run_step {c : κ} {d : PathDecl} {pv} (h : MadePath c d pv) :
    d.segments ≠ [] ∧ Pointwise SegOf d.segments pv.1 ∧
    ∃ params, (∀ name, Last (UrlBy (told c)) (lastOf (PathSeg.typeOf? name) d.segments) none (BMap.get name params)) ∧
      ItemStep c d.props { PathValue.empty with parameters := params } pv.2 := by
  obtain ⟨cx, cx', h⟩ := h
  obtain ⟨segs, props⟩ := d
  simp only [PathDecl.run] at h
  split at h
  · simp at h
  · rename_i hs
    simp only [act_bind, act_pure] at h
    obtain ⟨⟨path, params⟩, cx3, h3, v', cx4, h4, rfl, rfl⟩ := h
    exact ⟨by simpa [PathDecl.segments] using hs, (runUrl_last segs h3 "").1, params,
      fun name => (runUrl_last segs h3 name).2, runItemProps_step props h4⟩

end

end Verif
