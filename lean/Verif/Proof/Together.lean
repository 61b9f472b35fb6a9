import Verif.Proof.Same
import Verif.Spec.Together
/-!
# Two runs with related results
-/

namespace Verif

theorem Entries.insert {κ α : Type} [Ord κ] {R : α → α → Prop} (k : κ) {a b : α} (h : R a b) {as bs : List (κ × α)}
    (t : Entries R as bs) : Entries R (BMap.insert k a as) (BMap.insert k b bs) := by
  induction t with
  | nil => exact .cons h .nil
  | @cons k' a' b' as bs h' t ih =>
    simp only [BMap.insert]
    split
    · exact .cons h (.cons h' t)
    · exact .cons h t
    · exact .cons h' ih

theorem operationsAlong_iff {R} {os os' : List (HttpMethod × Operation)} :
    OperationsAlong R os os' ↔ Entries (Operation.Along R) os os' := by
  constructor
  · intro h
    induction os generalizing os' with
    | nil => cases h; exact .nil
    | cons o os ih => cases h with | cons h t => exact .cons h (ih t)
  · intro h
    induction h with
    | nil => exact .nil
    | cons h _ ih => exact .cons h ih

theorem OperationsAlong.insert {R} (k) {a b} (h : Operation.Along R a b) {as bs} (t : OperationsAlong R as bs) :
    OperationsAlong R (BMap.insert k a as) (BMap.insert k b bs) :=
  operationsAlong_iff.2 ((operationsAlong_iff.1 t).insert k h)

theorem callbacksAlong_iff {R} {cs cs' : List (String × CallbackObject)} :
    CallbacksAlong R cs cs' ↔ Entries (fun a b => PathsAlong R a.paths b.paths) cs cs' := by
  constructor
  · intro h
    induction cs generalizing cs' with
    | nil => cases h; exact .nil
    | cons o os ih => cases h with | cons h t => exact .cons h (ih t)
  · intro h
    induction h with
    | nil => exact .nil
    | @cons k a b as bs h _ ih => cases a; cases b; exact .cons h ih

theorem CallbacksAlong.insert {R} (k) {a b} (h : PathsAlong R a b) {as bs} (t : CallbacksAlong R as bs) :
    CallbacksAlong R (BMap.insert k ⟨a⟩ as) (BMap.insert k ⟨b⟩ bs) :=
  callbacksAlong_iff.2 (Entries.insert (R := fun (a b : CallbackObject) => PathsAlong R a.paths b.paths) (a := ⟨a⟩) (b := ⟨b⟩) k h
    (callbacksAlong_iff.1 t))

theorem PathsAlong.append {R} : ∀ {as bs as' bs'}, PathsAlong R as bs → PathsAlong R as' bs' → PathsAlong R (as ++ as') (bs ++ bs')
  | _, _, _, _, .nil, h => h
  | _, _, _, _, .cons h t, h' => .cons h (t.append h')

/-! ## Runs -/

/-- Whenever `x` gives a value and `y` does, they are related; if `total`, `y` gives one.  The registries remain related. -/
def RunsTo (total : Bool) (St : Components → Components → Prop) {α : Type} (Q : α → α → Prop) (x y : Act α) : Prop :=
  ∀ cx cx', St cx cx' → ∀ a cx1, x cx = some (a, cx1) →
    match y cx' with
    | some (b, cx1') => Q a b ∧ St cx1 cx1'
    | none => total = false

variable {total : Bool} {St : Components → Components → Prop} {R : Ref → Ref → Prop}

theorem RunsTo.pure {α : Type} {Q : α → α → Prop} {a b : α} (h : Q a b) : RunsTo total St Q (Pure.pure a) (Pure.pure b) := by
  intro cx cx' hs _ _ hx
  cases hx
  exact ⟨h, hs⟩

theorem RunsTo.failure {α : Type} {Q : α → α → Prop} {y : Act α} : RunsTo total St Q Alternative.failure y := by
  intro cx cx' hs b cx1 h
  cases h

theorem RunsTo.bind {α β : Type} {P : α → α → Prop} {Q : β → β → Prop} {x y : Act α} {f g : α → Act β} (h : RunsTo total St P x y)
    (hf : ∀ a b, P a b → RunsTo total St Q (f a) (g b)) : RunsTo total St Q (x >>= f) (y >>= g) := by
  intro cx cx' hs b cx2 hb
  rw [act_bind] at hb
  obtain ⟨a, cx1, hx, hfa⟩ := hb
  have := h cx cx' hs a cx1 hx
  cases hy : y cx' with
  | none =>
    rw [hy] at this
    have hn : (y >>= g) cx' = none := by
      show (y cx' >>= fun x => g x.1 x.2) = none
      rw [hy]; rfl
    rw [hn]; exact this
  | some z =>
    obtain ⟨a', cx1'⟩ := z
    rw [hy] at this
    have hn : (y >>= g) cx' = g a' cx1' := by
      show (y cx' >>= fun x => g x.1 x.2) = _
      rw [hy]; rfl
    rw [hn]
    exact hf a a' this.1 cx1 cx1' this.2 b cx2 hfa

theorem RunsTo.of_runs {α : Type} {x y : Act α} (h : Runs total St x y) : RunsTo total St Eq x y := h

/-- A run that has to give something. -/
theorem RunsTo.some {α : Type} {Q : α → α → Prop} {x y : Act α} (h : RunsTo true St Q x y) {cx cx'} (hs : St cx cx') {a cx1}
    (hx : x cx = some (a, cx1)) : ∃ b cx1', y cx' = some (b, cx1') ∧ Q a b ∧ St cx1 cx1' := by
  have := h cx cx' hs a cx1 hx
  split at this
  · rename_i b cx1' hy
    exact ⟨b, cx1', hy, this⟩
  · cases this

/-- All types mentioned by the parts are in a set, and so are the references written out. -/
def PartsIn (T : Ty → Prop) (W : Ref → Prop) (parts : List Part) : Prop := MentionsIn T parts ∧ ∀ r, .raw r ∈ parts → W r

theorem PartsIn.left {T : Ty → Prop} {W : Ref → Prop} {ps qs} (h : PartsIn T W (ps ++ qs)) : PartsIn T W ps :=
  ⟨h.1.left, fun r hr => h.2 r (List.mem_append_left _ hr)⟩
theorem PartsIn.right {T : Ty → Prop} {W : Ref → Prop} {ps qs} (h : PartsIn T W (ps ++ qs)) : PartsIn T W qs :=
  ⟨h.1.right, fun r hr => h.2 r (List.mem_append_right _ hr)⟩
theorem PartsIn.head {T : Ty → Prop} {W : Ref → Prop} {t ps} (h : PartsIn T W (.mention t :: ps)) : T t := h.1.head
theorem PartsIn.tail {T : Ty → Prop} {W : Ref → Prop} {p ps} (h : PartsIn T W (p :: ps)) : PartsIn T W ps :=
  ⟨h.1.tail, fun r hr => h.2 r (List.mem_cons_of_mem _ hr)⟩

/-- Two contexts in which the types of a set are documented in a related way. -/
structure AskTo {κ κ' : Type} [Mentioner κ] [Mentioner κ'] (total : Bool) (R : Ref → Ref → Prop) (St : Components → Components → Prop)
    (T : Ty → Prop) (W : Ref → Prop) (c : κ) (c' : κ') : Prop where
  reason : Mentioner.reason c' = Mentioner.reason c
  ask : ∀ t, T t → RunsTo total St R (ask c t) (ask c' t)
  raw : ∀ r, W r → R r r
  scheme : ∀ n s, Runs total St (fun cx => some (cx.mentionSecurityScheme n s)) fun cx => some (cx.mentionSecurityScheme n s)
  insert : ∀ n s cx cx', St cx cx' → St { cx with securitySchemes := BMap.insert n s cx.securitySchemes }
    { cx' with securitySchemes := BMap.insert n s cx'.securitySchemes }

variable {κ κ' : Type} [Mentioner κ] [Mentioner κ'] {T : Ty → Prop} {W : Ref → Prop} {c : κ} {c' : κ'}

theorem AskTo.none (h : AskTo total R St T W c c') : AskAlike total St (fun _ => False) c c' :=
  ⟨h.reason, nofun, h.scheme, h.insert⟩

theorem runParamProps_to (h : AskTo total R St T W c c') : ∀ (ps : List ParamProp) {p p' : OperationParameter}, p.Along R p' →
    PartsIn T W (ps.flatMap ParamProp.parts) →
    RunsTo total St (OperationParameter.Along R) (runParamProps c ps p) (runParamProps c' ps p')
  | [], p, p', hp, _ => by rw [runParamProps, runParamProps]; exact .pure hp
  | .description s :: ps, p, p', hp, hm => by
    rw [runParamProps, runParamProps]
    exact runParamProps_to h ps ⟨rfl, hp.parameterIn, hp.required, hp.deprecated, hp.schema⟩ hm
  | .required s :: ps, p, p', hp, hm => by
    rw [runParamProps, runParamProps]
    exact runParamProps_to h ps ⟨hp.description, hp.parameterIn, rfl, hp.deprecated, hp.schema⟩ hm
  | .deprecated s :: ps, p, p', hp, hm => by
    rw [runParamProps, runParamProps]
    exact runParamProps_to h ps ⟨hp.description, hp.parameterIn, hp.required, rfl, hp.schema⟩ hm
  | .schema t :: ps, p, p', hp, hm => by
    rw [List.flatMap_cons] at hm
    rw [runParamProps, runParamProps]
    exact .bind (h.ask t (hm.left.head)) fun r r' hr =>
      runParamProps_to h ps ⟨hp.description, hp.parameterIn, hp.required, hp.deprecated, .some hr⟩ hm.right

theorem ParamDecl.run_to (h : AskTo total R St T W c c') (d : ParamDecl) (hm : PartsIn T W d.parts) :
    RunsTo total St (fun x y => x.1 = y.1 ∧ x.2.Along R y.2) (d.run c) (d.run c') := by
  cases d with
  | header name ps =>
    rw [ParamDecl.run, ParamDecl.run]
    exact .bind (h.ask _ hm.head) fun r r' hr =>
      .bind (runParamProps_to h ps ⟨rfl, rfl, rfl, rfl, .some hr⟩ hm.tail) fun p p' hp => .pure ⟨rfl, hp⟩
  | query name t ps =>
    rw [ParamDecl.run, ParamDecl.run]
    exact .bind (h.ask _ hm.head) fun r r' hr =>
      .bind (runParamProps_to h ps ⟨rfl, rfl, rfl, rfl, .some hr⟩ hm.tail) fun p p' hp => .pure ⟨rfl, hp⟩

abbrev ParamsAlong (R : Ref → Ref → Prop) : List (String × OperationParameter) → List (String × OperationParameter) → Prop :=
  Entries (OperationParameter.Along R)

theorem runParameters_to (h : AskTo total R St T W c c') : ∀ (ds : List ParamDecl) {m m'}, ParamsAlong R m m' →
    PartsIn T W (ds.flatMap ParamDecl.parts) → RunsTo total St (ParamsAlong R) (runParameters c ds m) (runParameters c' ds m')
  | [], m, m', hp, _ => by rw [runParameters, runParameters]; exact .pure hp
  | d :: ds, m, m', hp, hm => by
    rw [List.flatMap_cons] at hm
    rw [runParameters, runParameters]
    refine .bind (d.run_to h hm.left) ?_
    rintro ⟨n, p⟩ ⟨_, p'⟩ ⟨rfl, hq⟩
    exact runParameters_to h ds (hp.insert n hq) hm.right

theorem urlParam_to (h : AskTo total R St T W c c') (name t) {ps ps'} (hp : ParamsAlong R ps ps') (ht : T t) :
    RunsTo total St (fun x y => x.1 = y.1 ∧ ParamsAlong R x.2 y.2) (urlParam c name t ps) (urlParam c' name t ps') := by
  unfold urlParam
  exact .bind (h.ask t ht) fun r r' hr => .pure ⟨rfl, hp.insert name ⟨rfl, rfl, rfl, rfl, .some hr⟩⟩

theorem PathSeg.run_to (h : AskTo total R St T W c c') (s : PathSeg) {ps ps'} (hp : ParamsAlong R ps ps') (hm : PartsIn T W s.parts) :
    RunsTo total St (fun x y => x.1 = y.1 ∧ ParamsAlong R x.2 y.2) (s.run c ps) (s.run c' ps') := by
  cases s with
  | literal s => rw [PathSeg.run, PathSeg.run]; exact .pure ⟨rfl, hp⟩
  | named n t => rw [PathSeg.run, PathSeg.run]; exact urlParam_to h _ _ hp hm.head
  | bare p t =>
    rw [PathSeg.run, PathSeg.run]
    split
    · exact .failure
    · exact urlParam_to h _ _ hp hm.head

theorem runUrl_to (h : AskTo total R St T W c c') : ∀ (ss : List PathSeg) {ps ps'}, ParamsAlong R ps ps' →
    PartsIn T W (ss.flatMap PathSeg.parts) →
    RunsTo total St (fun x y => x.1 = y.1 ∧ ParamsAlong R x.2 y.2) (runUrl c ss ps) (runUrl c' ss ps')
  | [], ps, ps', hp, _ => by rw [runUrl, runUrl]; exact .pure ⟨rfl, hp⟩
  | s :: ss, ps, ps', hp, hm => by
    rw [List.flatMap_cons] at hm
    rw [runUrl, runUrl]
    refine .bind (s.run_to h hp hm.left) ?_
    rintro ⟨e, qs⟩ ⟨_, qs'⟩ ⟨rfl, hq⟩
    refine .bind (runUrl_to h ss hq hm.right) ?_
    rintro ⟨es, qs⟩ ⟨_, qs'⟩ ⟨rfl, hq⟩
    exact .pure ⟨rfl, hq⟩

theorem runBodyProps_to (h : AskTo total R St T W c c') : ∀ (ps : List BodyProp) (d r) {s s'}, OptRel R s s' →
    PartsIn T W (ps.flatMap BodyProp.parts) →
    RunsTo total St (fun x y => x.1 = y.1 ∧ x.2.1 = y.2.1 ∧ OptRel R x.2.2 y.2.2) (runBodyProps c ps d r s) (runBodyProps c' ps d r s')
  | [], d, r, s, s', hs, _ => by rw [runBodyProps, runBodyProps]; exact .pure ⟨rfl, rfl, hs⟩
  | .schema t :: ps, d, r, s, s', hs, hm => by
    rw [List.flatMap_cons] at hm
    rw [runBodyProps, runBodyProps]
    exact .bind (h.ask t hm.left.head) fun _ _ hr => runBodyProps_to h ps _ _ (.some hr) hm.right
  | .description _ :: ps, d, r, s, s', hs, hm => by
    rw [runBodyProps, runBodyProps]; exact runBodyProps_to h ps _ _ hs hm
  | .required _ :: ps, d, r, s, s', hs, hm => by
    rw [runBodyProps, runBodyProps]; exact runBodyProps_to h ps _ _ hs hm

theorem BodyDecl.run_to (h : AskTo total R St T W c c') (b : BodyDecl) (hm : PartsIn T W b.parts) :
    RunsTo total St (RequestBody.Along R) (b.run c) (b.run c') := by
  cases b with
  | props ps =>
    rw [BodyDecl.run, BodyDecl.run]
    refine .bind (runBodyProps_to h ps _ _ .none hm) ?_
    rintro ⟨d, r, s⟩ ⟨_, _, s'⟩ ⟨rfl, rfl, hs⟩
    cases hs with
    | none => exact .failure
    | some hs => exact .pure ⟨rfl, rfl, hs⟩
  | type t =>
    rw [BodyDecl.run, BodyDecl.run]
    exact .bind (h.ask t hm.head) fun _ _ hr => .pure ⟨rfl, rfl, hr⟩

theorem runResponse_to (h : AskTo total R St T W c c') (code d) (s : ResponseDecl) (hm : PartsIn T W s.parts) :
    RunsTo total St (Response.Along R) (runResponse c code d s) (runResponse c' code d s) := by
  unfold runResponse
  refine .bind (P := OptRel R) ?_ fun r r' hr => ?_
  · cases s with
    | absent => exact .pure .none
    | type t => rw [ResponseDecl.run, ResponseDecl.run]; exact .bind (h.ask t hm.head) fun _ _ hr => .pure (.some hr)
    | raw s =>
      refine .pure ?_
      cases s with
      | none => exact .none
      | some s => exact .some (h.raw s (hm.2 s (List.mem_singleton.2 rfl)))
  · rw [h.reason]
    split
    · exact .pure ⟨rfl, hr⟩
    · exact .failure

mutual
theorem runOpProps_to (h : AskTo total R St T W c c') : ∀ (ps : List OpProp) {o o' : Operation}, o.Along R o' → PartsIn T W (opParts ps) →
    RunsTo total St (Operation.Along R) (runOpProps c ps o) (runOpProps c' ps o')
  | [], o, o', ho, _ => by rw [runOpProps, runOpProps]; exact .pure ho
  | .summary _ :: ps, o, o', ⟨h1, h2, h3, h4, h5, h6, h7, h8, h9, h10⟩, hm => by
    rw [opParts] at hm; rw [runOpProps, runOpProps]
    exact runOpProps_to h ps ⟨h1, rfl, h3, h4, h5, h6, h7, h8, h9, h10⟩ hm
  | .operationId _ :: ps, o, o', ⟨h1, h2, h3, h4, h5, h6, h7, h8, h9, h10⟩, hm => by
    rw [opParts] at hm; rw [runOpProps, runOpProps]
    exact runOpProps_to h ps ⟨h1, h2, rfl, h4, h5, h6, h7, h8, h9, h10⟩ hm
  | .description _ :: ps, o, o', ⟨h1, h2, h3, h4, h5, h6, h7, h8, h9, h10⟩, hm => by
    rw [opParts] at hm; rw [runOpProps, runOpProps]
    exact runOpProps_to h ps ⟨h1, h2, h3, rfl, h5, h6, h7, h8, h9, h10⟩ hm
  | .deprecated _ :: ps, o, o', ⟨h1, h2, h3, h4, h5, h6, h7, h8, h9, h10⟩, hm => by
    rw [opParts] at hm; rw [runOpProps, runOpProps]
    exact runOpProps_to h ps ⟨h1, h2, h3, h4, rfl, h6, h7, h8, h9, h10⟩ hm
  | .tags ts :: ps, o, o', ⟨h1, h2, h3, h4, h5, h6, h7, h8, h9, h10⟩, hm => by
    rw [opParts] at hm; rw [runOpProps, runOpProps]
    exact runOpProps_to h ps ⟨congrArg (· ++ ts) h1, h2, h3, h4, h5, h6, h7, h8, h9, h10⟩ hm
  | .parameters ds :: ps, o, o', ⟨h1, h2, h3, h4, h5, h6, h7, h8, h9, h10⟩, hm => by
    rw [opParts] at hm; rw [runOpProps, runOpProps]
    exact .bind (runParameters_to h ds h9 hm.left) fun _ _ h9 =>
      runOpProps_to h ps ⟨h1, h2, h3, h4, h5, h6, h7, h8, h9, h10⟩ hm.right
  | .callbacks cs :: ps, o, o', ⟨h1, h2, h3, h4, h5, h6, h7, h8, h9, h10⟩, hm => by
    rw [opParts] at hm; rw [runOpProps, runOpProps]
    exact .bind (runCallbacks_to h cs h10 hm.left) fun _ _ h10 =>
      runOpProps_to h ps ⟨h1, h2, h3, h4, h5, h6, h7, h8, h9, h10⟩ hm.right
  | .security alts :: ps, o, o', ⟨h1, h2, h3, h4, h5, h6, h7, h8, h9, h10⟩, hm => by
    rw [opParts] at hm; rw [runOpProps, runOpProps]
    refine .bind (.of_runs (runSecurity_alike h.none alts)) ?_
    rintro ms _ rfl
    exact runOpProps_to h ps ⟨h1, h2, h3, h4, h5, congrArg (· ++ ms) h6, h7, h8, h9, h10⟩ hm.right
  | .body b :: ps, o, o', ⟨h1, h2, h3, h4, h5, h6, h7, h8, h9, h10⟩, hm => by
    rw [opParts] at hm; rw [runOpProps, runOpProps]
    exact .bind (b.run_to h hm.left) fun _ _ hb =>
      runOpProps_to h ps ⟨h1, h2, h3, h4, h5, h6, .some hb, h8, h9, h10⟩ hm.right
  | .response code d s :: ps, o, o', ⟨h1, h2, h3, h4, h5, h6, h7, h8, h9, h10⟩, hm => by
    rw [opParts] at hm; rw [runOpProps, runOpProps]
    exact .bind (runResponse_to h code d s hm.left) fun _ _ hr =>
      runOpProps_to h ps ⟨h1, h2, h3, h4, h5, h6, h7, h8.insert code hr, h9, h10⟩ hm.right
theorem runCallbacks_to (h : AskTo total R St T W c c') : ∀ (ds : List CallbackDecl) {m m'}, CallbacksAlong R m m' →
    PartsIn T W (callbackParts ds) → RunsTo total St (CallbacksAlong R) (runCallbacks c ds m) (runCallbacks c' ds m')
  | [], m, m', hc, _ => by rw [runCallbacks, runCallbacks]; exact .pure hc
  | .literal n _ :: ds, m, m', hc, _ => by
    rw [runCallbacks, runCallbacks]
    split
    · exact .pure (hc.insert n .nil)
    · exact .failure
  | .ident n ps :: ds, m, m', hc, hm => by
    rw [callbackParts] at hm; rw [runCallbacks, runCallbacks]
    exact .bind (runPaths_to h ps hm.left) fun _ _ hp => runCallbacks_to h ds (hc.insert n hp) hm.right
theorem runPaths_to (h : AskTo total R St T W c c') : ∀ (ds : List PathDecl),
    PartsIn T W (pathParts ds) → RunsTo total St (PathsAlong R) (runPaths c ds) (runPaths c' ds)
  | [], _ => by rw [runPaths, runPaths]; exact .pure .nil
  | ⟨segs, props⟩ :: ds, hm => by
    rw [pathParts] at hm; rw [runPaths, runPaths]
    refine .bind (PathDecl.run_to h segs props hm.left) ?_
    rintro ⟨p, v⟩ ⟨_, v'⟩ ⟨rfl, hv⟩
    exact .bind (runPaths_to h ds hm.right) fun _ _ ht => .pure (.cons hv ht)
theorem PathDecl.run_to (h : AskTo total R St T W c c') : ∀ (segs : List PathSeg) (props : List ItemProp),
    PartsIn T W (segs.flatMap PathSeg.parts ++ itemParts props) →
    RunsTo total St (fun x y => x.1 = y.1 ∧ x.2.Along R y.2) (PathDecl.run c ⟨segs, props⟩) (PathDecl.run c' ⟨segs, props⟩)
  | segs, props, hm => by
    rw [PathDecl.run, PathDecl.run]
    split
    · exact .failure
    · refine .bind (runUrl_to h segs .nil hm.left) ?_
      rintro ⟨p, ps⟩ ⟨_, ps'⟩ ⟨rfl, hp⟩
      exact .bind (runItemProps_to h props ⟨rfl, rfl, .nil, hp⟩ hm.right) fun _ _ hv => .pure ⟨rfl, hv⟩
theorem runItemProps_to (h : AskTo total R St T W c c') : ∀ (ps : List ItemProp) {v v' : PathValue}, v.Along R v' →
    PartsIn T W (itemParts ps) → RunsTo total St (PathValue.Along R) (runItemProps c ps v) (runItemProps c' ps v')
  | [], v, v', hv, _ => by rw [runItemProps, runItemProps]; exact .pure hv
  | .summary _ :: ps, v, v', ⟨h1, h2, h3, h4⟩, hm => by
    rw [itemParts] at hm; rw [runItemProps, runItemProps]; exact runItemProps_to h ps ⟨rfl, h2, h3, h4⟩ hm
  | .description _ :: ps, v, v', ⟨h1, h2, h3, h4⟩, hm => by
    rw [itemParts] at hm; rw [runItemProps, runItemProps]; exact runItemProps_to h ps ⟨h1, rfl, h3, h4⟩ hm
  | .parameters ds :: ps, v, v', ⟨h1, h2, h3, h4⟩, hm => by
    rw [itemParts] at hm; rw [runItemProps, runItemProps]
    exact .bind (runParameters_to h ds h4 hm.left) fun _ _ h4 => runItemProps_to h ps ⟨h1, h2, h3, h4⟩ hm.right
  | .operation m os :: ps, v, v', ⟨h1, h2, h3, h4⟩, hm => by
    rw [itemParts] at hm; rw [runItemProps, runItemProps]
    exact .bind (runOpProps_to h os ⟨rfl, rfl, rfl, rfl, rfl, rfl, .none, .nil, .nil, .nil⟩ hm.left) fun _ _ ho =>
      runItemProps_to h ps ⟨h1, h2, h3.insert m ho, h4⟩ hm.right
end

theorem Section.run_to (h : AskTo total R St T W c c') (s : Section) {d d'} (hm : PartsIn T W (pathParts s.pathList))
    (hd : d.Along R d') : RunsTo total St (Opg.Along R) (s.run c d) (s.run c' d') := by
  obtain ⟨h1, h2, h3, h4, h5, h6⟩ := hd
  cases s with
  | info ps =>
    rw [Section.run, Section.run]
    split
    · exact .failure
    · exact .pure ⟨h1, rfl, h3, h4, h5, h6⟩
  | tags ts => rw [Section.run, Section.run]; exact .pure ⟨h1, h2, congrArg (BMap.insertAll _) h3, h4, h5, h6⟩
  | servers ss => rw [Section.run, Section.run]; exact .pure ⟨h1, h2, h3, congrArg (· ++ _) h4, h5, h6⟩
  | securitySchemes ss =>
    rw [Section.run, Section.run]
    exact .bind (.of_runs (runSchemes_alike h.none ss)) fun _ _ _ => .pure ⟨h1, h2, h3, h4, h5, h6⟩
  | paths ps =>
    rw [Section.run, Section.run]
    exact .bind (runPaths_to h ps hm) fun _ _ hp => .pure ⟨h1, h2, h3, h4, h5.append hp, h6⟩

theorem runSections_to (h : AskTo total R St T W c c') : ∀ (api : Api) {d d'}, PartsIn T W api.parts → d.Along R d' →
    RunsTo total St (Opg.Along R) (runSections c api d) (runSections c' api d')
  | [], d, d', _, hd => by rw [runSections, runSections]; exact .pure hd
  | s :: ss, d, d', hm, hd => by
    rw [runSections, runSections]
    have hp : ∀ p, p ∈ Api.parts (s :: ss) ↔ p ∈ pathParts s.pathList ∨ p ∈ Api.parts ss := by
      intro p
      rw [Api.parts, Api.pathList, List.flatMap_cons, mem_pathParts_append]
      rfl
    exact .bind (s.run_to h ⟨fun t ht => hm.1 t ((hp _).2 (.inl ht)), fun r hr => hm.2 r ((hp _).2 (.inl hr))⟩ hd) fun _ _ hd =>
      runSections_to h ss ⟨fun t ht => hm.1 t ((hp _).2 (.inr ht)), fun r hr => hm.2 r ((hp _).2 (.inr hr))⟩ hd

/-- If types are documented in a related way, descriptions give related documents. -/
theorem describeApi_to (h : AskTo true R St T W c c') (hs : St .empty .empty)
    (hsec : ∀ cx cx', St cx cx' → cx.securitySchemes = cx'.securitySchemes) (api : Api)
    (hm : PartsIn T W api.parts) {d : Opg} (hd : describeApi c api = some d) :
    ∃ d', describeApi c' api = some d' ∧ d.Along R d' ∧ St d.components d'.components := by
  unfold describeApi at hd ⊢
  split at hd
  · cases hd
  · rename_i d1 cx hr
    cases hd
    obtain ⟨d', cx', hr', ⟨h1, h2, h3, h4, h5, -⟩, hs'⟩ :=
      (runSections_to h api hm ⟨rfl, rfl, rfl, rfl, .nil, rfl⟩).some hs hr
    rw [hr']
    exact ⟨_, rfl, ⟨h1, h2, h3, h4, h5, hsec _ _ hs'⟩, hs'⟩

end Verif
