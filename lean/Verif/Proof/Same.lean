import Verif.Proof.Api
import Verif.Spec.Deps
/-!
# Two runs side by side
-/

namespace Verif

/-! ## Schema generation in two programs -/

/-- Two programs that agree on a set of types which is closed under what their code asks for. -/
structure Agree (S : Ty → Prop) (env env' : Env) : Prop where
  expr : ∀ t, S t → schemaExpr env' t = schemaExpr env t
  name : ∀ t, S t → typeName env' t = typeName env t
  inline : ∀ t, S t → alwaysInline env' t = alwaysInline env t
  closed : ∀ t t' b, S t → Asks env t t' b → S t'
  eval : env'.evalExpr = env.evalExpr

variable {S : Ty → Prop} {env env' : Env} {rec rec' : Ty → M Model}

theorem Example.eval_same (h : env'.evalExpr = env.evalExpr) (e : Example) : e.eval env' = e.eval env := by
  cases e <;> simp [Example.eval, h]

theorem optExample_same (h : env'.evalExpr = env.evalExpr) (e : Option Example) :
    e.map (Example.eval env') = e.map (Example.eval env) := by
  cases e <;> simp [Example.eval_same h]

theorem ParamsExpr.eval_same (h : env'.evalExpr = env.evalExpr) (p : ParamsExpr) : p.eval env' = p.eval env := by
  simp [ParamsExpr.eval, optExample_same h]

theorem mentionWith_same (h : Agree S env env') (hr : ∀ t, S t → rec' t = rec t) {t : Ty} (ht : S t) (i p) :
    mentionWith env' rec' t i p = mentionWith env rec t i p := by
  funext cx
  unfold mentionWith selectReference
  rw [h.name t ht, h.inline t ht, hr t ht]

mutual
theorem RefExpr.eval_same (h : Agree S env env') (hr : ∀ t, S t → rec' t = rec t) :
    ∀ (e : RefExpr Ty), (∀ x ∈ e.asked, S x.1) → ∀ cx, e.eval env' rec' cx = e.eval env rec cx
  | .mention t i p, hs, cx => by
    rw [RefExpr.asked] at hs
    rw [RefExpr.eval, RefExpr.eval, mentionWith_same h hr (hs _ (List.mem_singleton.2 rfl)), ParamsExpr.eval_same h.eval]
  | .inline m, hs, cx => by
    rw [RefExpr.asked] at hs
    rw [RefExpr.eval, RefExpr.eval, ModelExpr.eval_same h hr m hs]
  | .any, _, cx => by rw [RefExpr.eval, RefExpr.eval]
theorem ModelExpr.eval_same (h : Agree S env env') (hr : ∀ t, S t → rec' t = rec t) :
    ∀ (e : ModelExpr Ty), (∀ x ∈ e.asked, S x.1) → ∀ cx, e.eval env' rec' cx = e.eval env rec cx
  | .getSchema t, hs, cx => by
    rw [ModelExpr.asked] at hs
    rw [ModelExpr.eval, ModelExpr.eval, hr _ (hs _ (List.mem_singleton.2 rfl))]
  | .getSchemaWithParams t p, hs, cx => by
    rw [ModelExpr.asked] at hs
    rw [ModelExpr.eval, ModelExpr.eval, hr _ (hs _ (List.mem_singleton.2 rfl)), ParamsExpr.eval_same h.eval]
  | .single _ _ td, hs, cx => by
    rw [ModelExpr.asked] at hs
    rw [ModelExpr.eval, ModelExpr.eval, TypeExpr.eval_same h hr td hs]
  | .oneOf _ rs, hs, cx => by
    rw [ModelExpr.asked] at hs
    rw [ModelExpr.eval, ModelExpr.eval, RefExpr.evalList_same h hr rs hs]
  | .tagged m .., hs, cx => by
    rw [ModelExpr.asked] at hs
    rw [ModelExpr.eval, ModelExpr.eval, ModelExpr.eval_same h hr m hs]
theorem TypeExpr.eval_same (h : Agree S env env') (hr : ∀ t, S t → rec' t = rec t) :
    ∀ (e : TypeExpr Ty), (∀ x ∈ e.asked, S x.1) → ∀ cx, e.eval env' rec' cx = e.eval env rec cx
  | .string .., _, cx | .number .., _, cx | .integer .., _, cx => by
    rw [TypeExpr.eval, TypeExpr.eval, optExample_same h.eval]
  | .boolean, _, cx => by rw [TypeExpr.eval, TypeExpr.eval]
  | .array r, hs, cx => by
    rw [TypeExpr.asked] at hs
    rw [TypeExpr.eval, TypeExpr.eval, RefExpr.eval_same h hr r hs]
  | .object es, hs, cx => by
    rw [TypeExpr.asked] at hs
    rw [TypeExpr.eval, TypeExpr.eval, PropExpr.evalList_same h hr es hs]
  | .dictionary r, hs, cx => by
    rw [TypeExpr.asked] at hs
    rw [TypeExpr.eval, TypeExpr.eval, RefExpr.eval_same h hr r hs]
theorem RefExpr.evalList_same (h : Agree S env env') (hr : ∀ t, S t → rec' t = rec t) :
    ∀ (es : List (RefExpr Ty)), (∀ x ∈ RefExpr.askedList es, S x.1) → ∀ cx,
      RefExpr.evalList env' rec' es cx = RefExpr.evalList env rec es cx
  | [], _, cx => by rw [RefExpr.evalList, RefExpr.evalList]
  | r :: rs, hs, cx => by
    rw [RefExpr.askedList] at hs
    rw [RefExpr.evalList, RefExpr.evalList, RefExpr.eval_same h hr r fun x hx => hs x (List.mem_append_left _ hx)]
    split
    · rfl
    · rw [RefExpr.evalList_same h hr rs fun x hx => hs x (List.mem_append_right _ hx)]
theorem PropExpr.evalList_same (h : Agree S env env') (hr : ∀ t, S t → rec' t = rec t) :
    ∀ (es : List (PropExpr Ty)), (∀ x ∈ PropExpr.askedList es, S x.1) → ∀ props req cx,
      PropExpr.evalList env' rec' es props req cx = PropExpr.evalList env rec es props req cx
  | [], _, _, _, cx => by rw [PropExpr.evalList, PropExpr.evalList]
  | .mk _ r _ :: rs, hs, props, req, cx => by
    rw [PropExpr.askedList] at hs
    rw [PropExpr.evalList, PropExpr.evalList, RefExpr.eval_same h hr r fun x hx => hs x (List.mem_append_left _ hx)]
    split
    · rfl
    · rw [PropExpr.evalList_same h hr rs fun x hx => hs x (List.mem_append_right _ hx)]
end

theorem getSchema_same (h : Agree S env env') (n : Nat) : ∀ t, S t → getSchema env' n t = getSchema env n t := by
  induction n with
  | zero => intro t _; rfl
  | succ n ih =>
    intro t ht
    funext cx
    rw [getSchema, getSchema, h.expr t ht]
    split
    · rfl
    · rename_i e he
      exact ModelExpr.eval_same h ih e (fun x hx => h.closed t x.1 x.2 ht ⟨e, he, hx⟩) cx

/-! ## Descriptions -/

/-- Whenever `x` gives a value, `y` does not give another one; if `total`, it gives the same one.  The registries
remain related. -/
def Runs (total : Bool) (St : Components → Components → Prop) {α : Type} (x y : Act α) : Prop :=
  ∀ cx cx', St cx cx' → ∀ a cx1, x cx = some (a, cx1) →
    match y cx' with
    | some (b, cx1') => a = b ∧ St cx1 cx1'
    | none => total = false

variable {total : Bool} {St : Components → Components → Prop}

theorem Runs.pure {α : Type} (a : α) : Runs total St (Pure.pure a) (Pure.pure a) := by
  intro cx cx' hs b cx1 h
  cases h
  exact ⟨rfl, hs⟩

theorem Runs.failure {α : Type} {y : Act α} : Runs total St Alternative.failure y := by
  intro cx cx' hs b cx1 h
  cases h

theorem Runs.bind {α β : Type} {x y : Act α} {f g : α → Act β} (h : Runs total St x y)
    (hf : ∀ a, Runs total St (f a) (g a)) : Runs total St (x >>= f) (y >>= g) := by
  intro cx cx' hs b cx2 hb
  rw [act_bind] at hb
  obtain ⟨a, cx1, hx, hfa⟩ := hb
  have := h cx cx' hs a cx1 hx
  cases hy : y cx' with
  | none =>
    rw [hy] at this
    have hn : (y >>= g) cx' = none := by
      show (y cx' >>= fun x => g x.1 x.2) = none
      rw [hy]; rfl
    rw [hn]; exact this
  | some z =>
    obtain ⟨a', cx1'⟩ := z
    rw [hy] at this
    obtain ⟨rfl, hs1⟩ := this
    have hn : (y >>= g) cx' = g a cx1' := by
      show (y cx' >>= fun x => g x.1 x.2) = _
      rw [hy]; rfl
    rw [hn]
    exact hf a cx1 cx1' hs1 b cx2 hfa

/-- Two contexts in which the types of a set are documented alike. -/
structure AskAlike {κ κ' : Type} [Mentioner κ] [Mentioner κ'] (total : Bool) (St : Components → Components → Prop) (T : Ty → Prop)
    (c : κ) (c' : κ') : Prop where
  reason : Mentioner.reason c' = Mentioner.reason c
  ask : ∀ t, T t → Runs total St (ask c t) (ask c' t)
  scheme : ∀ n s, Runs total St (fun cx => some (cx.mentionSecurityScheme n s)) fun cx => some (cx.mentionSecurityScheme n s)
  insert : ∀ n s cx cx', St cx cx' → St { cx with securitySchemes := BMap.insert n s cx.securitySchemes }
    { cx' with securitySchemes := BMap.insert n s cx'.securitySchemes }

/-- All types mentioned by the parts are in the set. -/
def MentionsIn (T : Ty → Prop) (parts : List Part) : Prop := ∀ t, .mention t ∈ parts → T t

theorem MentionsIn.left {T : Ty → Prop} {ps qs} (h : MentionsIn T (ps ++ qs)) : MentionsIn T ps :=
  fun t ht => h t (List.mem_append_left _ ht)
theorem MentionsIn.right {T : Ty → Prop} {ps qs} (h : MentionsIn T (ps ++ qs)) : MentionsIn T qs :=
  fun t ht => h t (List.mem_append_right _ ht)
theorem MentionsIn.head {T : Ty → Prop} {t ps} (h : MentionsIn T (.mention t :: ps)) : T t := h t (List.mem_cons_self ..)
theorem MentionsIn.tail {T : Ty → Prop} {p ps} (h : MentionsIn T (p :: ps)) : MentionsIn T ps :=
  fun t ht => h t (List.mem_cons_of_mem _ ht)

variable {κ κ' : Type} [Mentioner κ] [Mentioner κ'] {T : Ty → Prop} {c : κ} {c' : κ'}

theorem runParamProps_alike (h : AskAlike total St T c c') : ∀ (ps : List ParamProp) (p),
    MentionsIn T (ps.flatMap ParamProp.parts) → Runs total St (runParamProps c ps p) (runParamProps c' ps p)
  | [], p, _ => by rw [runParamProps, runParamProps]; exact .pure _
  | .description s :: ps, p, hm => by
    rw [runParamProps, runParamProps]; exact runParamProps_alike h ps _ hm
  | .required s :: ps, p, hm => by
    rw [runParamProps, runParamProps]; exact runParamProps_alike h ps _ hm
  | .deprecated s :: ps, p, hm => by
    rw [runParamProps, runParamProps]; exact runParamProps_alike h ps _ hm
  | .schema t :: ps, p, hm => by
    rw [List.flatMap_cons] at hm
    rw [runParamProps, runParamProps]
    exact .bind (h.ask t (hm.left.head)) fun _ => runParamProps_alike h ps _ hm.right

theorem ParamDecl.run_alike (h : AskAlike total St T c c') (d : ParamDecl) (hm : MentionsIn T d.parts) :
    Runs total St (d.run c) (d.run c') := by
  cases d with
  | header name ps =>
    rw [ParamDecl.run, ParamDecl.run]
    exact .bind (h.ask _ hm.head) fun _ => .bind (runParamProps_alike h ps _ hm.tail) fun _ => .pure _
  | query name t ps =>
    rw [ParamDecl.run, ParamDecl.run]
    exact .bind (h.ask _ hm.head) fun _ => .bind (runParamProps_alike h ps _ hm.tail) fun _ => .pure _

theorem runParameters_alike (h : AskAlike total St T c c') : ∀ (ds : List ParamDecl) (m),
    MentionsIn T (ds.flatMap ParamDecl.parts) → Runs total St (runParameters c ds m) (runParameters c' ds m)
  | [], m, _ => by rw [runParameters, runParameters]; exact .pure _
  | d :: ds, m, hm => by
    rw [List.flatMap_cons] at hm
    rw [runParameters, runParameters]
    exact .bind (d.run_alike h hm.left) fun _ => runParameters_alike h ds _ hm.right

theorem urlParam_alike (h : AskAlike total St T c c') (name t ps) (ht : T t) :
    Runs total St (urlParam c name t ps) (urlParam c' name t ps) := by
  unfold urlParam
  exact .bind (h.ask t ht) fun _ => .pure _

theorem PathSeg.run_alike (h : AskAlike total St T c c') (s : PathSeg) (ps) (hm : MentionsIn T s.parts) :
    Runs total St (s.run c ps) (s.run c' ps) := by
  cases s with
  | literal s => rw [PathSeg.run, PathSeg.run]; exact .pure _
  | named n t => rw [PathSeg.run, PathSeg.run]; exact urlParam_alike h _ _ _ hm.head
  | bare p t =>
    rw [PathSeg.run, PathSeg.run]
    split
    · exact .failure
    · exact urlParam_alike h _ _ _ hm.head

theorem runUrl_alike (h : AskAlike total St T c c') : ∀ (ss : List PathSeg) (ps),
    MentionsIn T (ss.flatMap PathSeg.parts) → Runs total St (runUrl c ss ps) (runUrl c' ss ps)
  | [], ps, _ => by rw [runUrl, runUrl]; exact .pure _
  | s :: ss, ps, hm => by
    rw [List.flatMap_cons] at hm
    rw [runUrl, runUrl]
    exact .bind (s.run_alike h ps hm.left) fun _ => .bind (runUrl_alike h ss _ hm.right) fun _ => .pure _

theorem runBodyProps_alike (h : AskAlike total St T c c') : ∀ (ps : List BodyProp) (d r s),
    MentionsIn T (ps.flatMap BodyProp.parts) → Runs total St (runBodyProps c ps d r s) (runBodyProps c' ps d r s)
  | [], d, r, s, _ => by rw [runBodyProps, runBodyProps]; exact .pure _
  | .schema t :: ps, d, r, s, hm => by
    rw [List.flatMap_cons] at hm
    rw [runBodyProps, runBodyProps]
    exact .bind (h.ask t hm.left.head) fun _ => runBodyProps_alike h ps _ _ _ hm.right
  | .description _ :: ps, d, r, s, hm => by
    rw [runBodyProps, runBodyProps]; exact runBodyProps_alike h ps _ _ _ hm
  | .required _ :: ps, d, r, s, hm => by
    rw [runBodyProps, runBodyProps]; exact runBodyProps_alike h ps _ _ _ hm

theorem BodyDecl.run_alike (h : AskAlike total St T c c') (b : BodyDecl) (hm : MentionsIn T b.parts) :
    Runs total St (b.run c) (b.run c') := by
  cases b with
  | props ps =>
    rw [BodyDecl.run, BodyDecl.run]
    refine .bind (runBodyProps_alike h ps _ _ _ hm) fun x => ?_
    obtain ⟨d, r, s⟩ := x
    cases s with
    | none => exact .failure
    | some s => exact .pure _
  | type t =>
    rw [BodyDecl.run, BodyDecl.run]
    exact .bind (h.ask t hm.head) fun _ => .pure _

theorem runResponse_alike (h : AskAlike total St T c c') (code d) (s : ResponseDecl) (hm : MentionsIn T s.parts) :
    Runs total St (runResponse c code d s) (runResponse c' code d s) := by
  unfold runResponse
  refine .bind ?_ fun r => ?_
  · cases s with
    | absent => exact .pure _
    | type t => rw [ResponseDecl.run, ResponseDecl.run]; exact .bind (h.ask t hm.head) fun _ => .pure _
    | raw s => exact .pure _
  · rw [h.reason]
    split
    · exact .pure _
    · exact .failure

theorem SecurityDecl.run_alike (h : AskAlike total St T c c') (s : SecurityDecl) : Runs total St s.run s.run := by
  cases s with
  | literal n r =>
    rw [SecurityDecl.run]
    split
    · exact .pure _
    · exact .failure
  | scheme n s r =>
    rw [SecurityDecl.run]
    split
    · exact h.scheme n s
    · exact .failure

theorem runSecurityItems_alike (h : AskAlike total St T c c') : ∀ (ss : List SecurityDecl) (m),
    Runs total St (runSecurityItems ss m) (runSecurityItems ss m)
  | [], m => by rw [runSecurityItems]; exact .pure _
  | s :: ss, m => by
    rw [runSecurityItems]
    exact .bind (s.run_alike h) fun _ => runSecurityItems_alike h ss _

theorem runSecurity_alike (h : AskAlike total St T c c') : ∀ (alts : List (List SecurityDecl)),
    Runs total St (runSecurity alts) (runSecurity alts)
  | [] => by rw [runSecurity]; exact .pure _
  | [] :: _ => by rw [runSecurity]; exact .failure
  | (s :: ss) :: alts => by
    rw [runSecurity]
    · exact .bind (runSecurityItems_alike h _ _) fun _ => .bind (runSecurity_alike h alts) fun _ => .pure _
    · nofun

mutual
theorem runOpProps_alike (h : AskAlike total St T c c') : ∀ (ps : List OpProp) (o), MentionsIn T (opParts ps) →
    Runs total St (runOpProps c ps o) (runOpProps c' ps o)
  | [], o, _ => by rw [runOpProps, runOpProps]; exact .pure _
  | .summary _ :: ps, o, hm => by
    rw [opParts] at hm; rw [runOpProps, runOpProps]; exact runOpProps_alike h ps _ hm
  | .operationId _ :: ps, o, hm => by
    rw [opParts] at hm; rw [runOpProps, runOpProps]; exact runOpProps_alike h ps _ hm
  | .description _ :: ps, o, hm => by
    rw [opParts] at hm; rw [runOpProps, runOpProps]; exact runOpProps_alike h ps _ hm
  | .deprecated _ :: ps, o, hm => by
    rw [opParts] at hm; rw [runOpProps, runOpProps]; exact runOpProps_alike h ps _ hm
  | .tags _ :: ps, o, hm => by
    rw [opParts] at hm; rw [runOpProps, runOpProps]; exact runOpProps_alike h ps _ hm
  | .parameters ds :: ps, o, hm => by
    rw [opParts] at hm; rw [runOpProps, runOpProps]
    exact .bind (runParameters_alike h ds _ hm.left) fun _ => runOpProps_alike h ps _ hm.right
  | .callbacks cs :: ps, o, hm => by
    rw [opParts] at hm; rw [runOpProps, runOpProps]
    exact .bind (runCallbacks_alike h cs _ hm.left) fun _ => runOpProps_alike h ps _ hm.right
  | .security alts :: ps, o, hm => by
    rw [opParts] at hm; rw [runOpProps, runOpProps]
    exact .bind (runSecurity_alike h alts) fun _ => runOpProps_alike h ps _ hm.right
  | .body b :: ps, o, hm => by
    rw [opParts] at hm; rw [runOpProps, runOpProps]
    exact .bind (b.run_alike h hm.left) fun _ => runOpProps_alike h ps _ hm.right
  | .response code d s :: ps, o, hm => by
    rw [opParts] at hm; rw [runOpProps, runOpProps]
    exact .bind (runResponse_alike h code d s hm.left) fun _ => runOpProps_alike h ps _ hm.right
theorem runCallbacks_alike (h : AskAlike total St T c c') : ∀ (ds : List CallbackDecl) (m),
    MentionsIn T (callbackParts ds) → Runs total St (runCallbacks c ds m) (runCallbacks c' ds m)
  | [], m, _ => by rw [runCallbacks, runCallbacks]; exact .pure _
  | .literal n _ :: ds, m, _ => by
    rw [runCallbacks, runCallbacks]
    split
    · exact .pure _
    · exact .failure
  | .ident n ps :: ds, m, hm => by
    rw [callbackParts] at hm; rw [runCallbacks, runCallbacks]
    exact .bind (runPaths_alike h ps hm.left) fun _ => runCallbacks_alike h ds _ hm.right
theorem runPaths_alike (h : AskAlike total St T c c') : ∀ (ds : List PathDecl),
    MentionsIn T (pathParts ds) → Runs total St (runPaths c ds) (runPaths c' ds)
  | [], _ => by rw [runPaths, runPaths]; exact .pure _
  | ⟨segs, props⟩ :: ds, hm => by
    rw [pathParts] at hm; rw [runPaths, runPaths]
    exact .bind (PathDecl.run_alike h segs props hm.left) fun _ => .bind (runPaths_alike h ds hm.right) fun _ => .pure _
theorem PathDecl.run_alike (h : AskAlike total St T c c') : ∀ (segs : List PathSeg) (props : List ItemProp),
    MentionsIn T (segs.flatMap PathSeg.parts ++ itemParts props) →
    Runs total St (PathDecl.run c ⟨segs, props⟩) (PathDecl.run c' ⟨segs, props⟩)
  | segs, props, hm => by
    rw [PathDecl.run, PathDecl.run]
    split
    · exact .failure
    · exact .bind (runUrl_alike h segs _ hm.left) fun _ => .bind (runItemProps_alike h props _ hm.right) fun _ => .pure _
theorem runItemProps_alike (h : AskAlike total St T c c') : ∀ (ps : List ItemProp) (v), MentionsIn T (itemParts ps) →
    Runs total St (runItemProps c ps v) (runItemProps c' ps v)
  | [], v, _ => by rw [runItemProps, runItemProps]; exact .pure _
  | .summary _ :: ps, v, hm => by
    rw [itemParts] at hm; rw [runItemProps, runItemProps]; exact runItemProps_alike h ps _ hm
  | .description _ :: ps, v, hm => by
    rw [itemParts] at hm; rw [runItemProps, runItemProps]; exact runItemProps_alike h ps _ hm
  | .parameters ds :: ps, v, hm => by
    rw [itemParts] at hm; rw [runItemProps, runItemProps]
    exact .bind (runParameters_alike h ds _ hm.left) fun _ => runItemProps_alike h ps _ hm.right
  | .operation m os :: ps, v, hm => by
    rw [itemParts] at hm; rw [runItemProps, runItemProps]
    exact .bind (runOpProps_alike h os _ hm.left) fun _ => runItemProps_alike h ps _ hm.right
end

theorem runSchemes_alike (h : AskAlike total St T c c') : ∀ (ds : List SchemeDecl), Runs total St (runSchemes ds) (runSchemes ds)
  | [] => by rw [runSchemes]; exact .pure _
  | d :: ds => by
    rw [runSchemes]
    split
    · exact .failure
    · refine .bind ?_ fun _ => runSchemes_alike h ds
      intro cx cx' hs a cx1 hx
      cases hx
      exact ⟨rfl, h.insert _ _ _ _ hs⟩

theorem Section.run_alike (h : AskAlike total St T c c') (s : Section) (d) (hm : MentionsIn T (pathParts s.pathList)) :
    Runs total St (s.run c d) (s.run c' d) := by
  cases s with
  | info ps =>
    rw [Section.run, Section.run]
    split
    · exact .failure
    · exact .pure _
  | tags ts => rw [Section.run, Section.run]; exact .pure _
  | servers ss => rw [Section.run, Section.run]; exact .pure _
  | securitySchemes ss =>
    rw [Section.run, Section.run]
    exact .bind (runSchemes_alike h ss) fun _ => .pure _
  | paths ps =>
    rw [Section.run, Section.run]
    exact .bind (runPaths_alike h ps hm) fun _ => .pure _

theorem mem_pathParts_append {ps qs : List PathDecl} {p : Part} : p ∈ pathParts (ps ++ qs) ↔ p ∈ pathParts ps ∨ p ∈ pathParts qs := by
  induction ps with
  | nil => rw [pathParts]; simp
  | cons d ps ih =>
    obtain ⟨segs, props⟩ := d
    rw [List.cons_append, pathParts, pathParts]
    simp only [List.mem_append, ih, or_assoc]

theorem runSections_alike (h : AskAlike total St T c c') : ∀ (api : Api) (d), MentionsIn T api.parts →
    Runs total St (runSections c api d) (runSections c' api d)
  | [], d, _ => by rw [runSections, runSections]; exact .pure _
  | s :: ss, d, hm => by
    rw [runSections, runSections]
    have hp : ∀ p, p ∈ Api.parts (s :: ss) ↔ p ∈ pathParts s.pathList ∨ p ∈ Api.parts ss := by
      intro p
      rw [Api.parts, Api.pathList, List.flatMap_cons, mem_pathParts_append]
      rfl
    exact .bind (s.run_alike h d fun t ht => hm t ((hp _).2 (.inl ht))) fun _ =>
      runSections_alike h ss _ fun t ht => hm t ((hp _).2 (.inr ht))

/-- If types are documented alike, so are descriptions. -/
theorem describeApi_same (h : AskAlike true Eq T c c') (api : Api) (hm : MentionsIn T api.parts) {d : Opg}
    (hd : describeApi c api = some d) : describeApi c' api = some d := by
  unfold describeApi at hd ⊢
  split at hd
  · cases hd
  · rename_i d1 cx hr
    cases hd
    have := runSections_alike h api .empty hm .empty .empty rfl _ _ hr
    split at this
    · rename_i d2 cx' hr'
      rw [hr']
      obtain ⟨rfl, rfl⟩ := this
      rfl
    · cases this

theorem askAlike_of_agree {env env' : Env} {S : Ty → Prop} (h : Agree S env env') (fuel reason) :
    AskAlike true Eq S (⟨env, fuel, reason⟩ : Ctx) (⟨env', fuel, reason⟩ : Ctx) where
  reason := rfl
  ask t ht := by
    rintro cx cx' rfl a cx1 hx
    have : ask (⟨env', fuel, reason⟩ : Ctx) t cx = ask (⟨env, fuel, reason⟩ : Ctx) t cx := by
      show mentionSchema _ _ _ _ _ _ = mentionSchema _ _ _ _ _ _
      unfold mentionSchema
      rw [mentionWith_same h (getSchema_same h fuel) ht]
    rw [this, hx]
    exact ⟨rfl, rfl⟩
  scheme n s := by
    rintro cx cx' rfl a cx1 hx
    simp only [Option.some.injEq] at hx
    simp [hx]
  insert n s := by rintro cx cx' rfl; rfl

theorem Agree.symm {env env' : Env} {S : Ty → Prop} (h : Agree S env env') : Agree S env' env where
  expr t ht := (h.expr t ht).symm
  name t ht := (h.name t ht).symm
  inline t ht := (h.inline t ht).symm
  closed t t' b ht ha := by
    obtain ⟨e, he, hm⟩ := ha
    rw [h.expr t ht] at he
    exact h.closed t t' b ht ⟨e, he, hm⟩
  eval := h.eval.symm

theorem Agree.describes {env env' : Env} {S : Ty → Prop} (h : Agree S env env') (reason) (api : Api)
    (hm : MentionsIn S api.parts) (d : Opg) : Describes env' reason api d ↔ Describes env reason api d := by
  constructor
  · rintro ⟨n, hd⟩; exact ⟨n, describeApi_same (askAlike_of_agree h.symm n reason) api hm hd⟩
  · rintro ⟨n, hd⟩; exact ⟨n, describeApi_same (askAlike_of_agree h n reason) api hm hd⟩

theorem typeName_same {env env' : Env} {P : Ty → Prop} (hw : ∀ w t, P (.wrap w t) → P t) (ho : ∀ t, P (.option t) → P t)
    (hn : ∀ i, P (.named i) → typeName env' (.named i) = typeName env (.named i)) :
    ∀ t, P t → typeName env' t = typeName env t
  | .wrap w t, h => by rw [typeName, typeName]; exact typeName_same hw ho hn t (hw w t h)
  | .option t, h => by rw [typeName, typeName]; exact typeName_same hw ho hn t (ho t h)
  | .named i, h => hn i h
  | .prim _, _ | .tuple _, _ | .seq _ _, _ | .dict _ _, _ | .unit, _ | .uuid, _ | .naiveDateTime, _ | .dateTime, _
  | .naiveDate, _ => rfl

/-- Two programs that agree where the roots lead. -/
theorem agree_reached {env env' : Env} {roots : List (Ty × Bool)}
    (hd : ∀ i, Reached env roots (.named i) → env'.decl i = env.decl i) (he : env'.evalExpr = env.evalExpr) :
    Agree (Reached env roots) env env' where
  expr t ht := by
    cases t <;> try rfl
    simp only [schemaExpr, hd _ ht]
  name t ht := by
    refine typeName_same (P := Reached env roots) ?_ ?_ ?_ t ht
    · intro w t ht; exact .step ht ⟨_, rfl, by simp [ModelExpr.asked]; rfl⟩
    · intro t ht; exact .step ht ⟨_, rfl, by simp [ModelExpr.asked]; rfl⟩
    · intro i ht; simp only [typeName, hd _ ht]
  inline t ht := by
    cases t <;> try rfl
    simp only [alwaysInline, hd _ ht]
  closed t t' b ht ha := .step ht ha
  eval := he

/-- Two programs that generate the same code for each type. -/
theorem agree_code {env env' : Env} (hb : ∀ i, schemaExpr env' (.named i) = schemaExpr env (.named i))
    (hn : ∀ i, typeName env' (.named i) = typeName env (.named i))
    (hi : ∀ i, alwaysInline env' (.named i) = alwaysInline env (.named i)) (he : env'.evalExpr = env.evalExpr) :
    Agree (fun _ => True) env env' where
  expr t ht := by
    cases t <;> first | rfl | exact hb _
  name t ht := typeName_same (P := fun _ => True) (fun _ _ _ => trivial) (fun _ _ => trivial) (fun i _ => hn i) t ht
  inline t ht := by
    cases t <;> first | rfl | exact hi _
  closed _ _ _ _ _ := trivial
  eval := he

end Verif
