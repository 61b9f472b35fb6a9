import Verif.Spec.Arrange
import Verif.Proof.ApiDoc
import Verif.Proof.DocForall
/-!
# Descriptions that say the same: proofs
-/

namespace Verif

variable {env : Env}

theorem Mentions.one {t : Ty} {i p r r'} (h : Mentions env t i p r) (h' : Mentions env t i p r') : r = r' := by
  obtain ⟨cx1, cx1', n, h⟩ := h
  obtain ⟨cx2, cx2', k, h'⟩ := h'
  exact mentionWith_indep (rec := getSchema env n) (rec' := getSchema env k) (fun _ _ _ _ _ _ _ a b => getSchema_indep n a b) h h'

theorem paramOf_one {d d' : ParamDecl} {p p'} (s : ParamSays d d') (h : ParamOf env d p) (h' : ParamOf env d' p') : p = p' := by
  have hp : p.parameterIn = p'.parameterIn := by
    rw [h.place, h'.place]
    have := s.place
    cases d <;> cases d' <;> first | rfl | (cases this)
  have hr : p.required = p'.required := by
    have e1 : p.required = (lastOf ParamProp.required? d.props).getD d.isHeader := by rw [h.required]; cases d <;> rfl
    have e2 : p'.required = (lastOf ParamProp.required? d'.props).getD d'.isHeader := by rw [h'.required]; cases d' <;> rfl
    rw [e1, e2, s.required]
  have hd : p.deprecated = p'.deprecated := by rw [h.deprecated, h'.deprecated, s.deprecated]
  have ht : p.description = p'.description := by rw [h.description, h'.description, s.description]
  have hs : p.schema = p'.schema := by
    obtain ⟨r, e, hm⟩ := h.schema
    obtain ⟨r', e', hm'⟩ := h'.schema
    have hm : Mentions env d.type false {} r := by cases d <;> exact hm
    have hm' : Mentions env d'.type false {} r' := by cases d' <;> exact hm'
    rw [s.type] at hm
    rw [e, e', hm.one hm']
  cases p; cases p'
  simp_all

theorem urlParam_one {t : Ty} {p p'} (h : UrlParam env t p) (h' : UrlParam env t p') : p = p' := by
  obtain ⟨r, e, hm⟩ := h.schema
  obtain ⟨r', e', hm'⟩ := h'.schema
  have hs : p.schema = p'.schema := by rw [e, e', hm.one hm']
  have h1 := h.place; have h2 := h.required; have h3 := h.description; have h4 := h.deprecated
  have h1' := h'.place; have h2' := h'.required; have h3' := h'.description; have h4' := h'.deprecated
  cases p; cases p'
  simp_all

theorem bodyOf_one {b b' : BodyDecl} {x x'} (s : BodySays b b') (h : BodyOf env b x) (h' : BodyOf env b' x') : x = x' := by
  have hd : x.description = x'.description := by
    have e1 : x.description = some b.text := by rw [h.description]; cases b <;> rfl
    have e2 : x'.description = some b'.text := by rw [h'.description]; cases b' <;> rfl
    rw [e1, e2, s.text]
  have hr : x.required = x'.required := by
    have e1 : x.required = b.isRequired := by rw [h.required]; cases b <;> rfl
    have e2 : x'.required = b'.isRequired := by rw [h'.required]; cases b' <;> rfl
    rw [e1, e2, s.isRequired]
  have hs : x.schema = x'.schema := by
    obtain ⟨t, e, hm⟩ := h.schema
    obtain ⟨t', e', hm'⟩ := h'.schema
    have e : b.type? = some t := by rw [← e]; cases b <;> rfl
    have e' : b'.type? = some t' := by rw [← e']; cases b' <;> rfl
    rw [s.type, e'] at e
    cases e
    exact hm.one hm'
  cases x; cases x'
  simp_all

theorem responseOf_one {reason code d} {x x' : Response} (h : ResponseOf env reason code d x)
    (h' : ResponseOf env reason code d x') : x = x' := by
  have hd : x.description = x'.description := by rw [h.description, h'.description]
  have hs : x.schema = x'.schema := by
    have a := h.schema
    have b := h'.schema
    obtain ⟨t, s⟩ := d
    cases s with
    | absent => exact Eq.trans a (Eq.symm b)
    | type t =>
      obtain ⟨r, e, hm⟩ := a
      obtain ⟨r', e', hm'⟩ := b
      rw [e, e', hm.one hm']
    | raw s => exact Eq.trans a (Eq.symm b)
  cases x; cases x'
  simp_all

/-- A key under which related declarations stand holds the same. -/
theorem Last.one {α β : Type} {P Q : α → β → Prop} {D : α → α → Prop} {a a' : Option α} {old new old' new' : Option β}
    (s : OptRel D a a') (one : ∀ x x' v v', D x x' → P x v → Q x' v' → v = v') (h : Last P a old new) (h' : Last Q a' old' new')
    (e : old = old') : new = new' := by
  cases s with
  | none => exact (Eq.trans h e).trans (Eq.symm h')
  | some hd =>
    obtain ⟨v, e, hv⟩ := h
    obtain ⟨v', e', hv'⟩ := h'
    rw [e, e', one _ _ _ _ hd hv hv']

theorem OptRel.of_eq {α : Type} : ∀ (a : Option α), OptRel Eq a a
  | Option.none => .none
  | Option.some _ => .some rfl

theorem alternativeOf_one {alt alt' : List SecurityDecl} {m m'} (s : AlternativeSays alt alt') (h : AlternativeOf alt m)
    (h' : AlternativeOf alt' m') (hs : BMap.Sorted m) (hs' : BMap.Sorted m') : m = m' := by
  refine BMap.ext hs hs' fun name => ?_
  have e := (h.names name).trans ((s name).trans (h'.names name).symm)
  cases hg : BMap.get name m with
  | some v =>
    have := h.scopes name v hg
    subst this
    exact (e.1 hg).symm
  | none =>
    cases hg' : BMap.get name m' with
    | none => rfl
    | some v =>
      have := h'.scopes name v hg'
      subst this
      rw [e.2 hg'] at hg
      cases hg

theorem alternatives_one : ∀ {as as' : List (List SecurityDecl)} {ms ms'}, Pointwise AlternativeSays as as' →
    Pointwise AlternativeOf as ms → Pointwise AlternativeOf as' ms' → (∀ m ∈ ms, BMap.Sorted m) → (∀ m ∈ ms', BMap.Sorted m) → ms = ms'
  | _, _, _, _, .nil, .nil, .nil, _, _ => rfl
  | _, _, _, _, .cons s ss, .cons h hs, .cons h' hs', hm, hm' => by
    rw [alternativeOf_one s h h' (hm _ (.head _)) (hm' _ (.head _)),
      alternatives_one ss hs hs' (fun m h => hm m (.tail _ h)) (fun m h => hm' m (.tail _ h))]

theorem elements_one : ∀ {ss ss' : List PathSeg} {p p'}, ss.map PathSeg.element? = ss'.map PathSeg.element? → Pointwise SegOf ss p →
    Pointwise SegOf ss' p' → p = p'
  | _, _, _, _, _, .nil, .nil => rfl
  | _, _, _, _, e, .nil, .cons _ _ => by cases e
  | _, _, _, _, e, .cons _ _, .nil => by cases e
  | _, _, _, _, e, .cons h hs, .cons h' hs' => by
    rw [List.map_cons, List.map_cons] at e
    injection e with e1 e2
    rw [elements_one e2 hs hs']
    have a : ∀ {s e}, SegOf s e → s.element? = some e := by
      intro s e h
      cases h with
      | literal => rfl
      | named => rfl
      | bare h => simp only [PathSeg.element?, h]; rfl
    rw [a h, a h'] at e1
    injection e1 with e1
    rw [e1]

/-- All maps of a document are in key order. -/
abbrev inOrder : DocPred := docAll (fun _ => True) (fun _ => True)

theorem told_env {c c' : Ctx} (he : c.env = c'.env) : told c = told c' := by
  show (fun t r => Mentions c.env t false {} r) = _
  rw [he]
  rfl

mutual
theorem op_one {c c' : Ctx} (he : c.env = c'.env) (hr : c.reason = c'.reason) : ∀ {ps ps'}, OpSays ps ps' → ∀ {o o'}, MadeOp c ps o →
    MadeOp c' ps' o' → o.Forall inOrder → o'.Forall inOrder → o = o'
  | _, _, .mk summary operationId description deprecated tags security body responses parameters callbacks, o, o', h, h', f, f' => by
    have m := h.operationOf
    have m' := h'.operationOf
    rw [← told_env he, show Mentioner.reason c' = Mentioner.reason c from hr.symm] at m'
    rw [docAll_op] at f f'
    obtain ⟨⟨f1, -⟩, f2, ⟨f3, f4⟩, -, f5⟩ := f
    obtain ⟨⟨g1, -⟩, g2, ⟨g3, g4⟩, -, g5⟩ := f'
    have e1 : o.summary = o'.summary := by rw [m.summary, m'.summary, summary]
    have e2 : o.operationId = o'.operationId := by rw [m.operationId, m'.operationId, operationId]
    have e3 : o.description = o'.description := by rw [m.description, m'.description, description]
    have e4 : o.deprecated = o'.deprecated := by rw [m.deprecated, m'.deprecated, deprecated]
    have e5 : o.tags = o'.tags := by rw [m.tags, m'.tags, tags]
    have e6 : o.security = o'.security :=
      alternatives_one security m.security m'.security (fun x hx => (f5 x hx).1) (fun x hx => (g5 x hx).1)
    have e7 : o.requestBody = o'.requestBody :=
      Last.one body (fun _ _ _ _ hd a b => bodyOf_one hd a b) m.body m'.body rfl
    have e8 : o.responses = o'.responses := BMap.ext f1 g1 fun code =>
      Last.one (D := Eq) (by rw [responses code]; exact .of_eq _) (fun _ _ _ _ hd a b => by cases hd; exact responseOf_one a b)
        (m.responses code) (m'.responses code) rfl
    have e9 : o.parameters = o'.parameters := BMap.ext f2.1 g2.1 fun name =>
      Last.one (parameters name) (fun _ _ _ _ hd a b => paramOf_one hd a b) (m.parameters name) (m'.parameters name) rfl
    have e10 : o.callbacks = o'.callbacks := BMap.ext f3 g3 fun name => by
      obtain ⟨cx, cx', h⟩ := h
      obtain ⟨sx, sx', h'⟩ := h'
      have a := (runOpProps_step _ h).callbacks name
      have b := (runOpProps_step _ h').callbacks name
      exact callback_one he hr (callbacks name) a b (fun v hv => (forallCallbacks_iff _).1 f4 _ (BMap.mem_of_get hv))
        (fun v hv => (forallCallbacks_iff _).1 g4 _ (BMap.mem_of_get hv))
    cases o; cases o'
    simp_all
termination_by structural _ _ s => s
theorem callback_one {c c' : Ctx} (he : c.env = c'.env) (hr : c.reason = c'.reason) : ∀ {d d'}, CallbackSays d d' →
    ∀ {new new' : Option CallbackObject}, Last (MadeCallback c) d none new → Last (MadeCallback c') d' none new' →
    (∀ v, new = some v → v.Forall inOrder) → (∀ v, new' = some v → v.Forall inOrder) → new = new'
  | _, _, .none, _, _, h, h', _, _ => Eq.trans h (Eq.symm h')
  | _, _, .literal n n' ps ps', _, _, h, h', _, _ => by
    obtain ⟨⟨v⟩, rfl, e⟩ := h
    obtain ⟨⟨v'⟩, rfl, e'⟩ := h'
    have e : v = [] := e
    have e' : v' = [] := e'
    rw [e, e']
  | _, _, .ident s, _, _, h, h', f, f' => by
    obtain ⟨⟨v⟩, rfl, h⟩ := h
    obtain ⟨⟨v'⟩, rfl, h'⟩ := h'
    have f := f _ rfl
    have f' := f' _ rfl
    rw [CallbackObject.Forall] at f f'
    have := paths_one he hr s h h' f.2 f'.2
    cases this
    rfl
termination_by structural _ _ s => s
theorem paths_one {c c' : Ctx} (he : c.env = c'.env) (hr : c.reason = c'.reason) : ∀ {ds ds'}, PathsSay ds ds' → ∀ {ps ps'},
    Pointwise (MadePath c) ds ps → Pointwise (MadePath c') ds' ps' → forallPaths inOrder ps → forallPaths inOrder ps' → ps = ps'
  | _, _, .nil, _, _, h, h', _, _ => by cases h; cases h'; rfl
  | _, _, .cons segments item s, _, _, h, h', f, f' => by
    cases h with
    | @cons _ pv _ pvs h hs =>
      cases h' with
      | @cons _ pv' _ pvs' h' hs' =>
        obtain ⟨p, v⟩ := pv
        obtain ⟨p', v'⟩ := pv'
        rw [forallPaths] at f f'
        have e := paths_one he hr s hs hs' f.2 f'.2
        obtain ⟨-, hp, params, hu, st⟩ := PathDecl.run_step h
        obtain ⟨-, hp', params', hu', st'⟩ := PathDecl.run_step h'
        have e1 : p = p' := elements_one segments.elements hp hp'
        have e2 : v = v' := by
          refine item_one he hr item st st' rfl rfl (fun m => ⟨rfl, rfl⟩) (fun name => ?_) f.1 f'.1
          have a := hu name
          have b := hu' name
          rw [← told_env he] at b
          exact Last.one (D := Eq) (by
            have : lastOf (PathSeg.typeOf? name) _ = lastOf (PathSeg.typeOf? name) _ := segments.types name
            simp only [PathDecl.segments]
            rw [this]; exact .of_eq _) (fun _ _ _ _ hd a b => by cases hd; exact urlParam_one a b) a b rfl
        rw [e, e1, e2]
termination_by structural _ _ s => s
theorem item_one {c c' : Ctx} (he : c.env = c'.env) (hr : c.reason = c'.reason) : ∀ {ps ps'}, ItemSays ps ps' → ∀ {v0 v v0' v'},
    ItemStep c ps v0 v → ItemStep c' ps' v0' v' → v0.summary = v0'.summary → v0.description = v0'.description →
    (∀ m, BMap.get m v0.operations = none ∧ BMap.get m v0'.operations = none) →
    (∀ name, BMap.get name v0.parameters = BMap.get name v0'.parameters) →
    v.Forall inOrder → v'.Forall inOrder → v = v'
  | _, _, .mk summary description parameters operations, v0, v, v0', v', h, h', h1, h2, h3, h4, f, f' => by
    rw [docAll_item] at f f'
    obtain ⟨⟨f1, f2⟩, f3⟩ := f
    obtain ⟨⟨g1, g2⟩, g3⟩ := f'
    have e1 : v.summary = v'.summary := by rw [h.summary, h'.summary, summary, h1]
    have e2 : v.description = v'.description := by rw [h.description, h'.description, description, h2]
    have e3 : v.parameters = v'.parameters := BMap.ext f3.1 g3.1 fun name => by
      have b := h'.parameters name
      rw [← told_env he] at b
      exact Last.one (parameters name) (fun _ _ _ _ hd a b => paramOf_one hd a b) (h.parameters name) b (h4 name)
    have e4 : v.operations = v'.operations := BMap.ext f1 g1 fun m => by
      have a := h.operations m
      have b := h'.operations m
      rw [(h3 m).1] at a
      rw [(h3 m).2] at b
      exact method_one he hr (operations m) a b (fun o ho => (forallOps_iff _).1 f2 _ (BMap.mem_of_get ho))
        (fun o ho => (forallOps_iff _).1 g2 _ (BMap.mem_of_get ho))
    cases v; cases v'
    simp_all
termination_by structural _ _ s => s
theorem method_one {c c' : Ctx} (he : c.env = c'.env) (hr : c.reason = c'.reason) : ∀ {a a'}, MethodSays a a' →
    ∀ {new new' : Option Operation}, Last (MadeOp c) a none new → Last (MadeOp c') a' none new' →
    (∀ o, new = some o → o.Forall inOrder) → (∀ o, new' = some o → o.Forall inOrder) → new = new'
  | _, _, .none, _, _, h, h', _, _ => Eq.trans h (Eq.symm h')
  | _, _, .some s, _, _, h, h', f, f' => by
    obtain ⟨o, rfl, h⟩ := h
    obtain ⟨o', rfl, h'⟩ := h'
    rw [op_one he hr s h h' (f _ rfl) (f' _ rfl)]
termination_by structural _ _ s => s
end

/-! ## Saying the same is reflexive, and ignores the order of other properties -/

theorem lastOf_only {α β : Type} {f : α → Option β} {q : α → Bool} (h : ∀ a, q a = false → f a = none) (l : List α) :
    lastOf f (l.filter q) = lastOf f l := by
  have : (l.filter q).filterMap f = l.filterMap f := by
    induction l with
    | nil => rfl
    | cons a l ih =>
      cases hq : q a with
      | true => rw [List.filter_cons_of_pos hq]; simp [List.filterMap_cons, ih]
      | false => rw [List.filter_cons_of_neg (by simp [hq])]; simp [List.filterMap_cons, h a hq, ih]
  rw [lastOf, this, lastOf]

theorem flatMap_only {α β : Type} {f : α → List β} {q : α → Bool} (h : ∀ a, q a = false → f a = []) (l : List α) :
    (l.filter q).flatMap f = l.flatMap f := by
  induction l with
  | nil => rfl
  | cons a l ih =>
    cases hq : q a with
    | true => rw [List.filter_cons_of_pos hq]; simp [ih]
    | false => rw [List.filter_cons_of_neg (by simp [hq])]; simp [h a hq, ih]

theorem ParamSays.refl (d : ParamDecl) : ParamSays d d := ⟨rfl, rfl, rfl, rfl, rfl⟩
theorem BodySays.refl (b : BodyDecl) : BodySays b b := ⟨rfl, rfl, rfl⟩
theorem SegmentsSay.refl (ss : List PathSeg) : SegmentsSay ss ss := ⟨rfl, fun _ => rfl⟩

theorem alternatives_refl : ∀ (l : List (List SecurityDecl)), Pointwise AlternativeSays l l
  | [] => .nil
  | _ :: l => .cons (fun _ => .rfl) (alternatives_refl l)

theorem OptRel.refl_of {α : Type} {R : α → α → Prop} (h : ∀ a, R a a) : ∀ o : Option α, OptRel R o o
  | Option.none => .none
  | Option.some a => .some (h a)

theorem SameByKind.last {α κ β : Type} [DecidableEq κ] {kind : α → κ} {l l' : List α} (h : SameByKind kind l l') (k : κ)
    {f : α → Option β} (hf : ∀ a, kind a ≠ k → f a = none) : lastOf f l = lastOf f l' := by
  rw [← lastOf_only (q := fun a => kind a = k) (fun a ha => hf a (by simpa using ha)) l, h k,
    lastOf_only (fun a ha => hf a (by simpa using ha))]

theorem SameByKind.flat {α κ β : Type} [DecidableEq κ] {kind : α → κ} {l l' : List α} (h : SameByKind kind l l') (k : κ)
    {f : α → List β} (hf : ∀ a, kind a ≠ k → f a = []) : l.flatMap f = l'.flatMap f := by
  rw [← flatMap_only (q := fun a => kind a = k) (fun a ha => hf a (by simpa using ha)) l, h k,
    flatMap_only (fun a ha => hf a (by simpa using ha))]

theorem opSays_of {ps ps' : List OpProp} (h : SameByKind OpProp.kind ps ps')
    (hc : ∀ cb ∈ ps.flatMap OpProp.callbackList, CallbackSays (some cb) (some cb)) : OpSays ps ps' := by
  have hp := h.flat .parameters (f := OpProp.paramList) (fun a ha => by cases a <;> first | rfl | exact absurd rfl ha)
  have hcb := h.flat .callbacks (f := OpProp.callbackList) (fun a ha => by cases a <;> first | rfl | exact absurd rfl ha)
  refine .mk (h.last .summary fun a ha => by cases a <;> first | rfl | exact absurd rfl ha)
    (h.last .operationId fun a ha => by cases a <;> first | rfl | exact absurd rfl ha)
    (h.last .description fun a ha => by cases a <;> first | rfl | exact absurd rfl ha)
    (by rw [h.last .deprecated fun a ha => by cases a <;> first | rfl | exact absurd rfl ha])
    (h.flat .tags fun a ha => by cases a <;> first | rfl | exact absurd rfl ha)
    (by rw [h.flat .security (f := OpProp.securityList) fun a ha => by cases a <;> first | rfl | exact absurd rfl ha]
        exact alternatives_refl _)
    (by rw [h.last .body (f := OpProp.body?) fun a ha => by cases a <;> first | rfl | exact absurd rfl ha]
        exact .refl_of BodySays.refl _)
    (fun code => h.last (.response code) fun a ha => by
      cases a <;> first | rfl | exact (if_neg fun e => ha (congrArg _ e)))
    (fun name => by rw [hp]; exact .refl_of ParamSays.refl _)
    (fun name => by
      rw [← hcb]
      cases e : lastOf (CallbackDecl.named? name) (ps.flatMap OpProp.callbackList) with
      | none => exact .none
      | some cb =>
        obtain ⟨cb', hm, e⟩ := List.mem_filterMap.1 (List.mem_of_getLast? e)
        rw [CallbackDecl.named?] at e
        split at e
        · cases e; exact hc _ hm
        · cases e)

theorem itemSays_of {ps ps' : List ItemProp} (h : SameByKind ItemProp.kind ps ps')
    (ho : ∀ m os, .operation m os ∈ ps → OpSays os os) : ItemSays ps ps' := by
  have hp := h.flat .parameters (f := ItemProp.paramList) (fun a ha => by cases a <;> first | rfl | exact absurd rfl ha)
  refine .mk (h.last .summary fun a ha => by cases a <;> first | rfl | exact absurd rfl ha)
    (h.last .description fun a ha => by cases a <;> first | rfl | exact absurd rfl ha)
    (fun name => by rw [hp]; exact .refl_of ParamSays.refl _)
    (fun m => by
      have hm := h.last (.operation m) (f := ItemProp.operation? m) fun a ha => by
        cases a <;> first | rfl | exact (if_neg fun e => ha (congrArg _ e))
      rw [← hm]
      cases e : lastOf (ItemProp.operation? m) ps with
      | none => exact .none
      | some os =>
        obtain ⟨p, hp, e⟩ := List.mem_filterMap.1 (List.mem_of_getLast? e)
        cases p with
        | operation m' os' =>
          rw [ItemProp.operation?] at e
          split at e
          · cases e; exact .some (ho _ _ hp)
          · cases e
        | _ => cases e)

mutual
theorem opCallbacks_refl : ∀ (ps : List OpProp), ∀ cb ∈ ps.flatMap OpProp.callbackList, CallbackSays (some cb) (some cb)
  | [], _, h => (nomatch h)
  | .callbacks cs :: ps, cb, h => by
    rw [List.flatMap_cons] at h
    rcases List.mem_append.1 h with h | h
    · exact callbacks_refl cs cb h
    · exact opCallbacks_refl ps cb h
  | .summary _ :: ps, cb, h => opCallbacks_refl ps cb h
  | .operationId _ :: ps, cb, h => opCallbacks_refl ps cb h
  | .description _ :: ps, cb, h => opCallbacks_refl ps cb h
  | .deprecated _ :: ps, cb, h => opCallbacks_refl ps cb h
  | .tags _ :: ps, cb, h => opCallbacks_refl ps cb h
  | .parameters _ :: ps, cb, h => opCallbacks_refl ps cb h
  | .security _ :: ps, cb, h => opCallbacks_refl ps cb h
  | .body _ :: ps, cb, h => opCallbacks_refl ps cb h
  | .response _ _ _ :: ps, cb, h => opCallbacks_refl ps cb h
theorem callbacks_refl : ∀ (cs : List CallbackDecl), ∀ cb ∈ cs, CallbackSays (some cb) (some cb)
  | [], _, h => (nomatch h)
  | .literal n ps :: cs, cb, h => by
    rcases List.mem_cons.1 h with rfl | h
    · exact .literal ..
    · exact callbacks_refl cs cb h
  | .ident n ps :: cs, cb, h => by
    rcases List.mem_cons.1 h with rfl | h
    · exact .ident (pathsSay_refl ps)
    · exact callbacks_refl cs cb h
theorem pathsSay_refl : ∀ (ds : List PathDecl), PathsSay ds ds
  | [] => .nil
  | .mk segs props :: ds => .cons (.refl segs) (itemSays_of (fun _ => rfl) (itemOperations_refl props)) (pathsSay_refl ds)
theorem itemOperations_refl : ∀ (ps : List ItemProp), ∀ m os, .operation m os ∈ ps → OpSays os os
  | [], _, _, h => (nomatch h)
  | .summary _ :: ps, m, os, h => itemOperations_refl ps m os (by simpa using h)
  | .description _ :: ps, m, os, h => itemOperations_refl ps m os (by simpa using h)
  | .parameters _ :: ps, m, os, h => itemOperations_refl ps m os (by simpa using h)
  | .operation m' os' :: ps, m, os, h => by
    rcases List.mem_cons.1 h with h | h
    · cases h; exact opSays_of (fun _ => rfl) (opCallbacks_refl _)
    · exact itemOperations_refl ps m os h
end

/-! ## Moving sections -/

theorem SameByKind.mem {α κ : Type} [DecidableEq κ] {kind : α → κ} {l l' : List α} (h : SameByKind kind l l') (a : α) :
    a ∈ l ↔ a ∈ l' := by
  have : ∀ l : List α, a ∈ l ↔ a ∈ l.filter fun b => kind b = kind a := fun l => by simp
  rw [this l, this l', h]

theorem SameByKind.symm {α κ : Type} [DecidableEq κ] {kind : α → κ} {l l' : List α} (h : SameByKind kind l l') :
    SameByKind kind l' l := fun k => (h k).symm

theorem SameByKind.sections {api api' : Api} (h : SameByKind Section.kind api api') :
    lastOf Section.info? api = lastOf Section.info? api' ∧ api.flatMap Section.tagList = api'.flatMap Section.tagList ∧
    api.flatMap Section.serverList = api'.flatMap Section.serverList ∧
    api.flatMap Section.schemeList = api'.flatMap Section.schemeList ∧ api.pathList = api'.pathList :=
  ⟨h.last .info fun a ha => by cases a <;> first | rfl | exact absurd rfl ha,
    h.flat .tags fun a ha => by cases a <;> first | rfl | exact absurd rfl ha,
    h.flat .servers fun a ha => by cases a <;> first | rfl | exact absurd rfl ha,
    h.flat .securitySchemes fun a ha => by cases a <;> first | rfl | exact absurd rfl ha,
    h.flat .paths fun a ha => by cases a <;> first | rfl | exact absurd rfl ha⟩

theorem schemeOf_unique {d : SchemeDecl} {s s' : SecurityScheme} (h : SchemeOf d s) (h' : SchemeOf d s') : s = s' := by
  cases d with
  | ident n v => exact h.elim
  | http n ps =>
    rcases h with ⟨a, rfl⟩ | ⟨a, rfl⟩ <;> rcases h' with ⟨b, rfl⟩ | ⟨b, rfl⟩ <;> first | rfl | (rw [a] at b; cases b)
  | apiKey n ps =>
    obtain ⟨name, a, rfl⟩ := h
    obtain ⟨name', b, rfl⟩ := h'
    rw [a] at b
    cases b
    rfl

end Verif
