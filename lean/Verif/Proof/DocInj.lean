import Verif.Proof.DocSer
/-!
# Documents are determined by their serialized form
-/

namespace Verif

/-! ## Paths -/

/-- The text of a segment, without the leading `/`. -/
def PathElement.segment : PathElement → List Char
  | .path s => s.toList
  | .parameter s => '{' :: (s.toList ++ ['}'])

theorem PathElement.render_toList (e : PathElement) : e.render.toList = '/' :: e.segment := by
  cases e <;> simp [PathElement.render, PathElement.segment, String.toList_append]

theorem UrlPath.render_toList (p : UrlPath) : (UrlPath.render p).toList = p.flatMap fun e => '/' :: e.segment := by
  induction p with
  | nil => simp [UrlPath.render]
  | cons e p ih => simp [UrlPath.render, String.toList_append, PathElement.render_toList, ih]

theorem PathElement.Plain.noSlash {e : PathElement} (h : e.Plain) : '/' ∉ e.segment := by
  cases e with
  | path s => exact h.1
  | parameter s =>
    simp only [PathElement.segment, List.mem_cons, List.mem_append, List.not_mem_nil, or_false]
    rintro (h' | h' | h')
    · exact absurd h' (by decide)
    · exact h h'
    · exact absurd h' (by decide)

theorem PathElement.segment_inj {e e' : PathElement} (h : e.Plain) (h' : e'.Plain) (he : e.segment = e'.segment) :
    e = e' := by
  cases e with
  | path s => cases e' with
    | path s' => rw [String.toList_inj.1 he]
    | parameter s' => exact absurd he (h.2 s'.toList)
  | parameter s => cases e' with
    | path s' => exact absurd he.symm (h'.2 s.toList)
    | parameter s' =>
      simp only [PathElement.segment, List.cons.injEq, true_and, List.append_cancel_right_eq] at he
      rw [String.toList_inj.1 he]

theorem split_slash {a b r r' : List Char} (ha : '/' ∉ a) (hb : '/' ∉ b) (hr : ∀ c, r.head? = some c → c = '/')
    (hr' : ∀ c, r'.head? = some c → c = '/') (h : a ++ r = b ++ r') : a = b ∧ r = r' := by
  induction a generalizing b with
  | nil =>
    cases b with
    | nil => exact ⟨rfl, h⟩
    | cons y b =>
      have hy : y = '/' := hr y (by rw [List.nil_append] at h; rw [h]; rfl)
      exact absurd (by simp [hy]) hb
  | cons x a ih =>
    cases b with
    | nil =>
      have hx : x = '/' := hr' x (by rw [List.nil_append] at h; rw [← h]; rfl)
      exact absurd (by simp [hx]) ha
    | cons y b =>
      simp only [List.cons_append, List.cons.injEq] at h
      have := ih (fun hh => ha (by simp [hh])) (fun hh => hb (by simp [hh])) h.2
      exact ⟨by rw [h.1, this.1], this.2⟩

theorem head_segments (p : UrlPath) : ∀ c, (p.flatMap fun e => '/' :: e.segment).head? = some c → c = '/' := by
  cases p with
  | nil => simp
  | cons e p => simp [eq_comm]

theorem render_inj {p p' : UrlPath} (h : ∀ e ∈ p, e.Plain) (h' : ∀ e ∈ p', e.Plain)
    (he : UrlPath.render p = UrlPath.render p') : p = p' := by
  have he : (p.flatMap fun e => '/' :: e.segment) = p'.flatMap fun e => '/' :: e.segment := by
    rw [← UrlPath.render_toList, ← UrlPath.render_toList, he]
  induction p generalizing p' with
  | nil => cases p' <;> simp_all
  | cons e p ih =>
    cases p' with
    | nil => simp at he
    | cons e' p' =>
      rw [List.flatMap_cons, List.flatMap_cons, List.cons_append, List.cons_append] at he
      injection he with _ he
      have := split_slash (h e (by simp)).noSlash (h' e' (by simp)).noSlash (head_segments _) (head_segments _) he
      rw [PathElement.segment_inj (h e (by simp)) (h' e' (by simp)) this.1,
        ih (fun x hx => h x (by simp [hx])) (fun x hx => h' x (by simp [hx])) ?_ this.2]
      apply String.toList_inj.1
      rw [UrlPath.render_toList, UrlPath.render_toList, this.2]

/-! ## Leaves -/

theorem ref_inj {r r' : Ref} (s : r.PropsSorted) (s' : r'.PropsSorted) (h : r.ser = r'.ser) : r = r' :=
  Ref.ser_inj r r' s s' (by rw [h])

theorem optStr_inj' {a b : Option String} (h : optStr a = optStr b) : a = b := optStr_inj (by rw [h])
theorem flag_inj' {a b : Bool} (h : flag a = flag b) : a = b := flag_inj (by rw [h])

theorem nonEmptySeq_inj {a b : List Value} (h : nonEmptySeq a = nonEmptySeq b) : a = b := by
  cases a <;> cases b <;> simp_all [nonEmptySeq]

theorem nonEmptyMap_inj {a b : List (Key × Value)} (h : nonEmptyMap a = nonEmptyMap b) : a = b := by
  cases a <;> cases b <;> simp_all [nonEmptyMap]

theorem list_map_inj_on {α β : Type} {f : α → β} {l l' : List α} (hf : ∀ a ∈ l, ∀ b ∈ l', f a = f b → a = b)
    (h : l.map f = l'.map f) : l = l' := by
  induction l generalizing l' with
  | nil => cases l' <;> simp_all
  | cons a l ih =>
    cases l' with
    | nil => simp at h
    | cons b l' =>
      simp only [List.map_cons, List.cons.injEq] at h
      rw [hf a (by simp) b (by simp) h.1, ih (fun x hx y hy => hf x (by simp [hx]) y (by simp [hy])) h.2]

theorem entriesOf_inj (fs fs' : List (String × Option Value)) (names : List String) (h1 : fs.map Prod.fst = names)
    (h2 : fs'.map Prod.fst = names) (hn : names.Nodup) (h : entriesOf fs = entriesOf fs') : fs = fs' := by
  induction names generalizing fs fs' with
  | nil => cases fs <;> cases fs' <;> simp_all
  | cons n names ih =>
    cases fs with
    | nil => simp at h1
    | cons f fs =>
      cases fs' with
      | nil => simp at h2
      | cons f' fs' =>
        obtain ⟨k, v⟩ := f
        obtain ⟨k', v'⟩ := f'
        simp only [List.map_cons, List.cons.injEq] at h1 h2
        obtain ⟨rfl, h1⟩ := h1
        obtain ⟨rfl, h2⟩ := h2
        have hk := (List.nodup_cons.1 hn).1
        have hnone : ∀ gs : List (String × Option Value), gs.map Prod.fst = names → lk k' (entriesOf gs) = none := by
          intro gs hg
          refine lk_none_of_sublist (keysWithin gs names hg names (List.Sublist.refl _)) ?_
          intro hm
          obtain ⟨x, hx, he⟩ := List.mem_map.1 hm
          injection he with he
          subst he
          exact hk hx
        have hl := congrArg (lk k') h
        rw [lk_entriesOf, lk_entriesOf, hnone fs h1, hnone fs' h2] at hl
        simp only [if_true, Option.or_none] at hl
        subst hl
        have ht : entriesOf fs = entriesOf fs' := by
          cases v with
          | none => exact h
          | some v => simp only [entriesOf, List.cons.injEq, true_and] at h; exact h
        rw [ih fs fs' h1 h2 (List.nodup_cons.1 hn).2 ht]

theorem content_inj {r r' : Ref} (s : r.PropsSorted) (s' : r'.PropsSorted) (h : contentOf r = contentOf r') : r = r' := by
  simp only [contentOf, Value.map.injEq, List.cons.injEq, Prod.mk.injEq, and_true, true_and] at h
  exact ref_inj s s' h

theorem optMap_inj {α : Type} {f : α → Value} {a b : Option α} (hf : ∀ x y, a = some x → b = some y → f x = f y → x = y)
    (h : a.map f = b.map f) : a = b := by
  cases a with
  | none => cases b <;> simp_all
  | some x => cases b with
    | none => simp at h
    | some y => simp only [Option.map_some, Option.some.injEq] at h; rw [hf x y rfl rfl h]

theorem ParameterIn.asStr_inj {a b : ParameterIn} (h : a.asStr = b.asStr) : a = b := by
  cases a <;> cases b <;> simp [ParameterIn.asStr] at h <;> rfl

theorem parameter_inj {k k' : String} {p p' : OperationParameter} (s : ∀ r, p.schema = some r → r.PropsSorted)
    (s' : ∀ r, p'.schema = some r → r.PropsSorted) (h : p.ser k = p'.ser k') : (k, p) = (k', p') := by
  simp only [OperationParameter.ser, Value.map.injEq] at h
  have h := entriesOf_inj _ _ ["name", "description", "in", "required", "deprecated", "schema"] rfl rfl (by decide) h
  simp only [List.cons.injEq, Prod.mk.injEq, Option.some.injEq, Value.str.injEq, true_and, and_true] at h
  obtain ⟨rfl, hd, hi, hr, hdep, hs⟩ := h
  obtain ⟨d, i, r, dp, sc⟩ := p
  obtain ⟨d', i', r', dp', sc'⟩ := p'
  simp only at hd hi hr hdep hs s s'
  rw [optStr_inj' hd, ParameterIn.asStr_inj hi, flag_inj' hr, flag_inj' hdep,
    optMap_inj (fun x y hx hy e => ref_inj (s x hx) (s' y hy) e) hs]

theorem parameters_inj {ps ps' : List (String × OperationParameter)}
    (s : ∀ r ∈ ps.flatMap (fun p => p.2.schema.toList), r.PropsSorted)
    (s' : ∀ r ∈ ps'.flatMap (fun p => p.2.schema.toList), r.PropsSorted)
    (h : serParameters ps = serParameters ps') : ps = ps' := by
  refine list_map_inj_on ?_ h
  intro p hp q hq he
  exact parameter_inj (fun r hr => s r (List.mem_flatMap.2 ⟨p, hp, by simp [hr]⟩))
    (fun r hr => s' r (List.mem_flatMap.2 ⟨q, hq, by simp [hr]⟩)) he

theorem body_inj {b b' : RequestBody} (s : b.schema.PropsSorted) (s' : b'.schema.PropsSorted) (h : b.ser = b'.ser) :
    b = b' := by
  simp only [RequestBody.ser, Value.map.injEq] at h
  have h := entriesOf_inj _ _ ["required", "description", "content"] rfl rfl (by decide) h
  simp only [List.cons.injEq, Prod.mk.injEq, Option.some.injEq, true_and, and_true] at h
  obtain ⟨hr, hd, hc⟩ := h
  obtain ⟨d, r, sc⟩ := b
  obtain ⟨d', r', sc'⟩ := b'
  have hd : d = d' := by cases d <;> cases d' <;> simp_all
  have hc : sc = sc' := content_inj s s' hc
  have hr : r = r' := flag_inj' hr
  rw [hd, hr, hc]

theorem response_inj {r r' : Response} (s : ∀ x, r.schema = some x → x.PropsSorted)
    (s' : ∀ x, r'.schema = some x → x.PropsSorted) (h : r.ser = r'.ser) : r = r' := by
  simp only [Response.ser, Value.map.injEq] at h
  have h := entriesOf_inj _ _ ["description", "content"] rfl rfl (by decide) h
  simp only [List.cons.injEq, Prod.mk.injEq, Option.some.injEq, Value.str.injEq, true_and, and_true] at h
  obtain ⟨hd, hc⟩ := h
  obtain ⟨d, sc⟩ := r
  obtain ⟨d', sc'⟩ := r'
  simp only at hd hc s s'
  rw [hd, optMap_inj (fun x y hx hy e => content_inj (s x hx) (s' y hy) e) hc]

theorem responses_inj {rs rs' : List (Nat × Response)} (s : ∀ r ∈ rs.flatMap (fun r => r.2.schema.toList), r.PropsSorted)
    (s' : ∀ r ∈ rs'.flatMap (fun r => r.2.schema.toList), r.PropsSorted) (h : serResponses rs = serResponses rs') :
    rs = rs' := by
  refine list_map_inj_on ?_ h
  intro p hp q hq he
  simp only [Prod.mk.injEq, Key.num.injEq] at he
  obtain ⟨n, r⟩ := p
  obtain ⟨n', r'⟩ := q
  have hr : r = r' := response_inj (fun x hx => s x (List.mem_flatMap.2 ⟨_, hp, by simp [hx]⟩))
    (fun x hx => s' x (List.mem_flatMap.2 ⟨_, hq, by simp [hx]⟩)) he.2
  rw [show n = n' from he.1, hr]

theorem security_inj {a b : List (String × List String)} (h : serSecurity a = serSecurity b) : a = b := by
  simp only [serSecurity, Value.map.injEq] at h
  refine list_map_inj_on ?_ h
  intro p _ q _ he
  simp only [Prod.mk.injEq, Key.str.injEq, Value.seq.injEq] at he
  exact Prod.ext he.1 (strs_inj he.2)

/-! ## Documents -/

mutual
theorem PathValue.inj : ∀ (v v' : PathValue), v.Forall docSorted → v'.Forall docSorted → v.Forall docPathsPlain →
    v'.Forall docPathsPlain → v.ser = v'.ser → v = v'
  | ⟨s, d, ops, ps⟩, ⟨s', d', ops', ps'⟩, h, h', g, g', e => by
    rw [PathValue.Forall] at h h' g g'
    simp only [PathValue.ser, Value.map.injEq] at e
    have hm : ∀ (os : List (HttpMethod × Operation)) (k : String),
        k ∈ ["summary", "description", "parameters"] → lk k (serOperations os) = none := by
      intro os k hk
      rw [lk_eq_none, serOperations_keys]
      intro hmem
      obtain ⟨o, _, he⟩ := List.mem_map.1 hmem
      injection he with he
      have := o.1.asStr_mem
      rw [he] at this
      simp only [List.mem_cons, List.not_mem_nil, or_false] at hk
      rcases hk with rfl | rfl | rfl <;> simp at this
    have e1 := congrArg (lk "summary") e
    have e2 := congrArg (lk "description") e
    have e3 := congrArg (lk "parameters") e
    simp only [lk_append, lk_entriesOf, entriesOf_nil, lk_nil, Option.or_none, Option.none_or, reduceIte, String.reduceEq,
      hm _ "summary" (by simp), hm _ "description" (by simp), hm _ "parameters" (by simp)] at e1 e2 e3
    have e1 := optStr_inj' e1
    have e2 := optStr_inj' e2
    have e3 := parameters_inj h.1.2.2 h'.1.2.2 (nonEmptySeq_inj e3)
    subst e1 e2 e3
    have e := List.append_cancel_right (List.append_cancel_left e)
    rw [ops_inj ops ops' h.2 h'.2 g.2 g'.2 e]
termination_by structural x => x

theorem Operation.inj : ∀ (o o' : Operation), o.Forall docSorted → o'.Forall docSorted → o.Forall docPathsPlain →
    o'.Forall docPathsPlain → o.ser = o'.ser → o = o'
  | ⟨tags, summary, id, desc, depr, sec, body, resp, params, callbacks⟩,
    ⟨tags', summary', id', desc', depr', sec', body', resp', params', callbacks'⟩, h, h', g, g', e => by
    rw [Operation.Forall] at h h' g g'
    obtain ⟨⟨_, _, _, _, hr⟩, hc⟩ := h
    obtain ⟨⟨_, _, _, _, hr'⟩, hc'⟩ := h'
    simp only [Operation.ser, Value.map.injEq] at e
    have e := entriesOf_inj _ _ ["tags", "summary", "operationId", "description", "deprecated", "security", "requestBody",
      "responses", "parameters", "callbacks"] rfl rfl (by decide) e
    simp only [List.cons.injEq, Prod.mk.injEq, Option.some.injEq, Value.map.injEq, true_and, and_true] at e
    obtain ⟨e1, e2, e3, e4, e5, e6, e7, e8, e9, e10⟩ := e
    have e8 : resp = resp' := responses_inj (fun r hx => hr r (List.mem_append_left _ (List.mem_append_right _ hx)))
        (fun r hx => hr' r (List.mem_append_left _ (List.mem_append_right _ hx))) e8
    have e9 : params = params' := parameters_inj (fun r hx => hr r (List.mem_append_right _ hx))
        (fun r hx => hr' r (List.mem_append_right _ hx)) (nonEmptySeq_inj e9)
    rw [strs_inj (nonEmptySeq_inj e1), optStr_inj' e2, optStr_inj' e3, optStr_inj' e4, flag_inj' e5,
      list_map_inj_on (fun a _ b _ => security_inj) (nonEmptySeq_inj e6),
      optMap_inj (fun x y hx hy => body_inj (hr _ (by simp [Operation.refs, hx])) (hr' _ (by simp [Operation.refs, hy]))) e7,
      e8, e9,
      callbacks_inj callbacks callbacks' hc hc' g.2 g'.2 (nonEmptyMap_inj e10)]
termination_by structural x => x

theorem CallbackObject.inj : ∀ (c c' : CallbackObject), c.Forall docSorted → c'.Forall docSorted →
    c.Forall docPathsPlain → c'.Forall docPathsPlain → c.ser = c'.ser → c = c'
  | ⟨ps⟩, ⟨ps'⟩, h, h', g, g', e => by
    rw [CallbackObject.Forall] at h h' g g'
    simp only [CallbackObject.ser, Value.map.injEq] at e
    rw [paths_inj ps ps' h.2 h'.2 g.1 g'.1 g.2 g'.2 e]
termination_by structural x => x

theorem paths_inj : ∀ (ps ps' : List (UrlPath × PathValue)), forallPaths docSorted ps → forallPaths docSorted ps' →
    (∀ p ∈ ps, ∀ e ∈ p.1, e.Plain) → (∀ p ∈ ps', ∀ e ∈ p.1, e.Plain) →
    forallPaths docPathsPlain ps → forallPaths docPathsPlain ps' → serPaths ps = serPaths ps' → ps = ps'
  | [], [], _, _, _, _, _, _, _ => rfl
  | [], _ :: _, _, _, _, _, _, _, e => by simp [serPaths] at e
  | _ :: _, [], _, _, _, _, _, _, e => by simp [serPaths] at e
  | (p, v) :: ps, (p', v') :: ps', h, h', q, q', g, g', e => by
    rw [forallPaths] at h h' g g'
    simp only [serPaths, List.cons.injEq, Prod.mk.injEq, Key.str.injEq] at e
    have ep : p = p' := render_inj (q (p, v) (by simp)) (q' (p', v') (by simp)) e.1.1
    rw [ep, PathValue.inj v v' h.1 h'.1 g.1 g'.1 e.1.2,
      paths_inj ps ps' h.2 h'.2 (fun x hx => q x (by simp [hx])) (fun x hx => q' x (by simp [hx])) g.2 g'.2 e.2]
termination_by structural x => x

theorem ops_inj : ∀ (os os' : List (HttpMethod × Operation)), forallOps docSorted os → forallOps docSorted os' →
    forallOps docPathsPlain os → forallOps docPathsPlain os' → serOperations os = serOperations os' → os = os'
  | [], [], _, _, _, _, _ => rfl
  | [], _ :: _, _, _, _, _, e => by simp [serOperations] at e
  | _ :: _, [], _, _, _, _, e => by simp [serOperations] at e
  | (m, o) :: os, (m', o') :: os', h, h', g, g', e => by
    rw [forallOps] at h h' g g'
    simp only [serOperations, List.cons.injEq, Prod.mk.injEq, Key.str.injEq] at e
    rw [HttpMethod.asStr_inj e.1.1, Operation.inj o o' h.1 h'.1 g.1 g'.1 e.1.2,
      ops_inj os os' h.2 h'.2 g.2 g'.2 e.2]
termination_by structural x => x

theorem callbacks_inj : ∀ (cs cs' : List (String × CallbackObject)), forallCallbacks docSorted cs →
    forallCallbacks docSorted cs' → forallCallbacks docPathsPlain cs → forallCallbacks docPathsPlain cs' →
    serCallbacks cs = serCallbacks cs' → cs = cs'
  | [], [], _, _, _, _, _ => rfl
  | [], _ :: _, _, _, _, _, e => by simp [serCallbacks] at e
  | _ :: _, [], _, _, _, _, e => by simp [serCallbacks] at e
  | (k, c) :: cs, (k', c') :: cs', h, h', g, g', e => by
    rw [forallCallbacks] at h h' g g'
    simp only [serCallbacks, List.cons.injEq, Prod.mk.injEq, Key.str.injEq] at e
    rw [e.1.1, CallbackObject.inj c c' h.1 h'.1 g.1 g'.1 e.1.2, callbacks_inj cs cs' h.2 h'.2 g.2 g'.2 e.2]
termination_by structural x => x
end

theorem securityScheme_inj {s s' : SecurityScheme} (h : s.ser = s'.ser) : s = s' := by
  rcases s with (d | ⟨f, d⟩) | ⟨l, n, d⟩ <;> rcases s' with (d' | ⟨f', d'⟩) | ⟨l', n', d'⟩ <;>
    simp only [SecurityScheme.ser, Value.map.injEq, List.cons.injEq, Prod.mk.injEq, Value.str.injEq, Key.str.injEq,
      true_and, String.reduceEq, false_and, and_false] at h
  · have h := entriesOf_inj _ _ ["description"] rfl rfl (by decide) h
    simp only [List.cons.injEq, Prod.mk.injEq, true_and, and_true] at h
    rw [optStr_inj' h]
  · have h := entriesOf_inj _ _ ["bearerFormat", "description"] rfl rfl (by decide) h
    simp only [List.cons.injEq, Prod.mk.injEq, true_and, and_true] at h
    rw [optStr_inj' h.1, optStr_inj' h.2]
  · have h := entriesOf_inj _ _ ["in", "name", "description"] rfl rfl (by decide) h
    simp only [List.cons.injEq, Prod.mk.injEq, Option.some.injEq, Value.str.injEq, true_and, and_true] at h
    rw [ParameterIn.asStr_inj h.1, h.2.1, optStr_inj' h.2.2]

theorem components_inj {c c' : Components} (s : c.MapsSorted) (s' : c'.MapsSorted) (h : c.ser = c'.ser) : c = c' := by
  simp only [Components.ser, Value.map.injEq] at h
  have h := entriesOf_inj _ _ ["schemas", "securitySchemes"] rfl rfl (by decide) h
  simp only [List.cons.injEq, Prod.mk.injEq, true_and, and_true] at h
  obtain ⟨a, b⟩ := c
  obtain ⟨a', b'⟩ := c'
  have h1 : a = a' := by
    refine list_map_inj_on ?_ (nonEmptyMap_inj h.1)
    intro p hp q hq e
    simp only [Prod.mk.injEq, Key.str.injEq] at e
    refine Prod.ext e.1 ?_
    have := ref_inj (r := .inline p.2) (r' := .inline q.2) (propsSorted_inline.2 (s.models p hp))
      (propsSorted_inline.2 (s'.models q hq)) e.2
    injection this
  have h2 : b = b' := by
    refine list_map_inj_on ?_ (nonEmptyMap_inj h.2)
    intro p _ q _ e
    simp only [Prod.mk.injEq, Key.str.injEq] at e
    exact Prod.ext e.1 (securityScheme_inj e.2)
  rw [h1, h2]

theorem doc_inj {d d' : Opg} (s : d.MapsSorted) (s' : d'.MapsSorted) (p : d.Forall docPathsPlain)
    (p' : d'.Forall docPathsPlain) (h : d.ser = d'.ser) : d = d' := by
  simp only [Opg.ser, Value.map.injEq] at h
  have h := entriesOf_inj _ _ ["openapi", "info", "tags", "servers", "paths", "components"] rfl rfl (by decide) h
  simp only [List.cons.injEq, Prod.mk.injEq, Option.some.injEq, Value.str.injEq, true_and, and_true] at h
  obtain ⟨h1, h2, h3, h4, h5, h6⟩ := h
  obtain ⟨o, i, t, sv, ps, c⟩ := d
  obtain ⟨o', i', t', sv', ps', c'⟩ := d'
  have hi : i = i' := by
    simp only [Info.ser, Value.map.injEq] at h2
    have h2 := entriesOf_inj _ _ ["title", "description", "version"] rfl rfl (by decide) h2
    simp only [List.cons.injEq, Prod.mk.injEq, Option.some.injEq, Value.str.injEq, true_and, and_true] at h2
    obtain ⟨a, b, v⟩ := i
    obtain ⟨a', b', v'⟩ := i'
    simp only at h2
    rw [h2.1, optStr_inj' h2.2.1, h2.2.2]
  have ht : t = t' := by
    refine list_map_inj_on ?_ (nonEmptySeq_inj h3)
    intro a _ b _ e
    simp only [Tag.ser, Value.map.injEq] at e
    have e := entriesOf_inj _ _ ["name", "description"] rfl rfl (by decide) e
    simp only [List.cons.injEq, Prod.mk.injEq, Option.some.injEq, Value.str.injEq, true_and, and_true] at e
    obtain ⟨n, ⟨x⟩⟩ := a
    obtain ⟨n', ⟨x'⟩⟩ := b
    simp only at e
    rw [e.1, optStr_inj' e.2]
  have hs : sv = sv' := by
    refine list_map_inj_on ?_ (nonEmptySeq_inj h4)
    intro a _ b _ e
    simp only [Server.ser, Value.map.injEq] at e
    have e := entriesOf_inj _ _ ["url", "description"] rfl rfl (by decide) e
    simp only [List.cons.injEq, Prod.mk.injEq, Option.some.injEq, Value.str.injEq, true_and, and_true] at e
    obtain ⟨n, x⟩ := a
    obtain ⟨n', x'⟩ := b
    simp only at e
    rw [e.1, optStr_inj' e.2]
  simp only at h1 h5 h6
  have h6 : c = c' := components_inj s.components s'.components h6
  rw [h1, hi, ht, hs, paths_inj ps ps' s.paths.2 s'.paths.2 p.1 p'.1 p.2 p'.2 (nonEmptyMap_inj h5), h6]

end Verif
