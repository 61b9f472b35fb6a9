import Verif.Proof.Texts
import Verif.Proof.Together
import Verif.Spec.Conform
/-!
# Descriptions, formats and examples do not restrict values
-/

namespace Verif

/-- Two schemas that differ in texts only, one level deep. -/
inductive ModelWords : Model → Model → Prop
  | string {d d' n v f f' e e'} : ModelWords ⟨d, .single ⟨n, .string v f e⟩⟩ ⟨d', .single ⟨n, .string v f' e'⟩⟩
  | number {d d' n f f' e e'} : ModelWords ⟨d, .single ⟨n, .number f e⟩⟩ ⟨d', .single ⟨n, .number f' e'⟩⟩
  | integer {d d' n f f' e e'} : ModelWords ⟨d, .single ⟨n, .integer f e⟩⟩ ⟨d', .single ⟨n, .integer f' e'⟩⟩
  | boolean {d d' n} : ModelWords ⟨d, .single ⟨n, .boolean⟩⟩ ⟨d', .single ⟨n, .boolean⟩⟩
  | array {d d' n r r'} (h : r.wordless = r'.wordless) : ModelWords ⟨d, .single ⟨n, .array r⟩⟩ ⟨d', .single ⟨n, .array r'⟩⟩
  | object {d d' n} {o o' : ModelObject} (hr : o.required = o'.required)
      (hp : Ref.wordlessProps o.properties = Ref.wordlessProps o'.properties)
      (ha : o.additional.map Ref.wordless = o'.additional.map Ref.wordless) :
      ModelWords ⟨d, .single ⟨n, .object o⟩⟩ ⟨d', .single ⟨n, .object o'⟩⟩
  | oneOf {d d' rs rs'} (h : rs.map Ref.wordless = rs'.map Ref.wordless) : ModelWords ⟨d, .oneOf rs⟩ ⟨d', .oneOf rs'⟩
  | allOf {d d' rs rs'} (h : rs.map Ref.wordless = rs'.map Ref.wordless) : ModelWords ⟨d, .allOf rs⟩ ⟨d', .allOf rs'⟩
  | anyOf {d d' rs rs'} (h : rs.map Ref.wordless = rs'.map Ref.wordless) : ModelWords ⟨d, .anyOf rs⟩ ⟨d', .anyOf rs'⟩

theorem modelWords {m m' : Model} (h : m.wordless = m'.wordless) : ModelWords m m' := by
  obtain ⟨d, data⟩ := m
  obtain ⟨d', data'⟩ := m'
  simp only [Model.wordless, Model.mk.injEq, true_and] at h
  cases data with
  | single t =>
    obtain ⟨n, td⟩ := t
    cases data' with
    | single t' =>
      obtain ⟨n', td'⟩ := t'
      simp only [ModelData.wordless, ModelData.single.injEq, ModelType.mk.injEq] at h
      obtain ⟨rfl, h⟩ := h
      cases td <;> cases td' <;> (try simp only [object_wordless] at h) <;>
        (try simp only [TypeDesc.wordless, TypeDesc.string.injEq, TypeDesc.array.injEq, TypeDesc.object.injEq, ModelObject.mk.injEq,
          reduceCtorEq, and_true] at h) <;> first
        | exact .number
        | exact .integer
        | exact .boolean
        | (subst h; exact .string)
        | exact .array h
        | exact .object h.2.2 h.1 h.2.1
    | _ => simp [ModelData.wordless] at h
  | oneOf rs =>
    cases data' with
    | oneOf rs' =>
      simp only [ModelData.wordless, ModelData.oneOf.injEq, wordlessList_eq] at h
      exact .oneOf h
    | single t => obtain ⟨n, td⟩ := t; simp [ModelData.wordless] at h
    | _ => simp [ModelData.wordless] at h
  | allOf rs =>
    cases data' with
    | allOf rs' =>
      simp only [ModelData.wordless, ModelData.allOf.injEq, wordlessList_eq] at h
      exact .allOf h
    | single t => obtain ⟨n, td⟩ := t; simp [ModelData.wordless] at h
    | _ => simp [ModelData.wordless] at h
  | anyOf rs =>
    cases data' with
    | anyOf rs' =>
      simp only [ModelData.wordless, ModelData.anyOf.injEq, wordlessList_eq] at h
      exact .anyOf h
    | single t => obtain ⟨n, td⟩ := t; simp [ModelData.wordless] at h
    | _ => simp [ModelData.wordless] at h

theorem ModelWords.ofType {d n td d' n' td' j} (h : ModelWords ⟨d, .single ⟨n, td⟩⟩ ⟨d', .single ⟨n', td'⟩⟩)
    (ht : ¬OfType td j) : ¬OfType td' j := by
  cases h <;> cases j <;> exact ht

theorem words_get {ps ps' : List (String × Ref)} (h : Ref.wordlessProps ps = Ref.wordlessProps ps') (k : String) :
    (BMap.get k ps).map Ref.wordless = (BMap.get k ps').map Ref.wordless := by
  rw [← get_values, ← get_values, ← wordlessProps_eq, ← wordlessProps_eq, h]

theorem words_some {α : Type} {f : α → α} {a b : Option α} (h : a.map f = b.map f) {x} (ha : a = some x) :
    ∃ y, b = some y ∧ f x = f y := by
  subst ha
  cases b with
  | none => cases h
  | some y => exact ⟨y, rfl, Option.some.inj h⟩

theorem words_none {α : Type} {f : α → α} {a b : Option α} (h : a.map f = b.map f) (ha : a = none) : b = none := by
  subst ha
  cases b with
  | none => rfl
  | some y => cases h

theorem words_mem {α : Type} {f : α → α} : ∀ {as bs : List α}, as.map f = bs.map f → ∀ {a}, a ∈ as → ∃ b ∈ bs, f a = f b := by
  intro as bs h a ha
  have : f a ∈ bs.map f := by rw [← h]; exact List.mem_map.2 ⟨a, ha, rfl⟩
  obtain ⟨b, hb, e⟩ := List.mem_map.1 this
  exact ⟨b, hb, e.symm⟩

theorem words_split {α : Type} {f : α → α} {pre post : List α} {a : α} {bs : List α} (h : (pre ++ a :: post).map f = bs.map f) :
    ∃ pre' b post', bs = pre' ++ b :: post' ∧ pre.map f = pre'.map f ∧ f a = f b ∧ post.map f = post'.map f := by
  rw [List.map_append, List.map_cons] at h
  obtain ⟨l1, l2, rfl, h1, h2⟩ := List.map_eq_append_iff.1 h.symm
  obtain ⟨b, l3, rfl, h3, h4⟩ := List.map_eq_cons_iff.1 h2
  exact ⟨l1, b, l3, rfl, h1.symm, h3.symm, h4.symm⟩

variable {x : Bool} {reg reg' : List (String × Model)}

theorem words_registered (h : wordlessSchemas reg = wordlessSchemas reg') {n m} (hm : BMap.get n reg = some m) :
    ∃ m', BMap.get n reg' = some m' ∧ m.wordless = m'.wordless := by
  refine words_some (f := Model.wordless) ?_ hm
  rw [← get_values, ← get_values]
  exact congrArg _ h

theorem link_words {n : String} {r : Ref} (h : (Ref.link n).wordless = r.wordless) : r = .link n := by
  cases r with
  | link n' => simp only [Ref.wordless, Ref.link.injEq] at h; rw [h]
  | inline m => simp [Ref.wordless] at h
  | any => simp [Ref.wordless] at h

theorem inline_words {m : Model} {r : Ref} (h : (Ref.inline m).wordless = r.wordless) : ∃ m', r = .inline m' ∧ m.wordless = m'.wordless := by
  cases r with
  | link n' => simp [Ref.wordless] at h
  | inline m' => simp only [Ref.wordless, Ref.inline.injEq] at h; exact ⟨m', rfl, h⟩
  | any => simp [Ref.wordless] at h

theorem any_words {r : Ref} (h : Ref.any.wordless = r.wordless) : r = .any := by
  cases r with
  | link n' => simp [Ref.wordless] at h
  | inline m' => simp [Ref.wordless] at h
  | any => rfl

mutual
theorem words_valid (R : wordlessSchemas reg = wordlessSchemas reg') {r j} : Valid x reg r j → ∀ {r'}, r.wordless = r'.wordless →
    Valid x reg' r' j
  | .any, _, hs => by rw [any_words hs]; exact .any
  | .link hg hv, _, hs => by
    rw [link_words hs]
    obtain ⟨m', hm', hs⟩ := words_registered R hg
    exact .link hm' (words_validModel R hv (modelWords hs))
  | .inline hv, _, hs => by
    obtain ⟨m', hm', hs⟩ := inline_words hs
    rw [hm']
    exact .inline (words_validModel R hv (modelWords hs))
theorem words_validModel (R : wordlessSchemas reg = wordlessSchemas reg') {m j} : ValidModel x reg m j → ∀ {m'}, ModelWords m m' →
    ValidModel x reg' m' j
  | .null, m', hs => by cases hs <;> exact .null
  | .string h, m', hs => by cases hs; exact .string h
  | .number, m', hs => by cases hs; exact .number
  | .numberInt, m', hs => by cases hs; exact .numberInt
  | .integer, m', hs => by cases hs; exact .integer
  | .boolean, m', hs => by cases hs; exact .boolean
  | .array h, m', hs => by
    cases hs with
    | array hd => exact .array fun y hy => words_valid R (h y hy) hd
  | .object hr hp ha, m', hs => by
    cases hs with
    | object er ep ea =>
      refine .object (fun k hk => hr k (er ▸ hk)) ?_ ?_
      · intro k v r' hm hg
        obtain ⟨r, hr', e⟩ := words_some (words_get ep.symm k) hg
        exact words_valid R (hp k v r hm hr') e.symm
      · intro k v r' hm hg hh
        obtain ⟨r, hr', e⟩ := words_some ea.symm hh
        exact words_valid R (ha k v r hm (words_none (words_get ep.symm k) hg) hr') e.symm
  | .oneOf (pre := pre) (post := post) he hv hx, m', hs => by
    cases hs with
    | oneOf h =>
      rw [he] at h
      obtain ⟨pre', r', post', he', h1, h2, h3⟩ := words_split h
      refine .oneOf he' (words_valid R hv h2) ?_
      intro hx' q' hq'
      obtain ⟨q, hm, hs'⟩ := words_mem (f := Ref.wordless) (as := pre' ++ post') (bs := pre ++ post) (by rw [List.map_append, List.map_append, h1, h3]) hq'
      exact words_invalid R (hx hx' q hm) hs'.symm
  | .anyOf h hv, m', hs => by
    cases hs with
    | anyOf hh =>
      obtain ⟨r', hr', hs⟩ := words_mem hh h
      exact .anyOf hr' (words_valid R hv hs)
  | .allOf h, m', hs => by
    cases hs with
    | allOf hh =>
      refine .allOf ?_
      intro r' hr'
      obtain ⟨r, hr, hs⟩ := words_mem hh.symm hr'
      exact words_valid R (h r hr) hs.symm
theorem words_invalid (R : wordlessSchemas reg = wordlessSchemas reg') {r j} : Invalid x reg r j → ∀ {r'}, r.wordless = r'.wordless →
    Invalid x reg' r' j
  | .link hg hv, _, hs => by
    rw [link_words hs]
    obtain ⟨m', hm', hs⟩ := words_registered R hg
    exact .link hm' (words_invalidModel R hv (modelWords hs))
  | .inline hv, _, hs => by
    obtain ⟨m', hm', hs⟩ := inline_words hs
    rw [hm']
    exact .inline (words_invalidModel R hv (modelWords hs))
theorem words_invalidModel (R : wordlessSchemas reg = wordlessSchemas reg') {m j} : InvalidModel x reg m j → ∀ {m'}, ModelWords m m' →
    InvalidModel x reg' m' j
  | .type hn h, m', hs => by cases hs <;> exact .type hn (by cases j <;> exact h)
  | .string h, m', hs => by cases hs; exact .string h
  | .item hm hv, m', hs => by
    cases hs with
    | array hd => exact .item hm (words_invalid R hv hd)
  | .required h hk, m', hs => by
    cases hs with
    | object er => exact .required (er ▸ h) hk
  | .property h hg hv, m', hs => by
    cases hs with
    | object er ep ea =>
      obtain ⟨r', hr', e⟩ := words_some (words_get ep _) hg
      exact .property h hr' (words_invalid R hv e)
  | .additional h hg ha hv, m', hs => by
    cases hs with
    | object er ep ea =>
      obtain ⟨r', hr', e⟩ := words_some ea ha
      exact .additional h (words_none (words_get ep _) hg) hr' (words_invalid R hv e)
  | .oneOfNone h, m', hs => by
    cases hs with
    | oneOf hh =>
      refine .oneOfNone ?_
      intro r' hr'
      obtain ⟨r, hr, hs⟩ := words_mem hh.symm hr'
      exact words_invalid R (h r hr) hs.symm
  | .oneOfTwo (pre := pre) (r := r) (mid := mid) (r' := r2) (post := post) he e hv hv', m', hs => by
    cases hs with
    | oneOf hh =>
      rw [e, List.append_assoc, List.cons_append] at hh
      obtain ⟨p1, r1', q1, e1, -, s1, t1⟩ := words_split hh
      obtain ⟨p2, r2', q2, e2, -, s2, -⟩ := words_split t1
      subst e2
      exact .oneOfTwo (pre := p1) (mid := p2) (post := q2) he (by rw [e1]; simp) (words_valid R hv s1) (words_valid R hv' s2)
  | .anyOf h, m', hs => by
    cases hs with
    | anyOf hh =>
      refine .anyOf ?_
      intro r' hr'
      obtain ⟨r, hr, hs⟩ := words_mem hh.symm hr'
      exact words_invalid R (h r hr) hs.symm
  | .allOf h hv, m', hs => by
    cases hs with
    | allOf hh =>
      obtain ⟨r', hr', hs⟩ := words_mem hh h
      exact .allOf hr' (words_invalid R hv hs)
end

variable {env env' : Env}

/-! ## Calls -/

theorem addModel_words {cx cx' : Components} (hc : cx.wordless = cx'.wordless) (n : String) {m m' : Model} (hm : m.wordless = m'.wordless) :
    (cx.addModel n m).wordless = (cx'.addModel n m').wordless := by
  unfold Components.addModel
  rw [wordless_containsKey hc]
  split
  · exact hc
  · exact wordless_insert hc n hm

theorem security_words {cx cx' : Components} (hc : cx.wordless = cx'.wordless) (n : String) (s : SecurityScheme) :
    (cx.mentionSecurityScheme n s).1 = (cx'.mentionSecurityScheme n s).1 ∧
    (cx.mentionSecurityScheme n s).2.wordless = (cx'.mentionSecurityScheme n s).2.wordless := by
  have h1 : wordlessSchemas cx.schemas = wordlessSchemas cx'.schemas := congrArg Components.schemas hc
  have h2 : cx.securitySchemes = cx'.securitySchemes := (congrArg Components.securitySchemes hc :)
  unfold Components.mentionSecurityScheme
  rw [h2]
  split
  · exact ⟨rfl, hc⟩
  · refine ⟨rfl, ?_⟩
    simp only [Components.wordless, h1]

theorem calls_words (same : SameButWords env env') {calls rs cx1 cx2} (run : CallsReturn env cx1 calls rs cx2) :
    ∀ {calls' cx1'}, calls.map Call.wordless = calls'.map Call.wordless → cx1.wordless = cx1'.wordless →
    ∃ rs' cx2', CallsReturn env' cx1' calls' rs' cx2' ∧ rs.map Ref.wordless = rs'.map Ref.wordless ∧ cx2.wordless = cx2'.wordless := by
  induction run with
  | nil =>
    intro calls' cx1' he hc
    cases calls' with
    | nil => exact ⟨_, _, .nil _, rfl, hc⟩
    | cons => simp at he
  | @mention cx t i p r cx1 calls rs cx2 h hr ih =>
    intro calls' cx1' he hc
    cases calls' with
    | nil => simp at he
    | cons c calls' =>
      simp only [List.map_cons, List.cons.injEq] at he
      cases c with
      | mention t' i' p' =>
        simp only [Call.wordless, Call.mention.injEq] at he
        obtain ⟨⟨rfl, rfl, hp⟩, he⟩ := he
        obtain ⟨n, h⟩ := h
        have hs := mentionSchema_words same n t i hp hc
        rw [h] at hs
        generalize hy : mentionSchema env' n t i p' cx1' = y at hs
        cases hs with
        | some h1 h2 =>
          obtain ⟨rs', cx2', a, b, c⟩ := ih he h2
          exact ⟨_, _, .mention ⟨n, hy⟩ a, by simp only [List.map_cons, h1, b], c⟩
      | addModel => simp [Call.wordless] at he
      | security => simp [Call.wordless] at he
  | @addModel cx n m calls rs cx2 hr ih =>
    intro calls' cx1' he hc
    cases calls' with
    | nil => simp at he
    | cons c calls' =>
      simp only [List.map_cons, List.cons.injEq] at he
      cases c with
      | mention => simp [Call.wordless] at he
      | addModel n' m' =>
        simp only [Call.wordless, Call.addModel.injEq] at he
        obtain ⟨⟨rfl, hm⟩, he⟩ := he
        obtain ⟨rs', cx2', a, b, c⟩ := ih he (addModel_words hc n hm)
        exact ⟨_, _, .addModel a, b, c⟩
      | security => simp [Call.wordless] at he
  | @security cx n s calls rs cx2 hr ih =>
    intro calls' cx1' he hc
    cases calls' with
    | nil => simp at he
    | cons c calls' =>
      simp only [List.map_cons, List.cons.injEq] at he
      cases c with
      | mention => simp [Call.wordless] at he
      | addModel n' m' => simp [Call.wordless] at he
      | security n' s' =>
        simp only [Call.wordless, Call.security.injEq] at he
        obtain ⟨⟨rfl, rfl⟩, he⟩ := he
        obtain ⟨rs', cx2', a, b, c⟩ := ih he (security_words hc n s).2
        exact ⟨_, _, .security a, b, c⟩

/-! ## Documents -/

theorem askTo_words (same : SameButWords env env') (n : Nat) (reason : Nat → Option String) :
    AskTo true (fun r r' => r.wordless = r'.wordless) (fun cx cx' => cx.wordless = cx'.wordless) (fun _ => True)
      (fun _ => True) (⟨env, n, reason⟩ : Ctx) (⟨env', n, reason⟩ : Ctx) := by
  refine ⟨rfl, ?_, fun _ _ => rfl, ?_, ?_⟩
  · intro t _ cx cx' hc r cx1 hr
    have h := mentionSchema_words same n t false (p := {}) rfl hc
    have e : mentionSchema env n t false {} cx = some (r, cx1) := hr
    rw [e] at h
    have e' : Mentioner.ask (⟨env', n, reason⟩ : Ctx) t cx' = mentionSchema env' n t false {} cx' := rfl
    rw [e']
    generalize mentionSchema env' n t false {} cx' = y at h ⊢
    cases h with
    | some h hc => exact ⟨h, hc⟩
  · intro m s cx cx' hc a cx1 hx
    have h := security_words hc m s
    simp only [Option.some.injEq] at hx
    rw [hx] at h
    exact h
  · intro m s cx cx' hc
    have h1 : wordlessSchemas cx.schemas = wordlessSchemas cx'.schemas := congrArg Components.schemas hc
    have h2 : cx.securitySchemes = cx'.securitySchemes := (congrArg Components.securitySchemes hc :)
    simp only [Components.wordless, h1, h2]

end Verif
