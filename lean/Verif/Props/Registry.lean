import Verif.Spec.Links
/-!
# C09-C12: `add_model`, `mention_security_scheme`, `verify_schemas`
-/

namespace Verif

/-- **C09** (one call). `add_model` registers the model if the name is free, otherwise changes nothing;
every other name and all security schemes are unchanged. -/
theorem c09_add_model (cx : Components) (name : String) (m : Model) (k : String) :
    BMap.get k (cx.addModel name m).schemas =
      (if k = name then (BMap.get name cx.schemas).or (some m) else BMap.get k cx.schemas) ∧
    (cx.addModel name m).securitySchemes = cx.securitySchemes := by
  unfold Components.addModel
  cases h : BMap.containsKey name cx.schemas with
  | true =>
    refine ⟨?_, rfl⟩
    simp only [if_true]
    split
    · rename_i e; subst e
      unfold BMap.containsKey at h
      cases hg : BMap.get k cx.schemas <;> simp_all
    · rfl
  | false =>
    refine ⟨?_, rfl⟩
    simp only [Bool.false_eq_true, if_false, BMap.get_insert]
    unfold BMap.containsKey at h
    cases hg : BMap.get name cx.schemas <;> simp_all

/-- **C09** (call sequences). After any sequence of `add_model` calls every name maps to what it mapped to
before, or else to the first model added under it. -/
theorem c09_add_model_first_wins (cx : Components) (calls : List (String × Model)) (k : String) :
    BMap.get k (calls.foldl (fun cx c => cx.addModel c.1 c.2) cx).schemas =
      (BMap.get k cx.schemas).or ((calls.find? (fun c => c.1 = k)).map Prod.snd) := by
  induction calls generalizing cx with
  | nil => simp
  | cons c calls ih =>
    rw [List.foldl_cons, ih, (c09_add_model cx c.1 c.2 k).1]
    by_cases h : k = c.1
    · subst h
      cases BMap.get c.1 cx.schemas <;> simp
    · have : ¬ c.1 = k := fun e => h e.symm
      simp [h, this]

example : BMap.get "A" (([("A", ⟨none, .oneOf []⟩), ("A", ⟨some "later", .oneOf []⟩)] :
      List (String × Model)).foldl (fun cx c => cx.addModel c.1 c.2) Components.empty).schemas
    = some ⟨none, .oneOf []⟩ := by
  rw [c09_add_model_first_wins]; rfl

/-- **C10** (one call). -/
theorem c10_mention_security_scheme (cx : Components) (name : String) (s : SecurityScheme) (k : String) :
    (cx.mentionSecurityScheme name s).1 = name ∧
    BMap.get k (cx.mentionSecurityScheme name s).2.securitySchemes =
      (if k = name then (BMap.get name cx.securitySchemes).or (some s)
       else BMap.get k cx.securitySchemes) ∧
    (cx.mentionSecurityScheme name s).2.schemas = cx.schemas := by
  unfold Components.mentionSecurityScheme
  cases h : BMap.containsKey name cx.securitySchemes with
  | true =>
    refine ⟨rfl, ?_, rfl⟩
    simp only [if_true]
    split
    · rename_i e; subst e
      unfold BMap.containsKey at h
      cases hg : BMap.get k cx.securitySchemes <;> simp_all
    · rfl
  | false =>
    refine ⟨rfl, ?_, rfl⟩
    simp only [Bool.false_eq_true, if_false, BMap.get_insert]
    unfold BMap.containsKey at h
    cases hg : BMap.get name cx.securitySchemes <;> simp_all

/-- **C10** (call sequences). The first scheme mentioned under a name stays. -/
theorem c10_first_wins (cx : Components) (calls : List (String × SecurityScheme)) (k : String) :
    let cx' := calls.foldl (fun cx c => (cx.mentionSecurityScheme c.1 c.2).2) cx
    BMap.get k cx'.securitySchemes =
      (BMap.get k cx.securitySchemes).or ((calls.find? (fun c => c.1 = k)).map Prod.snd) ∧
    cx'.schemas = cx.schemas := by
  induction calls generalizing cx with
  | nil => simp
  | cons c calls ih =>
    have hc := c10_mention_security_scheme cx c.1 c.2 k
    simp only [List.foldl_cons]
    have := ih (cx.mentionSecurityScheme c.1 c.2).2
    refine ⟨?_, this.2.trans hc.2.2⟩
    rw [this.1, hc.2.1]
    by_cases h : k = c.1
    · subst h
      cases BMap.get c.1 cx.securitySchemes <;> simp
    · have : ¬ c.1 = k := fun e => h e.symm
      simp [h, this]

example : BMap.get "k" (Components.empty.mentionSecurityScheme "k" (.http (.basic none))).2.securitySchemes
    = some (.http (.basic none)) := by
  rw [(c10_mention_security_scheme _ _ _ _).2.1]; rfl

/-! ## `verify_schemas` -/

theorem tryForEach_append {α : Type} (f : α → Except String Unit) (a b : List α) :
    tryForEach f (a ++ b) = match tryForEach f a with
      | .ok () => tryForEach f b
      | .error e => .error e := by
  induction a with
  | nil => rfl
  | cons x a ih =>
    simp only [List.cons_append, tryForEach]
    cases f x with
    | ok u => exact ih
    | error e => rfl

theorem tryForEach_refs (schemas : List (String × Model)) (rs : List Ref) :
    tryForEach (Ref.traverse schemas) rs = tryForEach (traverseCheck schemas) (rs.filterMap Ref.asLink) := by
  induction rs with
  | nil => rfl
  | cons r rs ih =>
    cases r <;> simp [tryForEach, Ref.traverse, Ref.asLink, ih, List.filterMap_cons]

theorem traverse_eq (schemas : List (String × Model)) (m : Model) :
    m.data.traverse schemas = tryForEach (traverseCheck schemas) m.directLinks := by
  obtain ⟨d, data⟩ := m
  unfold Model.directLinks
  cases data with
  | single t =>
    obtain ⟨n, desc⟩ := t
    cases desc with
    | array items =>
      show items.traverse schemas = tryForEach _ ([items].filterMap Ref.asLink)
      rw [← tryForEach_refs]
      simp only [tryForEach]
      cases items.traverse schemas <;> rfl
    | object o => exact tryForEach_refs schemas _
    | _ => rfl
  | _ => exact tryForEach_refs schemas _

theorem verify_eq (schemas bs : List (String × Model)) :
    tryForEach (fun (b : String × Model) => b.2.data.traverse schemas) bs =
      tryForEach (traverseCheck schemas) (bs.flatMap fun b => b.2.directLinks) := by
  induction bs with
  | nil => rfl
  | cons b bs ih =>
    rw [List.flatMap_cons, tryForEach_append, ← ih, ← traverse_eq]
    simp only [tryForEach]
    cases b.2.data.traverse schemas <;> rfl

theorem tryForEach_find (schemas : List (String × Model)) (ls : List String) :
    tryForEach (traverseCheck schemas) ls =
      match ls.find? (fun l => !BMap.containsKey l schemas) with
      | none => .ok ()
      | some l => .error l := by
  induction ls with
  | nil => rfl
  | cons l ls ih =>
    simp only [tryForEach, traverseCheck, List.find?_cons]
    cases h : BMap.containsKey l schemas
    · simp
    · simpa using ih

/-- **C11**. `verify_schemas` returns `Ok` exactly when every direct link of every registered schema is
registered; otherwise it returns the first unregistered one in key order and member order. -/
theorem c11_verify_direct (cx : Components) :
    (cx.verifySchemas = .ok () ↔
      ∀ name m, (name, m) ∈ cx.schemas → ∀ l ∈ m.directLinks, l ∈ BMap.keys cx.schemas) ∧
    (∀ l, cx.verifySchemas = .error l ↔
      ∃ before after, cx.schemas.flatMap (fun b => b.2.directLinks) = before ++ l :: after ∧
        l ∉ BMap.keys cx.schemas ∧ ∀ l' ∈ before, l' ∈ BMap.keys cx.schemas) := by
  unfold Components.verifySchemas
  rw [verify_eq, tryForEach_find]
  constructor
  · constructor
    · intro h name m hm l hl
      split at h
      · rename_i hf
        rw [List.find?_eq_none] at hf
        have := hf l (List.mem_flatMap.2 ⟨(name, m), hm, hl⟩)
        simp only [Bool.not_eq_true', Bool.not_eq_false] at this
        exact BMap.containsKey_iff.1 this
      · cases h
    · intro h
      have : (cx.schemas.flatMap fun b => b.2.directLinks).find?
          (fun l => !BMap.containsKey l cx.schemas) = none := by
        rw [List.find?_eq_none]
        intro l hl
        obtain ⟨⟨name, m⟩, hm, hl⟩ := List.mem_flatMap.1 hl
        simp [BMap.containsKey_iff.2 (h name m hm l hl)]
      rw [this]
  · intro l
    constructor
    · intro h
      split at h
      · cases h
      · rename_i l' hf
        cases h
        obtain ⟨h1, as, bs, h2, h3⟩ := List.find?_eq_some_iff_append.1 hf
        refine ⟨as, bs, h2, ?_, ?_⟩
        · rw [← BMap.containsKey_false_iff]; simpa using h1
        · intro l' hl'
          have := h3 l' hl'
          rw [← BMap.containsKey_iff]; simpa using this
    · rintro ⟨as, bs, h2, h1, h3⟩
      have : (cx.schemas.flatMap fun b => b.2.directLinks).find?
          (fun l => !BMap.containsKey l cx.schemas) = some l := by
        rw [List.find?_eq_some_iff_append]
        refine ⟨?_, as, bs, h2, ?_⟩
        · rw [BMap.containsKey_false_iff.2 h1]; rfl
        · intro l' hl'; rw [BMap.containsKey_iff.2 (h3 l' hl')]; rfl
      rw [this]

example : (⟨[("A", ⟨none, .oneOf [.link "A", .link "B"]⟩)], []⟩ : Components).verifySchemas
    = .error "B" := rfl

/-- **C12** is false: a link inside an inline schema is not checked. `A = { oneOf: [ { oneOf: [$ref B] } ] }`
is accepted although `B` is not registered. -/
theorem c12_is_false : ∃ cx : Components, cx.verifySchemas = .ok () ∧ ¬ cx.NoDangling := by
  refine ⟨⟨[("A", ⟨none, .oneOf [.inline ⟨none, .oneOf [.link "B"]⟩]⟩)], []⟩, rfl, ?_⟩
  intro h
  have := h "A" _ List.mem_cons_self "B" List.mem_cons_self
  simp [BMap.keys] at this

/-- **C12** (the part that holds). If no registered schema has links inside inline schemas, an `Ok` means
that there is no dangling link at all. Missing: links inside inline schemas (`c12_is_false`). -/
theorem c12_verify_partial (cx : Components)
    (flat : ∀ name m, (name, m) ∈ cx.schemas → ∀ sub, Ref.inline sub ∈ m.directRefs → sub.links = [])
    (h : cx.verifySchemas = .ok ()) : cx.NoDangling := by
  intro name m hm l hl
  rw [Model.links_eq] at hl
  obtain ⟨r, hr, hl⟩ := List.mem_flatMap.1 hl
  cases r with
  | link l' =>
    simp only [Ref.links, List.mem_singleton] at hl; subst hl
    exact (c11_verify_direct cx).1.1 h name m hm l (List.mem_filterMap.2 ⟨_, hr, rfl⟩)
  | inline sub =>
    have := flat name m hm sub hr
    simp [Ref.links, this] at hl
  | any => simp [Ref.links] at hl

/-- A registry with inline members and links that meets the hypotheses of `c12_verify_partial`. -/
example : let cx : Components := ⟨[("A", ⟨none, .oneOf [.inline ⟨none, .oneOf [.any]⟩, .link "A"]⟩)], []⟩
    cx.NoDangling := by
  intro cx
  apply c12_verify_partial cx _ rfl
  intro name m hm sub hs
  simp only [cx, List.mem_singleton, Prod.mk.injEq] at hm
  obtain ⟨rfl, rfl⟩ := hm
  simp [Model.directRefs] at hs
  subst hs; rfl

end Verif
