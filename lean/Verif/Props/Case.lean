import Verif.Proof.Case
/-!
# C43-C47: case conversion (`serde(rename_all = "..")`)

`up` is `char::is_uppercase`, assumed right on ASCII (`AsciiUpper up`).  `none` is a panic.
-/

namespace Verif
open Spec Chars

/-- The rule denoted by each documented style. -/
def ruleOf : Style → RenameRule
  | .asIs => .none | .lowercase => .lowerCase | .uppercase => .upperCase | .pascal => .pascalCase
  | .camel => .camelCase | .snake => .snakeCase | .screamingSnake => .screamingSnakeCase
  | .kebab => .kebabCase | .screamingKebab => .screamingKebabCase

/-- **C43**. A variant name that is a concatenation of capitalised ASCII words is converted to the
documented spelling, under every rule. -/
theorem c43_variant_words (up : Char → Bool) (hup : AsciiUpper up) (style : Style)
    (ws : List (List Char)) (hne : ws ≠ []) (h : ∀ w ∈ ws, CapWord w) :
    (ruleOf style).applyToVariant up (concat ws) = some (variantSpelling style ws) := by
  have hs := snakeLoop_first hup ws h
  have hl : ∀ w ∈ ws.map lowered, '_' ∉ w := by
    intro w hw; obtain ⟨v, hv, rfl⟩ := List.mem_map.1 hw; exact lowered_no_underscore (h v hv)
  have hu : ∀ w ∈ ws.map uppered, '_' ∉ w := by
    intro w hw; obtain ⟨v, hv, rfl⟩ := List.mem_map.1 hw
    rw [← uppered_lowered]; exact uppered_no_underscore (lowered_no_underscore (h v hv))
  have hup2 : (['_'].intercalate (ws.map lowered)).map Char.toUpper
      = ['_'].intercalate (ws.map uppered) := by
    rw [map_intercalate, List.map_map]
    congr 1
    apply List.map_congr_left; intro w _; exact uppered_lowered w
  have hd : ∀ vs : List (List Char), (∀ w ∈ vs, '_' ∉ w) →
      (['_'].intercalate vs).map (fun c => if c = '_' then '-' else c) = ['-'].intercalate vs := by
    intro vs hvs
    rw [map_intercalate, map_dash_word hvs]; rfl
  cases style
  · rfl
  · simp [ruleOf, RenameRule.applyToVariant, variantSpelling, asciiLower, concat, List.map_flatten]; rfl
  · simp [ruleOf, RenameRule.applyToVariant, variantSpelling, asciiUpper, concat, List.map_flatten]; rfl
  · rfl
  · cases ws with
    | nil => exact absurd rfl hne
    | cons w ws =>
      obtain ⟨c, cs, rfl, hc, _⟩ := h w List.mem_cons_self
      have : c.utf8Size = 1 := by
        rw [utf8Size_one_iff]; rw [isUpper_iff] at hc; omega
      simp [ruleOf, RenameRule.applyToVariant, variantSpelling, lowerFirst, concat, this, uncapitalised]
  · simp only [ruleOf, RenameRule.applyToVariant, variantSpelling, snakeVariant, concat, joined,
      String.toList_ofList]
    rw [hs]
  · simp only [ruleOf, RenameRule.applyToVariant, variantSpelling, snakeVariant, concat, joined,
      String.toList_ofList, asciiUpper]
    rw [hs, hup2]
  · simp only [ruleOf, RenameRule.applyToVariant, variantSpelling, snakeVariant, concat, joined,
      String.toList_ofList, dashed]
    rw [hs, hd _ hl]
  · simp only [ruleOf, RenameRule.applyToVariant, variantSpelling, snakeVariant, concat, joined,
      String.toList_ofList, dashed, asciiUpper]
    rw [hs, hup2, hd _ hu]

example : ∀ w ∈ ["Http".toList, "Status2".toList], CapWord w := by
  intro w hw
  simp at hw
  rcases hw with rfl | rfl
  · exact ⟨'H', ['t', 't', 'p'], rfl, rfl, by unfold IsWordTail; decide⟩
  · exact ⟨'S', ['t', 'a', 't', 'u', 's', '2'], rfl, rfl, by unfold IsWordTail; decide⟩
example : AsciiUpper Char.isUpper := fun _ _ => rfl
example : RenameRule.kebabCase.applyToVariant Char.isUpper "HttpStatus2" = some "http-status2" := by
  decide

/-- **C44**. A field name that is lower-case ASCII words joined by `_` is converted to the documented
spelling, under every rule. -/
theorem c44_field_words (style : Style) (ws : List (List Char)) (hne : ws ≠ [])
    (h : ∀ w ∈ ws, LowWord w) :
    (ruleOf style).applyToField (joined '_' ws) = some (fieldSpelling style ws) := by
  have hn : ∀ w ∈ ws, '_' ∉ w := fun w hw => low_no_underscore (h w hw)
  have hu : ∀ w ∈ ws.map uppered, '_' ∉ w := by
    intro w hw; obtain ⟨v, hv, rfl⟩ := List.mem_map.1 hw; exact uppered_no_underscore (hn v hv)
  have hup2 : (['_'].intercalate ws).map Char.toUpper = ['_'].intercalate (ws.map uppered) := by
    rw [map_intercalate]; rfl
  have hd : ∀ vs : List (List Char), (∀ w ∈ vs, '_' ∉ w) →
      (['_'].intercalate vs).map (fun c => if c = '_' then '-' else c) = ['-'].intercalate vs := by
    intro vs hvs
    rw [map_intercalate, map_dash_word hvs]; rfl
  have hp := pascalLoop_joined ws (fun w hw => low_ok (h w hw))
  cases style
  · rfl
  · rfl
  · simp only [ruleOf, RenameRule.applyToField, fieldSpelling, asciiUpper, joined, String.toList_ofList]
    rw [hup2]
  · simp only [ruleOf, RenameRule.applyToField, fieldSpelling, pascalField, joined,
      String.toList_ofList, concat]
    rw [hp, List.flatMap_def]
  · cases ws with
    | nil => exact absurd rfl hne
    | cons w ws =>
      obtain ⟨c, cs, rfl, hc, _⟩ := h w List.mem_cons_self
      simp only [ruleOf, RenameRule.applyToField, fieldSpelling, pascalField, joined, concat,
        String.toList_ofList, lowerFirst]
      rw [hp]
      have h1 : c.toUpper.utf8Size = 1 := by
        rw [utf8Size_one_iff, toNat_upper]; rw [isLower_iff] at hc; split <;> omega
      have h2 : c.toUpper.toLower = c := by
        rw [toNat_inj, toNat_lower, toNat_upper]; rw [isLower_iff] at hc
        split <;> split <;> omega
      simp [capitalised, h1, h2, List.flatMap_def]
  · rfl
  · simp only [ruleOf, RenameRule.applyToField, fieldSpelling, asciiUpper, joined, String.toList_ofList]
    rw [hup2]
  · simp only [ruleOf, RenameRule.applyToField, fieldSpelling, dashed, joined, String.toList_ofList]
    rw [hd _ hn]
  · simp only [ruleOf, RenameRule.applyToField, fieldSpelling, dashed, asciiUpper, joined,
      String.toList_ofList]
    rw [hup2, hd _ hu]

example : ∀ w ∈ ["first".toList, "name2".toList], LowWord w := by
  intro w hw
  simp at hw
  rcases hw with rfl | rfl
  · exact ⟨'f', ['i', 'r', 's', 't'], rfl, rfl, by unfold IsWordTail; decide⟩
  · exact ⟨'n', ['a', 'm', 'e', '2'], rfl, rfl, by unfold IsWordTail; decide⟩
example : RenameRule.camelCase.applyToField "first_name2" = some "firstName2" := by decide

/-- **C45** (exact panic set, variants). Converting a variant name panics exactly under `camelCase` when
the name is empty or starts with a character longer than one byte. -/
theorem c45_variant_panics_iff (up : Char → Bool) (r : RenameRule) (s : String) :
    r.applyToVariant up s = none ↔
      r = .camelCase ∧ ∀ c, s.toList.head? = some c → 128 ≤ c.toNat := by
  cases r <;> simp [RenameRule.applyToVariant]
  unfold lowerFirst
  cases h : s.toList with
  | nil => simp
  | cons c cs =>
    have := utf8Size_one_iff c
    simp only [List.head?_cons, Option.some.injEq, forall_eq']
    split
    · rename_i h'; rw [this] at h'; simp; omega
    · rename_i h'; rw [this] at h'; simp; omega

/-- **C45** (exact panic set, fields). Converting a field name panics exactly under `camelCase` when the
first character that is not an underscore is longer than one byte or there is none. -/
theorem c45_field_panics_iff (r : RenameRule) (s : String) :
    r.applyToField s = none ↔
      r = .camelCase ∧ ∀ c, s.toList.find? (fun c => c ≠ '_') = some c → 128 ≤ c.toNat := by
  cases r <;> simp [RenameRule.applyToField]
  unfold lowerFirst pascalField
  rw [String.toList_ofList]
  have hh := pascalLoop_head s.toList
  have e : s.toList.find? (fun c => !decide (c = '_')) = s.toList.find? (fun c => decide (c ≠ '_')) := by
    congr 1; funext c; simp
  cases h : pascalLoop true s.toList with
  | nil =>
    rw [h] at hh
    simp only [List.head?_nil] at hh
    have : s.toList.find? (fun c => decide (c ≠ '_')) = none := by
      cases hf : s.toList.find? (fun c => decide (c ≠ '_')) with
      | none => rfl
      | some c => rw [hf] at hh; cases hh
    rw [e, this]; simp
  | cons c cs =>
    rw [h] at hh
    simp only [List.head?_cons] at hh
    cases hf : s.toList.find? (fun c => decide (c ≠ '_')) with
    | none => rw [hf] at hh; cases hh
    | some d =>
      rw [hf] at hh
      simp only [Option.map_some, Option.some.injEq] at hh
      rw [e, hf]
      have h1 := utf8Size_one_iff c
      have h2 : c.toNat < 128 ↔ d.toNat < 128 := by
        subst hh; rw [toNat_upper]; split <;> omega
      simp only [Option.some.injEq, forall_eq']
      split
      · rename_i h'; rw [h1, h2] at h'; simp; omega
      · rename_i h'; rw [h1, h2] at h'; simp; omega

/-- **C45** is false: `__` is a valid field identifier whose camelCase conversion panics, and `Ä` is a
valid variant identifier whose camelCase conversion panics (for every `is_uppercase`). -/
theorem c45_no_panic_is_false (up : Char → Bool) :
    (AsciiIdent "__" ∧ RenameRule.camelCase.applyToField "__" = none) ∧
    RenameRule.camelCase.applyToVariant up "Ä" = none := by
  refine ⟨⟨by decide, by decide⟩, rfl⟩

theorem ascii_of_alphanum {c : Char} (h : c.isAlphanum = true ∨ c = '_') : c.toNat < 128 := by
  rcases h with h | h
  · unfold Char.isAlphanum Char.isAlpha at h
    simp only [Bool.or_eq_true] at h
    rcases h with (h | h) | h
    · rw [isUpper_iff] at h; omega
    · rw [isLower_iff] at h; omega
    · rw [isDigit_iff] at h; omega
  · subst h; decide

/-- **C45** (the part that holds). No rule panics on an ASCII identifier that does not consist of
underscores only. Missing: identifiers with non-ASCII first character, and all-underscore fields. -/
theorem c45_no_panic_partial (up : Char → Bool) (r : RenameRule) (s : String) (h : AsciiIdent s) :
    (∃ t, r.applyToVariant up s = some t) ∧
    ((∃ c ∈ s.toList, c ≠ '_') → ∃ t, r.applyToField s = some t) := by
  obtain ⟨c, cs, e, hc, hcs, _⟩ := h
  have hc' : c.toNat < 128 := ascii_of_alphanum (by
    rcases hc with h | h
    · left; unfold Char.isAlphanum; simp [h]
    · right; exact h)
  have hall : ∀ x ∈ s.toList, x.toNat < 128 := by
    rw [e]; intro x hx
    rcases List.mem_cons.1 hx with rfl | hx
    · exact hc'
    · exact ascii_of_alphanum (hcs x hx)
  constructor
  · cases ht : r.applyToVariant up s with
    | some t => exact ⟨t, rfl⟩
    | none =>
      rw [c45_variant_panics_iff] at ht
      have := ht.2 c (by rw [e]; rfl); omega
  · rintro ⟨x, hx, hne⟩
    cases ht : r.applyToField s with
    | some t => exact ⟨t, rfl⟩
    | none =>
      rw [c45_field_panics_iff] at ht
      cases hf : s.toList.find? (fun c => decide (c ≠ '_')) with
      | none => rw [List.find?_eq_none] at hf; have := hf x hx; simp [hne] at this
      | some d =>
        have := ht.2 d hf
        have := hall d (List.mem_of_find?_eq_some hf); omega

example : AsciiIdent "_user_id" ∧ (∃ c ∈ "_user_id".toList, c ≠ '_') := by
  exact ⟨by decide, 'u', by decide, by decide⟩

/-- **C46** is false: distinct identifiers with equal serialized names, for both kinds. -/
theorem c46_injective_is_false (up : Char → Bool) :
    (RenameRule.lowerCase.applyToVariant up "Ab" = RenameRule.lowerCase.applyToVariant up "AB") ∧
    (RenameRule.pascalCase.applyToField "a_1" = RenameRule.pascalCase.applyToField "a1") ∧
    (RenameRule.camelCase.applyToField "a_1" = RenameRule.camelCase.applyToField "a1") ∧
    (RenameRule.upperCase.applyToField "aB" = RenameRule.upperCase.applyToField "ab") := by
  refine ⟨rfl, ?_, ?_, ?_⟩ <;> decide

/-- Variant identifiers in the usual style: no `_` or `-`, first character not an ASCII lower-case letter. -/
def UsualVariant (s : String) : Prop :=
  (∀ c ∈ s.toList, c ≠ '_' ∧ c ≠ '-') ∧ ∀ c, s.toList.head? = some c → c.isLower = false

/-- **C46** (variants, the part that holds). Under every rule except `lowercase` and `UPPERCASE`, two
variants in the usual style with the same serialized name are equal.
Missing: `lowercase`/`UPPERCASE`, and names with underscores (see `c46_injective_is_false`). -/
theorem c46_variant_injective_partial (up : Char → Bool) (hup : AsciiUpper up) (r : RenameRule)
    (hr : r ≠ .lowerCase ∧ r ≠ .upperCase) (s t u : String) (hs : UsualVariant s) (ht : UsualVariant t)
    (es : r.applyToVariant up s = some u) (et : r.applyToVariant up t = some u) : s = t := by
  have key : ∀ (sep : Char) (g : Char → Char), g '_' = sep →
      (∀ c : Char, c ≠ '_' ∧ c ≠ '-' → g c.toLower ≠ sep) →
      (∀ c d : Char, c ≠ '_' ∧ c ≠ '-' → d ≠ '_' ∧ d ≠ '-' → up c = up d →
        g c.toLower = g d.toLower → c = d) →
      (∀ c d : Char, c ≠ '_' ∧ c ≠ '-' → d ≠ '_' ∧ d ≠ '-' → c.isLower = false → d.isLower = false →
        g c.toLower = g d.toLower → c = d) →
      ((snakeLoop up true s.toList).map g = (snakeLoop up true t.toList).map g) → s = t := by
    intro sep g hg h1 h2 h3 h
    rw [snakeLoop_map, snakeLoop_map, hg] at h
    exact String.toList_inj.1 (sepLoop_inj_first h1 h2 h3 _ _ hs.1 ht.1 hs.2 ht.2 h)
  have opt : ∀ {a b : String}, some a = some u → some b = some u → a = b := by
    intro a b h1 h2; rw [← h2] at h1; exact Option.some.inj h1
  have nl : ∀ {c : Char}, c ≠ '_' ∧ c ≠ '-' → c.toLower ≠ '_' ∧ c.toLower ≠ '-' := fun h =>
    ⟨fun e => h.1 (lower_eq_underscore.1 e), fun e => h.2 (lower_eq_dash.1 e)⟩
  have nu : ∀ {c : Char}, c ≠ '_' ∧ c ≠ '-' → c.toUpper ≠ '_' ∧ c.toUpper ≠ '-' := fun h =>
    ⟨fun e => h.1 (upper_eq_underscore.1 e), fun e => h.2 (upper_eq_dash.1 e)⟩
  cases r
  · exact opt es et
  · exact absurd rfl hr.1
  · exact absurd rfl hr.2
  · exact opt es et
  · -- camelCase
    simp only [RenameRule.applyToVariant, lowerFirst] at es et
    have fs := hs.2; have ft := ht.2
    cases h1 : s.toList with
    | nil => rw [h1] at es; cases es
    | cons c cs =>
      cases h2 : t.toList with
      | nil => rw [h2] at et; cases et
      | cons d ds =>
        rw [h1] at es fs; rw [h2] at et ft
        simp only at es et
        split at es <;> split at et <;> try contradiction
        have := opt es et
        rw [ofList_inj] at this
        injection this with e1 e2
        have := lower_inj (fs c rfl) (ft d rfl) e1
        apply String.toList_inj.1; rw [h1, h2, this, e2]
  · -- snake_case
    have := ofList_inj.1 (opt es et)
    exact key '_' id rfl (fun c hc => (nl hc).1) (fun c d _ _ hu => up_lowerInj hup hu)
      (fun c d _ _ => lower_inj) (by simpa using this)
  · -- SCREAMING_SNAKE_CASE
    have := ofList_inj.1 (opt es et)
    simp only [snakeVariant, String.toList_ofList] at this
    exact key '_' Char.toUpper rfl (fun c hc => (nu (nl hc)).1) (fun c d _ _ hu => up_upperInj hup hu)
      (fun c d _ _ => low_upperInj) this
  · -- kebab-case
    have := ofList_inj.1 (opt es et)
    simp only [snakeVariant, String.toList_ofList] at this
    refine key '-' dashChar rfl ?_ ?_ ?_ this
    · intro c hc h
      rcases dashChar_eq_dash h with h | h
      · exact (nl hc).1 h
      · exact (nl hc).2 h
    · intro c d hc hd hu h; exact up_lowerInj hup hu (dashChar_inj (nl hc).2 (nl hd).2 h)
    · intro c d hc hd h1 h2 h; exact lower_inj h1 h2 (dashChar_inj (nl hc).2 (nl hd).2 h)
  · -- SCREAMING-KEBAB-CASE
    have := ofList_inj.1 (opt es et)
    simp only [snakeVariant, asciiUpper, String.toList_ofList, List.map_map] at this
    refine key '-' (dashChar ∘ Char.toUpper) rfl ?_ ?_ ?_ this
    · intro c hc h
      rcases dashChar_eq_dash h with h | h
      · exact (nu (nl hc)).1 h
      · exact (nu (nl hc)).2 h
    · intro c d hc hd hu h
      exact up_upperInj hup hu (dashChar_inj (nu (nl hc)).2 (nu (nl hd)).2 h)
    · intro c d hc hd h1 h2 h
      exact low_upperInj h1 h2 (dashChar_inj (nu (nl hc)).2 (nu (nl hd)).2 h)

example : UsualVariant "HttpStatus" ∧ UsualVariant "HTTPStatus" := by
  unfold UsualVariant; decide

/-- Field identifiers in the usual style: no `-` and no ASCII capital. -/
def UsualField (s : String) : Prop := ∀ c ∈ s.toList, c ≠ '-' ∧ c.isUpper = false

/-- Word-structured field identifiers: moreover the first character and every character after an
underscore is a lower-case ASCII letter, and the last character is not an underscore. -/
def WordField (s : String) : Prop := cleanField true s.toList = true

/-- **C46** (fields, the part that holds). Two fields in the usual style with the same serialized name are
equal, under every rule; for `PascalCase` and `camelCase` they must also be word-structured.
Missing: names like `a_1`/`a1` under Pascal/camel and names with capitals under the upper-case rules. -/
theorem c46_field_injective_partial (r : RenameRule) (s t u : String) (hs : UsualField s)
    (ht : UsualField t) (hw : r = .pascalCase ∨ r = .camelCase → WordField s ∧ WordField t)
    (es : r.applyToField s = some u) (et : r.applyToField t = some u) : s = t := by
  have opt : ∀ {a b : String}, some a = some u → some b = some u → a = b := by
    intro a b h1 h2; rw [← h2] at h1; exact Option.some.inj h1
  have upperCase : asciiUpper s = asciiUpper t → s = t := by
    intro h
    exact String.toList_inj.1 (map_inj_on (P := fun c => c ≠ '-' ∧ c.isUpper = false)
      (fun c d hc hd => upper_inj hc.2 hd.2) _ _ hs ht (ofList_inj.1 h))
  have pascal : WordField s ∧ WordField t →
      pascalLoop true s.toList = pascalLoop true t.toList → s = t := by
    intro ⟨h1, h2⟩ h
    apply String.toList_inj.1
    unfold WordField at h1 h2
    cases ha : s.toList with
    | nil =>
      cases hb : t.toList with
      | nil => rfl
      | cons d b => rw [ha, hb] at h; rw [hb] at h2; rw [(pascalLoop_start h2).1] at h; cases h
    | cons c a =>
      rw [ha] at h1 h
      cases hb : t.toList with
      | nil => rw [hb] at h; rw [(pascalLoop_start h1).1] at h; cases h
      | cons d b =>
        rw [hb] at h2 h
        obtain ⟨p1, p2, p3⟩ := pascalLoop_start h1
        obtain ⟨q1, q2, q3⟩ := pascalLoop_start h2
        rw [p1, q1] at h
        injection h with e1 e2
        rw [pascalLoop_inj a.length a b (Nat.le_refl _) p3 q3 e2]
        rw [upper_inj (hs c (by rw [ha]; exact List.mem_cons_self)).2
          (ht d (by rw [hb]; exact List.mem_cons_self)).2 e1]
  cases r
  · exact opt es et
  · exact opt es et
  · exact upperCase (opt es et)
  · exact pascal (hw (.inl rfl)) (ofList_inj.1 (opt es et))
  · -- camelCase
    refine pascal (hw (.inr rfl)) ?_
    obtain ⟨w1, w2⟩ := hw (.inr rfl)
    simp only [RenameRule.applyToField, lowerFirst, pascalField, String.toList_ofList] at es et
    unfold WordField at w1 w2
    cases ha : s.toList with
    | nil => rw [ha] at es; simp [pascalLoop] at es
    | cons c a =>
      cases hb : t.toList with
      | nil => rw [hb] at et; simp [pascalLoop] at et
      | cons d b =>
        rw [ha] at w1 es; rw [hb] at w2 et
        obtain ⟨p1, p2, p3⟩ := pascalLoop_start w1
        obtain ⟨q1, q2, q3⟩ := pascalLoop_start w2
        rw [p1] at es ⊢; rw [q1] at et ⊢
        simp only at es et
        split at es <;> split at et <;> try contradiction
        have := ofList_inj.1 (opt es et)
        injection this with e1 e2
        have hcap : ∀ x : Char, x.isLower = true → x.isUpper = false := by
          intro x hx; rw [isLower_iff] at hx; rw [not_isUpper_iff]; omega
        rw [lower_inj (not_lower_upper (hcap _ p2)) (not_lower_upper (hcap _ q2)) e1, e2]
  · exact opt es et
  · exact upperCase (opt es et)
  · have := ofList_inj.1 (opt es et)
    exact String.toList_inj.1 (map_inj_on (P := fun c => c ≠ '-' ∧ c.isUpper = false)
      (fun c d hc hd => dashChar_inj hc.1 hd.1) _ _ hs ht this)
  · have := ofList_inj.1 (opt es et)
    simp only [asciiUpper, String.toList_ofList, List.map_map] at this
    refine String.toList_inj.1 (map_inj_on (P := fun c => c ≠ '-' ∧ c.isUpper = false) ?_ _ _ hs ht this)
    intro c d hc hd h
    exact upper_inj hc.2 hd.2 (dashChar_inj (fun e => hc.1 (upper_eq_dash.1 e))
      (fun e => hd.1 (upper_eq_dash.1 e)) h)

example : UsualField "user_id2" ∧ WordField "user_id2" := by
  unfold UsualField WordField; decide

/-- The eight documented spellings. -/
def ruleTable : List (String × RenameRule) :=
  [("lowercase", .lowerCase), ("UPPERCASE", .upperCase), ("PascalCase", .pascalCase),
   ("camelCase", .camelCase), ("snake_case", .snakeCase),
   ("SCREAMING_SNAKE_CASE", .screamingSnakeCase), ("kebab-case", .kebabCase),
   ("SCREAMING-KEBAB-CASE", .screamingKebabCase)]

/-- **C47**. `RenameRule::from_str` accepts exactly the eight documented spellings; different spellings
name different rules. -/
theorem c47_rule_names (s : String) (r : RenameRule) :
    RenameRule.fromStr s = some r ↔ (s, r) ∈ ruleTable := by
  unfold RenameRule.fromStr ruleTable
  constructor
  · intro h
    repeat' split at h
    all_goals first | cases h | skip
    all_goals (rename_i e; subst e; simp)
  · intro h
    simp only [List.mem_cons, Prod.mk.injEq, List.not_mem_nil, or_false] at h
    rcases h with ⟨rfl, rfl⟩ | ⟨rfl, rfl⟩ | ⟨rfl, rfl⟩ | ⟨rfl, rfl⟩ | ⟨rfl, rfl⟩ | ⟨rfl, rfl⟩ |
      ⟨rfl, rfl⟩ | ⟨rfl, rfl⟩ <;> rfl

theorem c47_distinct (s t : String) (r : RenameRule) (hs : RenameRule.fromStr s = some r)
    (ht : RenameRule.fromStr t = some r) : s = t := by
  rw [c47_rule_names] at hs ht
  unfold ruleTable at hs ht
  simp only [List.mem_cons, Prod.mk.injEq, List.not_mem_nil, or_false] at hs ht
  cases r <;> simp_all

example : RenameRule.fromStr "snake_case" = some .snakeCase ∧ RenameRule.fromStr "Snake" = none := by
  decide

end Verif
