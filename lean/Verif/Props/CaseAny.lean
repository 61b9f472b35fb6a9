import Verif.Props.Case
/-!
# The renaming rules on arbitrary names (C43, C44, C46)
-/

namespace Verif

open Spec Chars

theorem pascalLoop_part (w rest : List Char) (h : '_' ∉ w) (hr : rest = [] ∨ ∃ r, rest = '_' :: r) :
    pascalLoop true (w ++ rest) = capitalised w ++ pascalLoop true rest := by
  cases w with
  | nil => rfl
  | cons c cs =>
    have hc : c ≠ '_' := fun e => h (e ▸ List.mem_cons_self)
    have hcs : '_' ∉ cs := fun e => h (List.mem_cons_of_mem _ e)
    simp only [List.cons_append, pascalLoop, if_neg hc, capitalised, if_true]
    rw [pascalLoop_word cs rest hcs]
    rcases hr with rfl | ⟨r, rfl⟩ <;> simp [pascalLoop]

theorem pascalLoop_parts : ∀ (ws : List (List Char)), (∀ w ∈ ws, '_' ∉ w) →
    pascalLoop true (['_'].intercalate ws) = (ws.map capitalised).flatten
  | [], _ => rfl
  | [w], h => by
    have := pascalLoop_part w [] (h w List.mem_cons_self) (.inl rfl)
    simpa [List.intercalate, pascalLoop] using this
  | w :: v :: ws, h => by
    have ih := pascalLoop_parts (v :: ws) (fun x hx => h x (List.mem_cons_of_mem _ hx))
    have e : ['_'].intercalate (w :: v :: ws) = w ++ '_' :: ['_'].intercalate (v :: ws) := by
      simp [List.intercalate, List.intersperse]
    rw [e, pascalLoop_part w _ (h w List.mem_cons_self) (.inr ⟨_, rfl⟩)]
    simp only [pascalLoop, if_true]
    rw [ih]
    simp

theorem lowerFirst_spelt (l : List Char) (s : String) : lowerFirst (String.ofList l) = some s ↔ Decapitalised l s := by
  unfold lowerFirst Decapitalised
  rw [String.toList_ofList]
  cases l with
  | nil => simp
  | cons c cs =>
    have := utf8Size_one_iff c
    constructor
    · intro h
      simp only at h
      split at h
      · exact ⟨c, cs, rfl, this.1 ‹_›, (Option.some.inj h).symm⟩
      · cases h
    · rintro ⟨c', cs', e, h1, rfl⟩
      cases e
      simp [this.2 h1]

theorem exists_parts : ∀ (l : List Char), ∃ ws : List (List Char), ws ≠ [] ∧ (∀ w ∈ ws, '_' ∉ w) ∧ l = ['_'].intercalate ws
  | [] => ⟨[[]], by simp, by simp, rfl⟩
  | c :: cs => by
    obtain ⟨ws, h1, h2, h3⟩ := exists_parts cs
    cases ws with
    | nil => exact absurd rfl h1
    | cons w ws =>
      by_cases hc : c = '_'
      · refine ⟨[] :: w :: ws, by simp, fun v hv => ?_, ?_⟩
        · rcases List.mem_cons.1 hv with rfl | hv
          · simp
          · exact h2 v hv
        · rw [hc, h3]; simp [List.intercalate, List.intersperse]
      · refine ⟨(c :: w) :: ws, by simp, fun v hv => ?_, ?_⟩
        · rcases List.mem_cons.1 hv with rfl | hv
          · intro h
            rcases List.mem_cons.1 h with h | h
            · exact hc h.symm
            · exact h2 w List.mem_cons_self h
          · exact h2 v (List.mem_cons_of_mem _ hv)
        · rw [h3]
          cases ws <;> simp [List.intercalate, List.intersperse]

theorem dashed_joined (ws : List (List Char)) :
    (['_'].intercalate ws).map (fun c => if c = '_' then '-' else c) = ['-'].intercalate (ws.map hyphened) := by
  rw [map_intercalate]; rfl

theorem hyphened_parts {ws : List (List Char)} (h : ∀ w ∈ ws, '_' ∉ w) : ws.map hyphened = ws := by
  have := map_dash_word h
  exact this

theorem upper_joined (ws : List (List Char)) : (['_'].intercalate ws).map Char.toUpper = ['_'].intercalate (ws.map uppered) := by
  rw [map_intercalate]; rfl

/-- **C44** for arbitrary names.  Every name has parts, and under every rule the serialized name is spelt from them; no
name comes out (a panic, C45) exactly if nothing is spelt. -/
theorem c44_any_field (style : Style) (field : String) : ∃ ws, FieldParts field ws ∧
    ∀ s, (ruleOf style).applyToField field = some s ↔ FieldSpelt style ws s := by
  obtain ⟨ws, h1, h2, h3⟩ := exists_parts field.toList
  have hf : field = joined '_' ws := by rw [joined, ← h3, String.ofList_toList]
  refine ⟨ws, ⟨h1, h2, hf⟩, fun s => ?_⟩
  have hu : ∀ w ∈ ws.map uppered, '_' ∉ w := by
    intro w hw; obtain ⟨v, hv, rfl⟩ := List.mem_map.1 hw; exact uppered_no_underscore (h2 v hv)
  have es : ∀ t : String, (some t = some s ↔ s = t) := fun t => ⟨fun h => (Option.some.inj h).symm, fun h => h ▸ rfl⟩
  cases style <;> simp only [ruleOf, RenameRule.applyToField, FieldSpelt, asciiUpper, dashed, pascalField, String.toList_ofList,
    lowerFirst_spelt, es, hf]
  · simp only [joined, String.toList_ofList, upper_joined]
  · simp only [joined, String.toList_ofList, concat, pascalLoop_parts _ h2]
  · simp only [joined, String.toList_ofList, pascalLoop_parts _ h2]
  · simp only [joined, String.toList_ofList, upper_joined]
  · simp only [joined, String.toList_ofList, dashed_joined, hyphened_parts h2]
  · simp only [joined, String.toList_ofList, upper_joined, dashed_joined, hyphened_parts hu]

/-- `_userID__x` has the parts ``, `userID`, `` and `x`; in camelCase it is `userIDX`. -/
example : FieldParts "_userID__x" [[], "userID".toList, [], "x".toList] ∧
    FieldSpelt .camel [[], "userID".toList, [], "x".toList] "userIDX" :=
  ⟨⟨by simp, by decide, by decide⟩, 'U', "serIDX".toList, by decide, by decide, by decide⟩

theorem exists_variantParts (up : Char → Bool) : ∀ (l : List Char), ∃ ws : List (List Char), l = ws.flatten ∧
    (∀ w ∈ ws, ∃ c cs, w = c :: cs ∧ ∀ x ∈ cs, up x = false) ∧ ∀ w ∈ ws.tail, ∃ c cs, w = c :: cs ∧ up c = true
  | [] => ⟨[], rfl, by simp, by simp⟩
  | [c] => ⟨[[c]], rfl, fun w hw => ⟨c, [], List.mem_singleton.1 hw, by simp⟩, by simp⟩
  | c :: d :: cs => by
    obtain ⟨ws, h1, h2, h3⟩ := exists_variantParts up (d :: cs)
    cases ws with
    | nil => cases h1
    | cons w ws =>
      obtain ⟨e, es, rfl, h4⟩ := h2 w List.mem_cons_self
      have hde : d = e := by simp at h1; exact h1.1
      subst hde
      cases hd : up d with
      | true =>
        refine ⟨[c] :: (d :: es) :: ws, by rw [h1]; rfl, fun w hw => ?_, fun w hw => ?_⟩
        · rcases List.mem_cons.1 hw with rfl | hw
          · exact ⟨c, [], rfl, by simp⟩
          · exact h2 w hw
        · rcases List.mem_cons.1 hw with rfl | hw
          · exact ⟨d, es, rfl, hd⟩
          · exact h3 w hw
      | false =>
        refine ⟨(c :: d :: es) :: ws, by rw [h1]; rfl, fun w hw => ?_, fun w hw => ?_⟩
        · rcases List.mem_cons.1 hw with rfl | hw
          · refine ⟨c, d :: es, rfl, fun x hx => ?_⟩
            rcases List.mem_cons.1 hx with rfl | hx
            · exact hd
            · exact h4 x hx
          · exact h2 w (List.mem_cons_of_mem _ hw)
        · exact h3 w hw

theorem snakeLoop_plain {up : Char → Bool} : ∀ (cs rest : List Char), (∀ x ∈ cs, up x = false) →
    snakeLoop up false (cs ++ rest) = cs.map Char.toLower ++ snakeLoop up false rest
  | [], _, _ => rfl
  | c :: cs, rest, h => by
    simp only [List.cons_append, snakeLoop, h c List.mem_cons_self, List.map_cons]
    rw [snakeLoop_plain cs rest fun x hx => h x (List.mem_cons_of_mem _ hx)]
    simp

theorem snakeLoop_parts {up : Char → Bool} : ∀ (ws : List (List Char)),
    (∀ w ∈ ws, ∃ c cs, w = c :: cs ∧ ∀ x ∈ cs, up x = false) → (∀ w ∈ ws, ∃ c cs, w = c :: cs ∧ up c = true) →
    snakeLoop up false ws.flatten = (ws.map fun w => '_' :: lowered w).flatten
  | [], _, _ => rfl
  | w :: ws, h, h' => by
    obtain ⟨c, cs, rfl, hcs⟩ := h w List.mem_cons_self
    obtain ⟨c', cs', e, hc⟩ := h' _ List.mem_cons_self
    cases e
    have ih := snakeLoop_parts ws (fun v hv => h v (List.mem_cons_of_mem _ hv)) (fun v hv => h' v (List.mem_cons_of_mem _ hv))
    simp only [List.flatten_cons, List.cons_append, snakeLoop, hc, Bool.not_false, Bool.and_self, if_true]
    rw [snakeLoop_plain cs _ hcs, ih]
    simp [lowered]

theorem intercalate_flatten (sep : Char) (w : List Char) (ws : List (List Char)) :
    [sep].intercalate (w :: ws) = w ++ (ws.map fun v => sep :: v).flatten := by
  induction ws generalizing w with
  | nil => simp [List.intercalate]
  | cons v ws ih =>
    have e : [sep].intercalate (w :: v :: ws) = w ++ sep :: [sep].intercalate (v :: ws) := by
      simp [List.intercalate, List.intersperse]
    rw [e, ih]
    simp

theorem snakeLoop_variant {up : Char → Bool} (ws : List (List Char))
    (h : ∀ w ∈ ws, ∃ c cs, w = c :: cs ∧ ∀ x ∈ cs, up x = false) (h' : ∀ w ∈ ws.tail, ∃ c cs, w = c :: cs ∧ up c = true) :
    snakeLoop up true ws.flatten = ['_'].intercalate (ws.map lowered) := by
  cases ws with
  | nil => rfl
  | cons w ws =>
    obtain ⟨c, cs, rfl, hcs⟩ := h w List.mem_cons_self
    have := snakeLoop_parts ws (fun v hv => h v (List.mem_cons_of_mem _ hv)) h'
    rw [List.map_cons, intercalate_flatten]
    simp only [List.flatten_cons, List.cons_append, snakeLoop, Bool.not_true, Bool.false_and]
    rw [snakeLoop_plain cs _ hcs, this, List.map_map]
    simp [lowered, Function.comp_def]

/-- **C43** for arbitrary names, with any notion of capitals.  Every name has parts, and under every rule the
serialized name is spelt from them; no name comes out (a panic, C45) exactly if nothing is spelt. -/
theorem c43_any_variant (up : Char → Bool) (style : Style) (variant : String) : ∃ ws, VariantParts up variant ws ∧
    ∀ s, (ruleOf style).applyToVariant up variant = some s ↔ VariantSpelt style ws s := by
  obtain ⟨ws, h1, h2, h3⟩ := exists_variantParts up variant.toList
  have hf : variant = concat ws := by rw [concat, ← h1, String.ofList_toList]
  refine ⟨ws, ⟨hf, h2, h3⟩, fun s => ?_⟩
  have es : ∀ t : String, (some t = some s ↔ s = t) := fun t => ⟨fun h => (Option.some.inj h).symm, fun h => h ▸ rfl⟩
  have hs := snakeLoop_variant ws h2 h3
  have hul : (ws.map lowered).map uppered = ws.map uppered := by
    rw [List.map_map]; exact List.map_congr_left fun w _ => uppered_lowered w
  cases style <;> simp only [ruleOf, RenameRule.applyToVariant, VariantSpelt, asciiLower, asciiUpper, dashed, snakeVariant,
    String.toList_ofList, es, hf, concat, hs, joined, upper_joined, hul, dashed_joined, List.map_map, lowerFirst_spelt]
  · rw [List.map_flatten]; rfl
  · rw [List.map_flatten]; rfl
  · rfl
  · rfl

/-- `xHTTP_Status` has the parts `x`, `H`, `T`, `T`, `P_` and `Status`; in kebab-case it is `x-h-t-t-p--status`. -/
example : VariantParts Char.isUpper "xHTTP_Status" ["x".toList, ['H'], ['T'], ['T'], ['P', '_'], "Status".toList] ∧
    VariantSpelt .kebab ["x".toList, ['H'], ['T'], ['T'], ['P', '_'], "Status".toList] "x-h-t-t-p--status" := by
  refine ⟨⟨by decide, ?_, ?_⟩, by show _ = _; decide⟩ <;> intro w hw <;> simp at hw <;>
    rcases hw with rfl | rfl | rfl | rfl | rfl | rfl <;> exact ⟨_, _, rfl, by decide⟩

/-- Equal up to the case of ASCII letters. -/
def SameLetters (s t : String) : Prop := s.toList.map Char.toLower = t.toList.map Char.toLower

theorem upper_eq_iff_lower (c d : Char) : c.toUpper = d.toUpper ↔ c.toLower = d.toLower := by
  rw [toNat_inj, toNat_inj, toNat_upper, toNat_upper, toNat_lower, toNat_lower]
  constructor <;> intro h <;> (repeat' split at h) <;> (repeat' split) <;> omega

theorem map_upper_iff (a b : List Char) : a.map Char.toUpper = b.map Char.toUpper ↔ a.map Char.toLower = b.map Char.toLower := by
  induction a generalizing b with
  | nil => cases b <;> simp
  | cons c a ih => cases b with
    | nil => simp
    | cons d b => simp [upper_eq_iff_lower, ih]

theorem asciiUpper_iff (s t : String) : asciiUpper s = asciiUpper t ↔ SameLetters s t := by
  rw [asciiUpper, asciiUpper, ofList_inj, map_upper_iff]; rfl

theorem asciiLower_iff (s t : String) : asciiLower s = asciiLower t ↔ SameLetters s t := by
  rw [asciiLower, asciiLower, ofList_inj]; rfl

theorem dashed_iff (s t : String) (hs : '-' ∉ s.toList) (ht : '-' ∉ t.toList) : dashed s = dashed t ↔ s = t := by
  refine ⟨fun h => ?_, fun h => h ▸ rfl⟩
  exact String.toList_inj.1 (map_inj_on (P := fun c => c ≠ '-') (fun c d hc hd => dashChar_inj hc hd) _ _
    (fun c hc e => hs (e ▸ hc)) (fun c hc e => ht (e ▸ hc)) (ofList_inj.1 h))

theorem upper_no_dash {s : String} (h : '-' ∉ s.toList) : '-' ∉ (asciiUpper s).toList := by
  rw [asciiUpper, String.toList_ofList]
  intro hm
  obtain ⟨c, hc, e⟩ := List.mem_map.1 hm
  exact h (upper_eq_dash.1 e ▸ hc)

/-- **C46**, exactly which fields clash.  Under the rules that keep letters apart, none; under the upper-case rules
those that differ only in the case of letters; under `PascalCase` those whose parts, capitalised, run together to the
same text; under `camelCase` those for which this text is the same up to the case of its first letter. -/
theorem c46_field_exact (s t : String) (hs : '-' ∉ s.toList) (ht : '-' ∉ t.toList) (r : RenameRule) :
    (r = .none ∨ r = .lowerCase ∨ r = .snakeCase ∨ r = .kebabCase → (r.applyToField s = r.applyToField t ↔ s = t)) ∧
    (r = .upperCase ∨ r = .screamingSnakeCase ∨ r = .screamingKebabCase →
      (r.applyToField s = r.applyToField t ↔ SameLetters s t)) ∧
    (∀ ws vs, FieldParts s ws → FieldParts t vs →
      (r = .pascalCase → (r.applyToField s = r.applyToField t ↔ (ws.map capitalised).flatten = (vs.map capitalised).flatten)) ∧
      (r = .camelCase → ((∃ u, r.applyToField s = some u ∧ r.applyToField t = some u) ↔
        ∃ c d cs, (ws.map capitalised).flatten = c :: cs ∧ (vs.map capitalised).flatten = d :: cs ∧
          c.toNat < 128 ∧ d.toNat < 128 ∧ c.toLower = d.toLower))) := by
  refine ⟨?_, ?_, ?_⟩
  · rintro (rfl | rfl | rfl | rfl) <;> simp only [RenameRule.applyToField, Option.some.injEq, dashed_iff s t hs ht]
  · rintro (rfl | rfl | rfl) <;> simp only [RenameRule.applyToField, Option.some.injEq, asciiUpper_iff]
    rw [dashed_iff _ _ (upper_no_dash hs) (upper_no_dash ht), asciiUpper_iff]
  · rintro ws vs ⟨-, hw, rfl⟩ ⟨-, hv, rfl⟩
    refine ⟨?_, ?_⟩
    · rintro rfl
      simp only [RenameRule.applyToField, Option.some.injEq, pascalField, joined, String.toList_ofList, pascalLoop_parts _ hw,
        pascalLoop_parts _ hv, ofList_inj]
    · rintro rfl
      simp only [RenameRule.applyToField, pascalField, joined, String.toList_ofList, pascalLoop_parts _ hw,
        pascalLoop_parts _ hv, lowerFirst_spelt]
      constructor
      · rintro ⟨u, ⟨c, cs, e1, h1, rfl⟩, ⟨d, ds, e2, h2, e3⟩⟩
        have := ofList_inj.1 e3
        injection this with h3 h4
        subst h4
        exact ⟨c, d, cs, e1, e2, h1, h2, h3⟩
      · rintro ⟨c, d, cs, e1, e2, h1, h2, h3⟩
        exact ⟨_, ⟨c, cs, e1, h1, rfl⟩, ⟨d, cs, e2, h2, by rw [h3]⟩⟩

/-- `user_id` and `userId` clash in camelCase, `a` and `A` in SCREAMING-KEBAB-CASE. -/
example : FieldParts "user_id" ["user".toList, "id".toList] ∧ FieldParts "userId" ["userId".toList] ∧
    (["user".toList, "id".toList].map capitalised).flatten = (["userId".toList].map capitalised).flatten ∧
    SameLetters "a" "A" :=
  ⟨⟨by simp, by decide, by decide⟩, ⟨by simp, by decide, by decide⟩, by decide, by unfold SameLetters; decide⟩

/-- **C46**, exactly which variants clash.  Without a rule and under `PascalCase`, none; under `lowercase` and
`UPPERCASE` those that differ only in the case of letters; under `camelCase` those that differ at most in the case of
the first letter; under the others those whose parts, joined, differ only in the case of letters. -/
theorem c46_variant_exact (up : Char → Bool) (s t : String) (hs : '-' ∉ s.toList) (ht : '-' ∉ t.toList) (r : RenameRule) :
    (r = .none ∨ r = .pascalCase → (r.applyToVariant up s = r.applyToVariant up t ↔ s = t)) ∧
    (r = .lowerCase ∨ r = .upperCase → (r.applyToVariant up s = r.applyToVariant up t ↔ SameLetters s t)) ∧
    (r = .camelCase → ((∃ u, r.applyToVariant up s = some u ∧ r.applyToVariant up t = some u) ↔
      ∃ c d cs, s.toList = c :: cs ∧ t.toList = d :: cs ∧ c.toNat < 128 ∧ d.toNat < 128 ∧ c.toLower = d.toLower)) ∧
    (∀ ws vs, VariantParts up s ws → VariantParts up t vs →
      r = .snakeCase ∨ r = .screamingSnakeCase ∨ r = .kebabCase ∨ r = .screamingKebabCase →
        (r.applyToVariant up s = r.applyToVariant up t ↔ SameLetters (joined '_' ws) (joined '_' vs))) := by
  refine ⟨?_, ?_, ?_, ?_⟩
  · rintro (rfl | rfl) <;> simp only [RenameRule.applyToVariant, Option.some.injEq]
  · rintro (rfl | rfl) <;> simp only [RenameRule.applyToVariant, Option.some.injEq, asciiUpper_iff, asciiLower_iff]
  · rintro rfl
    have hl : ∀ x : String, lowerFirst x = lowerFirst (String.ofList x.toList) := fun x => by rw [String.ofList_toList]
    simp only [RenameRule.applyToVariant]
    rw [hl s, hl t]
    simp only [lowerFirst_spelt]
    constructor
    · rintro ⟨u, ⟨c, cs, e1, h1, rfl⟩, ⟨d, ds, e2, h2, e3⟩⟩
      have := ofList_inj.1 e3
      injection this with h3 h4
      subst h4
      exact ⟨c, d, cs, e1, e2, h1, h2, h3⟩
    · rintro ⟨c, d, cs, e1, e2, h1, h2, h3⟩
      exact ⟨_, ⟨c, cs, e1, h1, rfl⟩, ⟨d, cs, e2, h2, by rw [h3]⟩⟩
  · rintro ws vs ⟨rfl, hw, hw'⟩ ⟨rfl, hv, hv'⟩ hr
    have low : ∀ ws : List (List Char), ['_'].intercalate (ws.map lowered) = (['_'].intercalate ws).map Char.toLower := by
      intro ws; rw [map_intercalate]; rfl
    have e1 : snakeVariant up (concat ws) = asciiLower (joined '_' ws) := by
      simp only [snakeVariant, concat, String.toList_ofList, snakeLoop_variant ws hw hw', asciiLower, joined, low]
    have e2 : snakeVariant up (concat vs) = asciiLower (joined '_' vs) := by
      simp only [snakeVariant, concat, String.toList_ofList, snakeLoop_variant vs hv hv', asciiLower, joined, low]
    have nd : ∀ ws : List (List Char), '-' ∉ (concat ws).toList → '-' ∉ (asciiLower (joined '_' ws)).toList := by
      intro ws h hm
      rw [asciiLower, String.toList_ofList] at hm
      obtain ⟨c, hc, e⟩ := List.mem_map.1 hm
      have : c = '-' := lower_eq_dash.1 e
      subst this
      refine h ?_
      rw [concat, String.toList_ofList]
      rw [joined, String.toList_ofList] at hc
      cases ws with
      | nil => simp [List.intercalate] at hc
      | cons w ws =>
        rw [intercalate_flatten] at hc
        rcases List.mem_append.1 hc with hc | hc
        · exact List.mem_flatten.2 ⟨w, List.mem_cons_self, hc⟩
        · obtain ⟨l, hl, hc⟩ := List.mem_flatten.1 hc
          obtain ⟨v, hv, rfl⟩ := List.mem_map.1 hl
          rcases List.mem_cons.1 hc with hc | hc
          · cases hc
          · exact List.mem_flatten.2 ⟨v, List.mem_cons_of_mem _ hv, hc⟩
    have ll : ∀ x y : String, SameLetters (asciiLower x) (asciiLower y) ↔ SameLetters x y := by
      intro x y
      simp only [SameLetters, asciiLower, String.toList_ofList, List.map_map]
      have : Char.toLower ∘ Char.toLower = Char.toLower := by
        funext c
        simp only [Function.comp]
        rw [toNat_inj, toNat_lower, toNat_lower]
        (repeat' split) <;> omega
      rw [this]
    rcases hr with rfl | rfl | rfl | rfl <;> simp only [RenameRule.applyToVariant, Option.some.injEq, e1, e2]
    · exact asciiLower_iff _ _
    · rw [asciiUpper_iff, ll]
    · rw [dashed_iff _ _ (nd ws hs) (nd vs ht), asciiLower_iff]
    · rw [dashed_iff _ _ (upper_no_dash (nd ws hs)) (upper_no_dash (nd vs ht)), asciiUpper_iff, ll]

/-- `A_b` and `a_b`, and `Ab` and `ab`, clash in snake_case. -/
example : VariantParts Char.isUpper "Ab" ["Ab".toList] ∧ VariantParts Char.isUpper "ab" ["ab".toList] ∧
    SameLetters (joined '_' ["Ab".toList]) (joined '_' ["ab".toList]) := by
  refine ⟨⟨by decide, ?_, by simp⟩, ⟨by decide, ?_, by simp⟩, by unfold SameLetters; decide⟩ <;> intro w hw <;> simp at hw <;>
    subst hw <;> exact ⟨_, _, rfl, by decide⟩

end Verif
