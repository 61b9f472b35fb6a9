import Verif.Proof.Attrs
/-!
# The three attribute `match`es agree with the tables
-/

namespace Verif

variable {o : Oracle}

theorem actDescription_iff {l : Lit} {k v} :
    actDescription l = .set k v ↔ ∃ s, l = .str s ∧ k = .description ∧ v = .str s := by
  cases l with
  | str s => simp [actDescription, getLitStrSimple, eq_comm]
  | other => simp [actDescription, getLitStrSimple]

theorem actOpgNameValue_iff {p : String} {l : Lit} {k v} :
    actOpgNameValue o p l = .set k v ↔ ∃ s, l = .str s ∧
      ((p = "format" ∧ k = .format ∧ v = .str s) ∨ (p = "example" ∧ k = .ex ∧ v = .ex (.lit s)) ∨
       (p = "example_with" ∧ o.exprOk s = true ∧ k = .ex ∧ v = .ex (.expr s))) := by
  unfold actOpgNameValue
  cases l with
  | other =>
    simp only [getLitStr, reduceCtorEq, false_and, exists_false, iff_false]
    intro h
    split at h
    · cases h
    · split at h
      · cases h
      · split at h <;> cases h
  | str s =>
    simp only [getLitStr, Lit.str.injEq, exists_eq_left']
    by_cases h1 : p = "format"
    · subst h1; simp [eq_comm (a := k), eq_comm (a := v)]
    · by_cases h2 : p = "example"
      · subst h2; simp [eq_comm (a := k), eq_comm (a := v)]
      · by_cases h3 : p = "example_with"
        · subst h3
          by_cases h4 : o.exprOk s = true
          · simp [h4, eq_comm (a := k), eq_comm (a := v)]
          · simp [h4]
        · simp [h1, h2, h3]

theorem fromPath_iff {p : String} {t : ExplicitModelType} :
    ExplicitModelType.fromPath p = some t ↔ (p, t) ∈ typeWords := by
  unfold ExplicitModelType.fromPath typeWords
  by_cases h1 : p = "string"
  · subst h1; simp [eq_comm]
  by_cases h2 : p = "number"
  · subst h2; simp [eq_comm]
  by_cases h3 : p = "integer"
  · subst h3; simp [eq_comm]
  by_cases h4 : p = "boolean"
  · subst h4; simp [eq_comm]
  by_cases h5 : p = "any"
  · subst h5; simp [eq_comm]
  simp [h1, h2, h3, h4, h5]

theorem fromPath_none_iff {p : String} :
    ExplicitModelType.fromPath p = none ↔ p ∉ typeWords.map Prod.fst := by
  rw [Option.eq_none_iff_forall_not_mem]
  simp only [Option.mem_def, fromPath_iff, List.mem_map, not_exists, not_and]
  constructor
  · rintro h ⟨q, t⟩ hm rfl; exact h t hm
  · intro h t hm; exact h (p, t) hm rfl

theorem actOpgWord_ne_set {p k v} : actOpgWord p ≠ .set k v := by
  unfold actOpgWord
  split <;> simp

theorem commonGives_serde {m k v} : CommonGives o .serde m k v ↔
    ∃ s, NamesSerialized "rename" m s ∧ k = .rename ∧ v = .str s := by
  constructor
  · rintro ⟨h⟩; exact ⟨_, h, rfl, rfl⟩
  · rintro ⟨s, h, rfl, rfl⟩; exact .rename h

theorem commonGives_lit {l k v} : CommonGives o .opg (.lit l) k v ↔ actDescription l = .set k v := by
  rw [actDescription_iff]
  constructor
  · rintro ⟨s⟩; exact ⟨_, rfl, rfl, rfl⟩
  · rintro ⟨s, rfl, rfl, rfl⟩; exact .description s

theorem commonGives_nameValue {p l k v} :
    CommonGives o .opg (.item (.nameValue p l)) k v ↔ actOpgNameValue o p l = .set k v := by
  rw [actOpgNameValue_iff]
  constructor
  · intro h
    cases h with
    | format s => exact ⟨s, rfl, by simp⟩
    | ex s => exact ⟨s, rfl, by simp⟩
    | exWith s h => exact ⟨s, rfl, by simp [h]⟩
  · rintro ⟨s, rfl, ⟨rfl, rfl, rfl⟩ | ⟨rfl, rfl, rfl⟩ | ⟨rfl, h, rfl, rfl⟩⟩
    · exact .format s
    · exact .ex s
    · exact .exWith s h

/-- `rename` spelled with any meta item, as one equation. -/
theorem namesSerialized_absurd {word : String} {m : NestedMeta} {s} (h : m.name ≠ some word) :
    ¬ NamesSerialized word m s := fun hh => h hh.name

theorem containerAction_set {kind : DataKind} {src m k v} :
    containerAction o kind src m = .set k v ↔ ContainerGives o kind src m k v := by
  match src, m with
  | .repr, m =>
    simp only [containerAction, Action.set.injEq]
    constructor
    · rintro ⟨rfl, rfl⟩; exact .repr m
    · intro h
      cases h with
      | repr => exact ⟨rfl, rfl⟩
      | common h => cases h
  | .opg, .lit l =>
    simp only [containerAction]
    rw [← commonGives_lit (o := o)]
    exact ⟨.common, fun h => by cases h with | common h => exact h⟩
  | .opg, .item (.nameValue p l) =>
    simp only [containerAction]
    rw [← commonGives_nameValue]
    exact ⟨.common, fun h => by cases h with | common h => exact h⟩
  | .opg, .item (.list p l) =>
    simp only [containerAction, reduceCtorEq, false_iff]
    intro h
    cases h with
    | common h => cases h
  | .opg, .item (.path p) =>
    simp only [containerAction]
    constructor
    · intro h
      split at h
      · rename_i hp; subst hp; cases h; exact .common .inline
      · split at h
        · rename_i hp; subst hp; cases h; exact .nullable
        · exact absurd h actOpgWord_ne_set
    · intro h
      cases h with
      | common h => cases h; simp
      | nullable => simp
  | .serde, .lit l =>
    simp only [containerAction, reduceCtorEq, false_iff]
    intro h
    cases h with
    | common h => cases h with | rename h => cases h
    | renameAll h => cases h
  | .serde, .item (.path p) =>
    simp only [containerAction]
    constructor
    · intro h
      split at h
      · rename_i hp; subst hp; cases h; exact .transparent
      · split at h
        · rename_i hp; subst hp
          split at h
          · cases h; exact .untagged rfl
          · cases h
        · cases h
    · intro h
      cases h with
      | common h => cases h with | rename h => cases h
      | renameAll h => cases h
      | transparent => simp
      | untagged h => subst h; simp
  | .serde, .item (.list p items) =>
    simp only [containerAction]
    constructor
    · intro h
      split at h
      · rename_i hp; subst hp
        exact .common (commonGives_serde.2 ((actRename_iff rfl).1 h))
      · split at h
        · rename_i hp; subst hp
          obtain ⟨s, r, h1, h2, rfl, rfl⟩ := (actRenameAll_iff rfl).1 h
          exact .renameAll h1 h2
        · cases h
    · intro h
      cases h with
      | common h =>
        have := commonGives_serde.1 h
        obtain ⟨s, h1, _⟩ := this
        have hn := h1.name
        simp only [NestedMeta.name, Option.some.injEq] at hn
        rw [if_pos hn]
        exact (actRename_iff (by simp [NestedMeta.name, hn])).2 (commonGives_serde.1 h)
      | renameAll h hr =>
        have hn := h.name
        simp only [NestedMeta.name, Option.some.injEq] at hn
        rw [if_neg (by rw [hn]; decide), if_pos hn]
        exact (actRenameAll_iff (by simp [NestedMeta.name, hn])).2 ⟨_, _, h, hr, rfl, rfl⟩
  | .serde, .item (.nameValue p l) =>
    simp only [containerAction]
    constructor
    · intro h
      split at h
      · rename_i hp; subst hp
        exact .common (commonGives_serde.2 ((actRename_iff rfl).1 h))
      · split at h
        · rename_i hp; subst hp
          obtain ⟨s, r, h1, h2, rfl, rfl⟩ := (actRenameAll_iff rfl).1 h
          exact .renameAll h1 h2
        · split at h
          · rename_i hp; subst hp
            cases l with
            | other => cases h
            | str s =>
              simp only [getLitStrSimple] at h
              cases kind <;> simp only [reduceCtorEq] at h <;> cases h
              · exact .tag s (.inl rfl)
              · exact .tag s (.inr rfl)
          · split at h
            · rename_i hp; subst hp
              cases l with
              | other => cases h
              | str s =>
                simp only [getLitStrSimple] at h
                cases kind <;> simp only [reduceCtorEq] at h
                cases h
                exact .content s rfl
            · cases h
    · intro h
      cases h with
      | common h =>
        have := commonGives_serde.1 h
        obtain ⟨s, h1, _⟩ := this
        have hn := h1.name
        simp only [NestedMeta.name, Option.some.injEq] at hn
        rw [if_pos hn]
        exact (actRename_iff (by simp [NestedMeta.name, hn])).2 (commonGives_serde.1 h)
      | renameAll h hr =>
        have hn := h.name
        simp only [NestedMeta.name, Option.some.injEq] at hn
        rw [if_neg (by rw [hn]; decide), if_pos hn]
        exact (actRenameAll_iff (by simp [NestedMeta.name, hn])).2 ⟨_, _, h, hr, rfl, rfl⟩
      | tag s h => rcases h with rfl | rfl <;> simp [getLitStrSimple]
      | content s h => subst h; simp [getLitStrSimple]

theorem variantAction_set {src m k v} : variantAction o src m = .set k v ↔ VariantGives o src m k v := by
  match src, m with
  | .repr, m =>
    simp only [variantAction, reduceCtorEq, false_iff]
    intro h
    cases h with
    | common h => cases h
  | .opg, .lit l =>
    simp only [variantAction]
    rw [← commonGives_lit (o := o)]
    exact ⟨.common, fun h => by cases h with | common h => exact h⟩
  | .opg, .item (.nameValue p l) =>
    simp only [variantAction]
    rw [← commonGives_nameValue]
    exact ⟨.common, fun h => by cases h with | common h => exact h⟩
  | .opg, .item (.list p l) =>
    simp only [variantAction, reduceCtorEq, false_iff]
    intro h
    cases h with
    | common h => cases h
  | .opg, .item (.path p) =>
    simp only [variantAction]
    constructor
    · intro h
      split at h
      · rename_i hp; subst hp; cases h; exact .common .inline
      · exact absurd h actOpgWord_ne_set
    · intro h
      cases h with
      | common h => cases h; simp
  | .serde, .lit l =>
    simp only [variantAction, reduceCtorEq, false_iff]
    intro h
    cases h with
    | common h => cases h with | rename h => cases h
    | renameAll h => cases h
  | .serde, .item (.path p) =>
    simp only [variantAction]
    constructor
    · intro h
      split at h
      · rename_i hp
        cases h
        rcases hp with rfl | rfl
        · exact .skip
        · exact .skipSerializing
      · cases h
    · intro h
      cases h with
      | common h => cases h with | rename h => cases h
      | renameAll h => cases h
      | skip => simp
      | skipSerializing => simp
  | .serde, .item (.list p items) =>
    simp only [variantAction]
    constructor
    · intro h
      split at h
      · rename_i hp; subst hp
        exact .common (commonGives_serde.2 ((actRename_iff rfl).1 h))
      · split at h
        · rename_i hp; subst hp
          obtain ⟨s, r, h1, h2, rfl, rfl⟩ := (actRenameAll_iff rfl).1 h
          exact .renameAll h1 h2
        · cases h
    · intro h
      cases h with
      | common h =>
        have := commonGives_serde.1 h
        obtain ⟨s, h1, _⟩ := this
        have hn := h1.name
        simp only [NestedMeta.name, Option.some.injEq] at hn
        rw [if_pos hn]
        exact (actRename_iff (by simp [NestedMeta.name, hn])).2 (commonGives_serde.1 h)
      | renameAll h hr =>
        have hn := h.name
        simp only [NestedMeta.name, Option.some.injEq] at hn
        rw [if_neg (by rw [hn]; decide), if_pos hn]
        exact (actRenameAll_iff (by simp [NestedMeta.name, hn])).2 ⟨_, _, h, hr, rfl, rfl⟩
  | .serde, .item (.nameValue p l) =>
    simp only [variantAction]
    constructor
    · intro h
      split at h
      · rename_i hp; subst hp
        exact .common (commonGives_serde.2 ((actRename_iff rfl).1 h))
      · split at h
        · rename_i hp; subst hp
          obtain ⟨s, r, h1, h2, rfl, rfl⟩ := (actRenameAll_iff rfl).1 h
          exact .renameAll h1 h2
        · cases h
    · intro h
      cases h with
      | common h =>
        have := commonGives_serde.1 h
        obtain ⟨s, h1, _⟩ := this
        have hn := h1.name
        simp only [NestedMeta.name, Option.some.injEq] at hn
        rw [if_pos hn]
        exact (actRename_iff (by simp [NestedMeta.name, hn])).2 (commonGives_serde.1 h)
      | renameAll h hr =>
        have hn := h.name
        simp only [NestedMeta.name, Option.some.injEq] at hn
        rw [if_neg (by rw [hn]; decide), if_pos hn]
        exact (actRenameAll_iff (by simp [NestedMeta.name, hn])).2 ⟨_, _, h, hr, rfl, rfl⟩

theorem fieldAction_set {src m k v} : fieldAction o src m = .set k v ↔ FieldGives o src m k v := by
  match src, m with
  | .repr, m =>
    simp only [fieldAction, reduceCtorEq, false_iff]
    intro h
    cases h with
    | common h => cases h
  | .opg, .lit l =>
    simp only [fieldAction]
    rw [← commonGives_lit (o := o)]
    exact ⟨.common, fun h => by cases h with | common h => exact h⟩
  | .opg, .item (.nameValue p l) =>
    simp only [fieldAction]
    rw [← commonGives_nameValue]
    exact ⟨.common, fun h => by cases h with | common h => exact h⟩
  | .opg, .item (.list p l) =>
    simp only [fieldAction, reduceCtorEq, false_iff]
    intro h
    cases h with
    | common h => cases h
  | .opg, .item (.path p) =>
    simp only [fieldAction]
    constructor
    · intro h
      split at h
      · rename_i hp; subst hp; cases h; exact .optional
      · split at h
        · rename_i hp; subst hp; cases h; exact .common .inline
        · split at h
          · rename_i hp; subst hp; cases h; exact .nullable
          · exact absurd h actOpgWord_ne_set
    · intro h
      cases h with
      | common h => cases h; simp
      | nullable => simp
      | optional => simp
  | .serde, .lit l =>
    simp only [fieldAction, reduceCtorEq, false_iff]
    intro h
    cases h with
    | common h => cases h with | rename h => cases h
  | .serde, .item (.path p) =>
    simp only [fieldAction]
    constructor
    · intro h
      split at h
      · rename_i hp
        cases h
        rcases hp with rfl | rfl
        · exact .skip
        · exact .skipSerializing
      · split at h
        · rename_i hp; subst hp; cases h; exact .flatten
        · cases h
    · intro h
      cases h with
      | common h => cases h with | rename h => cases h
      | skip => simp
      | skipSerializing => simp
      | flatten => simp
  | .serde, .item (.list p items) =>
    simp only [fieldAction]
    constructor
    · intro h
      split at h
      · rename_i hp; subst hp
        exact .common (commonGives_serde.2 ((actRename_iff rfl).1 h))
      · cases h
    · intro h
      cases h with
      | common h =>
        have := commonGives_serde.1 h
        obtain ⟨s, h1, _⟩ := this
        have hn := h1.name
        simp only [NestedMeta.name, Option.some.injEq] at hn
        rw [if_pos hn]
        exact (actRename_iff (by simp [NestedMeta.name, hn])).2 (commonGives_serde.1 h)
  | .serde, .item (.nameValue p l) =>
    simp only [fieldAction]
    constructor
    · intro h
      split at h
      · rename_i hp; subst hp
        exact .common (commonGives_serde.2 ((actRename_iff rfl).1 h))
      · split at h
        · rename_i hp; subst hp
          cases l with
          | other => cases h
          | str s =>
            simp only [getLitStr] at h
            split at h
            · rename_i ho; cases h; exact .skipSerializingIf s ho
            · cases h
        · cases h
    · intro h
      cases h with
      | common h =>
        have := commonGives_serde.1 h
        obtain ⟨s, h1, _⟩ := this
        have hn := h1.name
        simp only [NestedMeta.name, Option.some.injEq] at hn
        rw [if_pos hn]
        exact (actRename_iff (by simp [NestedMeta.name, hn])).2 (commonGives_serde.1 h)
      | skipSerializingIf s h => simp [getLitStr, h]

end Verif
