import Verif.Spec.Errors
import Verif.Proof.DerivePanic
/-!
# The recorded errors are the mistakes of the item
-/

namespace Verif

variable {o : Oracle} {τ : Type}

/-! ## One attribute item -/

theorem getSer_some_iff {items : List NestedMeta} : (∃ vs, getSer items = some vs) ↔ ∀ m ∈ items, SerdeDirection m := by
  induction items with
  | nil => simp [getSer]
  | cons m rest ih =>
    simp only [List.mem_cons, forall_eq_or_imp, ← ih]
    rcases m with (p | ⟨p, l⟩ | ⟨p, it⟩) | l <;> simp only [getSer, SerdeDirection, false_and, reduceCtorEq, exists_false]
    by_cases h1 : p = "serialize"
    · subst h1
      cases getSer rest <;> simp
    · by_cases h2 : p = "deserialize"
      · subst h2; simp
      · simp [h1, h2]

theorem getSer_cons_iff {items : List NestedMeta} {s vs} : getSer items = some (s :: vs) ↔
    ∃ a b, items = a ++ .item (.nameValue "serialize" (.str s)) :: b ∧ (∀ m ∈ a, NoSerializedName m) ∧
      getSer b = some vs := by
  induction items with
  | nil => simp [getSer]
  | cons m rest ih =>
    constructor
    · intro h
      rcases m with (p | ⟨p, l⟩ | ⟨p, it⟩) | l <;> simp only [getSer, reduceCtorEq] at h
      split at h
      · rename_i hp; subst hp
        split at h
        · rename_i ws hvs
          cases l with
          | str s' =>
            simp only [getLitStrSimple, Option.toList, List.cons_append, List.nil_append, Option.some.injEq,
              List.cons.injEq] at h
            obtain ⟨rfl, rfl⟩ := h
            exact ⟨[], rest, rfl, by simp, hvs⟩
          | other =>
            simp only [getLitStrSimple, Option.toList, List.nil_append, Option.some.injEq] at h
            subst h
            obtain ⟨a, b, he, ha, hb⟩ := ih.1 hvs
            refine ⟨_ :: a, b, by rw [he]; rfl, ?_, hb⟩
            intro m hm
            rcases List.mem_cons.1 hm with rfl | hm
            · exact .serialize
            · exact ha m hm
        · cases h
      · split at h
        · rename_i hp; subst hp
          obtain ⟨a, b, he, ha, hb⟩ := ih.1 h
          refine ⟨_ :: a, b, by rw [he]; rfl, ?_, hb⟩
          intro m hm
          rcases List.mem_cons.1 hm with rfl | hm
          · exact .deserialize l
          · exact ha m hm
        · cases h
    · rintro ⟨a, b, he, ha, hb⟩
      cases a with
      | nil =>
        simp only [List.nil_append, List.cons.injEq] at he
        obtain ⟨rfl, rfl⟩ := he
        simp [getSer, hb, getLitStrSimple]
      | cons x a =>
        simp only [List.cons_append, List.cons.injEq] at he
        obtain ⟨rfl, he⟩ := he
        have := ih.2 ⟨a, b, he, fun m hm => ha m (List.mem_cons_of_mem _ hm), hb⟩
        cases ha m List.mem_cons_self with
        | deserialize l => simp [getSer, this]
        | serialize => simp [getSer, this, getLitStrSimple]

theorem NoSerializedName.direction {m} (h : NoSerializedName m) : SerdeDirection m := by
  cases h <;> simp [SerdeDirection]

/-- Two serialized names. -/
theorem getSer_two_iff {items : List NestedMeta} : (∃ s t vs, getSer items = some (s :: t :: vs)) ↔
    ∃ a b c s t, items = a ++ .item (.nameValue "serialize" (.str s)) ::
        (b ++ .item (.nameValue "serialize" (.str t)) :: c) ∧ ∀ m ∈ a ++ b ++ c, SerdeDirection m := by
  constructor
  · rintro ⟨s, t, vs, h⟩
    obtain ⟨a, r, rfl, ha, hr⟩ := getSer_cons_iff.1 h
    obtain ⟨b, c, rfl, hb, hc⟩ := getSer_cons_iff.1 hr
    refine ⟨a, b, c, s, t, rfl, ?_⟩
    intro m hm
    simp only [List.mem_append] at hm
    rcases hm with (hm | hm) | hm
    · exact (ha m hm).direction
    · exact (hb m hm).direction
    · exact getSer_some_iff.1 ⟨_, hc⟩ m hm
  · rintro ⟨a, b, c, s, t, rfl, h⟩
    have key : ∀ (pre post : List NestedMeta) (s : String), (∀ m ∈ pre, SerdeDirection m) → ∀ vs,
        getSer post = some vs →
        ∃ ws, getSer (pre ++ .item (.nameValue "serialize" (.str s)) :: post) = some ws ∧ vs.length < ws.length := by
      intro pre post s hpre vs hvs
      induction pre with
      | nil => exact ⟨s :: vs, by simp [getSer, hvs, getLitStrSimple], by simp⟩
      | cons m pre ih =>
        obtain ⟨ws, hw, hl⟩ := ih fun m hm => hpre m (List.mem_cons_of_mem _ hm)
        have hm := hpre m List.mem_cons_self
        rcases m with (p | ⟨p, l⟩ | ⟨p, it⟩) | l <;> simp only [SerdeDirection] at hm
        rcases hm with rfl | rfl
        · refine ⟨(getLitStrSimple l).toList ++ ws, by simp [getSer, hw], ?_⟩
          simp only [List.length_append]; omega
        · exact ⟨ws, by simp [getSer, hw], hl⟩
    obtain ⟨vs, hvs⟩ := getSer_some_iff.2 (fun m (hm : m ∈ c) => h m (by simp [hm]))
    obtain ⟨ws, hw, hl⟩ := key b c t (fun m hm => h m (by simp [hm])) vs hvs
    obtain ⟨xs, hx, hl'⟩ := key a _ s (fun m hm => h m (by simp [hm])) ws hw
    match xs, hl' with
    | [], h => simp at h
    | [x], h => simp only [List.length_cons, List.length_nil] at h; omega
    | x :: y :: xs, _ => exact ⟨x, y, xs, hx⟩

theorem getRenames_error {items : List NestedMeta} {e} : getRenames items = .error e ↔
    e = .duplicate "rename" ∧ ∃ s t vs, getSer items = some (s :: t :: vs) := by
  unfold getRenames
  split <;> simp_all [eq_comm (a := e)]

theorem actRename_error {m : Meta} {e} (hm : NestedMeta.name (.item m) = some "rename") :
    actRename m = .error e ↔ RenameFaulty "rename" (.item m) e := by
  cases m with
  | path p =>
    simp only [actRename, reduceCtorEq, false_iff]
    intro h; cases h
  | nameValue p l =>
    simp only [NestedMeta.name, Option.some.injEq] at hm
    subst hm
    cases l with
    | str s =>
      simp only [actRename, getLitStr, reduceCtorEq, false_iff]
      intro h; cases h
    | other =>
      simp only [actRename, getLitStr, Action.error.injEq]
      constructor
      · rintro rfl; exact .notString
      · intro h; cases h; rfl
  | list p items =>
    simp only [NestedMeta.name, Option.some.injEq] at hm
    subst hm
    have : actRename (.list "rename" items) = .error e ↔ getRenames items = .error e := by
      simp only [actRename]; split <;> simp_all
    rw [this, getRenames_error, getSer_two_iff]
    constructor
    · rintro ⟨rfl, a, b, c, s, t, rfl, h⟩; exact .twice a b c s t h
    · intro h
      cases h with
      | twice a b c s t h => exact ⟨rfl, a, b, c, s, t, rfl, h⟩

theorem actRenameAll_error {m : Meta} {e} (hm : NestedMeta.name (.item m) = some "rename_all") :
    actRenameAll m = .error e ↔ RenameFaulty "rename_all" (.item m) e := by
  cases m with
  | path p =>
    simp only [actRenameAll, reduceCtorEq, false_iff]
    intro h; cases h
  | nameValue p l =>
    simp only [NestedMeta.name, Option.some.injEq] at hm
    subst hm
    cases l with
    | str s =>
      simp only [actRenameAll, getLitStr]
      constructor
      · intro h; split at h <;> cases h
      · intro h; cases h
    | other =>
      simp only [actRenameAll, getLitStr, Action.error.injEq]
      constructor
      · rintro rfl; exact .notString
      · intro h; cases h; rfl
  | list p items =>
    simp only [NestedMeta.name, Option.some.injEq] at hm
    subst hm
    have : actRenameAll (.list "rename_all" items) = .error e ↔ getRenames items = .error e := by
      simp only [actRenameAll]
      split
      · split <;> simp_all
      · simp_all
      · simp_all
    rw [this, getRenames_error, getSer_two_iff]
    constructor
    · rintro ⟨rfl, a, b, c, s, t, rfl, h⟩; exact .twice a b c s t h
    · intro h
      cases h with
      | twice a b c s t h => exact ⟨rfl, a, b, c, s, t, rfl, h⟩

theorem RenameFaulty.name {word m e} (h : RenameFaulty word m e) : m.name = some word := by
  cases h <;> rfl

theorem commonFaulty_nameValue {words p l e} : CommonFaulty o words .opg (.item (.nameValue p l)) e ↔
    (l = .other ∧ p ∈ ["format", "example", "example_with"] ∧ e = .expectedString p) ∨
    (p = "example_with" ∧ ∃ s, l = .str s ∧ o.exprOk s = false ∧ e = .badExpr s) ∨
    (p ∉ ["format", "example", "example_with"] ∧ e = .unknownMeta p) := by
  constructor
  · intro h
    cases h with
    | notString _ h => exact .inl ⟨rfl, h, rfl⟩
    | notExpr s h => exact .inr (.inl ⟨rfl, s, rfl, h, rfl⟩)
    | nameValue _ _ h => exact .inr (.inr ⟨h, rfl⟩)
  · rintro (⟨rfl, h, rfl⟩ | ⟨rfl, s, rfl, h, rfl⟩ | ⟨h, rfl⟩)
    · exact .notString p h
    · exact .notExpr s h
    · exact .nameValue p l h

theorem actOpgNameValue_error {words p l e} :
    actOpgNameValue o p l = .error e ↔ CommonFaulty o words .opg (.item (.nameValue p l)) e := by
  rw [commonFaulty_nameValue]
  unfold actOpgNameValue
  by_cases h1 : p = "format"
  · subst h1; cases l <;> simp [getLitStr, eq_comm (a := e)]
  · by_cases h2 : p = "example"
    · subst h2; cases l <;> simp [getLitStr, eq_comm (a := e)]
    · by_cases h3 : p = "example_with"
      · subst h3
        cases l with
        | other => simp [getLitStr, eq_comm (a := e)]
        | str s => cases hs : o.exprOk s <;> simp [getLitStr, hs, eq_comm (a := e)]
      · simp [h1, h2, h3, eq_comm (a := e)]

theorem actOpgWord_error {p e} : actOpgWord p = .error e ↔ p ∉ typeWords.map Prod.fst ∧ e = .unknownWord p := by
  unfold actOpgWord
  rw [← fromPath_none_iff]
  split <;> simp_all [eq_comm (a := e)]

theorem commonFaulty_word {words p e} : CommonFaulty o words .opg (.item (.path p)) e ↔
    p ∉ words ∧ p ∉ typeWords.map Prod.fst ∧ e = .unknownWord p := by
  constructor
  · intro h
    cases h with
    | word _ h ht => exact ⟨h, ht, rfl⟩
  · rintro ⟨h, ht, rfl⟩; exact .word p h ht

theorem commonFaulty_list {words p items e} : CommonFaulty o words .opg (.item (.list p items)) e ↔
    e = .unknownMeta p := by
  constructor
  · intro h; cases h; rfl
  · rintro rfl; exact .list p items

theorem commonFaulty_lit {words l e} : ¬ CommonFaulty o words .opg (.lit l) e := by
  intro h; cases h

theorem commonFaulty_serde {words m e} : CommonFaulty o words .serde m e ↔ RenameFaulty "rename" m e := by
  constructor
  · intro h
    cases h with
    | rename h => exact h
  · exact .rename

theorem actDescription_ne_error {l e} : actDescription l ≠ .error e := by
  unfold actDescription; split <;> simp

theorem containerFaulty_opg {m e} :
    ContainerFaulty o .opg m e ↔ CommonFaulty o ["inline", "nullable"] .opg m e :=
  ⟨fun h => by cases h with | common h => exact h, .common⟩

theorem containerFaulty_serde {m e} :
    ContainerFaulty o .serde m e ↔ RenameFaulty "rename" m e ∨ RenameFaulty "rename_all" m e := by
  constructor
  · intro h
    cases h with
    | common h => exact .inl (commonFaulty_serde.1 h)
    | renameAll h => exact .inr h
  · rintro (h | h)
    · exact .common (.rename h)
    · exact .renameAll h

theorem variantFaulty_opg {m e} : VariantFaulty o .opg m e ↔ CommonFaulty o ["inline"] .opg m e :=
  ⟨fun h => by cases h with | common h => exact h, .common⟩

theorem variantFaulty_serde {m e} :
    VariantFaulty o .serde m e ↔ RenameFaulty "rename" m e ∨ RenameFaulty "rename_all" m e := by
  constructor
  · intro h
    cases h with
    | common h => exact .inl (commonFaulty_serde.1 h)
    | renameAll h => exact .inr h
  · rintro (h | h)
    · exact .common (.rename h)
    · exact .renameAll h

theorem fieldFaulty_opg {m e} : FieldFaulty o .opg m e ↔ CommonFaulty o ["optional", "inline", "nullable"] .opg m e :=
  ⟨fun h => by cases h with | common h => exact h, .common⟩

theorem renameFaulty_ne {word m e} (h : m.name ≠ some word) : ¬ RenameFaulty word m e := fun hh => h hh.name

theorem containerAction_error {kind : DataKind} {src m e} :
    containerAction o kind src m = .error e ↔ ContainerFaulty o src m e := by
  match src, m with
  | .repr, m =>
    simp only [containerAction, reduceCtorEq, false_iff]
    intro h
    cases h with
    | common h => cases h
  | .opg, .lit l =>
    simp only [containerAction, actDescription_ne_error, false_iff, containerFaulty_opg]
    exact commonFaulty_lit
  | .opg, .item (.nameValue p l) => simp only [containerAction, containerFaulty_opg]; exact actOpgNameValue_error
  | .opg, .item (.list p l) =>
    simp only [containerAction, containerFaulty_opg, commonFaulty_list, Action.error.injEq, eq_comm]
  | .opg, .item (.path p) =>
    simp only [containerAction, containerFaulty_opg, commonFaulty_word]
    by_cases h1 : p = "inline"
    · subst h1; simp
    · by_cases h2 : p = "nullable"
      · subst h2; simp
      · simp [h1, h2, actOpgWord_error]
  | .serde, .lit l =>
    simp only [containerAction, containerFaulty_serde, reduceCtorEq, false_iff, not_or]
    exact ⟨fun h => (by cases h), fun h => (by cases h)⟩
  | .serde, .item (.path p) =>
    simp only [containerAction, containerFaulty_serde]
    have h1 : ¬ RenameFaulty "rename" (.item (.path p)) e := fun h => (by cases h)
    have h2 : ¬ RenameFaulty "rename_all" (.item (.path p)) e := fun h => (by cases h)
    simp only [h1, h2, or_self, iff_false]
    split
    · simp
    · split
      · split <;> simp
      · simp
  | .serde, .item (.list p items) =>
    simp only [containerAction, containerFaulty_serde]
    by_cases h1 : p = "rename"
    · subst h1
      simp only [if_true]
      rw [actRename_error rfl]
      simp [renameFaulty_ne (word := "rename_all") (m := .item (.list "rename" items)) (by simp [NestedMeta.name])]
    · rw [if_neg h1]
      have n1 : ¬ RenameFaulty "rename" (.item (.list p items)) e := renameFaulty_ne (by simp [NestedMeta.name, h1])
      by_cases h2 : p = "rename_all"
      · subst h2
        simp only [if_true]
        rw [actRenameAll_error rfl]
        simp [n1]
      · have n2 : ¬ RenameFaulty "rename_all" (.item (.list p items)) e := renameFaulty_ne (by simp [NestedMeta.name, h2])
        simp [h2, n1, n2]
  | .serde, .item (.nameValue p l) =>
    simp only [containerAction, containerFaulty_serde]
    by_cases h1 : p = "rename"
    · subst h1
      simp only [if_true]
      rw [actRename_error rfl]
      simp [renameFaulty_ne (word := "rename_all") (m := .item (.nameValue "rename" l)) (by simp [NestedMeta.name])]
    · rw [if_neg h1]
      have n1 : ¬ RenameFaulty "rename" (.item (.nameValue p l)) e := renameFaulty_ne (by simp [NestedMeta.name, h1])
      by_cases h2 : p = "rename_all"
      · subst h2
        simp only [if_true]
        rw [actRenameAll_error rfl]
        simp [n1]
      · have n2 : ¬ RenameFaulty "rename_all" (.item (.nameValue p l)) e :=
          renameFaulty_ne (by simp [NestedMeta.name, h2])
        simp only [h2, n1, n2, if_false, or_self, iff_false]
        cases l <;> cases kind <;> simp [getLitStrSimple] <;> split <;> (try split) <;> simp

theorem variantAction_error {src m e} : variantAction o src m = .error e ↔ VariantFaulty o src m e := by
  match src, m with
  | .repr, m =>
    simp only [variantAction, reduceCtorEq, false_iff]
    intro h
    cases h with
    | common h => cases h
  | .opg, .lit l =>
    simp only [variantAction, actDescription_ne_error, false_iff, variantFaulty_opg]
    exact commonFaulty_lit
  | .opg, .item (.nameValue p l) => simp only [variantAction, variantFaulty_opg]; exact actOpgNameValue_error
  | .opg, .item (.list p l) =>
    simp only [variantAction, variantFaulty_opg, commonFaulty_list, Action.error.injEq, eq_comm]
  | .opg, .item (.path p) =>
    simp only [variantAction, variantFaulty_opg, commonFaulty_word]
    by_cases h1 : p = "inline"
    · subst h1; simp
    · simp [h1, actOpgWord_error]
  | .serde, .lit l =>
    simp only [variantAction, variantFaulty_serde, reduceCtorEq, false_iff, not_or]
    exact ⟨fun h => (by cases h), fun h => (by cases h)⟩
  | .serde, .item (.path p) =>
    simp only [variantAction, variantFaulty_serde]
    have h1 : ¬ RenameFaulty "rename" (.item (.path p)) e := fun h => (by cases h)
    have h2 : ¬ RenameFaulty "rename_all" (.item (.path p)) e := fun h => (by cases h)
    simp only [h1, h2, or_self, iff_false]
    split <;> simp
  | .serde, .item (.list p items) =>
    simp only [variantAction, variantFaulty_serde]
    by_cases h1 : p = "rename"
    · subst h1
      simp only [if_true]
      rw [actRename_error rfl]
      simp [renameFaulty_ne (word := "rename_all") (m := .item (.list "rename" items)) (by simp [NestedMeta.name])]
    · rw [if_neg h1]
      have n1 : ¬ RenameFaulty "rename" (.item (.list p items)) e := renameFaulty_ne (by simp [NestedMeta.name, h1])
      by_cases h2 : p = "rename_all"
      · subst h2
        simp only [if_true]
        rw [actRenameAll_error rfl]
        simp [n1]
      · have n2 : ¬ RenameFaulty "rename_all" (.item (.list p items)) e := renameFaulty_ne (by simp [NestedMeta.name, h2])
        simp [h2, n1, n2]
  | .serde, .item (.nameValue p l) =>
    simp only [variantAction, variantFaulty_serde]
    by_cases h1 : p = "rename"
    · subst h1
      simp only [if_true]
      rw [actRename_error rfl]
      simp [renameFaulty_ne (word := "rename_all") (m := .item (.nameValue "rename" l)) (by simp [NestedMeta.name])]
    · rw [if_neg h1]
      have n1 : ¬ RenameFaulty "rename" (.item (.nameValue p l)) e := renameFaulty_ne (by simp [NestedMeta.name, h1])
      by_cases h2 : p = "rename_all"
      · subst h2
        simp only [if_true]
        rw [actRenameAll_error rfl]
        simp [n1]
      · have n2 : ¬ RenameFaulty "rename_all" (.item (.nameValue p l)) e :=
          renameFaulty_ne (by simp [NestedMeta.name, h2])
        simp [h2, n1, n2]

theorem fieldAction_error {src m e} : fieldAction o src m = .error e ↔ FieldFaulty o src m e := by
  match src, m with
  | .repr, m =>
    simp only [fieldAction, reduceCtorEq, false_iff]
    intro h
    cases h with
    | common h => cases h
  | .opg, .lit l =>
    simp only [fieldAction, actDescription_ne_error, false_iff, fieldFaulty_opg]
    exact commonFaulty_lit
  | .opg, .item (.nameValue p l) => simp only [fieldAction, fieldFaulty_opg]; exact actOpgNameValue_error
  | .opg, .item (.list p l) =>
    simp only [fieldAction, fieldFaulty_opg, commonFaulty_list, Action.error.injEq, eq_comm]
  | .opg, .item (.path p) =>
    simp only [fieldAction, fieldFaulty_opg, commonFaulty_word]
    by_cases h0 : p = "optional"
    · subst h0; simp
    · by_cases h1 : p = "inline"
      · subst h1; simp
      · by_cases h2 : p = "nullable"
        · subst h2; simp
        · simp [h0, h1, h2, actOpgWord_error]
  | .serde, .lit l =>
    simp only [fieldAction, reduceCtorEq, false_iff]
    intro h
    cases h with
    | common h => cases h with | rename h => cases h
  | .serde, .item (.path p) =>
    simp only [fieldAction]
    have : ¬ FieldFaulty o .serde (.item (.path p)) e := by
      intro h
      cases h with
      | common h => cases h with | rename h => cases h
    simp only [this, iff_false]
    split
    · simp
    · split <;> simp
  | .serde, .item (.list p items) =>
    simp only [fieldAction]
    have : FieldFaulty o .serde (.item (.list p items)) e ↔ RenameFaulty "rename" (.item (.list p items)) e := by
      constructor
      · intro h
        cases h with
        | common h => exact commonFaulty_serde.1 h
      · intro h; exact .common (.rename h)
    rw [this]
    by_cases h1 : p = "rename"
    · subst h1
      simp only [if_true]
      rw [actRename_error rfl]
    · simp [h1, renameFaulty_ne (word := "rename") (m := .item (.list p items)) (by simp [NestedMeta.name, h1])]
  | .serde, .item (.nameValue p l) =>
    simp only [fieldAction]
    have hf : FieldFaulty o .serde (.item (.nameValue p l)) e ↔ RenameFaulty "rename" (.item (.nameValue p l)) e ∨
        (p = "skip_serializing_if" ∧ ((l = .other ∧ e = .expectedString "skip_serializing_if") ∨
          ∃ s, l = .str s ∧ o.pathOk s = false ∧ e = .badPath s)) := by
      constructor
      · intro h
        cases h with
        | common h => exact .inl (commonFaulty_serde.1 h)
        | notString => exact .inr ⟨rfl, .inl ⟨rfl, rfl⟩⟩
        | notPath s h => exact .inr ⟨rfl, .inr ⟨s, rfl, h, rfl⟩⟩
      · rintro (h | ⟨rfl, ⟨rfl, rfl⟩ | ⟨s, rfl, h, rfl⟩⟩)
        · exact .common (.rename h)
        · exact .notString
        · exact .notPath s h
    rw [hf]
    by_cases h1 : p = "rename"
    · subst h1
      simp only [if_true]
      rw [actRename_error rfl]
      simp
    · rw [if_neg h1]
      have n1 : ¬ RenameFaulty "rename" (.item (.nameValue p l)) e := renameFaulty_ne (by simp [NestedMeta.name, h1])
      by_cases h2 : p = "skip_serializing_if"
      · subst h2
        cases l with
        | other => simp [getLitStr, n1, eq_comm (a := e)]
        | str s => cases hs : o.pathOk s <;> simp [getLitStr, n1, hs, eq_comm (a := e)]
      · simp [h2, n1]

/-! ## The attributes of one item -/

/-- The action of one part. -/
def AttrPart.action (act : AttrFrom → NestedMeta → Action) : AttrPart → Action
  | .item src m => act src m
  | .broken e => .error e

theorem attrFrom_name {p src} (h : attrFrom p = some src) : src.name = p := by
  unfold attrFrom at h
  split at h
  · cases h; simp_all [AttrFrom.name]
  · split at h
    · cases h; simp_all [AttrFrom.name]
    · split at h
      · cases h; simp_all [AttrFrom.name]
      · cases h

theorem actions_parts (act : AttrFrom → NestedMeta → Action) (attrs : List Attribute) :
    attrs.flatMap (attrActions act) = (partsOf attrs).map (AttrPart.action act) := by
  unfold partsOf
  rw [List.map_flatMap]
  congr 1
  funext a
  unfold attrActions getMetaItems
  rw [← attrSource_eq]
  cases ha : attrSource a.path with
  | none => rfl
  | some src =>
    have hn := attrFrom_name (attrSource_eq _ ▸ ha)
    cases a.parsed with
    | list nested => simp [Function.comp_def, AttrPart.action]
    | other => simp [AttrPart.action, hn]
    | synErr => simp [AttrPart.action]

theorem reportedAs_eq (k : AttrKey) : reportedAs k = k.symbol := by cases k <;> rfl

theorem partProblems_iff {act : AttrFrom → NestedMeta → Action} {gives faulty}
    (hs : ∀ src m k v, act src m = .set k v ↔ gives src m k v)
    (he : ∀ src m e, act src m = .error e ↔ faulty src m e) (parts : List AttrPart) :
    ∀ (given : List AttrKey) (acc : Acc) (es : List DErr), (∀ k, k ∈ given ↔ acc.vals k ≠ none) →
      (PartProblems gives faulty given parts es ↔
        ((parts.map (AttrPart.action act)).foldl Acc.step acc).errs = acc.errs ++ es) := by
  induction parts with
  | nil =>
    intro given acc es _
    simp only [List.map_nil, List.foldl_nil, List.self_eq_append_right]
    constructor
    · intro h; cases h; rfl
    · rintro rfl; exact .done _
  | cons p parts ih =>
    intro given acc es hk
    simp only [List.map_cons, List.foldl_cons]
    cases p with
    | broken e =>
      simp only [AttrPart.action]
      have hst : (acc.step (.error e)).errs = acc.errs ++ [e] := rfl
      obtain ⟨es', hes'⟩ := foldl_errs_mono (parts.map (AttrPart.action act)) (acc.step (.error e))
      rw [hes', hst, List.append_assoc, List.append_cancel_left_eq]
      have hih := ih given (acc.step (.error e)) es' hk
      constructor
      · intro h
        cases h with
        | broken t =>
          rename_i rest
          have := (ih given (acc.step (.error e)) _ hk).1 t
          rw [hes', List.append_cancel_left_eq] at this
          rw [this]; rfl
      · intro h
        subst h
        exact .broken (hih.2 hes')
    | item src m =>
      simp only [AttrPart.action]
      cases hact : act src m with
      | error e =>
        have hst : (acc.step (.error e)).errs = acc.errs ++ [e] := rfl
        obtain ⟨es', hes'⟩ := foldl_errs_mono (parts.map (AttrPart.action act)) (acc.step (.error e))
        rw [hes', hst, List.append_assoc, List.append_cancel_left_eq]
        have hih := ih given (acc.step (.error e)) es' hk
        have hset : ∀ k v, ¬ gives src m k v := by
          intro k v h; rw [(hs _ _ _ _).2 h] at hact; cases hact
        constructor
        · intro h
          cases h with
          | faulty hf t =>
            have h1 := (he _ _ _).2 hf
            rw [hact] at h1
            cases h1
            have := (ih given (acc.step (.error e)) _ hk).1 t
            rw [hes', List.append_cancel_left_eq] at this
            rw [this]; rfl
          | again h => exact absurd h (hset _ _)
          | first h => exact absurd h (hset _ _)
          | other _ hf => exact absurd ((he _ _ _).1 hact) (hf _)
        · intro h
          subst h
          exact .faulty ((he _ _ _).1 hact) (hih.2 hes')
      | set k v =>
        have hg := (hs _ _ _ _).1 hact
        have huniq : ∀ k' v', gives src m k' v' → k' = k := by
          intro k' v' h
          rw [← hs, hact] at h; cases h; rfl
        have hnf : ∀ e, ¬ faulty src m e := by
          intro e h; rw [← he, hact] at h; cases h
        by_cases hm : k ∈ given
        · have hv : acc.vals k ≠ none := (hk k).1 hm
          obtain ⟨w, hw⟩ := Option.ne_none_iff_exists'.1 hv
          have hst : acc.step (.set k v) = { acc with errs := acc.errs ++ [.duplicate k.symbol] } := by
            simp only [Acc.step, hw]
          have hsv : (acc.step (.set k v)).errs = acc.errs ++ [.duplicate k.symbol] := by rw [hst]
          have hkk : ∀ k', k' ∈ given ↔ (acc.step (.set k v)).vals k' ≠ none := by rw [hst]; exact hk
          obtain ⟨es', hes'⟩ := foldl_errs_mono (parts.map (AttrPart.action act)) (acc.step (.set k v))
          rw [hes', hsv, List.append_assoc, List.append_cancel_left_eq]
          constructor
          · intro h
            cases h with
            | faulty hf => exact absurd hf (hnf _)
            | again h' _ t =>
              have := (ih given _ _ hkk).1 t
              rw [hes', List.append_cancel_left_eq] at this
              rw [this, huniq _ _ h', reportedAs_eq]; rfl
            | first h' hn => rw [huniq _ _ h'] at hn; exact absurd hm hn
            | other hn => exact absurd hg (hn _ _)
          · intro h
            subst h
            rw [← reportedAs_eq]
            exact .again hg hm ((ih given _ es' hkk).2 hes')
        · have hv : acc.vals k = none := by
            refine Classical.byContradiction fun h => hm ((hk k).2 h)
          have hst : acc.step (.set k v) = { acc with vals := fun k' => if k' = k then some v else acc.vals k' } := by
            simp only [Acc.step, hv]
          have hsv : (acc.step (.set k v)).errs = acc.errs := by rw [hst]
          have hkk : ∀ k', k' ∈ k :: given ↔ (acc.step (.set k v)).vals k' ≠ none := by
            intro k'
            rw [hst]
            simp only [List.mem_cons]
            by_cases h : k' = k
            · simp [h]
            · simp [h, hk]
          rw [← hsv, ← ih (k :: given) _ es hkk]
          constructor
          · intro h
            cases h with
            | faulty hf => exact absurd hf (hnf _)
            | again h' hm' => rw [huniq _ _ h'] at hm'; exact absurd hm' hm
            | first h' _ t => rw [huniq _ _ h'] at t; exact t
            | other hn => exact absurd hg (hn _ _)
          · intro h; exact .first hg hm h
      | flag t =>
        have hg : ∀ k v, ¬ gives src m k v := by
          intro k v h; rw [← hs, hact] at h; cases h
        have hf : ∀ e, ¬ faulty src m e := by
          intro e h; rw [← he, hact] at h; cases h
        rw [show acc.errs = (acc.step (.flag t)).errs from rfl, ← ih given (acc.step (.flag t)) es hk]
        constructor
        · intro h
          cases h with
          | faulty h => exact absurd h (hf _)
          | again h => exact absurd h (hg _ _)
          | first h => exact absurd h (hg _ _)
          | other _ _ t => exact t
        · intro h; exact .other hg hf h
      | nothing =>
        have hg : ∀ k v, ¬ gives src m k v := by
          intro k v h; rw [← hs, hact] at h; cases h
        have hf : ∀ e, ¬ faulty src m e := by
          intro e h; rw [← he, hact] at h; cases h
        rw [show acc.errs = (acc.step .nothing).errs from rfl, ← ih given (acc.step .nothing) es hk]
        constructor
        · intro h
          cases h with
          | faulty h => exact absurd h (hf _)
          | again h => exact absurd h (hg _ _)
          | first h => exact absurd h (hg _ _)
          | other _ _ t => exact t
        · intro h; exact .other hg hf h

theorem attrProblems_iff {act : AttrFrom → NestedMeta → Action} {gives faulty}
    (hs : ∀ src m k v, act src m = .set k v ↔ gives src m k v)
    (he : ∀ src m e, act src m = .error e ↔ faulty src m e)
    (hf : ∀ src m t, act src m = .flag t ↔ src = .opg ∧ ∃ p, m = .item (.path p) ∧ (p, t) ∈ typeWords)
    {attrs : List Attribute} {es : List DErr} :
    AttrProblems gives faulty attrs es ↔
      (runAttrs act attrs).errs ++ (atMostOne (runAttrs act attrs).flags).2 = es := by
  have h1 : ∀ ps, PartProblems gives faulty [] (partsOf attrs) ps ↔ (runAttrs act attrs).errs = ps := by
    intro ps
    have := partProblems_iff hs he (partsOf attrs) [] Acc.init ps (by simp [Acc.init])
    rw [this]
    unfold runAttrs
    rw [actions_parts]
    simp [Acc.init]
  have h2 : (runAttrs act attrs).flags.length = (partsOf attrs).countP AttrPart.isTypeWord := by
    unfold runAttrs
    rw [actions_parts, foldl_flags]
    simp only [Acc.init, List.nil_append]
    induction partsOf attrs with
    | nil => rfl
    | cons p ps ih =>
      rw [List.map_cons, List.filterMap_cons, List.countP_cons]
      have hp : (p.action act).flag?.isSome = p.isTypeWord := by
        cases p with
        | broken e => rfl
        | item src m =>
          simp only [AttrPart.action]
          cases htw : (AttrPart.item src m).isTypeWord with
          | true =>
            rcases src with _ | _ | _ <;> rcases m with (p | _ | _) | _ <;> simp only [AttrPart.isTypeWord, reduceCtorEq] at htw
            simp only [List.contains_eq_mem, decide_eq_true_eq, List.mem_map] at htw
            obtain ⟨⟨q, t⟩, hm, rfl⟩ := htw
            rw [(hf _ _ t).2 ⟨rfl, q, rfl, hm⟩]
            rfl
          | false =>
            cases ha : act src m with
            | flag t =>
              obtain ⟨rfl, q, rfl, hm⟩ := (hf _ _ _).1 ha
              simp only [AttrPart.isTypeWord, List.contains_eq_mem, decide_eq_false_iff_not, List.mem_map] at htw
              exact absurd ⟨(q, t), hm, rfl⟩ htw
            | _ => rfl
      cases ht : p.isTypeWord with
      | true =>
        rw [ht] at hp
        obtain ⟨t, ht'⟩ := Option.isSome_iff_exists.1 hp
        simp only [ht', List.length_cons, if_true, ih]
      | false =>
        rw [ht] at hp
        have : (p.action act).flag? = none := by
          cases h : (p.action act).flag? with
          | none => rfl
          | some t => rw [h] at hp; cases hp
        simp only [this, ih, Bool.false_eq_true, if_false, Nat.add_zero]
  unfold AttrProblems atMostOne
  simp only [h1, h2, exists_eq_left']
  rw [eq_comm]
  rfl

/-! ## The whole item -/

theorem pointwise_fun {α β : Type} {R : α → β → Prop} {f : α → β} (h : ∀ a b, R a b ↔ f a = b) :
    ∀ {as : List α} {bs : List β}, Pointwise R as bs ↔ as.map f = bs := by
  intro as
  induction as with
  | nil =>
    intro bs
    constructor
    · intro h; cases h; rfl
    · rintro rfl; exact .nil
  | cons a as ih =>
    intro bs
    constructor
    · intro h'
      cases h' with
      | cons h1 t => rw [List.map_cons, (h _ _).1 h1, ih.1 t]
    · rintro rfl
      exact .cons ((h _ _).2 rfl) (ih.2 rfl)

theorem fieldErrors_iff {f : SynField τ} {es} :
    AttrProblems (FieldGives o) (FieldFaulty o) f.attrs es ↔ fieldErrors o f = es :=
  attrProblems_iff (fun _ _ _ _ => fieldAction_set) (fun _ _ _ => fieldAction_error) (fun _ _ _ => fieldAction_flag)

theorem fieldProblems_iff {fs : List (SynField τ)} {es} : FieldProblems o fs es ↔ fs.flatMap (fieldErrors o) = es := by
  unfold FieldProblems
  have h := fun bs => pointwise_fun (fun (f : SynField τ) es => fieldErrors_iff (o := o) (f := f) (es := es))
    (as := fs) (bs := bs)
  simp only [h, exists_eq_left', List.flatMap_def]
  exact eq_comm

theorem variantProblems_iff {v : SynVariant τ} {es} : VariantProblems o v es ↔ variantErrors o v = es := by
  unfold VariantProblems variantErrors
  have : ∀ a, AttrProblems (VariantGives o) (VariantFaulty o) v.attrs a ↔ (variantAttrsFromAst o v.ident v.attrs).2 = a :=
    fun a => attrProblems_iff (fun _ _ _ _ => variantAction_set) (fun _ _ _ => variantAction_error)
      (fun _ _ _ => variantAction_flag)
  simp only [this, fieldProblems_iff]
  constructor
  · rintro ⟨a, b, rfl, rfl, rfl⟩; rfl
  · rintro rfl; exact ⟨_, _, rfl, rfl, rfl⟩

theorem someGives_iff {act : AttrFrom → NestedMeta → Action} {g : AttrFrom → NestedMeta → AttrKey → AVal → Prop}
    (hg : ∀ src m k v, act src m = .set k v ↔ g src m k v) {attrs k} :
    SomeGives g attrs k ↔ (runAttrs act attrs).has k = true := by
  unfold SomeGives Acc.has runAttrs
  rw [foldl_vals, findSome_wellFormed]
  simp only [Acc.init, Option.none_or, List.findSome?_isSome_iff]
  constructor
  · rintro ⟨x, hx, v, h⟩
    exact ⟨x, hx, by rw [(hg _ _ _ _).2 h]; simp [Action.val?]⟩
  · rintro ⟨x, hx, h⟩
    refine ⟨x, hx, ?_⟩
    cases ha : act x.1 x.2 with
    | set k' v =>
      rw [ha] at h
      simp only [Action.val?] at h
      split at h
      · rename_i hk; subst hk; exact ⟨v, (hg _ _ _ _).1 ha⟩
      · cases h
    | _ => rw [ha] at h; cases h

theorem container_str {input : DeriveInput τ} {k : AttrKey} (hk : k = .tag ∨ k = .content) :
    (runAttrs (containerAction o input.data.kind) input.attrs).str k = none ↔
      ¬ SomeGives (ContainerGives o input.data.kind) input.attrs k := by
  rw [someGives_iff (fun _ _ _ _ => containerAction_set (o := o))]
  unfold Acc.str Acc.has
  cases hv : (runAttrs (containerAction o input.data.kind) input.attrs).vals k with
  | none => simp
  | some v =>
    obtain ⟨src, m, hg⟩ := ((runAttrs_first (fun _ _ _ _ => containerAction_set (o := o))).1 hv).gives
    have : ∃ s, v = .str s := by
      rcases hk with rfl | rfl
      · cases hg with
        | common h => cases h
        | tag s => exact ⟨s, rfl⟩
      · cases hg with
        | common h => cases h
        | content s => exact ⟨s, rfl⟩
    obtain ⟨s, rfl⟩ := this
    simp [AVal.asStr]

theorem decideTag_none {u : Bool} {t c : Option String} :
    decideTag u t c = .none ↔ u = true ∧ t = none ∧ c = none := by
  cases u <;> cases t <;> cases c <;> simp [decideTag]

theorem justUntagged_iff {input : DeriveInput τ} :
    JustUntagged (ContainerGives o input.data.kind) input.attrs ↔ (containerAttrsFromAst o input).1.tagType = .none := by
  unfold JustUntagged
  rw [← container_str (.inl rfl), ← container_str (.inr rfl),
    someGives_iff (fun _ _ _ _ => containerAction_set (o := o))]
  exact decideTag_none.symm

theorem shapeProblems_iff {input : DeriveInput τ} {es} : ShapeProblems o input.attrs input.data es ↔
    (match decideModelType input.data (containerAttrsFromAst o input).1.tagType with
      | .ok _ => []
      | .error e => [e]) = es := by
  have hj := justUntagged_iff (o := o) (input := input)
  generalize (containerAttrsFromAst o input).1.tagType = t at hj
  generalize input.attrs = attrs at hj
  cases hd : input.data with
  | union =>
    unfold decideModelType; simp only
    constructor
    · intro h; cases h; rfl
    · rintro rfl; exact .union
  | struct fs =>
    cases fs with
    | unit =>
      unfold decideModelType; simp only
      constructor
      · intro h
        cases h with
        | unit => rfl
        | struct _ h => exact absurd rfl h
      · rintro rfl; exact .unit
    | named fs =>
      unfold decideModelType; simp only
      constructor
      · intro h; cases h; rfl
      · rintro rfl; exact .struct _ (by simp)
    | unnamed fs =>
      unfold decideModelType; simp only
      constructor
      · intro h; cases h; rfl
      · rintro rfl; exact .struct _ (by simp)
  | enum vs =>
    rw [hd] at hj
    have hh := hasData_iff (vs := vs)
    unfold decideModelType; simp only
    cases hb : (vs.all fun v => v.fields.isUnit) with
    | true =>
      rw [hb] at hh
      have hn : ¬ HasData vs := by rw [hh]; simp
      by_cases ht : t = .none
      · subst ht
        simp only [if_true]
        constructor
        · intro h
          cases h with
          | untaggedUnits => rfl
          | enum _ h =>
            rcases h with h | h
            · exact absurd h hn
            · exact absurd (hj.2 rfl) h
        · rintro rfl; exact .untaggedUnits vs hn (hj.2 rfl)
      · have : (match t with
            | .none => Except.error DErr.untaggedUnitEnum
            | _ => .ok MModelType.newType) = .ok .newType := by cases t <;> simp_all
        simp only [if_true, this]
        constructor
        · intro h
          cases h with
          | untaggedUnits _ _ h => exact absurd (hj.1 h) ht
          | enum => rfl
        · rintro rfl; exact .enum vs (.inr fun h => ht (hj.1 h))
    | false =>
      rw [hb] at hh
      have hn : HasData vs := by rw [hh]
      have : ∃ mt, (match t with
            | .none => Except.ok (ε := DErr) MModelType.oneOf
            | .internal _ => .ok MModelType.oneOf
            | .external => .ok .dictionary
            | .adjacent _ _ => .ok .object) = .ok mt := by cases t <;> exact ⟨_, rfl⟩
      simp only [Bool.false_eq_true, if_false]
      constructor
      · intro h
        cases h with
        | untaggedUnits _ h => exact absurd hn h
        | enum => cases t <;> rfl
      · intro h
        have : es = [] := by cases t <;> exact h.symm
        subst this
        exact .enum vs (.inl hn)

theorem dataProblems_iff {data : SynData τ} {es} : DataProblems o data es ↔
    (match data with
      | .union => [.unionType]
      | .enum vs => if consistentDiscriminants vs then vs.flatMap (variantErrors o) else [.inconsistentDiscriminants]
      | .struct fs => fs.list.flatMap (fieldErrors o)) = es := by
  cases data with
  | union =>
    constructor
    · intro h; cases h; rfl
    · rintro rfl; exact .union
  | struct fs =>
    simp only [← fieldProblems_iff]
    exact ⟨fun h => by cases h with | struct _ _ t => exact t, .struct fs es⟩
  | enum vs =>
    have hp := fun bs => pointwise_fun (fun (v : SynVariant τ) es => variantProblems_iff (o := o) (v := v) (es := es))
      (as := vs) (bs := bs)
    simp only
    by_cases hc : MixedDiscriminants vs
    · rw [if_neg (fun h => consistent_iff.1 h hc)]
      constructor
      · intro h
        cases h with
        | mixed => rfl
        | enum _ _ h => exact absurd hc h
      · rintro rfl; exact .mixed vs hc
    · rw [if_pos (consistent_iff.2 hc)]
      constructor
      · intro h
        cases h with
        | mixed _ h => exact absurd h hc
        | enum _ ess _ t => rw [List.flatMap_def, (hp _).1 t]
      · rintro rfl
        rw [List.flatMap_def]
        exact .enum vs _ hc ((hp _).2 rfl)

/-- The mistakes of an item are exactly the errors recorded for it. -/
theorem inputProblems_iff {input : DeriveInput τ} {es} : InputProblems o input es ↔ recordedErrors o input = es := by
  unfold InputProblems recordedErrors
  have ha := fun a => attrProblems_iff (fun _ _ _ _ => containerAction_set (o := o))
    (fun _ _ _ => containerAction_error (kind := input.data.kind)) (fun _ _ _ => containerAction_flag)
    (attrs := input.attrs) (es := a)
  have hb := fun b => shapeProblems_iff (o := o) (input := input) (es := b)
  have hc := fun c => dataProblems_iff (o := o) (data := input.data) (es := c)
  simp only [ha, hb, hc]
  have : (containerAttrsFromAst o input).2 =
      (runAttrs (containerAction o input.data.kind) input.attrs).errs ++
        (atMostOne (runAttrs (containerAction o input.data.kind) input.attrs).flags).2 ++
      (match decideModelType input.data (containerAttrsFromAst o input).1.tagType with
        | .ok _ => []
        | .error e => [e]) := by
    simp only [containerAttrsFromAst]
    congr 1
    split <;> simp_all
  rw [this]
  constructor
  · rintro ⟨a, b, c, rfl, rfl, rfl, rfl⟩; rfl
  · rintro rfl; exact ⟨_, _, _, rfl, rfl, rfl, rfl⟩

end Verif
