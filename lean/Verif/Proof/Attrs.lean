import Verif.Spec.Attrs
/-!
# The attribute parser as a fold
-/

namespace Verif

def Action.key? : Action → Option AttrKey
  | .set k _ => some k
  | _ => none
def Action.flag? : Action → Option ExplicitModelType
  | .flag t => some t
  | _ => none
def Action.val? (k : AttrKey) : Action → Option AVal
  | .set k' v => if k' = k then some v else none
  | _ => none

theorem foldl_flags (as : List Action) (acc : Acc) :
    (as.foldl Acc.step acc).flags = acc.flags ++ as.filterMap Action.flag? := by
  induction as generalizing acc with
  | nil => simp
  | cons a as ih =>
    rw [List.foldl_cons, ih]
    cases a with
    | set k v => simp only [Acc.step]; split <;> simp [List.filterMap_cons, Action.flag?]
    | flag t => simp [Acc.step, List.filterMap_cons, Action.flag?]
    | error e => simp [Acc.step, List.filterMap_cons, Action.flag?]
    | nothing => simp [Acc.step, List.filterMap_cons, Action.flag?]

/-- The first value set wins. -/
theorem foldl_vals (as : List Action) (acc : Acc) (k : AttrKey) :
    (as.foldl Acc.step acc).vals k = (acc.vals k).or (as.findSome? (Action.val? k)) := by
  induction as generalizing acc with
  | nil => simp
  | cons a as ih =>
    rw [List.foldl_cons, ih]
    cases a with
    | set k' v =>
      simp only [Acc.step, List.findSome?_cons, Action.val?]
      by_cases h : k' = k
      · subst h
        simp only [if_true]
        cases hk : acc.vals k' <;> simp [hk]
      · simp only [if_neg h]
        cases hk : acc.vals k' with
        | some _ => rfl
        | none => simp [Ne.symm h]
    | flag t => simp [Acc.step, List.findSome?_cons, Action.val?]
    | error e => simp [Acc.step, List.findSome?_cons, Action.val?]
    | nothing => simp [Acc.step, List.findSome?_cons, Action.val?]

theorem foldl_errs_mono (as : List Action) (acc : Acc) : ∃ es, (as.foldl Acc.step acc).errs = acc.errs ++ es := by
  induction as generalizing acc with
  | nil => exact ⟨[], by simp⟩
  | cons a as ih =>
    rw [List.foldl_cons]
    obtain ⟨es, h⟩ := ih (acc.step a)
    rw [h]
    cases a with
    | set k v => simp only [Acc.step]; split <;> exact ⟨_, by simp [List.append_assoc]; rfl⟩
    | flag t => exact ⟨es, rfl⟩
    | error e => exact ⟨e :: es, by simp [Acc.step]⟩
    | nothing => exact ⟨es, rfl⟩

theorem foldl_errs_nil (as : List Action) (acc : Acc) :
    (as.foldl Acc.step acc).errs = [] ↔
      acc.errs = [] ∧ (∀ e, Action.error e ∉ as) ∧ (as.filterMap Action.key?).Nodup ∧
        ∀ k ∈ as.filterMap Action.key?, acc.vals k = none := by
  induction as generalizing acc with
  | nil => simp
  | cons a as ih =>
    rw [List.foldl_cons, ih]
    cases a with
    | set k v =>
      simp only [Acc.step]
      cases hk : acc.vals k with
      | some x => simp [List.filterMap_cons, Action.key?, hk]
      | none =>
        simp only [Action.key?, List.filterMap_cons, List.nodup_cons, List.mem_cons, forall_eq_or_imp, hk, true_and,
          reduceCtorEq, false_or]
        constructor
        · rintro ⟨h1, h2, h3, h4⟩
          refine ⟨h1, h2, ⟨?_, h3⟩, ?_⟩
          · intro hm; have := h4 k hm; simp at this
          · intro k' hk'; have := h4 k' hk'
            split at this
            · cases this
            · exact this
        · rintro ⟨h1, h2, ⟨h3, h4⟩, h5⟩
          refine ⟨h1, h2, h4, ?_⟩
          intro k' hk'
          split
          · rename_i e; subst e; exact absurd hk' h3
          · exact h5 k' hk'
    | flag t => simp [Acc.step, List.filterMap_cons, Action.key?]
    | error e =>
      simp only [Acc.step, List.append_eq_nil_iff, List.cons_ne_nil, and_false, false_and, List.mem_cons, not_or,
        false_iff, not_and]
      intro _ h; exact absurd rfl (h e).1
    | nothing => simp [Acc.step, List.filterMap_cons, Action.key?]

/-- An error action is recorded. -/
theorem foldl_error_mem {as : List Action} {acc : Acc} {e : DErr} (h : Action.error e ∈ as) :
    e ∈ (as.foldl Acc.step acc).errs := by
  induction as generalizing acc with
  | nil => cases h
  | cons a as ih =>
    rw [List.foldl_cons]
    rcases List.mem_cons.1 h with rfl | h
    · obtain ⟨es, he⟩ := foldl_errs_mono as (acc.step (.error e))
      rw [he]; simp [Acc.step]
    · exact ih h

theorem foldl_dup_mem_of_set {as : List Action} {acc : Acc} {k : AttrKey} {v w : AVal} (hk : acc.vals k = some v)
    (h : Action.set k w ∈ as) : DErr.duplicate k.symbol ∈ (as.foldl Acc.step acc).errs := by
  induction as generalizing acc with
  | nil => cases h
  | cons a as ih =>
    rw [List.foldl_cons]
    rcases List.mem_cons.1 h with rfl | h
    · obtain ⟨es, he⟩ := foldl_errs_mono as (acc.step (.set k w))
      rw [he]; simp [Acc.step, hk]
    · refine ih ?_ h
      have := foldl_vals [a] acc k
      simp only [List.foldl_cons, List.foldl_nil] at this
      rw [this, hk]; rfl

/-- Setting a variable twice is recorded. -/
theorem foldl_dup_mem (as₁ as₂ as₃ : List Action) (acc : Acc) (k : AttrKey) (v w : AVal) :
    DErr.duplicate k.symbol ∈ ((as₁ ++ .set k v :: as₂ ++ .set k w :: as₃).foldl Acc.step acc).errs := by
  rw [List.append_assoc, List.foldl_append, List.cons_append, List.foldl_cons]
  have h0 : ∃ x, (Acc.step (List.foldl Acc.step acc as₁) (.set k v)).vals k = some x := by
    simp only [Acc.step]
    split
    · rename_i x hx; exact ⟨x, hx⟩
    · exact ⟨v, by simp⟩
  obtain ⟨x, hx⟩ := h0
  exact foldl_dup_mem_of_set hx (w := w) (by simp)

theorem findSome_val {as : List Action} {k : AttrKey} (hn : (as.filterMap Action.key?).Nodup) {v : AVal} :
    as.findSome? (Action.val? k) = some v ↔ Action.set k v ∈ as := by
  induction as with
  | nil => simp
  | cons a as ih =>
    rw [List.findSome?_cons]
    cases a with
    | set k' v' =>
      simp only [Action.key?, List.filterMap_cons, List.nodup_cons] at hn
      simp only [Action.val?]
      by_cases h : k' = k
      · subst h
        simp only [if_true, Option.some.injEq, List.mem_cons, Action.set.injEq, true_and]
        constructor
        · intro h; exact .inl h.symm
        · rintro (h | h)
          · exact h.symm
          · exact absurd (List.mem_filterMap.2 ⟨Action.set k' v, h, by rfl⟩ : k' ∈ as.filterMap Action.key?) hn.1
      · simp only [if_neg h, List.mem_cons, Action.set.injEq]
        rw [ih hn.2]
        constructor
        · exact .inr
        · rintro (⟨h', _⟩ | h')
          · exact absurd h'.symm h
          · exact h'
    | flag t => simp only [Action.key?, List.filterMap_cons] at hn; simp [Action.val?, ih hn]
    | error e => simp only [Action.key?, List.filterMap_cons] at hn; simp [Action.val?, ih hn]
    | nothing => simp only [Action.key?, List.filterMap_cons] at hn; simp [Action.val?, ih hn]

/-- Without errors, a variable has a value exactly when an item sets it. -/
theorem foldl_vals_iff {as : List Action} (h : (as.foldl Acc.step Acc.init).errs = []) {k v} :
    (as.foldl Acc.step Acc.init).vals k = some v ↔ Action.set k v ∈ as := by
  rw [foldl_vals]
  simp only [Acc.init, Option.none_or]
  exact findSome_val ((foldl_errs_nil as Acc.init).1 h).2.2.1

theorem perm_length_le_one {α : Type} {l l' : List α} (h : l.Perm l') (hl : l.length ≤ 1) : l = l' := by
  match l, hl with
  | [], _ => simpa using h
  | [a], _ => simpa using h

/-- Order of the actions does not matter when there are no errors. -/
theorem foldl_perm {as as' : List Action} (hp : as.Perm as')
    (h : (as.foldl Acc.step Acc.init).errs = []) (hf : (as.foldl Acc.step Acc.init).flags.length ≤ 1) :
    as'.foldl Acc.step Acc.init = as.foldl Acc.step Acc.init := by
  have h' : (as'.foldl Acc.step Acc.init).errs = [] := by
    rw [foldl_errs_nil] at h ⊢
    obtain ⟨a, b, c, d⟩ := h
    refine ⟨a, fun e he => b e (hp.mem_iff.2 he), (hp.filterMap _).nodup_iff.1 c, ?_⟩
    intro k _; rfl
  have hflags : (as'.foldl Acc.step Acc.init).flags = (as.foldl Acc.step Acc.init).flags := by
    rw [foldl_flags] at hf
    rw [foldl_flags, foldl_flags]
    simp only [Acc.init, List.nil_append] at hf ⊢
    exact (perm_length_le_one (hp.filterMap _) hf).symm
  have hvals : (as'.foldl Acc.step Acc.init).vals = (as.foldl Acc.step Acc.init).vals := by
    funext k
    apply Option.ext
    intro v
    rw [foldl_vals_iff h, foldl_vals_iff h', hp.mem_iff]
  cases h1 : as'.foldl Acc.step Acc.init
  cases h2 : as.foldl Acc.step Acc.init
  simp_all

/-! ## Items and actions -/

theorem attrSource_eq (p : String) : attrSource p = attrFrom p := by
  unfold attrSource attrNames attrFrom
  by_cases h1 : p = "opg"
  · subst h1; rfl
  by_cases h2 : p = "serde"
  · subst h2; rfl
  by_cases h3 : p = "repr"
  · subst h3; rfl
  have e1 : (p == "opg") = false := by simpa using h1
  have e2 : (p == "serde") = false := by simpa using h2
  have e3 : (p == "repr") = false := by simpa using h3
  simp [List.lookup, h1, h2, h3, e1, e2, e3]

theorem consistent_iff {τ : Type} {vs : List (SynVariant τ)} :
    consistentDiscriminants vs = true ↔ ¬ MixedDiscriminants vs := by
  have hs : ∀ w : SynVariant τ, w.discriminant.isSome = true ↔ w.discriminant ≠ none := by
    intro w; cases w.discriminant <;> simp
  unfold MixedDiscriminants
  cases vs with
  | nil => simp [consistentDiscriminants]
  | cons v vs =>
    simp only [consistentDiscriminants, List.all_eq_true, beq_iff_eq]
    constructor
    · rintro h ⟨⟨a, ha, hna⟩, b, hb, hnb⟩
      have hall : ∀ w ∈ v :: vs, w.discriminant.isSome = v.discriminant.isSome := by
        intro w hw
        rcases List.mem_cons.1 hw with rfl | hw
        · rfl
        · exact h w hw
      have h1 := hall a ha
      have h2 := hall b hb
      rw [(hs a).2 hna] at h1
      rw [hnb, ← h1] at h2
      cases h2
    · intro h w hw
      cases hv : v.discriminant with
      | none =>
        cases hwd : w.discriminant with
        | none => rfl
        | some x => exact absurd ⟨⟨w, List.mem_cons_of_mem _ hw, by simp [hwd]⟩, v, List.mem_cons_self, hv⟩ h
      | some y =>
        cases hwd : w.discriminant with
        | some x => rfl
        | none => exact absurd ⟨⟨v, List.mem_cons_self, by simp [hv]⟩, w, List.mem_cons_of_mem _ hw, hwd⟩ h

/-- The actions of the items, when every relevant attribute is a list. -/
theorem actions_eq {act : AttrFrom → NestedMeta → Action} {attrs : List Attribute} {items}
    (h : itemsOf attrs = some items) :
    attrs.flatMap (attrActions act) = items.map fun i => act i.1 i.2 := by
  induction attrs generalizing items with
  | nil => simp only [itemsOf, Option.some.injEq] at h; subst h; rfl
  | cons a rest ih =>
    simp only [itemsOf] at h
    rw [List.flatMap_cons]
    split at h
    · rename_i hf
      rw [ih h]
      simp [attrActions, getMetaItems, ← attrSource_eq, hf]
    · rename_i src nested r hf hp hr
      cases h
      rw [ih hr]
      simp [attrActions, getMetaItems, ← attrSource_eq, hf, hp, Function.comp_def]
    · cases h

/-- If a relevant attribute is not a list, an error is recorded. -/
theorem actions_error {act : AttrFrom → NestedMeta → Action} {attrs : List Attribute}
    (h : itemsOf attrs = none) : ∃ e, Action.error e ∈ attrs.flatMap (attrActions act) := by
  induction attrs with
  | nil => cases h
  | cons a rest ih =>
    simp only [itemsOf] at h
    rw [List.flatMap_cons]
    split at h
    · obtain ⟨e, he⟩ := ih h
      exact ⟨e, List.mem_append_right _ he⟩
    · cases h
    · rename_i _ src hf hne
      cases hp : a.parsed with
      | list nested =>
        cases hr : itemsOf rest with
        | none =>
          obtain ⟨e, he⟩ := ih hr
          exact ⟨e, List.mem_append_right _ he⟩
        | some r => exact absurd hr (by intro hr; exact hne _ _ hp hr)
      | other => exact ⟨.expectedList src.name, List.mem_append_left _ (by simp [attrActions, getMetaItems, ← attrSource_eq, hf, hp])⟩
      | synErr => exact ⟨.syn, List.mem_append_left _ (by simp [attrActions, getMetaItems, ← attrSource_eq, hf, hp])⟩


/-! ## The tables -/

theorem getSer_nil_iff {items : List NestedMeta} : getSer items = some [] ↔ ∀ m ∈ items, NoSerializedName m := by
  induction items with
  | nil => simp [getSer]
  | cons m rest ih =>
    simp only [List.mem_cons, forall_eq_or_imp]
    rw [← ih]
    constructor
    · intro h
      rcases m with (p | ⟨p, l⟩ | ⟨p, it⟩) | l <;> simp only [getSer, reduceCtorEq] at h
      split at h
      · rename_i hp; subst hp
        split at h
        · simp only [Option.some.injEq, List.append_eq_nil_iff] at h
          cases l with
          | str s => simp [getLitStrSimple] at h
          | other => exact ⟨.serialize, by simp_all⟩
        · cases h
      · split at h
        · rename_i hp; subst hp
          exact ⟨.deserialize l, h⟩
        · cases h
    · rintro ⟨h1, h2⟩
      cases h1 with
      | deserialize l => simp [getSer, h2]
      | serialize => simp [getSer, h2, getLitStrSimple]

theorem getSer_single_iff {items : List NestedMeta} {s : String} : getSer items = some [s] ↔
    ∃ before after, items = before ++ .item (.nameValue "serialize" (.str s)) :: after ∧
      (∀ m ∈ before, NoSerializedName m) ∧ (∀ m ∈ after, NoSerializedName m) := by
  induction items with
  | nil => simp [getSer]
  | cons m rest ih =>
    constructor
    · intro h
      rcases m with (p | ⟨p, l⟩ | ⟨p, it⟩) | l <;> simp only [getSer, reduceCtorEq] at h
      split at h
      · rename_i hp; subst hp
        split at h
        · rename_i vs hvs
          cases l with
          | str s' =>
            simp only [getLitStrSimple, Option.toList, List.cons_append, List.nil_append, Option.some.injEq,
              List.cons.injEq] at h
            obtain ⟨rfl, rfl⟩ := h
            exact ⟨[], rest, rfl, by simp, getSer_nil_iff.1 hvs⟩
          | other =>
            simp only [getLitStrSimple, Option.toList, List.nil_append, Option.some.injEq] at h
            subst h
            obtain ⟨b, a, he, hb, ha⟩ := ih.1 hvs
            refine ⟨_ :: b, a, by rw [he]; rfl, ?_, ha⟩
            intro m hm
            rcases List.mem_cons.1 hm with rfl | hm
            · exact .serialize
            · exact hb m hm
        · cases h
      · split at h
        · rename_i hp; subst hp
          obtain ⟨b, a, he, hb, ha⟩ := ih.1 h
          refine ⟨_ :: b, a, by rw [he]; rfl, ?_, ha⟩
          intro m hm
          rcases List.mem_cons.1 hm with rfl | hm
          · exact .deserialize l
          · exact hb m hm
        · cases h
    · rintro ⟨b, a, he, hb, ha⟩
      cases b with
      | nil =>
        simp only [List.nil_append, List.cons.injEq] at he
        obtain ⟨rfl, rfl⟩ := he
        simp [getSer, getSer_nil_iff.2 ha, getLitStrSimple]
      | cons x b =>
        simp only [List.cons_append, List.cons.injEq] at he
        obtain ⟨rfl, he⟩ := he
        have := ih.2 ⟨b, a, he, fun m hm => hb m (List.mem_cons_of_mem _ hm), ha⟩
        cases hb m List.mem_cons_self with
        | deserialize l => simp [getSer, this]
        | serialize => simp [getSer, this, getLitStrSimple]

theorem getRenames_iff {items : List NestedMeta} {s : String} :
    getRenames items = .ok (some s) ↔ getSer items = some [s] := by
  unfold getRenames
  split <;> simp_all

theorem actRename_iff {m : Meta} {k v} (hm : NestedMeta.name (.item m) = some "rename") :
    actRename m = .set k v ↔ ∃ s, NamesSerialized "rename" (.item m) s ∧ k = .rename ∧ v = .str s := by
  cases m with
  | path p =>
    simp only [actRename, reduceCtorEq, false_iff]
    rintro ⟨s, h, _⟩; cases h
  | nameValue p l =>
    simp only [NestedMeta.name, Option.some.injEq] at hm
    subst hm
    cases l with
    | str s =>
      simp only [actRename, getLitStr, Action.set.injEq]
      constructor
      · rintro ⟨rfl, rfl⟩; exact ⟨s, .nameValue s, rfl, rfl⟩
      · rintro ⟨s', h, rfl, rfl⟩; cases h; simp
    | other =>
      simp only [actRename, getLitStr, reduceCtorEq, false_iff]
      rintro ⟨s, h, _⟩; cases h
  | list p items =>
    simp only [NestedMeta.name, Option.some.injEq] at hm
    subst hm
    simp only [actRename]
    constructor
    · intro h
      split at h
      · rename_i s hs
        simp only [Action.set.injEq] at h
        obtain ⟨b, a, rfl, hb, ha⟩ := getSer_single_iff.1 (getRenames_iff.1 hs)
        exact ⟨s, .list b a s hb ha, h.1.symm, h.2.symm⟩
      · cases h
      · cases h
    · rintro ⟨s, h, rfl, rfl⟩
      cases h with
      | list b a _ hb ha => rw [getRenames_iff.2 (getSer_single_iff.2 ⟨b, a, rfl, hb, ha⟩)]

theorem actRenameAll_iff {m : Meta} {k v} (hm : NestedMeta.name (.item m) = some "rename_all") :
    actRenameAll m = .set k v ↔ ∃ s r, NamesSerialized "rename_all" (.item m) s ∧ RenameRule.fromStr s = some r ∧
      k = .renameAll ∧ v = .rule r := by
  cases m with
  | path p =>
    simp only [actRenameAll, reduceCtorEq, false_iff]
    rintro ⟨s, r, h, _⟩; cases h
  | nameValue p l =>
    simp only [NestedMeta.name, Option.some.injEq] at hm
    subst hm
    cases l with
    | str s =>
      simp only [actRenameAll, getLitStr]
      constructor
      · intro h
        split at h
        · rename_i r hr
          simp only [Action.set.injEq] at h
          exact ⟨s, r, .nameValue s, hr, h.1.symm, h.2.symm⟩
        · cases h
      · rintro ⟨s', r, h, hr, rfl, rfl⟩; cases h; simp [hr]
    | other =>
      simp only [actRenameAll, getLitStr, reduceCtorEq, false_iff]
      rintro ⟨s, r, h, _⟩; cases h
  | list p items =>
    simp only [NestedMeta.name, Option.some.injEq] at hm
    subst hm
    simp only [actRenameAll]
    constructor
    · intro h
      split at h
      · rename_i s hs
        obtain ⟨b, a, rfl, hb, ha⟩ := getSer_single_iff.1 (getRenames_iff.1 hs)
        split at h
        · rename_i r hr
          simp only [Action.set.injEq] at h
          exact ⟨s, r, .list b a s hb ha, hr, h.1.symm, h.2.symm⟩
        · cases h
      · cases h
      · cases h
    · rintro ⟨s, r, h, hr, rfl, rfl⟩
      cases h with
      | list b a _ hb ha => rw [getRenames_iff.2 (getSer_single_iff.2 ⟨b, a, rfl, hb, ha⟩)]; simp [hr]

theorem NamesSerialized.name {word m s} (h : NamesSerialized word m s) : m.name = some word := by
  cases h <;> rfl

variable {τ : Type}

/-! ## Recorded errors -/

def fieldErrors (o : Oracle) (f : SynField τ) : List DErr := (fieldAttrsFromAst o 0 f.ident f.attrs).2

def variantErrors (o : Oracle) (v : SynVariant τ) : List DErr :=
  (variantAttrsFromAst o v.ident v.attrs).2 ++ v.fields.list.flatMap (fieldErrors o)

/-- All errors recorded for an item, in order: container attributes, then each variant's attributes followed by
its fields', or each field's; a union or inconsistent discriminants stop after the container attributes. -/
def recordedErrors (o : Oracle) (input : DeriveInput τ) : List DErr :=
  (containerAttrsFromAst o input).2 ++
    match input.data with
    | .union => [.unionType]
    | .enum vs => if consistentDiscriminants vs then vs.flatMap (variantErrors o) else [.inconsistentDiscriminants]
    | .struct fs => fs.list.flatMap (fieldErrors o)

end Verif
