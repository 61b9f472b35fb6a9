import Verif.Proof.AttrTables
import Verif.Model.Codegen
/-!
# From derive input to the parsed container
-/

namespace Verif

variable {o : Oracle} {τ : Type}

/-! ## One item -/

theorem runAttrs_ok {act : AttrFrom → NestedMeta → Action} {attrs} (h : (runAttrs act attrs).errs = []) :
    ∃ items, itemsOf attrs = some items ∧ runAttrs act attrs =
      (items.map fun i => act i.1 i.2).foldl Acc.step Acc.init := by
  cases hi : itemsOf attrs with
  | none =>
    obtain ⟨e, he⟩ := actions_error (act := act) hi
    have := foldl_error_mem (acc := Acc.init) he
    unfold runAttrs at h
    rw [h] at this; cases this
  | some items =>
    refine ⟨items, rfl, ?_⟩
    unfold runAttrs
    rw [actions_eq hi]

theorem runAttrs_vals {act : AttrFrom → NestedMeta → Action} {g : AttrFrom → NestedMeta → AttrKey → AVal → Prop}
    (hg : ∀ src m k v, act src m = .set k v ↔ g src m k v) {attrs} (h : (runAttrs act attrs).errs = []) {k v} :
    (runAttrs act attrs).vals k = some v ↔ Gives g attrs k v := by
  obtain ⟨items, hi, hr⟩ := runAttrs_ok h
  rw [hr] at h
  rw [hr, foldl_vals_iff h]
  simp only [List.mem_map, hg, Gives, hi, Option.some.injEq, exists_eq_left']

theorem runAttrs_vals_none {act : AttrFrom → NestedMeta → Action} {g : AttrFrom → NestedMeta → AttrKey → AVal → Prop}
    (hg : ∀ src m k v, act src m = .set k v ↔ g src m k v) {attrs} (h : (runAttrs act attrs).errs = []) {k} :
    (runAttrs act attrs).vals k = none ↔ ∀ v, ¬ Gives g attrs k v := by
  simp only [← runAttrs_vals hg h, Option.eq_none_iff_forall_ne_some]

theorem runAttrs_dup {act : AttrFrom → NestedMeta → Action} {g : AttrFrom → NestedMeta → AttrKey → AVal → Prop}
    (hg : ∀ src m k v, act src m = .set k v ↔ g src m k v) {attrs pre x mid y post k v w}
    (hi : itemsOf attrs = some (pre ++ x :: mid ++ y :: post)) (hx : g x.1 x.2 k v) (hy : g y.1 y.2 k w) :
    DErr.duplicate k.symbol ∈ (runAttrs act attrs).errs := by
  unfold runAttrs
  rw [actions_eq hi]
  simp only [List.map_append, List.map_cons, (hg _ _ _ _).2 hx, (hg _ _ _ _).2 hy]
  exact foldl_dup_mem _ _ _ _ _ _ _

theorem runAttrs_flags {act : AttrFrom → NestedMeta → Action} {attrs items} (hi : itemsOf attrs = some items) :
    (runAttrs act attrs).flags = items.filterMap fun i => (act i.1 i.2).flag? := by
  unfold runAttrs
  rw [actions_eq hi, foldl_flags]
  simp [Acc.init, List.filterMap_map, Function.comp_def]

theorem runAttrs_two_flags {act : AttrFrom → NestedMeta → Action} {attrs pre x mid y post t u}
    (hi : itemsOf attrs = some (pre ++ x :: mid ++ y :: post)) (hx : act x.1 x.2 = .flag t) (hy : act y.1 y.2 = .flag u) :
    DErr.duplicateModelType ∈ (atMostOne (runAttrs act attrs).flags).2 := by
  rw [runAttrs_flags hi]
  simp only [List.filterMap_append, List.filterMap_cons, hx, hy, Action.flag?, atMostOne]
  rw [if_pos]
  · simp
  · simp only [List.length_append, List.length_cons]; omega

theorem typeWords_ne {p t} (h : (p, t) ∈ typeWords) : p ≠ "inline" ∧ p ≠ "nullable" ∧ p ≠ "optional" := by
  simp only [typeWords, List.mem_cons, Prod.mk.injEq, List.not_mem_nil, or_false] at h
  rcases h with ⟨rfl, _⟩ | ⟨rfl, _⟩ | ⟨rfl, _⟩ | ⟨rfl, _⟩ | ⟨rfl, _⟩ <;> decide

theorem actOpgWord_type {p t} (h : (p, t) ∈ typeWords) : actOpgWord p = .flag t := by
  simp [actOpgWord, fromPath_iff.2 h]

theorem containerAction_type {kind p t} (h : (p, t) ∈ typeWords) :
    containerAction o kind .opg (.item (.path p)) = .flag t := by
  obtain ⟨a, b, c⟩ := typeWords_ne h
  simp [containerAction, a, b, actOpgWord_type h]

theorem variantAction_type {p t} (h : (p, t) ∈ typeWords) : variantAction o .opg (.item (.path p)) = .flag t := by
  obtain ⟨a, b, c⟩ := typeWords_ne h
  simp [variantAction, a, actOpgWord_type h]

theorem fieldAction_type {p t} (h : (p, t) ∈ typeWords) : fieldAction o .opg (.item (.path p)) = .flag t := by
  obtain ⟨a, b, c⟩ := typeWords_ne h
  simp [fieldAction, a, b, c, actOpgWord_type h]

theorem actOpgNameValue_rejected {p l} (h : p ∉ ["format", "example", "example_with"] ∨ l = .other ∨
    (p = "example_with" ∧ ∃ s, l = .str s ∧ o.exprOk s = false)) : ∃ e, actOpgNameValue o p l = .error e := by
  unfold actOpgNameValue
  rcases h with h | rfl | ⟨rfl, s, rfl, h⟩
  · simp only [List.mem_cons, List.not_mem_nil, or_false, not_or] at h
    simp [h.1, h.2.1, h.2.2]
  · simp only [getLitStr]
    split
    · exact ⟨_, rfl⟩
    · split
      · exact ⟨_, rfl⟩
      · split <;> exact ⟨_, rfl⟩
  · simp [getLitStr, h]

theorem actOpgWord_rejected {p} (h : p ∉ typeWords.map Prod.fst) : actOpgWord p = .error (.unknownWord p) := by
  simp [actOpgWord, fromPath_none_iff.2 h]

theorem containerAction_rejected {kind m} (h : OpgRejected o ["nullable"] m) :
    ∃ e, containerAction o kind .opg m = .error e := by
  cases h with
  | word p h ht =>
    simp only [List.mem_cons, List.not_mem_nil, or_false, not_or] at h
    exact ⟨_, by simp [containerAction, h.1, h.2]; exact actOpgWord_rejected ht⟩
  | nameValue p l h => exact actOpgNameValue_rejected (.inl h)
  | notString p => exact actOpgNameValue_rejected (o := o) (.inr (.inl rfl))
  | notExpr s h => exact actOpgNameValue_rejected (.inr (.inr ⟨rfl, s, rfl, h⟩))
  | list p items => exact ⟨_, rfl⟩

theorem variantAction_rejected {m} (h : OpgRejected o [] m) : ∃ e, variantAction o .opg m = .error e := by
  cases h with
  | word p h ht =>
    simp only [List.mem_cons, List.not_mem_nil, or_false] at h
    exact ⟨_, by simp [variantAction, h]; exact actOpgWord_rejected ht⟩
  | nameValue p l h => exact actOpgNameValue_rejected (.inl h)
  | notString p => exact actOpgNameValue_rejected (o := o) (.inr (.inl rfl))
  | notExpr s h => exact actOpgNameValue_rejected (.inr (.inr ⟨rfl, s, rfl, h⟩))
  | list p items => exact ⟨_, rfl⟩

theorem fieldAction_rejected {m} (h : OpgRejected o ["optional", "nullable"] m) :
    ∃ e, fieldAction o .opg m = .error e := by
  cases h with
  | word p h ht =>
    simp only [List.mem_cons, List.not_mem_nil, or_false, not_or] at h
    exact ⟨_, by simp [fieldAction, h.1, h.2]; exact actOpgWord_rejected ht⟩
  | nameValue p l h => exact actOpgNameValue_rejected (.inl h)
  | notString p => exact actOpgNameValue_rejected (o := o) (.inr (.inl rfl))
  | notExpr s h => exact actOpgNameValue_rejected (.inr (.inr ⟨rfl, s, rfl, h⟩))
  | list p items => exact ⟨_, rfl⟩

theorem runAttrs_rejected {act : AttrFrom → NestedMeta → Action} {attrs items src m e}
    (hi : itemsOf attrs = some items) (hm : (src, m) ∈ items) (h : act src m = .error e) :
    e ∈ (runAttrs act attrs).errs := by
  unfold runAttrs
  apply foldl_error_mem
  rw [actions_eq hi]
  exact List.mem_map.2 ⟨_, hm, h⟩

/-! ## Items that do nothing -/

theorem foldl_nothing (pre post : List Action) (acc : Acc) :
    (pre ++ .nothing :: post).foldl Acc.step acc = (pre ++ post).foldl Acc.step acc := by
  simp [List.foldl_append, Acc.step]

theorem runAttrs_ignore {act : AttrFrom → NestedMeta → Action} {attrs attrs' pre x post}
    (hi : itemsOf attrs = some (pre ++ x :: post)) (hi' : itemsOf attrs' = some (pre ++ post))
    (hx : act x.1 x.2 = .nothing) : runAttrs act attrs = runAttrs act attrs' := by
  unfold runAttrs
  rw [actions_eq hi, actions_eq hi']
  simp only [List.map_append, List.map_cons, hx]
  exact foldl_nothing _ _ _

theorem runAttrs_foreign {act : AttrFrom → NestedMeta → Action} {a : Attribute} (h : attrFrom a.path = none)
    (as bs : List Attribute) : runAttrs act (as ++ a :: bs) = runAttrs act (as ++ bs) := by
  unfold runAttrs
  have : attrActions act a = [] := by simp [attrActions, getMetaItems, h]
  simp [List.flatMap_append, List.flatMap_cons, this]

theorem name_ne {m : NestedMeta} {names : List String} {n : String} (h : ∀ x, m.name = some x → x ∉ names)
    (hn : n ∈ names) : m.name ≠ some n := fun e => h n e hn

theorem containerAction_serde_unknown {kind m} (h : ∀ x, m.name = some x → x ∉ containerSerdeNames) :
    containerAction o kind .serde m = .nothing := by
  rcases m with (p | ⟨p, l⟩ | ⟨p, l⟩) | l
  all_goals try (have hp := h p rfl; simp [containerSerdeNames] at hp)
  all_goals simp_all [containerAction]

theorem variantAction_serde_unknown {m} (h : ∀ x, m.name = some x → x ∉ variantSerdeNames) :
    variantAction o .serde m = .nothing := by
  rcases m with (p | ⟨p, l⟩ | ⟨p, l⟩) | l
  all_goals try (have hp := h p rfl; simp [variantSerdeNames] at hp)
  all_goals simp_all [variantAction]

theorem fieldAction_serde_unknown {m} (h : ∀ x, m.name = some x → x ∉ fieldSerdeNames) :
    fieldAction o .serde m = .nothing := by
  rcases m with (p | ⟨p, l⟩ | ⟨p, l⟩) | l
  all_goals try (have hp := h p rfl; simp [fieldSerdeNames] at hp)
  all_goals simp_all [fieldAction]

/-! ## Reordering -/

theorem runAttrs_perm {act : AttrFrom → NestedMeta → Action} {attrs attrs' items items'}
    (hi : itemsOf attrs = some items) (hi' : itemsOf attrs' = some items') (hp : items.Perm items')
    (h : (runAttrs act attrs).errs = []) (hf : (atMostOne (runAttrs act attrs).flags).2 = []) :
    runAttrs act attrs' = runAttrs act attrs := by
  have hf' : (runAttrs act attrs).flags.length ≤ 1 := by
    simp only [atMostOne] at hf
    split at hf
    · cases hf
    · omega
  unfold runAttrs at *
  rw [actions_eq hi] at *
  rw [actions_eq hi']
  exact foldl_perm (hp.map _) h hf'

/-! ## Containers -/

theorem fieldsFromAst_errs (i : Nat) (fs : List (SynField τ)) :
    (fieldsFromAst o i fs).2 = fs.flatMap (fieldErrors o) := by
  induction fs generalizing i with
  | nil => rfl
  | cons f fs ih => simp only [fieldsFromAst, List.flatMap_cons, ih]; rfl

theorem structFromAst_errs (fs : SynFields τ) : (structFromAst o fs).2 = fs.list.flatMap (fieldErrors o) := by
  cases fs <;> simp [structFromAst, SynFields.list, fieldsFromAst_errs]

theorem variantsFromAst_errs (vs : List (SynVariant τ)) :
    (variantsFromAst o vs).2 = vs.flatMap (variantErrors o) := by
  induction vs with
  | nil => rfl
  | cons v vs ih =>
    simp only [variantsFromAst, List.flatMap_cons, ih]
    simp only [variantFromAst, variantErrors, structFromAst_errs]

theorem containerFromAst_errs {input : DeriveInput τ} {c errs} (h : containerFromAst o input = some (c, errs)) :
    errs = recordedErrors o input := by
  unfold containerFromAst at h
  unfold recordedErrors
  simp only at h
  split at h <;> rename_i hd <;> rw [hd] <;> simp only
  · cases h; rfl
  · split at h
    · rename_i hc
      rw [if_pos hc]
      split at h
      · cases h
      · cases h; rw [variantsFromAst_errs]
    · rename_i hc
      rw [if_neg hc]
      cases h; rfl
  · split at h
    · cases h
    · cases h; rw [structFromAst_errs]

theorem containerFromAst_none {input : DeriveInput τ} {errs} (h : containerFromAst o input = some (none, errs)) :
    errs ≠ [] := by
  unfold containerFromAst at h
  simp only at h
  split at h
  · cases h; simp
  · split at h
    · split at h <;> cases h
    · cases h; simp
  · split at h <;> cases h

theorem derive_code {input : DeriveInput τ} {c body} (h : derive o input = .code c body) :
    containerFromAst o input = some (some c, []) ∧ serializeBody c = .ok body := by
  unfold derive at h
  split at h
  · cases h
  · split at h <;> cases h
  · rename_i c' errs hc
    split at h
    · rename_i he
      split at h
      · cases h
      · rename_i b hb
        cases h
        rw [hc]
        simp only [List.isEmpty_iff] at he
        exact ⟨by rw [he], hb⟩
    · cases h

theorem derive_code_errs {input : DeriveInput τ} {c body} (h : derive o input = .code c body) :
    recordedErrors o input = [] := (containerFromAst_errs (derive_code h).1).symm

theorem mapPanic_some {α β : Type} {f : α → Option β} {as : List α} {bs : List β} (h : mapPanic f as = some bs) :
    bs.length = as.length ∧ ∀ (i : Nat) a, as[i]? = some a → ∃ b, bs[i]? = some b ∧ f a = some b := by
  induction as generalizing bs with
  | nil => cases h; simp
  | cons a as ih =>
    simp only [mapPanic] at h
    split at h
    · cases h
    · rename_i b hb
      split at h
      · cases h
      · rename_i bs' hbs
        cases h
        obtain ⟨hl, hi⟩ := ih hbs
        refine ⟨by simp [hl], ?_⟩
        intro i x hx
        cases i with
        | zero => simp only [List.getElem?_cons_zero, Option.some.injEq] at hx ⊢; subst hx; exact ⟨b, rfl, hb⟩
        | succ i => simp only [List.getElem?_cons_succ] at hx ⊢; exact hi i x hx

theorem fieldsFromAst_get (k : Nat) (fs : List (SynField τ)) :
    (fieldsFromAst o k fs).1.length = fs.length ∧
    ∀ i : Nat, (fieldsFromAst o k fs).1[i]? =
      fs[i]?.map fun f => { attrs := (fieldAttrsFromAst o (k + i) f.ident f.attrs).1, ty := f.ty : Field τ} := by
  induction fs generalizing k with
  | nil => simp [fieldsFromAst]
  | cons f fs ih =>
    simp only [fieldsFromAst]
    obtain ⟨hl, hi⟩ := ih (k + 1)
    refine ⟨by simp [hl], ?_⟩
    intro i
    cases i with
    | zero => simp
    | succ i => simp only [List.getElem?_cons_succ, hi i]; rw [Nat.add_assoc, Nat.add_comm 1 i]

theorem variantsFromAst_eq (vs : List (SynVariant τ)) :
    (variantsFromAst o vs).1 = vs.map fun v => (variantFromAst o v).1 := by
  induction vs with
  | nil => rfl
  | cons v vs ih => simp only [variantsFromAst, List.map_cons, ih]

theorem fieldErrors_nil {f : SynField τ} (h : fieldErrors o f = []) :
    (runAttrs (fieldAction o) f.attrs).errs = [] := by
  simp only [fieldErrors, fieldAttrsFromAst, List.append_eq_nil_iff] at h
  exact h.1

theorem fieldAttrs_name {i : Nat} {f : SynField τ} (h : fieldErrors o f = []) {rule : RenameRule} {n : Name}
    (hn : (fieldAttrsFromAst o i f.ident f.attrs).1.name.renameAsField rule = some n) :
    FieldSerializedAs o rule i f n.serialized := by
  have he := fieldErrors_nil h
  have hg := fun k v => runAttrs_vals (fun src m k v => fieldAction_set (o := o)) he (k := k) (v := v)
  have hnone := runAttrs_vals_none (fun src m k v => fieldAction_set (o := o)) he (k := .rename)
  simp only [fieldAttrsFromAst, Name.fromAttrs, Name.renameAsField, Acc.str] at hn
  cases hv : (runAttrs (fieldAction o) f.attrs).vals .rename with
  | none =>
    simp only [hv, Option.bind_none, Option.isSome_none, Bool.false_eq_true, if_false, Option.map_eq_some_iff] at hn
    obtain ⟨s, hs, rfl⟩ := hn
    exact .inr ⟨hnone.1 hv, hs⟩
  | some v =>
    have hgv := (hg _ _).1 hv
    obtain ⟨items, hi, ⟨src, m⟩, hx, hxg⟩ := hgv
    have hstr : ∃ s, v = .str s := by
      cases hxg with
      | common h => cases h; exact ⟨_, rfl⟩
    obtain ⟨s, rfl⟩ := hstr
    simp only [hv, Option.bind_some, AVal.asStr, Option.isSome_some, if_true, Option.some.injEq, Option.getD_some] at hn
    subst hn
    exact .inl ⟨items, hi, _, hx, hxg⟩

theorem variantErrors_nil {v : SynVariant τ} (h : variantErrors o v = []) :
    (runAttrs (variantAction o) v.attrs).errs = [] ∧ ∀ f ∈ v.fields.list, fieldErrors o f = [] := by
  simp only [variantErrors, variantAttrsFromAst, List.append_eq_nil_iff, List.flatMap_eq_nil_iff] at h
  exact ⟨h.1.1, h.2⟩

theorem variantAttrs_name {v : SynVariant τ} (he : (runAttrs (variantAction o) v.attrs).errs = [])
    {rule : RenameRule} {n : Name}
    (hn : (variantAttrsFromAst o v.ident v.attrs).1.name.renameAsVariant o.isUpper rule = some n) :
    VariantSerializedAs o rule v n.serialized := by
  have hg := fun k v' => runAttrs_vals (fun src m k v => variantAction_set (o := o)) he (k := k) (v := v')
  have hnone := runAttrs_vals_none (fun src m k v => variantAction_set (o := o)) he (k := .rename)
  simp only [variantAttrsFromAst, Name.fromAttrs, Name.renameAsVariant, Acc.str] at hn
  cases hv : (runAttrs (variantAction o) v.attrs).vals .rename with
  | none =>
    simp only [hv, Option.bind_none, Option.isSome_none, Bool.false_eq_true, if_false, Option.map_eq_some_iff] at hn
    obtain ⟨s, hs, rfl⟩ := hn
    exact .inr ⟨hnone.1 hv, hs⟩
  | some w =>
    have hgv := (hg _ _).1 hv
    obtain ⟨items, hi, ⟨src, m⟩, hx, hxg⟩ := hgv
    have hstr : ∃ s, w = .str s := by
      cases hxg with
      | common h => cases h; exact ⟨_, rfl⟩
    obtain ⟨s, rfl⟩ := hstr
    simp only [hv, Option.bind_some, AVal.asStr, Option.isSome_some, if_true, Option.some.injEq, Option.getD_some] at hn
    subst hn
    exact .inl ⟨items, hi, _, hx, hxg⟩

theorem ruleOf_variant {v : SynVariant τ} (he : (runAttrs (variantAction o) v.attrs).errs = []) :
    RuleOf (VariantGives o) v.attrs (variantAttrsFromAst o v.ident v.attrs).1.renameRule := by
  have hg := fun k v' => runAttrs_vals (fun src m k v => variantAction_set (o := o)) he (k := k) (v := v')
  have hnone := runAttrs_vals_none (fun src m k v => variantAction_set (o := o)) he (k := .renameAll)
  simp only [variantAttrsFromAst, Acc.rule]
  cases hv : (runAttrs (variantAction o) v.attrs).vals .renameAll with
  | none => exact .inr ⟨hnone.1 hv, rfl⟩
  | some w =>
    have hgv := (hg _ _).1 hv
    obtain ⟨items, hi, ⟨src, m⟩, hx, hxg⟩ := hgv
    have hstr : ∃ r, w = .rule r := by
      cases hxg with
      | common h => cases h
      | renameAll h hr => exact ⟨_, rfl⟩
    obtain ⟨r, rfl⟩ := hstr
    exact .inl ⟨items, hi, _, hx, hxg⟩

theorem ruleOf_container {input : DeriveInput τ}
    (he : (runAttrs (containerAction o input.data.kind) input.attrs).errs = []) :
    RuleOf (ContainerGives o input.data.kind) input.attrs (containerAttrsFromAst o input).1.renameRule := by
  have hg := fun k v' => runAttrs_vals (fun src m k v => containerAction_set (o := o) (kind := input.data.kind)) he (k := k) (v := v')
  have hnone := runAttrs_vals_none (fun src m k v => containerAction_set (o := o) (kind := input.data.kind)) he (k := .renameAll)
  simp only [containerAttrsFromAst, Acc.rule]
  cases hv : (runAttrs (containerAction o input.data.kind) input.attrs).vals .renameAll with
  | none => exact .inr ⟨hnone.1 hv, rfl⟩
  | some w =>
    have hgv := (hg _ _).1 hv
    obtain ⟨items, hi, ⟨src, m⟩, hx, hxg⟩ := hgv
    have hstr : ∃ r, w = .rule r := by
      cases hxg with
      | common h => cases h
      | renameAll h hr => exact ⟨_, rfl⟩
    obtain ⟨r, rfl⟩ := hstr
    exact .inl ⟨items, hi, _, hx, hxg⟩

theorem containerErrors_nil {input : DeriveInput τ} (h : recordedErrors o input = []) :
    (runAttrs (containerAction o input.data.kind) input.attrs).errs = [] := by
  simp only [recordedErrors, containerAttrsFromAst, List.append_eq_nil_iff] at h
  exact h.1.1.1

end Verif
