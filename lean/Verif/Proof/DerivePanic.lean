import Verif.Proof.DeriveRel
import Verif.Props.Case
/-!
# When the derive macro panics
-/

namespace Verif

variable {o : Oracle} {τ : Type}

theorem findSome_wellFormed {act : AttrFrom → NestedMeta → Action} {k : AttrKey} (attrs : List Attribute) :
    (attrs.flatMap (attrActions act)).findSome? (Action.val? k) =
      (wellFormedItems attrs).findSome? fun i => (act i.1 i.2).val? k := by
  induction attrs with
  | nil => rfl
  | cons a as ih =>
    rw [List.flatMap_cons, List.findSome?_append, ih]
    unfold wellFormedItems
    rw [List.flatMap_cons, List.findSome?_append]
    congr 1
    unfold attrActions getMetaItems
    rw [← attrSource_eq]
    cases attrSource a.path with
    | none => rfl
    | some src => cases a.parsed <;> simp [List.findSome?_map, Function.comp_def, Action.val?]

theorem runAttrs_first {act : AttrFrom → NestedMeta → Action} {g : AttrFrom → NestedMeta → AttrKey → AVal → Prop}
    (hg : ∀ src m k v, act src m = .set k v ↔ g src m k v) {attrs k v} :
    (runAttrs act attrs).vals k = some v ↔ FirstGives g attrs k v := by
  unfold runAttrs
  rw [foldl_vals, findSome_wellFormed]
  have hv : ∀ a : Action, ∀ w, a.val? k = some w ↔ a = .set k w := by
    intro a w
    cases a <;> simp [Action.val?]
  simp only [Acc.init, Option.none_or, List.findSome?_eq_some_iff, FirstGives, hv, hg]
  constructor
  · rintro ⟨l₁, a, l₂, h, ha, hl⟩
    refine ⟨l₁, a, l₂, h, ha, fun y hy w hw => ?_⟩
    have := hl y hy
    rw [(hg _ _ _ _).2 hw] at this
    simp [Action.val?] at this
  · rintro ⟨l₁, a, l₂, h, ha, hl⟩
    refine ⟨l₁, a, l₂, h, ha, fun y hy => ?_⟩
    rw [Option.eq_none_iff_forall_ne_some]
    intro w hw
    exact hl y hy w ((hg _ _ _ _).1 ((hv _ _).1 hw))

theorem runAttrs_first_none {act : AttrFrom → NestedMeta → Action} {g : AttrFrom → NestedMeta → AttrKey → AVal → Prop}
    (hg : ∀ src m k v, act src m = .set k v ↔ g src m k v) {attrs k} :
    (runAttrs act attrs).vals k = none ↔ ∀ v, ¬ FirstGives g attrs k v := by
  simp only [← runAttrs_first hg, Option.eq_none_iff_forall_ne_some]

theorem FirstGives.gives {g : AttrFrom → NestedMeta → AttrKey → AVal → Prop} {attrs k v}
    (h : FirstGives g attrs k v) : ∃ src m, g src m k v := by
  obtain ⟨pre, x, post, _, h, _⟩ := h
  exact ⟨_, _, h⟩

theorem fieldGives_rename {src m v} (h : FieldGives o src m .rename v) : ∃ s, v = .str s := by
  cases h with
  | common h => cases h; exact ⟨_, rfl⟩

theorem variantGives_rename {src m v} (h : VariantGives o src m .rename v) : ∃ s, v = .str s := by
  cases h with
  | common h => cases h; exact ⟨_, rfl⟩

theorem variantGives_rule {src m v} (h : VariantGives o src m .renameAll v) : ∃ r, v = .rule r := by
  cases h with
  | common h => cases h
  | renameAll => exact ⟨_, rfl⟩

theorem containerGives_rule {kind src m v} (h : ContainerGives o kind src m .renameAll v) : ∃ r, v = .rule r := by
  cases h with
  | common h => cases h
  | renameAll => exact ⟨_, rfl⟩

theorem rule_camel {act : AttrFrom → NestedMeta → Action} {g : AttrFrom → NestedMeta → AttrKey → AVal → Prop}
    (hg : ∀ src m k v, act src m = .set k v ↔ g src m k v)
    (hr : ∀ src m v, g src m .renameAll v → ∃ r, v = .rule r) {attrs} :
    (runAttrs act attrs).rule = .camelCase ↔ CamelCased g attrs := by
  unfold CamelCased
  rw [← runAttrs_first hg]
  unfold Acc.rule
  cases h : (runAttrs act attrs).vals .renameAll with
  | none => simp
  | some v =>
    obtain ⟨src, m, h'⟩ := ((runAttrs_first hg).1 h).gives
    obtain ⟨r, rfl⟩ := hr _ _ _ h'
    simp [AVal.asRule]

theorem str_isSome {act : AttrFrom → NestedMeta → Action} {g : AttrFrom → NestedMeta → AttrKey → AVal → Prop}
    (hg : ∀ src m k v, act src m = .set k v ↔ g src m k v)
    (hr : ∀ src m v, g src m .rename v → ∃ s, v = .str s) {attrs} :
    ((runAttrs act attrs).str .rename).isSome = false ↔ ∀ v, ¬ FirstGives g attrs .rename v := by
  rw [← runAttrs_first_none hg]
  unfold Acc.str
  cases h : (runAttrs act attrs).vals .rename with
  | none => simp
  | some v =>
    obtain ⟨src, m, h'⟩ := ((runAttrs_first hg).1 h).gives
    obtain ⟨s, rfl⟩ := hr _ _ _ h'
    simp [AVal.asStr]

theorem toString_converts (i : Nat) : ∃ c, (toString i).toList.find? (fun c => c ≠ '_') = some c ∧ c.toNat < 128 := by
  have h1 : ∀ c ∈ (toString i).toList, c.isDigit = true := by
    intro c hc
    simp only [Nat.toString_eq_repr, Nat.repr, String.toList_ofList] at hc
    exact Nat.isDigit_of_mem_toDigits (by decide) (by decide) hc
  have h2 : (toString i).toList ≠ [] := by
    simp only [Nat.toString_eq_repr, Nat.repr, String.toList_ofList]
    exact Nat.toDigits_ne_nil
  cases h : (toString i).toList with
  | nil => exact absurd h h2
  | cons c cs =>
    have hd := h1 c (by rw [h]; simp)
    refine ⟨c, ?_, ?_⟩
    · have : c ≠ '_' := by rintro rfl; simp [Char.isDigit] at hd
      simp [this]
    · simp only [Char.isDigit, Bool.and_eq_true, decide_eq_true_eq] at hd
      have := hd.2
      have h2 : c.val ≤ 57 := this
      have h3 : c.val.toNat ≤ 57 := h2
      have : c.toNat ≤ 57 := h3
      omega

theorem renameAsField_none {n : Name} {r : RenameRule} :
    n.renameAsField r = none ↔ n.renamed = false ∧ r.applyToField n.sourceName = none := by
  unfold Name.renameAsField
  split <;> simp_all

theorem renameAsVariant_none {up : Char → Bool} {n : Name} {r : RenameRule} :
    n.renameAsVariant up r = none ↔ n.renamed = false ∧ r.applyToVariant up n.sourceName = none := by
  unfold Name.renameAsVariant
  split <;> simp_all

theorem field_rename_none {rule : RenameRule} {i : Nat} {f : SynField τ} :
    Field.rename rule ({ attrs := (fieldAttrsFromAst o i f.ident f.attrs).1, ty := f.ty } : Field τ) = none ↔
      rule = .camelCase ∧ FieldNameFails o f := by
  have hs := str_isSome (act := fieldAction o) (g := FieldGives o) (fun _ _ _ _ => fieldAction_set) (fun _ _ _ => fieldGives_rename) (attrs := f.attrs)
  simp only [Field.rename, Option.map_eq_none_iff, renameAsField_none]
  unfold FieldNameFails
  rw [← hs, c45_field_panics_iff]
  simp only [fieldAttrsFromAst, Name.fromAttrs]
  cases hi : f.ident with
  | some id => simp; exact and_left_comm
  | none =>
    constructor
    · rintro ⟨_, _, h⟩
      obtain ⟨c, hc, hlt⟩ := toString_converts i
      have := h c hc
      omega
    · rintro ⟨_, _, _, h, _⟩; cases h

theorem mapPanic_none {α β : Type} {f : α → Option β} {as : List α} :
    mapPanic f as = none ↔ ∃ a ∈ as, f a = none := by
  induction as with
  | nil => simp [mapPanic]
  | cons a as ih =>
    simp only [mapPanic, List.mem_cons, exists_eq_or_imp, ← ih]
    split
    · simp_all
    · split <;> simp_all

theorem mapPanic_mem {α β : Type} {f : α → Option β} {as : List α} {bs : List β} (h : mapPanic f as = some bs) (b : β) :
    b ∈ bs ↔ ∃ a ∈ as, f a = some b := by
  induction as generalizing bs with
  | nil => cases h; simp
  | cons a as ih =>
    simp only [mapPanic] at h
    split at h
    · cases h
    · rename_i b' hb
      split at h
      · cases h
      · rename_i bs' hbs
        cases h
        simp only [List.mem_cons, ih hbs, exists_eq_or_imp, hb, Option.some.injEq]
        simp [eq_comm]

theorem fieldsFromAst_rename_none {rule : RenameRule} (i : Nat) (fs : List (SynField τ)) :
    mapPanic (Field.rename rule) (fieldsFromAst o i fs).1 = none ↔
      rule = .camelCase ∧ ∃ f ∈ fs, FieldNameFails o f := by
  induction fs generalizing i with
  | nil => simp [fieldsFromAst, mapPanic]
  | cons f fs ih =>
    rw [mapPanic_none]
    simp only [fieldsFromAst, List.mem_cons, exists_eq_or_imp, field_rename_none]
    have := ih (i + 1)
    rw [mapPanic_none] at this
    rw [this]
    constructor
    · rintro (⟨h, h'⟩ | ⟨h, h'⟩) <;> simp [*]
    · rintro ⟨h, h' | h'⟩ <;> simp [*]

theorem structFromAst_rename_none {rule : RenameRule} (fs : SynFields τ) :
    mapPanic (Field.rename rule) (structFromAst o fs).1.2 = none ↔
      rule = .camelCase ∧ ∃ f ∈ fs.list, FieldNameFails o f := by
  cases fs with
  | named fs => exact fieldsFromAst_rename_none 0 fs
  | unnamed fs => exact fieldsFromAst_rename_none 0 fs
  | unit => simp [structFromAst, SynFields.list, mapPanic]

theorem variant_rename_none {rule : RenameRule} {v : SynVariant τ} :
    Variant.rename o.isUpper rule (variantFromAst o v).1 = none ↔
      (rule = .camelCase ∧ VariantNameFails o v) ∨
      (CamelCased (VariantGives o) v.attrs ∧ ∃ f ∈ v.fields.list, FieldNameFails o f) := by
  have h1 : (variantFromAst o v).1.attrs.name.renameAsVariant o.isUpper rule = none ↔
      rule = .camelCase ∧ VariantNameFails o v := by
    have hs := str_isSome (act := variantAction o) (g := VariantGives o) (fun _ _ _ _ => variantAction_set) (fun _ _ _ => variantGives_rename) (attrs := v.attrs)
    unfold VariantNameFails
    rw [← hs, renameAsVariant_none, c45_variant_panics_iff]
    simp only [variantFromAst, variantAttrsFromAst, Name.fromAttrs]
    exact and_left_comm
  have h2 : mapPanic (Field.rename (variantFromAst o v).1.attrs.renameRule) (variantFromAst o v).1.fields = none ↔
      (CamelCased (VariantGives o) v.attrs ∧ ∃ f ∈ v.fields.list, FieldNameFails o f) := by
    rw [← rule_camel (fun _ _ _ _ => variantAction_set (o := o)) (fun _ _ _ => variantGives_rule)]
    exact structFromAst_rename_none v.fields
  rw [← h1, ← h2]
  unfold Variant.rename
  split
  · simp_all
  · split <;> simp_all

theorem containerFromAst_panics {input : DeriveInput τ} : containerFromAst o input = none ↔ NameFails o input := by
  have hr : (containerAttrsFromAst o input).1.renameRule = .camelCase ↔
      CamelCased (ContainerGives o input.data.kind) input.attrs :=
    rule_camel (fun _ _ _ _ => containerAction_set (o := o)) (fun _ _ _ => containerGives_rule)
  unfold containerFromAst NameFails
  simp only
  cases hd : input.data with
  | union => simp
  | enum vs =>
    rw [hd] at hr
    simp only
    rw [← consistent_iff]
    split
    · rename_i hc
      have : mapPanic (Variant.rename o.isUpper (containerAttrsFromAst o input).1.renameRule) (variantsFromAst o vs).1 = none ↔
          ∃ v ∈ vs, (CamelCased (ContainerGives o .enum) input.attrs ∧ VariantNameFails o v) ∨
            (CamelCased (VariantGives o) v.attrs ∧ ∃ f ∈ v.fields.list, FieldNameFails o f) := by
        rw [mapPanic_none, variantsFromAst_eq]
        constructor
        · rintro ⟨_, ha, hn⟩
          obtain ⟨v, hv, rfl⟩ := List.mem_map.1 ha
          rw [variant_rename_none, hr] at hn
          exact ⟨v, hv, hn⟩
        · rintro ⟨v, hv, hn⟩
          refine ⟨_, List.mem_map.2 ⟨v, hv, rfl⟩, ?_⟩
          rw [variant_rename_none, hr]
          exact hn
      rw [← this]
      split <;> simp_all
    · rename_i hc; simp [hc]
  | struct fs =>
    rw [hd] at hr
    simp only
    have := structFromAst_rename_none (o := o) (rule := (containerAttrsFromAst o input).1.renameRule) fs
    rw [hr] at this
    rw [← this]
    split <;> simp_all

theorem mapExcept_error {ε α β : Type} {f : α → Except ε β} {as : List α} :
    (∃ e, mapExcept f as = .error e) ↔ ∃ a ∈ as, ∃ e, f a = .error e := by
  induction as with
  | nil => simp [mapExcept]
  | cons a as ih =>
    simp only [mapExcept, List.mem_cons, exists_eq_or_imp, ← ih]
    split
    · simp_all
    · split <;> simp_all

/-- A parsed variant of the container together with its source. -/
theorem variant_source {rule : RenameRule} {v : SynVariant τ} {v' : Variant τ}
    (h : Variant.rename o.isUpper rule (variantFromAst o v).1 = some v') :
    v'.ident = v.ident ∧ v'.discriminant = v.discriminant ∧
    (∃ n, (variantAttrsFromAst o v.ident v.attrs).1.name.renameAsVariant o.isUpper rule = some n ∧
      v'.attrs = { (variantAttrsFromAst o v.ident v.attrs).1 with name := n }) ∧
    v'.style = (structFromAst o v.fields).1.1 ∧
    mapPanic (Field.rename (variantAttrsFromAst o v.ident v.attrs).1.renameRule) (structFromAst o v.fields).1.2 =
      some v'.fields := by
  unfold Variant.rename at h
  split at h
  · cases h
  · rename_i n hn
    split at h
    · cases h
    · rename_i fs hfs
      cases h
      exact ⟨rfl, rfl, ⟨n, hn, rfl⟩, rfl, hfs⟩

theorem skip_iff {v : SynVariant τ} (he : (runAttrs (variantAction o) v.attrs).errs = []) :
    (variantAttrsFromAst o v.ident v.attrs).1.skipSerializing = true ↔
      Gives (VariantGives o) v.attrs .skipSerializing .unit := by
  rw [← runAttrs_vals (fun src m k v => variantAction_set (o := o)) he]
  simp only [variantAttrsFromAst, Acc.has]
  cases h : (runAttrs (variantAction o) v.attrs).vals .skipSerializing with
  | none => simp
  | some w =>
    obtain ⟨items, _, ⟨src, m⟩, _, hg⟩ := (runAttrs_vals (fun src m k v => variantAction_set (o := o)) he).1 h
    simp only at hg
    have : w = .unit := by
      generalize hk : AttrKey.skipSerializing = k at hg
      cases hg with
      | common h => cases h <;> cases hk
      | renameAll => cases hk
      | skip => rfl
      | skipSerializing => rfl
    simp [this]

theorem mapPanic_length {α β : Type} {f : α → Option β} {as : List α} {bs : List β} (h : mapPanic f as = some bs) :
    bs.length = as.length := (mapPanic_some h).1

theorem variant_shape {rule : RenameRule} {v : SynVariant τ} {v' : Variant τ}
    (h : Variant.rename o.isUpper rule (variantFromAst o v).1 = some v') :
    (v'.style = .unit ↔ v.fields = .unit) ∧ (v'.style = .tuple ↔ v.fields.isTuple) ∧
    (v'.style = .newType → ∃ f, v'.fields = [f]) := by
  obtain ⟨_, _, _, hs, hf⟩ := variant_source h
  rw [hs]
  have hl := mapPanic_length hf
  cases hv : v.fields with
  | named fs => simp [structFromAst, SynFields.isTuple]
  | unit => simp [structFromAst, SynFields.isTuple]
  | unnamed fs =>
    rw [hv] at hl
    simp only [structFromAst, SynFields.isTuple, (fieldsFromAst_get 0 fs).1] at hl ⊢
    by_cases h1 : fs.length = 1
    · simp only [h1, if_true, reduceCtorEq, false_iff, Ne, not_true_eq_false, not_false_eq_true, true_imp_iff, true_and]
      rw [h1] at hl
      exact List.length_eq_one_iff.1 hl
    · simp [h1]

theorem newtypeRef_ok {v : Variant τ} (h : ∃ f, v.fields = [f]) (e) : newtypeVariantReference v ≠ .error e := by
  obtain ⟨f, h⟩ := h
  simp [newtypeVariantReference, h]

theorem untagged_error {rule : RenameRule} {v : SynVariant τ} {v' : Variant τ}
    (h : Variant.rename o.isUpper rule (variantFromAst o v).1 = some v') :
    (∃ e, untaggedAlternative v' = .error e) ↔ v.fields = .unit ∨ v.fields.isTuple := by
  obtain ⟨h1, h2, h3⟩ := variant_shape h
  rw [← h1, ← h2]
  unfold untaggedAlternative
  cases hs : v'.style with
  | newType => simp [newtypeRef_ok (h3 hs)]
  | _ => simp

theorem adjacent_error {rule : RenameRule} {v : SynVariant τ} {v' : Variant τ}
    (h : Variant.rename o.isUpper rule (variantFromAst o v).1 = some v') :
    (∃ e, adjacentAlternative v' = .error e) ↔ v.fields = .unit := by
  obtain ⟨h1, h2, h3⟩ := variant_shape h
  rw [← h1]
  unfold adjacentAlternative
  cases hs : v'.style with
  | newType => simp [newtypeRef_ok (h3 hs)]
  | _ => simp

theorem external_error {rule : RenameRule} {v : SynVariant τ} {v' : Variant τ}
    (h : Variant.rename o.isUpper rule (variantFromAst o v).1 = some v') (e) : externalAlternative v' ≠ .error e := by
  obtain ⟨h1, h2, h3⟩ := variant_shape h
  unfold externalAlternative
  cases hs : v'.style with
  | newType => simp [newtypeRef_ok (h3 hs)]
  | _ => simp

theorem internal_error {rule : RenameRule} {v : SynVariant τ} {v' : Variant τ} {c : Container τ} {t : String}
    (h : Variant.rename o.isUpper rule (variantFromAst o v).1 = some v') :
    (∃ e, internalAlternative c t v' = .error e) ↔ v.fields.isTuple := by
  obtain ⟨h1, h2, h3⟩ := variant_shape h
  rw [← h2]
  unfold internalAlternative internalInner
  cases hs : v'.style with
  | newType => obtain ⟨f, hf⟩ := h3 hs; simp [hf]
  | _ => simp

theorem isUnit_iff {fs : SynFields τ} : fs.isUnit = true ↔ fs = .unit := by cases fs <;> simp [SynFields.isUnit]

theorem hasData_iff {vs : List (SynVariant τ)} : HasData vs ↔ (vs.all fun v => v.fields.isUnit) = false := by
  simp only [HasData, Bool.eq_false_iff, ne_eq, List.all_eq_true, isUnit_iff]
  constructor
  · rintro ⟨v, hv, h⟩ h'; exact h (h' v hv)
  · intro h
    apply Classical.byContradiction
    intro hn
    exact h fun v hv => Classical.byContradiction fun h' => hn ⟨v, hv, h'⟩

/-- The parsed container of an item without errors. -/
theorem container_cases {input : DeriveInput τ} {c : Container τ} {errs}
    (h : containerFromAst o input = some (some c, errs)) :
    c.ident = input.ident ∧ (∃ b, c.attrs = { (containerAttrsFromAst o input).1 with hasFlatten := b }) ∧
    ((∃ fs style fs', input.data = .struct fs ∧ c.data = .struct style fs' ∧ style = (structFromAst o fs).1.1 ∧
        mapPanic (Field.rename (containerAttrsFromAst o input).1.renameRule) (structFromAst o fs).1.2 = some fs') ∨
     (∃ vs vs', input.data = .enum vs ∧ c.data = .enum vs' ∧
        mapPanic (fun v => Variant.rename o.isUpper (containerAttrsFromAst o input).1.renameRule (variantFromAst o v).1) vs =
          some vs')) := by
  unfold containerFromAst at h
  simp only at h
  split at h <;> rename_i hd
  · cases h
  · split at h
    · split at h
      · cases h
      · rename_i vs' hvs
        cases h
        refine ⟨rfl, ⟨_, rfl⟩, .inr ⟨_, vs', hd, rfl, ?_⟩⟩
        rw [variantsFromAst_eq] at hvs
        rw [← hvs]
        generalize (containerAttrsFromAst o input).1.renameRule = r
        clear hvs hd
        rename_i vs hcons _
        clear hcons
        induction vs with
        | nil => rfl
        | cons v vs ih => simp only [mapPanic, List.map_cons, ih]
    · cases h
  · split at h
    · cases h
    · rename_i fs' hfs
      cases h
      exact ⟨rfl, ⟨_, rfl⟩, .inl ⟨_, _, fs', hd, rfl, rfl, hfs⟩⟩

end Verif

namespace Verif

variable {o : Oracle} {τ : Type}

/-- The model type of an enum without errors. -/
theorem modelType_enum {input : DeriveInput τ} {vs} (hd : input.data = .enum vs)
    (he : (containerAttrsFromAst o input).2 = []) :
    (¬ HasData vs → (containerAttrsFromAst o input).1.modelType = .newType ∧
      (containerAttrsFromAst o input).1.tagType ≠ .none) ∧
    (HasData vs → (containerAttrsFromAst o input).1.modelType =
      match (containerAttrsFromAst o input).1.tagType with
      | .none => .oneOf
      | .internal _ => .oneOf
      | .external => .dictionary
      | .adjacent _ _ => .object) := by
  simp only [containerAttrsFromAst, hd, List.append_eq_nil_iff] at he ⊢
  have he := he.2
  revert he
  generalize decideTag _ _ _ = t
  intro he
  rw [hasData_iff]
  unfold decideModelType at he ⊢
  simp only at he ⊢
  generalize (vs.all fun v => v.fields.isUnit) = b at he ⊢
  cases b <;> cases t <;> simp at he ⊢

theorem variants_error {alt : Variant τ → Except MacroPanic (RefExpr τ)} {bad : SynVariant τ → Prop} {rule : RenameRule}
    {vs : List (SynVariant τ)} {vs' : List (Variant τ)}
    (hm : mapPanic (fun v => Variant.rename o.isUpper rule (variantFromAst o v).1) vs = some vs')
    (he : ∀ v ∈ vs, (runAttrs (variantAction o) v.attrs).errs = [])
    (hb : ∀ v v', Variant.rename o.isUpper rule (variantFromAst o v).1 = some v' → ((∃ e, alt v' = .error e) ↔ bad v)) :
    (∃ e, mapExcept alt (serialVariants vs') = .error e) ↔
      ∃ v ∈ vs, ¬ Gives (VariantGives o) v.attrs .skipSerializing .unit ∧ bad v := by
  rw [mapExcept_error]
  constructor
  · rintro ⟨v', hv', e, h⟩
    simp only [serialVariants, List.mem_filter] at hv'
    obtain ⟨v, hv, hr⟩ := (mapPanic_mem hm v').1 hv'.1
    refine ⟨v, hv, ?_, (hb v v' hr).1 ⟨e, h⟩⟩
    rw [← skip_iff (he v hv)]
    obtain ⟨_, _, ⟨n, _, hat⟩, _⟩ := variant_source hr
    have := hv'.2
    rw [hat] at this
    simpa using this
  · rintro ⟨v, hv, hs, hbad⟩
    obtain ⟨i, hi⟩ := List.mem_iff_getElem?.1 hv
    obtain ⟨v', hv', hr⟩ := (mapPanic_some hm).2 i v hi
    refine ⟨v', ?_, (hb v v' hr).2 hbad⟩
    simp only [serialVariants, List.mem_filter]
    refine ⟨List.mem_iff_getElem?.2 ⟨i, hv'⟩, ?_⟩
    rw [← skip_iff (he v hv)] at hs
    obtain ⟨_, _, ⟨n, _, hat⟩, _⟩ := variant_source hr
    rw [hat]
    simpa using hs

theorem flags_type {act : AttrFrom → NestedMeta → Action} {attrs}
    (h : (runAttrs act attrs).errs = []) (hf : (atMostOne (runAttrs act attrs).flags).2 = [])
    (ht : ∀ src m t, act src m = .flag t ↔ src = .opg ∧ ∃ p, m = .item (.path p) ∧ (p, t) ∈ typeWords) {t} :
    (atMostOne (runAttrs act attrs).flags).1 = some t ↔ GivesType attrs t := by
  obtain ⟨items, hi, _⟩ := runAttrs_ok h
  rw [runAttrs_flags hi] at hf ⊢
  have hmem : ∀ t, t ∈ (items.filterMap fun i => (act i.1 i.2).flag?) ↔ GivesType attrs t := by
    intro t
    simp only [List.mem_filterMap, GivesType, hi, Option.some.injEq, exists_eq_left']
    constructor
    · rintro ⟨⟨src, m⟩, hx, hfl⟩
      have : act src m = .flag t := by
        revert hfl; simp only; cases act src m <;> simp [Action.flag?]
      obtain ⟨rfl, p, rfl, hp⟩ := (ht _ _ _).1 this
      exact ⟨p, hx, hp⟩
    · rintro ⟨p, hx, hp⟩
      exact ⟨_, hx, by rw [(ht _ _ _).2 ⟨rfl, p, rfl, hp⟩]; rfl⟩
  rw [← hmem]
  revert hf
  generalize (items.filterMap fun i => (act i.1 i.2).flag?) = fl
  intro hf
  simp only [atMostOne] at hf ⊢
  match fl with
  | [] => simp
  | [a] => simp [eq_comm]
  | a :: b :: l => simp at hf

theorem actOpgWord_flag {p t} : actOpgWord p = .flag t ↔ (p, t) ∈ typeWords := by
  unfold actOpgWord
  rw [← fromPath_iff]
  split <;> simp_all

theorem actOpgNameValue_ne_flag {p l t} : actOpgNameValue o p l ≠ .flag t := by
  unfold actOpgNameValue getLitStr
  cases l <;> simp <;> (repeat' split) <;> simp

theorem actRename_ne_flag {m t} : actRename m ≠ .flag t := by
  unfold actRename
  repeat' split
  all_goals simp

theorem actRenameAll_ne_flag {m t} : actRenameAll m ≠ .flag t := by
  unfold actRenameAll
  repeat' split
  all_goals simp

theorem actDescription_ne_flag {l t} : actDescription l ≠ .flag t := by
  unfold actDescription
  split <;> simp

theorem containerAction_flag {kind src m t} :
    containerAction o kind src m = .flag t ↔ src = .opg ∧ ∃ p, m = .item (.path p) ∧ (p, t) ∈ typeWords := by
  constructor
  · intro h
    rcases src with _ | _ | _ <;> rcases m with (p | ⟨p, l⟩ | ⟨p, it⟩) | l <;> simp only [containerAction] at h
    all_goals (repeat' split at h)
    all_goals first
      | cases h; done
      | exact absurd h actRename_ne_flag
      | exact absurd h actRenameAll_ne_flag
      | exact absurd h actDescription_ne_flag
      | exact absurd h actOpgNameValue_ne_flag
      | exact ⟨rfl, _, rfl, actOpgWord_flag.1 h⟩
  · rintro ⟨rfl, p, rfl, h⟩; exact containerAction_type h

theorem variantAction_flag {src m t} :
    variantAction o src m = .flag t ↔ src = .opg ∧ ∃ p, m = .item (.path p) ∧ (p, t) ∈ typeWords := by
  constructor
  · intro h
    rcases src with _ | _ | _ <;> rcases m with (p | ⟨p, l⟩ | ⟨p, it⟩) | l <;> simp only [variantAction] at h
    all_goals (repeat' split at h)
    all_goals first
      | cases h; done
      | exact absurd h actRename_ne_flag
      | exact absurd h actRenameAll_ne_flag
      | exact absurd h actDescription_ne_flag
      | exact absurd h actOpgNameValue_ne_flag
      | exact ⟨rfl, _, rfl, actOpgWord_flag.1 h⟩
  · rintro ⟨rfl, p, rfl, h⟩; exact variantAction_type h

theorem fieldAction_flag {src m t} :
    fieldAction o src m = .flag t ↔ src = .opg ∧ ∃ p, m = .item (.path p) ∧ (p, t) ∈ typeWords := by
  constructor
  · intro h
    rcases src with _ | _ | _ <;> rcases m with (p | ⟨p, l⟩ | ⟨p, it⟩) | l <;> simp only [fieldAction] at h
    all_goals (repeat' split at h)
    all_goals first
      | cases h; done
      | exact absurd h actRename_ne_flag
      | exact absurd h actDescription_ne_flag
      | exact absurd h actOpgNameValue_ne_flag
      | exact ⟨rfl, _, rfl, actOpgWord_flag.1 h⟩
  · rintro ⟨rfl, p, rfl, h⟩; exact fieldAction_type h

theorem containerAttrs_nil {input : DeriveInput τ} (h : recordedErrors o input = []) :
    (containerAttrsFromAst o input).2 = [] ∧
    (runAttrs (containerAction o input.data.kind) input.attrs).errs = [] ∧
    (atMostOne (runAttrs (containerAction o input.data.kind) input.attrs).flags).2 = [] := by
  simp only [recordedErrors, List.append_eq_nil_iff] at h
  refine ⟨h.1, ?_⟩
  have := h.1
  simp only [containerAttrsFromAst, List.append_eq_nil_iff] at this
  exact this.1

theorem explicit_iff {input : DeriveInput τ} (h : recordedErrors o input = []) {t} :
    (containerAttrsFromAst o input).1.explicitModelType = some t ↔ GivesType input.attrs t := by
  obtain ⟨_, h1, h2⟩ := containerAttrs_nil h
  exact flags_type h1 h2 (fun _ _ _ => containerAction_flag)

theorem recorded_variants {input : DeriveInput τ} {vs} (h : recordedErrors o input = []) (hd : input.data = .enum vs) :
    consistentDiscriminants vs = true ∧ ∀ v ∈ vs, variantErrors o v = [] := by
  simp only [recordedErrors, hd, List.append_eq_nil_iff] at h
  have := h.2
  split at this
  · rename_i hc; exact ⟨hc, List.flatMap_eq_nil_iff.1 this⟩
  · cases this

theorem recorded_fields {input : DeriveInput τ} {fs} (h : recordedErrors o input = []) (hd : input.data = .struct fs) :
    ∀ f ∈ fs.list, fieldErrors o f = [] := by
  simp only [recordedErrors, hd, List.append_eq_nil_iff] at h
  exact List.flatMap_eq_nil_iff.1 h.2

theorem unit_struct_error {input : DeriveInput τ} (hd : input.data = .struct .unit) : recordedErrors o input ≠ [] := by
  intro h
  have := (containerAttrs_nil h).1
  simp only [containerAttrsFromAst, hd] at this
  unfold decideModelType at this
  simp at this

theorem serializeBody_panics {input : DeriveInput τ} {c : Container τ}
    (hc : containerFromAst o input = some (some c, [])) :
    (∃ p, serializeBody c = .error p) ↔ Unsupported o input := by
  have he : recordedErrors o input = [] := (containerFromAst_errs hc).symm
  obtain ⟨hid, ⟨b, hat⟩, h⟩ := container_cases hc
  have htag := tagging (containerErrors_nil he)
  have huniq := fun t t' => Tagging.unique (containerErrors_nil he) (t := t) (t' := t')
  rcases h with ⟨fs, style, fs', hd, hcd, hst, hm⟩ | ⟨vs, vs', hd, hcd, hm⟩
  · have hl := mapPanic_length hm
    unfold serializeBody Unsupported
    rw [hcd, hd]
    cases fs with
    | unit => exact absurd he (unit_struct_error hd)
    | named fs => rw [hst]; simp [structFromAst]
    | unnamed fs =>
      rw [hst]
      simp only [structFromAst, (fieldsFromAst_get 0 fs).1] at hl ⊢
      match fs, hl with
      | [], _ => simp
      | [f], hl =>
        obtain ⟨f', rfl⟩ := List.length_eq_one_iff.1 hl
        simp only [List.length_cons, List.length_nil, Nat.zero_add, if_true]
        rw [← explicit_iff he]
        unfold serializeNewtypeStruct
        rw [hat]
        simp only
        split <;> simp_all
      | f :: g :: fs, _ => simp
  · have hve : ∀ v ∈ vs, (runAttrs (variantAction o) v.attrs).errs = [] := fun v hv =>
      (variantErrors_nil ((recorded_variants he hd).2 v hv)).1
    obtain ⟨hmt1, hmt2⟩ := modelType_enum hd (containerAttrs_nil he).1
    unfold serializeBody Unsupported
    rw [hcd, hd]
    simp only [serializeEnum]
    rw [hat]
    rw [hd] at htag huniq
    simp only
    by_cases hdata : HasData vs
    · simp only [hdata, true_and]
      rw [hmt2 hdata]
      simp only [SynData.kind] at htag huniq
      generalize htt : (containerAttrsFromAst o input).1.tagType = t at htag
      cases t with
      | external =>
        simp only [serializeExternalEnum]
        have := (variants_error (alt := externalAlternative) (bad := fun _ => False) hm hve (fun v v' hr => by
          simp [external_error hr]))
        constructor
        · rintro ⟨p, hp⟩
          split at hp
          · rename_i e he'
            obtain ⟨v, _, _, hf⟩ := this.1 ⟨e, he'⟩
            exact hf.elim
          · cases hp
        · rintro ⟨v, _, _, h | ⟨t, c, h, _⟩ | ⟨t, h, _⟩⟩
          · cases huniq _ _ htag h.1
          · cases huniq _ _ htag h
          · cases huniq _ _ htag h
      | none =>
        simp only [serializeUntaggedEnum]
        have := (variants_error (alt := untaggedAlternative) hm hve (fun v v' hr => untagged_error hr))
        constructor
        · rintro ⟨p, hp⟩
          split at hp
          · rename_i e he'
            obtain ⟨v, hv, hs, hf⟩ := this.1 ⟨e, he'⟩
            exact ⟨v, hv, hs, .inl ⟨htag, hf⟩⟩
          · cases hp
        · rintro ⟨v, hv, hs, h | ⟨t, c, h, _⟩ | ⟨t, h, _⟩⟩
          · obtain ⟨e, he'⟩ := this.2 ⟨v, hv, hs, h.2⟩
            rw [he']; exact ⟨e, rfl⟩
          · cases huniq _ _ htag h
          · cases huniq _ _ htag h
      | internal t =>
        simp only [serializeInternalEnum]
        have := fun c : Container τ => (variants_error (alt := internalAlternative c t) hm hve (fun v v' hr => internal_error hr))
        constructor
        · rintro ⟨p, hp⟩
          split at hp
          · rename_i e he'
            obtain ⟨v, hv, hs, hf⟩ := (this _).1 ⟨e, he'⟩
            exact ⟨v, hv, hs, .inr (.inr ⟨t, htag, hf⟩)⟩
          · cases hp
        · rintro ⟨v, hv, hs, h | ⟨t', c', h, _⟩ | ⟨t', h, hf⟩⟩
          · cases huniq _ _ htag h.1
          · cases huniq _ _ htag h
          · obtain ⟨e, he'⟩ := (this c).2 ⟨v, hv, hs, hf⟩
            rw [he']; exact ⟨e, rfl⟩
      | adjacent t cn =>
        simp only [serializeAdjacentEnum]
        have := (variants_error (alt := adjacentAlternative) hm hve (fun v v' hr => adjacent_error hr))
        constructor
        · rintro ⟨p, hp⟩
          split at hp
          · rename_i e he'
            obtain ⟨v, hv, hs, hf⟩ := this.1 ⟨e, he'⟩
            exact ⟨v, hv, hs, .inr (.inl ⟨t, cn, htag, hf⟩)⟩
          · cases hp
        · rintro ⟨v, hv, hs, h | ⟨t', c', h, hf⟩ | ⟨t', h, _⟩⟩
          · cases huniq _ _ htag h.1
          · obtain ⟨e, he'⟩ := this.2 ⟨v, hv, hs, hf⟩
            rw [he']; exact ⟨e, rfl⟩
          · cases huniq _ _ htag h
    · rw [(hmt1 hdata).1]
      simp [hdata]

end Verif
