import Verif.Proof.Refactor
/-!
# Leaving `rename_all` out
-/

namespace Verif

variable {o : Oracle} {τ : Type}

theorem itemsOf_cons (a : Attribute) (rest : List Attribute) : itemsOf (a :: rest) =
    match attrSource a.path, a.parsed, itemsOf rest with
    | none, _, r => r
    | some src, .list nested, some r => some (nested.map (fun m => (src, m)) ++ r)
    | some _, _, _ => none := rfl

/-- Not `rename_all` of `#[serde(..)]`. -/
def otherItem (x : AttrFrom × NestedMeta) : Bool := !(x.1 = .serde && x.2.name = some "rename_all")

theorem attrSource_serde {p : String} : attrSource p = some .serde ↔ p = "serde" := by
  simp only [attrSource, attrNames, List.lookup]
  by_cases h1 : p = "opg"
  · subst h1; simp
  by_cases h2 : p = "serde"
  · subst h2; simp
  by_cases h3 : p = "repr"
  · subst h3; simp
  simp [beq_eq_false_iff_ne.2 h1, beq_eq_false_iff_ne.2 h2, beq_eq_false_iff_ne.2 h3, h2]

theorem itemsOf_without {attrs : List Attribute} {items} (h : itemsOf attrs = some items) :
    itemsOf (withoutRenameAll attrs) = some (items.filter otherItem) := by
  induction attrs generalizing items with
  | nil => cases h; rfl
  | cons a rest ih =>
    rw [itemsOf_cons] at h
    have hrest : ∀ b : Attribute, withoutRenameAll (a :: rest) = b :: withoutRenameAll rest →
      itemsOf (withoutRenameAll (a :: rest)) = itemsOf (b :: withoutRenameAll rest) := fun b e => by rw [e]
    cases hs : attrSource a.path with
    | none =>
      rw [hs] at h
      have hp : a.path ≠ "serde" := fun e => by rw [e] at hs; cases hs
      have e : withoutRenameAll (a :: rest) = a :: withoutRenameAll rest := by
        simp only [withoutRenameAll, List.map_cons, hp, if_false]
        congr 1
        split <;> rfl
      rw [e, itemsOf_cons, hs]
      exact ih h
    | some src =>
      rw [hs] at h
      cases hm : a.parsed with
      | other => rw [hm] at h; cases h
      | synErr => rw [hm] at h; cases h
      | list ms =>
        rw [hm] at h
        cases hr : itemsOf rest with
        | none => rw [hr] at h; cases h
        | some r =>
          rw [hr] at h
          cases h
          by_cases hp : a.path = "serde"
          · have hsrc : src = .serde := by
              have := attrSource_serde.2 hp
              rw [hs] at this; exact Option.some.inj this
            subst hsrc
            have e : withoutRenameAll (a :: rest) =
                { a with parsed := .list (ms.filter fun m => m.name ≠ some "rename_all") } :: withoutRenameAll rest := by
              simp only [withoutRenameAll, List.map_cons, hm, hp, if_true]
            rw [e, itemsOf_cons]
            simp only [hs, ih hr, List.filter_append]
            congr 2
            rw [List.filter_map]
            congr 1
            apply List.filter_congr
            intro m _
            simp [otherItem, Function.comp]
          · have e : withoutRenameAll (a :: rest) = a :: withoutRenameAll rest := by
              simp only [withoutRenameAll, List.map_cons, hp, if_false]
              congr 1
              split <;> rfl
            have hsrc : src ≠ .serde := fun e => hp (attrSource_serde.1 (e ▸ hs))
            rw [e, itemsOf_cons]
            simp only [hs, hm, ih hr, List.filter_append]
            congr 2
            rw [List.filter_eq_self.2]
            intro x hx
            obtain ⟨m, -, rfl⟩ := List.mem_map.1 hx
            simp [otherItem, hsrc]

section
variable {act : AttrFrom → NestedMeta → Action} {g : AttrFrom → NestedMeta → AttrKey → AVal → Prop}
  (hg : ∀ src m k v, act src m = .set k v ↔ g src m k v)
  (hf : ∀ src m t, act src m = .flag t ↔ src = .opg ∧ ∃ p, m = .item (.path p) ∧ (p, t) ∈ typeWords)
  (hk : ∀ src m k v, g src m k v → (k = .renameAll ↔ src = .serde ∧ m.name = some "rename_all"))
  {attrs : List Attribute}
  (he : (runAttrs act attrs).errs = [])

theorem runAttrs_errs_nil {items} (hi : itemsOf attrs = some items) : (runAttrs act attrs).errs = [] ↔
    (∀ e, Action.error e ∉ items.map fun i => act i.1 i.2) ∧
      ((items.map fun i => act i.1 i.2).filterMap Action.key?).Nodup := by
  unfold runAttrs
  rw [actions_eq hi, foldl_errs_nil]
  simp [Acc.init]

include he in
theorem runAttrs_without_errs : (runAttrs act (withoutRenameAll attrs)).errs = [] := by
  obtain ⟨items, hi, -⟩ := runAttrs_ok he
  rw [runAttrs_errs_nil hi] at he
  rw [runAttrs_errs_nil (itemsOf_without hi)]
  have hsub : (items.filter otherItem).Sublist items := List.filter_sublist
  exact ⟨fun e h => he.1 e ((hsub.map _).subset h), he.2.sublist ((hsub.map _).filterMap _)⟩

include hf he in
theorem runAttrs_without_flags : (runAttrs act (withoutRenameAll attrs)).flags = (runAttrs act attrs).flags := by
  obtain ⟨items, hi, -⟩ := runAttrs_ok he
  rw [runAttrs_flags hi, runAttrs_flags (itemsOf_without hi), List.filterMap_filter]
  congr 1
  funext x
  split
  · rfl
  · rename_i hx
    cases ha : act x.1 x.2 with
    | flag t =>
      obtain ⟨h1, -⟩ := (hf _ _ _).1 ha
      simp [otherItem, h1] at hx
    | _ => rfl

include hg hk he in
theorem gives_without (k v) : Gives g (withoutRenameAll attrs) k v ↔ k ≠ .renameAll ∧ Gives g attrs k v := by
  obtain ⟨items, hi, -⟩ := runAttrs_ok he
  simp only [Gives, hi, itemsOf_without hi, Option.some.injEq, exists_eq_left', List.mem_filter]
  constructor
  · rintro ⟨x, ⟨hx, ho⟩, h⟩
    refine ⟨fun e => ?_, x, hx, h⟩
    have := (hk _ _ _ _ h).1 e
    simp [otherItem, this] at ho
  · rintro ⟨hne, x, hx, h⟩
    refine ⟨x, ⟨hx, ?_⟩, h⟩
    simp only [otherItem, Bool.not_eq_true', Bool.and_eq_false_iff, decide_eq_false_iff_not]
    by_cases h1 : x.1 = .serde
    · exact .inr fun h2 => hne ((hk _ _ _ _ h).2 ⟨h1, h2⟩)
    · exact .inl h1

include hg hf hk he in
theorem saysSame_without (ht : (atMostOne (runAttrs act attrs).flags).2 = []) : SaysSame g attrs (withoutRenameAll attrs) where
  values k hkk v := by
    rw [gives_without hg hk he]
    have : k ≠ .renameAll := fun h => hkk (by simp [h])
    simp [this]
  type t := by
    have he' := runAttrs_without_errs he
    have hfl := runAttrs_without_flags hf he
    rw [← flags_type he ht hf, ← flags_type he' (by rw [hfl]; exact ht) hf, hfl]
end

theorem containerGives_ruleItem {kind src m k v} (h : ContainerGives o kind src m k v) :
    k = .renameAll ↔ src = .serde ∧ m.name = some "rename_all" := by
  cases h with
  | common h =>
    cases h with
    | rename h => simp [h.name]
    | _ => simp
  | renameAll h _ => simp [h.name]
  | _ => simp [NestedMeta.name]

theorem variantGives_ruleItem {src m k v} (h : VariantGives o src m k v) :
    k = .renameAll ↔ src = .serde ∧ m.name = some "rename_all" := by
  cases h with
  | common h =>
    cases h with
    | rename h => simp [h.name]
    | _ => simp
  | renameAll h _ => simp [h.name]
  | _ => simp [NestedMeta.name]

/-! ## Acceptance -/

theorem ruleOf_unique {act : AttrFrom → NestedMeta → Action} {g : AttrFrom → NestedMeta → AttrKey → AVal → Prop}
    (hg : ∀ src m k v, act src m = .set k v ↔ g src m k v) {attrs r r'} (he : (runAttrs act attrs).errs = [])
    (h : RuleOf g attrs r) (h' : RuleOf g attrs r') : r = r' := by
  rcases h with h | ⟨h, rfl⟩ <;> rcases h' with h' | ⟨h', rfl⟩
  · exact AVal.rule.inj (gives_unique hg he h h')
  · exact absurd h (h' _)
  · exact absurd h' (h _)
  · rfl

theorem SaysSame.symm {g : AttrFrom → NestedMeta → AttrKey → AVal → Prop} {attrs attrs'} (s : SaysSame g attrs attrs') :
    SaysSame g attrs' attrs := ⟨fun k hk v => (s.values k hk v).symm, fun t => (s.type t).symm⟩

theorem unsupported_same {i j : DeriveInput τ} (s : SameItem o i j) (hi : recordedErrors o i = [])
    (hj : recordedErrors o j = []) (hu : Unsupported o j) : Unsupported o i := by
  have h1 := ruleOf_container (containerAttrs_nil hi).2.1
  have h2 := ruleOf_container (containerAttrs_nil hj).2.1
  rw [s.kind] at h2
  have hd := s.data _ _ h1 h2
  have hs := s.says.symm
  clear h1 h2
  have hki := s.kind
  revert hd
  generalize (containerAttrsFromAst o i).1.renameRule = r
  generalize (containerAttrsFromAst o j).1.renameRule = r'
  intro hd
  obtain ⟨id, as, di⟩ := i
  obtain ⟨jd, bs, dj⟩ := j
  cases di with
  | union => exact hd.elim
  | struct fs =>
    cases dj with
    | union => exact hd.elim
    | enum _ => exact hd.elim
    | struct fs' =>
      have hl := hd.length
      have hk := hd.kind
      clear hd
      cases fs' with
      | named _ => exact hu.elim
      | unit => exact hu.elim
      | unnamed gs =>
        cases fs with
        | named _ => exact hk.elim
        | unit => exact hk.elim
        | unnamed fs =>
          simp only [SynFields.list] at hl
          match gs, fs, hl, hu with
          | [_], [_], _, h => exact (hs.type _).1 h
  | enum vs =>
    cases dj with
    | union => exact hd.elim
    | struct _ => exact hd.elim
    | enum ws =>
      obtain ⟨-, hvi⟩ := recorded_variants hi rfl
      obtain ⟨-, hvj⟩ := recorded_variants hj rfl
      obtain ⟨⟨w0, hw0, hn0⟩, w, hw, hsk, hb⟩ := hu
      have hfw : ∀ w ∈ ws, ∃ v ∈ vs, SameVariant o r r' v w ∧ (w.fields = .unit ↔ v.fields = .unit) ∧
          (w.fields.isTuple ↔ v.fields.isTuple) := by
        intro w hw
        obtain ⟨v, hv, hvw⟩ := hd.right_mem hw
        have hff := hvw.fields _ _ (ruleOf_variant (variantErrors_nil (hvi v hv)).1)
          (ruleOf_variant (variantErrors_nil (hvj w hw)).1)
        exact ⟨v, hv, hvw, fields_unit hff.kind hff.length⟩
      obtain ⟨v0, hv0, -, hu0, -⟩ := hfw w0 hw0
      obtain ⟨v, hv, hvw, hu1, hu2⟩ := hfw w hw
      refine ⟨⟨v0, hv0, fun h => hn0 (hu0.2 h)⟩, v, hv, ?_, ?_⟩
      · rw [hvw.says.values _ (by decide)]; exact hsk
      · rw [hu1, hu2] at hb
        rcases hb with ⟨ht, hb⟩ | ⟨t, c, ht, hb⟩ | ⟨t, ht, hb⟩
        · exact .inl ⟨Tagging.same hs ht, hb⟩
        · exact .inr (.inl ⟨t, c, Tagging.same hs ht, hb⟩)
        · exact .inr (.inr ⟨t, Tagging.same hs ht, hb⟩)

theorem accepted_same {i j : DeriveInput τ} {c b} (s : SameItem o i j) (hc : derive o i = .code c b)
    (hj : recordedErrors o j = []) (hn : ¬ NameFails o j) : ∃ c' b', derive o j = .code c' b' := by
  have hr := derive_code_errs hc
  refine derive_of_clean hj hn fun hu => ?_
  have hp : ¬ ∃ p, derive o i = .panic p := by rw [hc]; simp
  rw [c52_panics_iff, inputProblems_iff] at hp
  exact hp (.inr ⟨hr, unsupported_same s hr hj hu⟩)

/-! ## Without `rename_all` -/

theorem camelCased_without {act : AttrFrom → NestedMeta → Action} {g : AttrFrom → NestedMeta → AttrKey → AVal → Prop}
    (hg : ∀ src m k v, act src m = .set k v ↔ g src m k v)
    (hk : ∀ src m k v, g src m k v → (k = .renameAll ↔ src = .serde ∧ m.name = some "rename_all"))
    {attrs} (he : (runAttrs act attrs).errs = []) : ¬ CamelCased g (withoutRenameAll attrs) := by
  unfold CamelCased
  rw [← runAttrs_first hg, runAttrs_vals hg (runAttrs_without_errs he), gives_without hg hk he]
  exact fun h => h.1 rfl

theorem explicit_same {rule rule' : RenameRule} {i : Nat} {f : SynField τ} (he : fieldErrors o f = [])
    (h : ∃ s, Gives (FieldGives o) f.attrs .rename (.str s)) : SameField o rule rule' i f f := by
  obtain ⟨s, h⟩ := h
  refine ⟨rfl, .refl _ _, fun _ t => ?_⟩
  unfold FieldSerializedAs
  have : ¬ ∀ v, ¬ Gives (FieldGives o) f.attrs .rename v := fun hn => hn _ h
  simp [this]

theorem fields_explicit {rule rule' : RenameRule} {fs : SynFields τ} (he : ∀ f ∈ fs.list, fieldErrors o f = [])
    (h : ∀ f ∈ fs.list, ∃ s, Gives (FieldGives o) f.attrs .rename (.str s)) : SameFields o rule rule' fs fs := by
  refine ⟨by cases fs <;> trivial, rfl, fun i f f' hf hf' => ?_⟩
  rw [hf] at hf'
  cases hf'
  exact explicit_same (he f (List.mem_of_getElem? hf)) (h f (List.mem_of_getElem? hf))

/-- The variant without `rename_all`. -/
def SynVariant.without (v : SynVariant τ) : SynVariant τ := { v with attrs := withoutRenameAll v.attrs }

theorem variant_without {rule rule' : RenameRule} {v : SynVariant τ} (he : variantErrors o v = [])
    (h : ∃ s, Gives (VariantGives o) v.attrs .rename (.str s))
    (hf : ∀ f ∈ v.fields.list, ∃ s, Gives (FieldGives o) f.attrs .rename (.str s)) :
    SameVariant o rule rule' v v.without ∧ variantErrors o v.without = [] := by
  obtain ⟨h1, hfe⟩ := variantErrors_nil he
  have h2 := variantErrors_flags he
  have hg := fun src m k v => variantAction_set (o := o) (src := src) (m := m) (k := k) (v := v)
  have hgw := gives_without hg (fun _ _ _ _ => variantGives_ruleItem) h1
  obtain ⟨s, h⟩ := h
  refine ⟨⟨rfl, saysSame_without hg (fun _ _ _ => variantAction_flag) (fun _ _ _ _ => variantGives_ruleItem) h1 h2, ?_, ?_⟩, ?_⟩
  · intro _ t
    have n1 : ¬ ∀ x, ¬ Gives (VariantGives o) v.attrs .rename x := fun hn => hn _ h
    have n2 : ∀ x, Gives (VariantGives o) v.without.attrs .rename x ↔ Gives (VariantGives o) v.attrs .rename x := fun x => by
      rw [SynVariant.without, hgw]; simp
    unfold VariantSerializedAs
    simp only [n2]
    simp [n1]
  · intro r r' _ _
    exact fields_explicit hfe hf
  · simp only [variantErrors, variantAttrsFromAst, SynVariant.without, List.append_eq_nil_iff]
    refine ⟨⟨runAttrs_without_errs h1, ?_⟩, List.flatMap_eq_nil_iff.2 hfe⟩
    rw [runAttrs_without_flags (fun _ _ _ => variantAction_flag) h1]; exact h2

theorem kind_without (i : DeriveInput τ) : i.withoutRenameAll.data.kind = i.data.kind := by
  unfold DeriveInput.withoutRenameAll
  cases i.data <;> rfl

theorem Pointwise.map_self {α : Type} {R : α → α → Prop} {f : α → α} {as : List α} (h : ∀ a ∈ as, R a (f a)) :
    Pointwise R as (as.map f) := by
  induction as with
  | nil => exact .nil
  | cons a as ih =>
    exact .cons (h a (List.mem_cons_self ..)) (ih fun b hb => h b (List.mem_cons_of_mem _ hb))

theorem without_same {i : DeriveInput τ} {c b} (hc : derive o i = .code c b) (h : AllRenamed o i) :
    SameItem o i i.withoutRenameAll ∧ ∃ c' b', derive o i.withoutRenameAll = .code c' b' := by
  have hr := derive_code_errs hc
  obtain ⟨hca, he, ht⟩ := containerAttrs_nil hr
  have hg := fun src m k v => containerAction_set (o := o) (kind := i.data.kind) (src := src) (m := m) (k := k) (v := v)
  have hf := fun src m t => containerAction_flag (o := o) (kind := i.data.kind) (src := src) (m := m) (t := t)
  have hkk := fun src m k v => containerGives_ruleItem (o := o) (kind := i.data.kind) (src := src) (m := m) (k := k) (v := v)
  have hgw := gives_without hg hkk he
  have hsays := saysSame_without hg hf hkk he ht
  have hew := runAttrs_without_errs he
  have hfw := runAttrs_without_flags hf he
  have hcc := camelCased_without hg hkk he
  have same : SameItem o i i.withoutRenameAll := by
    refine ⟨rfl, kind_without i, hsays, fun r r' _ _ => ?_⟩
    unfold DeriveInput.withoutRenameAll
    cases hd : i.data with
    | union =>
      have := hr
      simp [recordedErrors, hd] at this
    | struct fs =>
      simp only
      refine fields_explicit (recorded_fields hr hd) fun f hff => h.1 f ?_
      rw [hd]; exact hff
    | enum vs =>
      simp only
      obtain ⟨-, hve⟩ := recorded_variants hr hd
      refine Pointwise.map_self fun v hv => ?_
      obtain ⟨h1, h2⟩ := h.2 v (by rw [hd]; exact hv)
      exact (variant_without (hve v hv) h1 h2).1
  refine ⟨same, accepted_same same hc ?_ ?_⟩
  · simp only [recordedErrors, List.append_eq_nil_iff]
    constructor
    · have hhas : ∀ k, k ≠ .renameAll → (runAttrs (containerAction o i.data.kind) (withoutRenameAll i.attrs)).vals k =
          (runAttrs (containerAction o i.data.kind) i.attrs).vals k := by
        intro k hk
        apply Option.ext
        intro v
        rw [runAttrs_vals hg hew, runAttrs_vals hg he, hgw]
        simp [hk]
      have hmt : ∀ t, decideModelType i.withoutRenameAll.data t = decideModelType i.data t := by
        intro t
        unfold DeriveInput.withoutRenameAll
        cases i.data with
        | enum vs => unfold decideModelType; simp only [List.all_map, Function.comp_def]
        | _ => rfl
      revert hca
      simp only [containerAttrsFromAst, kind_without]
      have e : i.withoutRenameAll.attrs = withoutRenameAll i.attrs := rfl
      simp only [e, Acc.has, Acc.str, hhas .untagged (by decide), hhas .tag (by decide), hhas .content (by decide), hmt,
        List.append_eq_nil_iff, hfw]
      rintro ⟨⟨-, h2⟩, h3⟩
      exact ⟨⟨hew, h2⟩, h3⟩
    · unfold DeriveInput.withoutRenameAll
      cases hd : i.data with
      | union =>
        have := hr
        simp [recordedErrors, hd] at this
      | struct fs => exact List.flatMap_eq_nil_iff.2 (recorded_fields hr hd)
      | enum vs =>
        obtain ⟨hcd, hve⟩ := recorded_variants hr hd
        simp only
        have hcd' : consistentDiscriminants (vs.map fun v => { v with attrs := withoutRenameAll v.attrs }) = true := by
          revert hcd
          cases vs with
          | nil => simp [consistentDiscriminants]
          | cons v vs => simp [consistentDiscriminants]
        rw [if_pos hcd']
        refine List.flatMap_eq_nil_iff.2 fun w hw => ?_
        obtain ⟨v, hv, rfl⟩ := List.mem_map.1 hw
        obtain ⟨h1, h2⟩ := h.2 v (by rw [hd]; exact hv)
        exact (variant_without (rule := .none) (rule' := .none) (hve v hv) h1 h2).2
  · intro hn
    unfold NameFails at hn
    have hki := kind_without i
    rw [hki] at hn
    unfold DeriveInput.withoutRenameAll at hn
    cases hd : i.data with
    | union => rw [hd] at hn; exact hn
    | struct fs =>
      rw [hd] at hn hcc
      exact hcc hn.1
    | enum vs =>
      rw [hd] at hn hcc
      obtain ⟨-, w, hw, hn⟩ := hn
      obtain ⟨hcd, hve⟩ := recorded_variants hr hd
      obtain ⟨v, hv, rfl⟩ := List.mem_map.1 hw
      rcases hn with ⟨h1, -⟩ | ⟨h1, -⟩
      · exact hcc h1
      · exact camelCased_without (fun _ _ _ _ => variantAction_set) (fun _ _ _ _ => variantGives_ruleItem)
          (variantErrors_nil (hve v hv)).1 h1

/-! ## Writing every name out -/

theorem choose_at {α β : Type} (as : List α) (R : Nat → α → β → Prop)
    (h : ∀ (i : Nat) a, as[i]? = some a → ∃ b, R i a b) :
    ∃ bs : List β, bs.length = as.length ∧ ∀ (i : Nat) a b, as[i]? = some a → bs[i]? = some b → R i a b := by
  induction as generalizing R with
  | nil => exact ⟨[], rfl, fun i a b ha => by simp at ha⟩
  | cons a as ih =>
    obtain ⟨b, hb⟩ := h 0 a rfl
    obtain ⟨bs, hl, hbs⟩ := ih (fun i => R (i + 1)) fun i x hx => h (i + 1) x (by simpa using hx)
    refine ⟨b :: bs, by simp [hl], fun i x y hx hy => ?_⟩
    cases i with
    | zero => simp at hx hy; subst hx hy; exact hb
    | succ i => simp at hx hy; exact hbs i x y hx hy

theorem field_written {rule : RenameRule} {i : Nat} {f : SynField τ} {f' : Field τ} (h : FieldParsed o rule i f f')
    (he : fieldErrors o f = []) :
    ∃ g, FieldRenamed o rule i f g ∧ g.ident = f.ident ∧ ∃ s, Gives (FieldGives o) g.attrs .rename (.str s) := by
  have hs := (h.name _).1 rfl
  rcases hs with hs | ⟨hn, hs⟩
  · exact ⟨f, .kept f, rfl, _, hs⟩
  · refine ⟨_, .renamed f f.ident _ hn (.inr ⟨hn, hs⟩), rfl, f'.attrs.name.serialized, ?_⟩
    exact (gives_renameTo (g := FieldGives o) (fun _ _ _ _ => fieldAction_set) (.common (.rename (.nameValue _))) (fieldErrors_nil he) hn _ _).2
      (.inl ⟨rfl, rfl⟩)

theorem fields_written {rule : RenameRule} {fs : SynFields τ} {style fs'} (h : FieldsParsed o rule fs style fs')
    (he : ∀ f ∈ fs.list, fieldErrors o f = []) :
    ∃ gs, FieldsRenamed o rule fs gs ∧ ∀ f ∈ gs.list, ∃ s, Gives (FieldGives o) f.attrs .rename (.str s) := by
  obtain ⟨gs, hl, hgs⟩ := choose_at fs.list
    (fun i f g => FieldRenamed o rule i f g ∧ ∃ s, Gives (FieldGives o) g.attrs .rename (.str s)) (by
      intro i f hf
      have hi : i < fs'.length := by
        rw [h.length]; exact (List.getElem?_eq_some_iff.1 hf).1
      obtain ⟨g, h1, -, h2⟩ := field_written (h.fields i f _ hf (List.getElem?_eq_getElem hi)) (he f (List.mem_of_getElem? hf))
      exact ⟨g, h1, h2⟩)
  have hall : ∀ g ∈ gs, ∃ s, Gives (FieldGives o) g.attrs .rename (.str s) := by
    intro g hg
    obtain ⟨i, hi, rfl⟩ := List.getElem_of_mem hg
    have hj : i < fs.list.length := by rw [← hl]; exact hi
    exact (hgs i _ _ (List.getElem?_eq_getElem hj) (List.getElem?_eq_getElem hi)).2
  cases fs with
  | named l => exact ⟨.named gs, ⟨trivial, hl, fun i a b ha hb => (hgs i a b ha hb).1⟩, hall⟩
  | unnamed l => exact ⟨.unnamed gs, ⟨trivial, hl, fun i a b ha hb => (hgs i a b ha hb).1⟩, hall⟩
  | unit => exact ⟨.unit, ⟨trivial, rfl, fun i a b ha => by simp [SynFields.list] at ha⟩, fun f hf => by cases hf⟩

theorem variant_written {rule : RenameRule} {v : SynVariant τ} {v' : Variant τ} (h : VariantParsed o rule v v')
    (he : variantErrors o v = []) :
    ∃ w, VariantRenamed o rule v w ∧ w.ident = v.ident ∧ (∃ s, Gives (VariantGives o) w.attrs .rename (.str s)) ∧
      ∀ f ∈ w.fields.list, ∃ s, Gives (FieldGives o) f.attrs .rename (.str s) := by
  obtain ⟨h1, hfe⟩ := variantErrors_nil he
  obtain ⟨q, hq, hfs⟩ := h.fields
  obtain ⟨gs, hgs, hall⟩ := fields_written hfs hfe
  have hfields : ∀ r, RuleOf (VariantGives o) v.attrs r → FieldsRenamed o r v.fields gs := by
    intro r hr
    rw [ruleOf_unique (fun _ _ _ _ => variantAction_set) h1 hr hq]; exact hgs
  have hs := (h.name _).1 rfl
  rcases hs with hs | ⟨hn, hs⟩
  · exact ⟨⟨v.ident, v.attrs, gs, v.discriminant⟩, ⟨rfl, .inl ⟨rfl, rfl⟩, hfields⟩, rfl, ⟨_, hs⟩, hall⟩
  · refine ⟨⟨v.ident, v.attrs ++ [renameTo _], gs, v.discriminant⟩,
      ⟨rfl, .inr ⟨hn, _, .inr ⟨hn, hs⟩, rfl⟩, hfields⟩, rfl, ⟨v'.attrs.name.serialized, ?_⟩, hall⟩
    exact (gives_renameTo (g := VariantGives o) (fun _ _ _ _ => variantAction_set) (.common (.rename (.nameValue _))) h1 hn _ _).2
      (.inl ⟨rfl, rfl⟩)

theorem Pointwise.choose {α β γ : Type} {R : α → β → Prop} {Q : α → γ → Prop} {as : List α} {bs : List β}
    (h : Pointwise R as bs) (hc : ∀ a ∈ as, ∀ b, R a b → ∃ c, Q a c) : ∃ cs, Pointwise Q as cs := by
  induction h with
  | nil => exact ⟨[], .nil⟩
  | cons h _ ih =>
    obtain ⟨c, hq⟩ := hc _ (List.mem_cons_self ..) _ h
    obtain ⟨cs, hcs⟩ := ih fun a ha => hc a (List.mem_cons_of_mem _ ha)
    exact ⟨c :: cs, .cons hq hcs⟩

theorem item_written {i : DeriveInput τ} {c b} (hc : derive o i = .code c b) :
    ∃ j, ItemRenamed o i j ∧ AllRenamed o j := by
  have hr := derive_code_errs hc
  obtain ⟨-, he, -⟩ := containerAttrs_nil hr
  obtain ⟨rule, hrule, hd⟩ := (container_parsed hc).data
  have hu : ∀ r, RuleOf (ContainerGives o i.data.kind) i.attrs r → r = rule := fun r h =>
    ruleOf_unique (fun _ _ _ _ => containerAction_set) he h hrule
  obtain ⟨ident, attrs, data⟩ := i
  cases data with
  | union => exact hd.elim
  | struct fs =>
    obtain ⟨style, fs', -, hfs⟩ := hd
    obtain ⟨gs, hgs, hall⟩ := fields_written hfs (recorded_fields hr rfl)
    refine ⟨⟨ident, attrs, .struct gs⟩, ⟨rfl, rfl, fun r h => ?_⟩, hall, fun v hv => by cases hv⟩
    rw [hu r h]; exact hgs
  | enum vs =>
    obtain ⟨vs', -, hvs⟩ := hd
    obtain ⟨-, hve⟩ := recorded_variants hr rfl
    obtain ⟨ws, hws⟩ := hvs.choose (Q := fun v w => VariantRenamed o rule v w ∧ (∃ s, Gives (VariantGives o) w.attrs .rename (.str s)) ∧
      ∀ f ∈ w.fields.list, ∃ s, Gives (FieldGives o) f.attrs .rename (.str s)) (by
        intro v hv v' hp
        obtain ⟨w, h1, -, h2, h3⟩ := variant_written hp (hve v hv)
        exact ⟨w, h1, h2, h3⟩)
    refine ⟨⟨ident, attrs, .enum ws⟩, ⟨rfl, rfl, fun r h => ?_⟩, ⟨fun f hf => (List.not_mem_nil hf).elim, fun w hw => ?_⟩⟩
    · rw [hu r h]
      exact hws.map_mem fun _ _ _ h => h.1
    · obtain ⟨v, -, -, h⟩ := hws.right_mem hw
      exact h

end Verif
