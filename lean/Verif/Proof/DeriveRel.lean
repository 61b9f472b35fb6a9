import Verif.Proof.Derive
/-!
# Related derive inputs, tagging, panics
-/

namespace Verif

variable {o : Oracle} {τ : Type}

/-! ## Congruence -/

/-- `R` preserves what is read from the attributes of a field, provided they are free of errors. -/
def FieldCongr (o : Oracle) (R : List Attribute → List Attribute → Prop) (P : List DErr → Prop) : Prop :=
  ∀ i id as as', R as as' → P (fieldAttrsFromAst o i id as).2 →
    fieldAttrsFromAst o i id as' = fieldAttrsFromAst o i id as

def VariantCongr (o : Oracle) (R : List Attribute → List Attribute → Prop) (P : List DErr → Prop) : Prop :=
  ∀ id as as', R as as' → P (variantAttrsFromAst o id as).2 →
    variantAttrsFromAst o id as' = variantAttrsFromAst o id as

structure ErrPred (P : List DErr → Prop) : Prop where
  left : ∀ {a b}, P (a ++ b) → P a
  right : ∀ {a b}, P (a ++ b) → P b

theorem fieldsFromAst_congr {R : List Attribute → List Attribute → Prop} {P} (hP : ErrPred P)
    (hR : FieldCongr o R P) {fs gs : List (SynField τ)} (h : Pointwise (FieldRel R) fs gs) (i : Nat)
    (he : P (fieldsFromAst o i fs).2) : fieldsFromAst o i gs = fieldsFromAst o i fs := by
  induction h generalizing i with
  | nil => rfl
  | cons hf _ ih =>
    simp only [fieldsFromAst] at he ⊢
    rw [ih _ (hP.right he), hf.ident, hf.ty, hR _ _ _ _ hf.attrs (hP.left he)]

theorem Pointwise.length_eq {α β : Type} {R : α → β → Prop} {as bs} (h : Pointwise R as bs) :
    bs.length = as.length := by
  induction h with
  | nil => rfl
  | cons _ _ ih => simp [ih]

theorem structFromAst_congr {R : List Attribute → List Attribute → Prop} {P} (hP : ErrPred P)
    (hR : FieldCongr o R P) {fs gs : SynFields τ} (h : FieldsRel R fs gs) (he : P (structFromAst o fs).2) :
    structFromAst o gs = structFromAst o fs := by
  cases h with
  | named h => simp only [structFromAst] at he ⊢; rw [fieldsFromAst_congr hP hR h _ he]
  | unnamed h => simp only [structFromAst] at he ⊢; rw [fieldsFromAst_congr hP hR h _ he, h.length_eq]
  | unit => rfl

theorem variantsFromAst_congr {Rv Rf : List Attribute → List Attribute → Prop} {P} (hP : ErrPred P)
    (hRv : VariantCongr o Rv P) (hR : FieldCongr o Rf P) {vs ws : List (SynVariant τ)}
    (h : Pointwise (VariantRel Rv Rf) vs ws) (he : P (variantsFromAst o vs).2) :
    variantsFromAst o ws = variantsFromAst o vs := by
  induction h with
  | nil => rfl
  | cons hv _ ih =>
    simp only [variantsFromAst, variantFromAst] at he ⊢
    rw [ih (hP.right he), hv.ident, hv.discriminant, hRv _ _ _ hv.attrs (hP.left (hP.left he)),
      structFromAst_congr hP hR hv.fields (hP.right (hP.left he))]

theorem FieldsRel.isUnit {R : List Attribute → List Attribute → Prop} {fs gs : SynFields τ} (h : FieldsRel R fs gs) :
    gs.isUnit = fs.isUnit := by
  cases h <;> rfl

theorem all_unit_congr {Rv Rf : List Attribute → List Attribute → Prop} {vs ws : List (SynVariant τ)}
    (h : Pointwise (VariantRel Rv Rf) vs ws) :
    (ws.all fun v => v.fields.isUnit) = vs.all fun v => v.fields.isUnit := by
  induction h with
  | nil => rfl
  | cons hv _ ih => simp only [List.all_cons, ih, hv.fields.isUnit]

theorem consistent_congr {Rv Rf : List Attribute → List Attribute → Prop} {vs ws : List (SynVariant τ)}
    (h : Pointwise (VariantRel Rv Rf) vs ws) : consistentDiscriminants ws = consistentDiscriminants vs := by
  cases h with
  | nil => rfl
  | cons hv ht =>
    simp only [consistentDiscriminants, hv.discriminant]
    clear hv
    induction ht with
    | nil => rfl
    | cons hv _ ih => simp only [List.all_cons, ih, hv.discriminant]

theorem DataRel.kind {Rv Rf : List Attribute → List Attribute → Prop} {d d' : SynData τ} (h : DataRel Rv Rf d d') :
    d'.kind = d.kind := by
  cases h with
  | enum => rfl
  | struct h => cases h <;> rfl
  | union => rfl

theorem decideModelType_congr {Rv Rf : List Attribute → List Attribute → Prop} {d d' : SynData τ}
    (h : DataRel Rv Rf d d') (t : TagType) : decideModelType d' t = decideModelType d t := by
  cases h with
  | enum h => unfold decideModelType; simp only [all_unit_congr h]
  | struct h => cases h <;> rfl
  | union => rfl

theorem containerFromAst_congr {Rc Rv Rf : List Attribute → List Attribute → Prop} {P} (hP : ErrPred P)
    {i j : DeriveInput τ}
    (hRc : ∀ kind as as', Rc as as' → P (runAttrs (containerAction o kind) as).errs →
      P (atMostOne (runAttrs (containerAction o kind) as).flags).2 →
      runAttrs (containerAction o kind) as' = runAttrs (containerAction o kind) as)
    (hRv : VariantCongr o Rv P) (hR : FieldCongr o Rf P)
    (h : InputRel Rc Rv Rf i j) (he : P (recordedErrors o i)) :
    containerFromAst o j = containerFromAst o i := by
  have hc : containerAttrsFromAst o j = containerAttrsFromAst o i := by
    have := hP.left he
    simp only [containerAttrsFromAst] at this ⊢
    rw [h.ident, h.data.kind, decideModelType_congr h.data,
      hRc _ _ _ h.attrs (hP.left (hP.left this)) (hP.right (hP.left this))]
  unfold recordedErrors at he
  have he := hP.right he
  unfold containerFromAst
  rw [hc, h.ident]
  obtain ⟨id, attrs, d⟩ := i
  obtain ⟨id', attrs', d'⟩ := j
  have hd := h.data
  simp only at hd he ⊢
  cases hd with
  | union => rfl
  | enum hv =>
    simp only [consistent_congr hv] at he ⊢
    split
    · rename_i hcons
      rw [if_pos hcons] at he
      rw [variantsFromAst_congr hP hRv hR hv (by rw [variantsFromAst_errs]; exact he)]
    · rfl
  | struct hs => simp only at he ⊢; rw [structFromAst_congr hP hR hs (by rw [structFromAst_errs]; exact he)]

theorem ErrPred.nil : ErrPred (fun es => es = []) where
  left h := (List.append_eq_nil_iff.1 h).1
  right h := (List.append_eq_nil_iff.1 h).2

theorem ErrPred.any : ErrPred (fun _ => True) := ⟨fun _ => trivial, fun _ => trivial⟩

theorem attrFrom_none {p : String} (h : p ∉ ["opg", "serde", "repr"]) : attrFrom p = none := by
  simp only [List.mem_cons, List.not_mem_nil, or_false, not_or] at h
  simp [attrFrom, h.1, h.2.1, h.2.2]

theorem Extended.run {act : AttrFrom → NestedMeta → Action} {names as as'} (h : Extended names as as')
    (hn : ∀ m : NestedMeta, (∀ n, m.name = some n → n ∉ names) → act .serde m = .nothing) :
    runAttrs act as' = runAttrs act as := by
  cases h with
  | same => rfl
  | foreign as bs a h => exact runAttrs_foreign (attrFrom_none h) _ _
  | unknown pre post m h h' hm => exact runAttrs_ignore h' h (hn m hm)

theorem derive_of_containerFromAst {i j : DeriveInput τ} (h : containerFromAst o j = containerFromAst o i) :
    derive o j = derive o i := by
  unfold derive; rw [h]

/-! ## Tagging -/

theorem container_str_value {kind : DataKind} {src m k v} (h : ContainerGives o kind src m k v)
    (hk : k = .tag ∨ k = .content) : ∃ s, v = .str s := by
  cases h with
  | common h => cases h <;> simp at hk
  | tag s h => exact ⟨s, rfl⟩
  | content s h => exact ⟨s, rfl⟩
  | renameAll => simp at hk
  | _ => simp at hk

theorem container_unit_value {kind : DataKind} {src m v} (h : ContainerGives o kind src m .untagged v) : v = .unit := by
  cases h with
  | common h => cases h
  | untagged => rfl

theorem tagging {input : DeriveInput τ}
    (he : (runAttrs (containerAction o input.data.kind) input.attrs).errs = []) :
    Tagging (ContainerGives o input.data.kind) input.attrs (containerAttrsFromAst o input).1.tagType := by
  have hg := fun k v => runAttrs_vals (fun src m k v => containerAction_set (o := o) (kind := input.data.kind)) he (k := k) (v := v)
  have hnone := fun k => runAttrs_vals_none (fun src m k v => containerAction_set (o := o) (kind := input.data.kind)) he (k := k)
  have hstr : ∀ k v, (k = .tag ∨ k = .content) →
      (runAttrs (containerAction o input.data.kind) input.attrs).vals k = some v → ∃ s, v = .str s := by
    intro k v hk hv
    obtain ⟨items, hi, x, hx, hxg⟩ := (hg k v).1 hv
    exact container_str_value hxg hk
  have hunit : ∀ v, (runAttrs (containerAction o input.data.kind) input.attrs).vals .untagged = some v → v = .unit := by
    intro v hv
    obtain ⟨items, hi, x, hx, hxg⟩ := (hg .untagged v).1 hv
    exact container_unit_value hxg
  simp only [containerAttrsFromAst, Acc.has, Acc.str]
  cases hu : (runAttrs (containerAction o input.data.kind) input.attrs).vals .untagged with
  | none =>
    have hu' : ¬ Gives (ContainerGives o input.data.kind) input.attrs .untagged .unit := (hnone _).1 hu _
    cases ht : (runAttrs (containerAction o input.data.kind) input.attrs).vals .tag with
    | none =>
      have ht' := fun s => (hnone _).1 ht (.str s)
      cases hc : (runAttrs (containerAction o input.data.kind) input.attrs).vals .content with
      | none => exact .external hu' ht' fun s => (hnone _).1 hc _
      | some v =>
        obtain ⟨s, rfl⟩ := hstr _ _ (.inr rfl) hc
        exact .contentOnly s hu' ht' ((hg _ _).1 hc)
    | some t =>
      obtain ⟨t, rfl⟩ := hstr _ _ (.inl rfl) ht
      cases hc : (runAttrs (containerAction o input.data.kind) input.attrs).vals .content with
      | none => exact .internal t hu' ((hg _ _).1 ht) fun s => (hnone _).1 hc _
      | some v =>
        obtain ⟨s, rfl⟩ := hstr _ _ (.inr rfl) hc
        exact .adjacent t s hu' ((hg _ _).1 ht) ((hg _ _).1 hc)
  | some u =>
    obtain rfl := hunit _ hu
    have hu' := (hg _ _).1 hu
    cases ht : (runAttrs (containerAction o input.data.kind) input.attrs).vals .tag with
    | none =>
      have ht' := fun s => (hnone _).1 ht (.str s)
      cases hc : (runAttrs (containerAction o input.data.kind) input.attrs).vals .content with
      | none => exact .untagged hu' ht' fun s => (hnone _).1 hc _
      | some v =>
        obtain ⟨s, rfl⟩ := hstr _ _ (.inr rfl) hc
        exact .contradictory hu' (.inr ⟨s, (hg _ _).1 hc⟩)
    | some t =>
      obtain ⟨t, rfl⟩ := hstr _ _ (.inl rfl) ht
      have ht' : ∃ s, Gives (ContainerGives o input.data.kind) input.attrs .tag (.str s) := ⟨t, (hg _ _).1 ht⟩
      cases hc : (runAttrs (containerAction o input.data.kind) input.attrs).vals .content with
      | none => exact .contradictory hu' (.inl ht')
      | some v =>
        obtain ⟨s, rfl⟩ := hstr _ _ (.inr rfl) hc
        exact .contradictory hu' (.inl ht')

/-- Without duplicates the values are unique, so the tagging is. -/
theorem Tagging.unique {input : DeriveInput τ}
    (he : (runAttrs (containerAction o input.data.kind) input.attrs).errs = []) {t t'}
    (h : Tagging (ContainerGives o input.data.kind) input.attrs t)
    (h' : Tagging (ContainerGives o input.data.kind) input.attrs t') : t = t' := by
  have hu : ∀ k v w, Gives (ContainerGives o input.data.kind) input.attrs k v →
      Gives (ContainerGives o input.data.kind) input.attrs k w → v = w := by
    intro k v w hv hw
    have hg := fun v => runAttrs_vals (fun src m k v => containerAction_set (o := o) (kind := input.data.kind)) he (k := k) (v := v)
    have := ((hg v).2 hv).symm.trans ((hg w).2 hw)
    exact Option.some.inj this
  cases h <;> cases h' <;> first | rfl | (exfalso; simp_all; done) | skip
  case internal.internal a ha1 ha2 ha3 b hb1 hb2 hb3 =>
    have := hu _ _ _ ha2 hb2
    simp only [AVal.str.injEq] at this; rw [this]
  case adjacent.adjacent a a' ha1 ha2 ha3 b b' hb1 hb2 hb3 =>
    have h1 := hu _ _ _ ha2 hb2
    have h2 := hu _ _ _ ha3 hb3
    simp only [AVal.str.injEq] at h1 h2; rw [h1, h2]
  all_goals (exfalso; rename_i h1 h2 h3 h4; rcases h4 with ⟨s, h4⟩ | ⟨s, h4⟩ <;> simp_all)

end Verif
