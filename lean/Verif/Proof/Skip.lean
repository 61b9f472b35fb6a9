import Verif.Spec.Skip
import Verif.Proof.DerivePanic
import Verif.Proof.Same
/-!
# Generated code without skipped parts
-/

namespace Verif

variable {τ : Type} {o : Oracle}

/-- A list without some elements that do not satisfy `P`, the others being related. -/
inductive Thinned {α : Type} (P : α → Bool) (R : α → α → Prop) : List α → List α → Prop
  | nil : Thinned P R [] []
  | keep {a b as bs} (h : R a b) (t : Thinned P R as bs) : Thinned P R (a :: as) (b :: bs)
  | drop {a as bs} (h : P a = false) (t : Thinned P R as bs) : Thinned P R (a :: as) bs

def Field.shown (f : Field τ) : Bool := !f.attrs.skipSerializing
def Variant.shown (v : Variant τ) : Bool := !v.attrs.skipSerializing

abbrev FieldsThinned (fs fs' : List (Field τ)) : Prop := Thinned Field.shown Eq fs fs'

theorem Thinned.filter_eq {α : Type} {P : α → Bool} {as bs : List α} (h : Thinned P Eq as bs) : as.filter P = bs.filter P := by
  induction h with
  | nil => rfl
  | keep h _ ih => subst h; simp [List.filter_cons, ih]
  | drop h _ ih => simp [List.filter_cons, h, ih]

theorem Thinned.filter {α : Type} {P : α → Bool} {R : α → α → Prop} (hR : ∀ a b, R a b → P b = P a) {as bs : List α}
    (h : Thinned P R as bs) : Pointwise R (as.filter P) (bs.filter P) := by
  induction h with
  | nil => exact .nil
  | @keep a b _ _ h _ ih =>
    rw [List.filter_cons, List.filter_cons, hR a b h]
    cases P a with
    | true => exact .cons h ih
    | false => exact ih
  | drop h _ ih => simpa [List.filter_cons, h] using ih

theorem mapPanic_thinned {α : Type} {P : α → Bool} {R S : α → α → Prop} {f : α → Option α}
    (hP : ∀ a b, f a = some b → P b = P a) (hR : ∀ a b a', R a b → f a = some a' → ∃ b', f b = some b' ∧ S a' b') {as bs : List α}
    (h : Thinned P R as bs) : ∀ {as'}, mapPanic f as = some as' → ∃ bs', mapPanic f bs = some bs' ∧ Thinned P S as' bs' := by
  induction h with
  | nil => intro as' h; cases h; exact ⟨[], rfl, .nil⟩
  | @keep a b as bs hab _ ih =>
    intro as' h
    rw [mapPanic] at h
    cases h1 : f a with
    | none => rw [h1] at h; cases h
    | some a' =>
      rw [h1] at h
      simp only at h
      cases h2 : mapPanic f as with
      | none => rw [h2] at h; cases h
      | some as2 =>
        rw [h2] at h
        cases h
        obtain ⟨b', hb, hs⟩ := hR a b a' hab h1
        obtain ⟨bs', h3, h4⟩ := ih h2
        exact ⟨b' :: bs', by rw [mapPanic, hb]; simp [h3], .keep hs h4⟩
  | @drop a as bs hP' _ ih =>
    intro as' h
    rw [mapPanic] at h
    cases h1 : f a with
    | none => rw [h1] at h; cases h
    | some a' =>
      rw [h1] at h
      simp only at h
      cases h2 : mapPanic f as with
      | none => rw [h2] at h; cases h
      | some as2 =>
        rw [h2] at h
        cases h
        obtain ⟨bs', h3, h4⟩ := ih h2
        exact ⟨bs', h3, .drop ((hP a a' h1).trans hP') h4⟩

theorem field_skipped {f : SynField τ} {i : Nat} (he : (fieldAttrsFromAst o i f.ident f.attrs).2 = [])
    (h : Gives (FieldGives o) f.attrs .skipSerializing .unit) :
    (fieldAttrsFromAst o i f.ident f.attrs).1.skipSerializing = true := by
  have he' : (runAttrs (fieldAction o) f.attrs).errs = [] := (List.append_eq_nil_iff.1 he).1
  rw [← runAttrs_vals (fun src m k v => fieldAction_set (o := o)) he'] at h
  simp [fieldAttrsFromAst, Acc.has, h]

theorem fieldsFromAst_thinned {fs fs' : List (SynField τ)} (h : FieldsWithout o fs fs') : ∀ {i j : Nat},
    (fieldsFromAst o i fs).2 = [] →
    (fieldsFromAst o j fs').2 = [] ∧ FieldsThinned (fieldsFromAst o i fs).1 (fieldsFromAst o j fs').1 := by
  induction h with
  | nil => intro i j _; exact ⟨rfl, .nil⟩
  | @keep f fs fs' hn _ ih =>
    intro i j he
    rw [fieldsFromAst] at he
    obtain ⟨e1, e2⟩ := List.append_eq_nil_iff.1 he
    have hij : fieldAttrsFromAst o j f.ident f.attrs = fieldAttrsFromAst o i f.ident f.attrs := by
      cases hf : f.ident with
      | none => exact absurd hf hn
      | some x => rfl
    obtain ⟨h1, h2⟩ := ih (i := i + 1) (j := j + 1) e2
    rw [fieldsFromAst, fieldsFromAst, hij]
    exact ⟨List.append_eq_nil_iff.2 ⟨e1, h1⟩, .keep rfl h2⟩
  | @drop f fs fs' hs _ ih =>
    intro i j he
    rw [fieldsFromAst] at he
    obtain ⟨e1, e2⟩ := List.append_eq_nil_iff.1 he
    obtain ⟨h1, h2⟩ := ih (i := i + 1) (j := j) e2
    rw [fieldsFromAst]
    exact ⟨h1, .drop (by simp [Field.shown, field_skipped e1 hs]) h2⟩

theorem rename_fields_thinned {r : RenameRule} {fs fs' : List (Field τ)} (h : FieldsThinned fs fs') {gs}
    (hg : mapPanic (Field.rename r) fs = some gs) : ∃ gs', mapPanic (Field.rename r) fs' = some gs' ∧ FieldsThinned gs gs' := by
  refine mapPanic_thinned ?_ ?_ h hg
  · intro a b hab
    unfold Field.rename at hab
    cases hn : a.attrs.name.renameAsField r with
    | none => rw [hn] at hab; cases hab
    | some n => rw [hn] at hab; cases hab; rfl
  · rintro a _ a' rfl h
    exact ⟨a', h, rfl⟩

/-- The variants are the same but, if `inside`, for skipped fields. -/
structure VariantThin (inside : Bool) (v v' : Variant τ) : Prop where
  ident : v'.ident = v.ident
  attrs : v'.attrs = v.attrs
  style : v'.style = v.style
  discriminant : v'.discriminant = v.discriminant
  fields : v'.fields = v.fields ∨ inside = true ∧ v.style = .struct ∧ FieldsThinned v.fields v'.fields

theorem variantFromAst_thin {inside : Bool} {v : SynVariant τ} {fs'} (h : InsideWithout o inside v.fields fs')
    (he : (variantFromAst o v).2 = []) :
    (variantFromAst o { v with fields := fs' }).2 = [] ∧
    VariantThin inside (variantFromAst o v).1 (variantFromAst o { v with fields := fs' }).1 := by
  obtain ⟨ident, attrs, fields, disc⟩ := v
  simp only at h
  cases h with
  | same => exact ⟨he, rfl, rfl, rfl, rfl, .inl rfl⟩
  | @named fs fs' hi hf =>
    obtain ⟨e1, e2⟩ := List.append_eq_nil_iff.1 he
    obtain ⟨h1, h2⟩ := fieldsFromAst_thinned hf (i := 0) (j := 0) e2
    exact ⟨List.append_eq_nil_iff.2 ⟨e1, h1⟩, rfl, rfl, rfl, rfl, .inr ⟨hi, rfl, h2⟩⟩

theorem variantsFromAst_thinned {inside : Bool} {vs vs' : List (SynVariant τ)} (h : VariantsWithout o inside vs vs') :
    (variantsFromAst o vs).2 = [] → (variantsFromAst o vs').2 = [] ∧
      Thinned Variant.shown (VariantThin inside) (variantsFromAst o vs).1 (variantsFromAst o vs').1 := by
  induction h with
  | nil => intro _; exact ⟨rfl, .nil⟩
  | @keep v fs' vs vs' hf _ ih =>
    intro he
    rw [variantsFromAst] at he
    obtain ⟨e1, e2⟩ := List.append_eq_nil_iff.1 he
    obtain ⟨h1, h2⟩ := ih e2
    obtain ⟨h3, h4⟩ := variantFromAst_thin hf e1
    rw [variantsFromAst, variantsFromAst]
    exact ⟨List.append_eq_nil_iff.2 ⟨h3, h1⟩, .keep h4 h2⟩
  | @drop v vs vs' hs _ ih =>
    intro he
    rw [variantsFromAst] at he
    obtain ⟨e1, e2⟩ := List.append_eq_nil_iff.1 he
    obtain ⟨h1, h2⟩ := ih e2
    rw [variantsFromAst]
    refine ⟨h1, .drop ?_ h2⟩
    have he' : (runAttrs (variantAction o) v.attrs).errs = [] :=
      (List.append_eq_nil_iff.1 (List.append_eq_nil_iff.1 e1).1).1
    have := (skip_iff he').2 hs
    simp only [Variant.shown, variantFromAst, this]
    rfl

theorem rename_variant_thin {inside : Bool} {up r} {v v' w : Variant τ} (h : VariantThin inside v v')
    (hw : Variant.rename up r v = some w) : ∃ w', Variant.rename up r v' = some w' ∧ VariantThin inside w w' := by
  unfold Variant.rename at hw ⊢
  rw [h.attrs]
  cases hn : v.attrs.name.renameAsVariant up r with
  | none => rw [hn] at hw; cases hw
  | some n =>
    rw [hn] at hw
    simp only at hw ⊢
    cases hf : mapPanic (Field.rename v.attrs.renameRule) v.fields with
    | none => rw [hf] at hw; cases hw
    | some fs =>
      rw [hf] at hw
      cases hw
      rcases h.fields with e | ⟨hi, hs, ht⟩
      · rw [e, hf]
        exact ⟨_, rfl, h.ident, rfl, h.style, h.discriminant, .inl rfl⟩
      · obtain ⟨gs', h1, h2⟩ := rename_fields_thinned ht hf
        rw [h1]
        exact ⟨_, rfl, h.ident, rfl, h.style, h.discriminant, .inr ⟨hi, hs, h2⟩⟩

theorem rename_shown {up r} {v w : Variant τ} (hw : Variant.rename up r v = some w) : w.shown = v.shown := by
  unfold Variant.rename at hw
  cases hn : v.attrs.name.renameAsVariant up r with
  | none => rw [hn] at hw; cases hw
  | some n =>
    rw [hn] at hw
    simp only at hw
    cases hf : mapPanic (Field.rename v.attrs.renameRule) v.fields with
    | none => rw [hf] at hw; cases hw
    | some fs => rw [hf] at hw; cases hw; rfl

/-- The declarations generate the same code. -/
structure Container.Thin (inside : Bool) (c c' : Container τ) : Prop where
  ident : c'.ident = c.ident
  attrs : c'.attrs = { c.attrs with hasFlatten := c'.attrs.hasFlatten }
  data : (∃ fs fs', c.data = .struct .struct fs ∧ c'.data = .struct .struct fs' ∧ FieldsThinned fs fs') ∨
    (∃ vs vs', c.data = .enum vs ∧ c'.data = .enum vs' ∧ Thinned Variant.shown (VariantThin inside) vs vs') ∨
    c'.data = c.data

/-! ## Parsing -/

theorem VariantsWithout.mem {inside : Bool} {vs vs' : List (SynVariant τ)} (h : VariantsWithout o inside vs vs') :
    ∀ v' ∈ vs', ∃ v ∈ vs, v'.discriminant = v.discriminant ∧ (v.fields = .unit → v'.fields = .unit) := by
  induction h with
  | nil => intro _ h; cases h
  | @keep v fs' vs vs' hf _ ih =>
    intro w hw
    rcases List.mem_cons.1 hw with rfl | hw
    · refine ⟨v, List.mem_cons_self, rfl, fun hu => ?_⟩
      obtain ⟨ident, attrs, fields, disc⟩ := v
      simp only at hu hf
      subst hu
      cases hf
      rfl
    · obtain ⟨v, h1, h2⟩ := ih w hw
      exact ⟨v, List.mem_cons_of_mem _ h1, h2⟩
  | drop _ _ ih =>
    intro w hw
    obtain ⟨v, h1, h2⟩ := ih w hw
    exact ⟨v, List.mem_cons_of_mem _ h1, h2⟩

theorem consistentAll_iff {vs : List (SynVariant τ)} : consistentDiscriminants vs = true ↔
    ∀ v ∈ vs, ∀ w ∈ vs, w.discriminant.isSome = v.discriminant.isSome := by
  cases vs with
  | nil => simp [consistentDiscriminants]
  | cons v vs =>
    simp only [consistentDiscriminants, List.all_eq_true, beq_iff_eq]
    constructor
    · intro h
      have key : ∀ w ∈ v :: vs, w.discriminant.isSome = v.discriminant.isSome := by
        intro w hw
        rcases List.mem_cons.1 hw with rfl | hw
        · rfl
        · exact h w hw
      intro a ha b hb
      rw [key a ha, key b hb]
    · intro h w hw
      exact h v List.mem_cons_self w (List.mem_cons_of_mem _ hw)

theorem units_all {vs : List (SynVariant τ)} : (vs.all fun v => v.fields.isUnit) = true ↔ UnitsOnly vs := by
  simp only [List.all_eq_true, UnitsOnly]
  refine forall_congr' fun v => imp_congr_right fun _ => ?_
  cases v.fields <;> simp [SynFields.isUnit]

theorem containerFromAst_thin {inside : Bool} {item item' : DeriveInput τ} (h : ItemWithout o inside item item') {c : Container τ}
    (hc : containerFromAst o item = some (some c, [])) :
    ∃ c', containerFromAst o item' = some (some c', []) ∧ c.Thin inside c' := by
  obtain ⟨ident0, attrs0, data⟩ := item
  obtain ⟨ident, attrs, data'⟩ := item'
  obtain ⟨h1, h2, h3⟩ := h
  simp only at h1 h2 h3
  subst h1 h2
  cases h3 with
  | same => exact ⟨c, hc, rfl, rfl, .inr (.inr rfl)⟩
  | @struct fs fs' hf =>
    have ha : containerAttrsFromAst o ⟨ident, attrs, .struct (.named fs')⟩ = containerAttrsFromAst o ⟨ident, attrs, .struct (.named fs)⟩ := rfl
    unfold containerFromAst at hc ⊢
    rw [ha]
    generalize containerAttrsFromAst o ⟨ident, attrs, SynData.struct (SynFields.named fs)⟩ = p at hc ⊢
    obtain ⟨a, errs⟩ := p
    simp only [structFromAst] at hc ⊢
    cases hm : mapPanic (Field.rename a.renameRule) (fieldsFromAst o 0 fs).1 with
    | none => rw [hm] at hc; cases hc
    | some gs =>
      rw [hm] at hc
      simp only [Option.some.injEq, Prod.mk.injEq] at hc
      obtain ⟨rfl, he⟩ := hc
      obtain ⟨e1, e2⟩ := List.append_eq_nil_iff.1 he
      obtain ⟨k1, k2⟩ := fieldsFromAst_thinned hf (i := 0) (j := 0) e2
      obtain ⟨gs', k3, k4⟩ := rename_fields_thinned k2 hm
      rw [k3]
      simp only [e1, k1]
      exact ⟨_, rfl, rfl, rfl, .inl ⟨_, _, rfl, rfl, k4⟩⟩
  | @enum vs vs' hv hs =>
    have hu : (vs'.all fun v => v.fields.isUnit) = (vs.all fun v => v.fields.isUnit) := by
      rw [Bool.eq_iff_iff, units_all, units_all]
      refine ⟨hs, fun hu v hv' => ?_⟩
      obtain ⟨w, hw, -, he⟩ := hv.mem v hv'
      exact he (hu w hw)
    have ha : containerAttrsFromAst o ⟨ident, attrs, .enum vs'⟩ = containerAttrsFromAst o ⟨ident, attrs, .enum vs⟩ := by
      have hm : ∀ t, decideModelType (SynData.enum vs') t = decideModelType (SynData.enum vs) t := by
        intro t; unfold decideModelType; simp only [hu]
      simp only [containerAttrsFromAst, hm]
      rfl
    unfold containerFromAst at hc ⊢
    rw [ha]
    generalize containerAttrsFromAst o ⟨ident, attrs, SynData.enum vs⟩ = p at hc ⊢
    obtain ⟨a, errs⟩ := p
    simp only at hc ⊢
    cases hd : consistentDiscriminants vs with
    | false => rw [hd] at hc; cases hc
    | true =>
      have hd' : consistentDiscriminants vs' = true := by
        rw [consistentAll_iff] at hd ⊢
        intro v hv1 w hw1
        obtain ⟨v0, hv0, e1, -⟩ := hv.mem v hv1
        obtain ⟨w0, hw0, e2, -⟩ := hv.mem w hw1
        rw [e1, e2]
        exact hd v0 hv0 w0 hw0
      rw [hd] at hc
      rw [hd']
      simp only [if_true] at hc ⊢
      cases hm : mapPanic (Variant.rename o.isUpper a.renameRule) (variantsFromAst o vs).1 with
      | none => rw [hm] at hc; cases hc
      | some ws =>
        rw [hm] at hc
        simp only [Option.some.injEq, Prod.mk.injEq] at hc
        obtain ⟨rfl, he⟩ := hc
        obtain ⟨e1, e2⟩ := List.append_eq_nil_iff.1 he
        obtain ⟨k1, k2⟩ := variantsFromAst_thinned hv e2
        obtain ⟨ws', k3, k4⟩ := mapPanic_thinned (fun _ _ => rename_shown) (fun _ _ _ => rename_variant_thin) k2 hm
        rw [k3]
        simp only [e1, k1]
        exact ⟨_, rfl, rfl, rfl, .inr (.inl ⟨_, _, rfl, rfl, k4⟩)⟩

/-! ## Generated code -/

theorem object_thin {fs fs' : List (Field τ)} (h : FieldsThinned fs fs') (p : Field τ → Bool) :
    objectTypeDescription fs' p = objectTypeDescription fs p := by
  unfold objectTypeDescription
  rw [show fs'.filter (fun f => !f.attrs.skipSerializing) = fs.filter (fun f => !f.attrs.skipSerializing) from h.filter_eq.symm]

theorem mapExcept_pointwise {ε α β : Type} {f g : α → Except ε β} {R : α → α → Prop} (hR : ∀ a b, R a b → g b = f a) {as bs : List α}
    (h : Pointwise R as bs) : mapExcept g bs = mapExcept f as := by
  induction h with
  | nil => rfl
  | cons h _ ih => rw [mapExcept, mapExcept, hR _ _ h, ih]

variable {inside : Bool} {v v' : Variant τ}

theorem VariantThin.eq_or (h : VariantThin inside v v') : v' = v ∨ inside = true ∧ v.style = .struct ∧ v'.style = .struct ∧
    v'.attrs = v.attrs ∧ FieldsThinned v.fields v'.fields := by
  rcases h.fields with e | ⟨h1, h2, h3⟩
  · left
    obtain ⟨i, a, s, fs, d⟩ := v
    obtain ⟨i', a', s', fs', d'⟩ := v'
    obtain ⟨rfl, rfl, rfl, rfl, -⟩ := h
    simp only at e
    subst e
    rfl
  · exact .inr ⟨h1, h2, h.style.trans h2, h.attrs, h3⟩

theorem untagged_thin (h : VariantThin inside v v') : untaggedAlternative v' = untaggedAlternative v := by
  rcases h.eq_or with rfl | ⟨-, h1, h2, h3, h4⟩
  · rfl
  · unfold untaggedAlternative objectModel
    rw [h1, h2, h3]
    simp only [object_thin h4]

theorem external_thin (h : VariantThin inside v v') : externalAlternative v' = externalAlternative v := by
  rcases h.eq_or with rfl | ⟨-, h1, h2, h3, h4⟩
  · rfl
  · unfold externalAlternative objectModel
    rw [h1, h2, h3]
    simp only [object_thin h4]

theorem internal_thin (h : VariantThin inside v v') (c : Container τ) (tag : String) :
    internalAlternative c tag v' = internalAlternative c tag v := by
  rcases h.eq_or with rfl | ⟨-, h1, h2, h3, h4⟩
  · rfl
  · unfold internalAlternative internalInner objectModel
    rw [h1, h2, h3]
    simp only [object_thin h4]

theorem adjacent_thin (h : VariantThin false v v') : adjacentAlternative v' = adjacentAlternative v := by
  rcases h.eq_or with rfl | ⟨h, -⟩
  · rfl
  · cases h

theorem repr_thin {inside : Bool} {vs vs' : List (Variant τ)} (h : Pointwise (VariantThin inside) vs vs') :
    vs'.filterMap reprAlternative = vs.filterMap reprAlternative := by
  induction h with
  | nil => rfl
  | cons h _ ih =>
    simp only [List.filterMap_cons, ih, reprAlternative, h.attrs, h.discriminant]

theorem names_thin {inside : Bool} {vs vs' : List (Variant τ)} (h : Pointwise (VariantThin inside) vs vs') :
    (vs'.map fun v => v.attrs.name.serialized) = vs.map fun v => v.attrs.name.serialized := by
  induction h with
  | nil => rfl
  | cons h _ ih => simp only [List.map_cons, ih, h.attrs]

theorem serializeBody_thin {inside : Bool} {c c' : Container τ} (h : c.Thin inside c')
    (adj : inside = true → ∀ tag content, c.attrs.tagType ≠ .adjacent tag content) : serializeBody c' = serializeBody c := by
  obtain ⟨id', a', d'⟩ := c'
  obtain ⟨id, a, d⟩ := c
  obtain ⟨h1, h2, h3⟩ := h
  simp only at h1 h2 h3 adj
  subst h1
  rw [h2]
  rcases h3 with ⟨fs, fs', rfl, rfl, hf⟩ | ⟨vs, vs', rfl, rfl, hv⟩ | rfl
  · simp only [serializeBody, serializeStruct, object_thin hf]
  · have hp : Pointwise (VariantThin inside) (serialVariants vs) (serialVariants vs') :=
      hv.filter (fun v v' h => by simp [Variant.shown, h.attrs])
    simp only [serializeBody, serializeEnum]
    cases hm : a.modelType <;> cases ht : a.tagType <;> simp only []
    all_goals first
      | (simp only [serializeNewtypeEnum, repr_thin hp, names_thin hp]; done)
      | (simp only [serializeExternalEnum, mapExcept_pointwise (R := VariantThin inside) (fun _ _ h => external_thin h) hp]; done)
      | (simp only [serializeUntaggedEnum, mapExcept_pointwise (R := VariantThin inside) (fun _ _ h => untagged_thin h) hp]; done)
      | skip
    · rename_i tag content
      cases inside with
      | true => exact absurd ht (adj rfl _ _)
      | false => simp only [serializeAdjacentEnum, mapExcept_pointwise (R := VariantThin false) (fun _ _ h => adjacent_thin h) hp, names_thin hp]
    · simp only [serializeInternalEnum]
      rw [mapExcept_pointwise (R := VariantThin inside) (fun _ _ h => internal_thin h _ _) hp]
      rfl
  · rfl

theorem derive_thin {inside : Bool} {item item' : DeriveInput τ} (h : ItemWithout o inside item item') {c : Container τ} {body}
    (hc : derive o item = .code c body) (adj : inside = true → ∀ tag content, c.attrs.tagType ≠ .adjacent tag content) :
    ∃ c', derive o item' = .code c' body ∧ c'.typeName = c.typeName ∧ c'.ident = c.ident := by
  obtain ⟨h1, h2⟩ := derive_code hc
  obtain ⟨c', h3, h4⟩ := containerFromAst_thin h h1
  refine ⟨c', ?_, ?_, h4.ident⟩
  · unfold derive
    rw [h3]
    simp only [List.isEmpty_nil, if_true]
    rw [serializeBody_thin h4 adj, h2]
  · unfold Container.typeName
    rw [h4.ident, h4.attrs]

/-- Programs whose types have the same name and generated code. -/
theorem agree_of_code {env env' : Env} (exprs : env'.evalExpr = env.evalExpr)
    (h : ∀ i, (env'.decl i).typeName = (env.decl i).typeName ∧ serializeBody (env'.decl i) = serializeBody (env.decl i)) :
    Agree (fun _ => True) env env' where
  expr t _ := by
    cases t with
    | named i => simp only [schemaExpr, (h i).2]
    | _ => rfl
  name t _ := typeName_same (P := fun _ => True) (fun _ _ _ => trivial) (fun _ _ => trivial) (fun i _ => (h i).1) t trivial
  inline t _ := by
    cases t with
    | named i =>
      have := (h i).1
      unfold Container.typeName at this
      simp only [alwaysInline]
      cases h1 : (env'.decl i).attrs.inline <;> cases h2 : (env.decl i).attrs.inline <;> simp [h1, h2] at this ⊢
    | _ => rfl
  closed _ _ _ _ _ := trivial
  eval := exprs

end Verif
