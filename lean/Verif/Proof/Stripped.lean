import Verif.Spec.Stripped
import Verif.Proof.Texts
import Verif.Proof.Attrs
import Verif.Proof.Derive
import Verif.Proof.Generic
/-!
# Items without descriptions, formats and examples
-/

namespace Verif

/-- The variables that hold texts. -/
def AttrKey.isText : AttrKey → Bool
  | .description | .format | .ex => true
  | _ => false

/-- The variables without texts. -/
def Acc.textless (a : Acc) : Acc := { a with vals := fun k => if k.isText then none else a.vals k }

/-- Actions without some that set texts. -/
inductive Dropped : List Action → List Action → Prop where
  | nil : Dropped [] []
  | keep {a as bs} : (∀ k v, a = .set k v → k.isText = false) → Dropped as bs → Dropped (a :: as) (a :: bs)
  | drop {a as bs} : (a = .nothing ∨ (∃ k v, a = .set k v ∧ k.isText = true) ∨ ∃ e, a = .error e) → Dropped as bs → Dropped (a :: as) bs

theorem Dropped.append {as bs as' bs' : List Action} (h : Dropped as bs) (h' : Dropped as' bs') : Dropped (as ++ as') (bs ++ bs') := by
  induction h with
  | nil => exact h'
  | keep ha _ ih => exact .keep ha ih
  | drop ha _ ih => exact .drop ha ih

theorem textless_step (acc : Acc) (a : Action) (h : ∀ k v, a = .set k v → k.isText = false) :
    (acc.step a).textless = acc.textless.step a := by
  cases a with
  | set k v =>
    have hk := h k v rfl
    have e : acc.textless.vals k = acc.vals k := by simp [Acc.textless, hk]
    unfold Acc.step
    simp only
    rw [e]
    cases hv : acc.vals k with
    | some w => rfl
    | none =>
      simp only [Acc.textless, Acc.mk.injEq, and_self, and_true]
      funext k'
      by_cases hk' : k' = k
      · subst hk'; simp [hk]
      · simp [hk']
  | flag t => rfl
  | error e => rfl
  | nothing => rfl

theorem textless_drop (acc : Acc) (a : Action)
    (h : a = .nothing ∨ (∃ k v, a = .set k v ∧ k.isText = true) ∨ ∃ e, a = .error e) (he : (acc.step a).errs = []) :
    (acc.step a).textless = acc.textless := by
  rcases h with rfl | ⟨k, v, rfl, hk⟩ | ⟨e, rfl⟩
  · rfl
  · unfold Acc.step at he ⊢
    simp only at he ⊢
    cases hv : acc.vals k with
    | some w => rw [hv] at he; simp at he
    | none =>
      simp only [Acc.textless, Acc.mk.injEq, and_self, and_true]
      funext k'
      by_cases hk' : k' = k
      · subst hk'; simp [hk]
      · simp [hk']
  · simp [Acc.step] at he

theorem dropped_run {as bs : List Action} (h : Dropped as bs) : ∀ acc : Acc, (as.foldl Acc.step acc).errs = [] →
    bs.foldl Acc.step acc.textless = (as.foldl Acc.step acc).textless := by
  induction h with
  | nil => intro _ _; rfl
  | keep ha _ ih =>
    intro acc he
    rw [List.foldl_cons, List.foldl_cons, ← textless_step _ _ ha]
    exact ih _ he
  | @drop a as bs ha _ ih =>
    intro acc he
    rw [List.foldl_cons]
    rw [List.foldl_cons] at he
    rw [← ih _ he, textless_drop acc a ha]
    obtain ⟨es, hes⟩ := foldl_errs_mono as (acc.step a)
    rw [hes] at he
    exact (List.append_eq_nil_iff.1 he).1

/-- Text items set texts, and no other do. -/
structure TextActions (act : AttrFrom → NestedMeta → Action) : Prop where
  text : ∀ m, m.isText = true →
    act .opg m = .nothing ∨ (∃ k v, act .opg m = .set k v ∧ k.isText = true) ∨ ∃ e, act .opg m = .error e
  other : ∀ src m, (src = .opg → m.isText = false) → ∀ k v, act src m = .set k v → k.isText = false

variable {o : Oracle}

theorem actDescription_text (l : Lit) : actDescription l = .nothing ∨ (∃ k v, actDescription l = .set k v ∧ k.isText = true) ∨
    ∃ e, actDescription l = .error e := by
  cases l with
  | str s => exact .inr (.inl ⟨_, _, rfl, rfl⟩)
  | other => exact .inl rfl

theorem actOpgNameValue_text (p : String) (l : Lit) : actOpgNameValue o p l = .nothing ∨
    (∃ k v, actOpgNameValue o p l = .set k v ∧ k.isText = true) ∨ ∃ e, actOpgNameValue o p l = .error e := by
  unfold actOpgNameValue
  repeat' split
  all_goals first
    | exact .inr (.inl ⟨_, _, rfl, rfl⟩)
    | exact .inr (.inr ⟨_, rfl⟩)

theorem actOpgNameValue_other {p : String} {l : Lit} (hp : NestedMeta.isText (.item (.nameValue p l)) = false) :
    ∃ e, actOpgNameValue o p l = .error e := by
  simp only [NestedMeta.isText, Bool.or_eq_false_iff, beq_eq_false_iff_ne] at hp
  unfold actOpgNameValue
  rw [if_neg hp.1.1, if_neg hp.1.2, if_neg hp.2]
  exact ⟨_, rfl⟩

theorem actOpgWord_set {p : String} {k : AttrKey} {v : AVal} : actOpgWord p ≠ .set k v := by
  unfold actOpgWord
  split <;> simp

theorem actRename_set {m : Meta} {k : AttrKey} {v : AVal} (h : actRename m = .set k v) : k = .rename := by
  unfold actRename at h
  repeat' split at h
  all_goals first | (cases h; rfl) | cases h

theorem actRenameAll_set {m : Meta} {k : AttrKey} {v : AVal} (h : actRenameAll m = .set k v) : k = .renameAll := by
  unfold actRenameAll at h
  repeat' split at h
  all_goals first | (cases h; rfl) | cases h

theorem fieldAction_texts : TextActions (fieldAction o) where
  text m hm := by
    cases m with
    | lit l => exact actDescription_text l
    | item m =>
      cases m with
      | nameValue p l => exact actOpgNameValue_text p l
      | path p => cases hm
      | list p l => cases hm
  other src m hm k v h := by
    unfold fieldAction at h
    split at h
    all_goals first
      | (obtain ⟨e, he⟩ := actOpgNameValue_other (o := o) (hm rfl); rw [he] at h; cases h; done)
      | (have := hm rfl; cases this; done)
      | skip
    all_goals (repeat' split at h)
    all_goals first
      | (cases h; rfl)
      | (cases actRename_set h; rfl)
      | (exact absurd h actOpgWord_set)
      | cases h

theorem variantAction_texts : TextActions (variantAction o) where
  text m hm := by
    cases m with
    | lit l => exact actDescription_text l
    | item m =>
      cases m with
      | nameValue p l => exact actOpgNameValue_text p l
      | path p => cases hm
      | list p l => cases hm
  other src m hm k v h := by
    unfold variantAction at h
    split at h
    all_goals first
      | (obtain ⟨e, he⟩ := actOpgNameValue_other (o := o) (hm rfl); rw [he] at h; cases h; done)
      | (have := hm rfl; cases this; done)
      | skip
    all_goals (repeat' split at h)
    all_goals first
      | (cases h; rfl)
      | (cases actRename_set h; rfl)
      | (cases actRenameAll_set h; rfl)
      | (exact absurd h actOpgWord_set)
      | cases h

theorem containerAction_texts (kind : DataKind) : TextActions (containerAction o kind) where
  text m hm := by
    cases m with
    | lit l => exact actDescription_text l
    | item m =>
      cases m with
      | nameValue p l => exact actOpgNameValue_text p l
      | path p => cases hm
      | list p l => cases hm
  other src m hm k v h := by
    unfold containerAction at h
    split at h
    all_goals first
      | (obtain ⟨e, he⟩ := actOpgNameValue_other (o := o) (hm rfl); rw [he] at h; cases h; done)
      | (have := hm rfl; cases this; done)
      | skip
    all_goals (repeat' split at h)
    all_goals first
      | (cases h; rfl)
      | (cases actRename_set h; rfl)
      | (cases actRenameAll_set h; rfl)
      | (exact absurd h actOpgWord_set)
      | cases h

variable {act : AttrFrom → NestedMeta → Action}

theorem dropped_map (H : TextActions act) (ms : List NestedMeta) :
    Dropped (ms.map fun m => act .opg m) ((ms.filter fun m => !m.isText).map fun m => act .opg m) := by
  induction ms with
  | nil => exact .nil
  | cons m ms ih =>
    cases hm : m.isText with
    | true =>
      rw [List.filter_cons_of_neg (by simp [hm])]
      exact .drop (H.text m hm) ih
    | false =>
      rw [List.filter_cons_of_pos (by simp [hm])]
      exact .keep (H.other .opg m fun _ => hm) ih

theorem dropped_same (as : List Action) (h : ∀ a ∈ as, ∀ k v, a = .set k v → k.isText = false) : Dropped as as := by
  induction as with
  | nil => exact .nil
  | cons a as ih => exact .keep (h a (List.mem_cons_self ..)) (ih fun b hb => h b (List.mem_cons_of_mem _ hb))

theorem dropped_attr (H : TextActions act) (a : Attribute) : Dropped (attrActions act a) (attrActions act a.stripped) := by
  obtain ⟨path, parsed⟩ := a
  by_cases hp : path = "opg"
  · subst hp
    cases parsed with
    | list ms =>
      have e : ∀ l, attrActions act ⟨"opg", .list l⟩ = l.map fun m => act .opg m := by
        intro l
        simp [attrActions, getMetaItems, attrFrom, Function.comp_def]
      have e' : Attribute.stripped ⟨"opg", .list ms⟩ = ⟨"opg", .list (ms.filter fun m => !m.isText)⟩ := by
        simp [Attribute.stripped]
      rw [e', e, e]
      exact dropped_map H ms
    | other => exact .keep (fun _ _ h => by cases h) .nil
    | synErr => exact .keep (fun _ _ h => by cases h) .nil
  · have e : Attribute.stripped ⟨path, parsed⟩ = ⟨path, parsed⟩ := by simp [Attribute.stripped, hp]
    rw [e]
    refine dropped_same _ fun b hb k v hv => ?_
    unfold attrActions getMetaItems at hb
    cases hs : attrFrom path with
    | none =>
      simp [hs] at hb
    | some src =>
      have hne : src ≠ .opg := by
        rintro rfl
        unfold attrFrom at hs
        rw [if_neg hp] at hs
        split at hs
        · cases hs
        · split at hs <;> cases hs
      cases parsed with
      | list ms =>
        simp only [hs, List.map_map, List.mem_map] at hb
        obtain ⟨m, -, rfl⟩ := hb
        exact H.other src m (fun h => absurd h hne) k v hv
      | other => simp [hs] at hb; rw [hb] at hv; cases hv
      | synErr => simp [hs] at hb; rw [hb] at hv; cases hv

theorem dropped_attrs (H : TextActions act) (attrs : List Attribute) :
    Dropped (attrs.flatMap (attrActions act)) ((attrs.map Attribute.stripped).flatMap (attrActions act)) := by
  induction attrs with
  | nil => exact .nil
  | cons a as ih =>
    rw [List.map_cons, List.flatMap_cons, List.flatMap_cons]
    exact (dropped_attr H a).append ih

theorem runAttrs_stripped (H : TextActions act) {attrs : List Attribute} (he : (runAttrs act attrs).errs = []) :
    runAttrs act (attrs.map Attribute.stripped) = (runAttrs act attrs).textless := by
  have e : Acc.init.textless = Acc.init := by simp [Acc.textless, Acc.init]
  have h := dropped_run (dropped_attrs H attrs) Acc.init he
  rw [e] at h
  exact h

theorem fieldAttrs_stripped {i : Nat} {id : Option String} {attrs : List Attribute} {a : FieldAttrs}
    (h : fieldAttrsFromAst o i id attrs = (a, [])) :
    fieldAttrsFromAst o i id (attrs.map Attribute.stripped) = ({ a with description := none, format := none, ex := none }, []) := by
  unfold fieldAttrsFromAst at h ⊢
  simp only [Prod.mk.injEq, List.append_eq_nil_iff] at h
  obtain ⟨ha, he, hf⟩ := h
  rw [runAttrs_stripped fieldAction_texts he]
  subst ha
  simp only [Prod.mk.injEq, List.append_eq_nil_iff]
  exact ⟨rfl, he, hf⟩

theorem variantAttrs_stripped {id : String} {attrs : List Attribute} {a : VariantAttrs}
    (h : variantAttrsFromAst o id attrs = (a, [])) :
    variantAttrsFromAst o id (attrs.map Attribute.stripped) = ({ a with description := none, format := none, ex := none }, []) := by
  unfold variantAttrsFromAst at h ⊢
  simp only [Prod.mk.injEq, List.append_eq_nil_iff] at h
  obtain ⟨ha, he, hf⟩ := h
  rw [runAttrs_stripped variantAction_texts he]
  subst ha
  simp only [Prod.mk.injEq, List.append_eq_nil_iff]
  exact ⟨rfl, he, hf⟩

theorem kind_stripped (d : SynData Ty) : d.stripped.kind = d.kind := by
  cases d with
  | enum vs => rfl
  | union => rfl
  | struct fs => cases fs <;> rfl

theorem decideModelType_stripped (d : SynData Ty) (t : TagType) : decideModelType d.stripped t = decideModelType d t := by
  cases d with
  | enum vs =>
    unfold decideModelType SynData.stripped
    have e : ∀ vs : List (SynVariant Ty), (vs.map SynVariant.stripped).all (fun v => v.fields.isUnit) = vs.all fun v => v.fields.isUnit := by
      intro vs
      rw [List.all_map]
      congr 1
      funext v
      obtain ⟨_, _, fs, _⟩ := v
      cases fs <;> rfl
    simp only [e]
  | union => rfl
  | struct fs => cases fs <;> rfl

theorem containerAttrs_stripped {i : DeriveInput Ty} {a : ContainerAttrs} (h : containerAttrsFromAst o i = (a, [])) :
    containerAttrsFromAst o i.stripped = ({ a with description := none, format := none, ex := none }, []) := by
  unfold containerAttrsFromAst at h ⊢
  simp only [Prod.mk.injEq, List.append_eq_nil_iff] at h
  obtain ⟨ha, ⟨he, hf⟩, hm⟩ := h
  have e1 : i.stripped.data = i.data.stripped := rfl
  have e2 : i.stripped.attrs = i.attrs.map Attribute.stripped := rfl
  simp only [e1, e2, kind_stripped, decideModelType_stripped]
  rw [runAttrs_stripped (containerAction_texts _) he]
  subst ha
  simp only [Prod.mk.injEq, List.append_eq_nil_iff]
  exact ⟨rfl, ⟨he, hf⟩, hm⟩

theorem fields_stripped : ∀ {i : Nat} {fs : List (SynField Ty)} {gs : List (Field Ty)}, fieldsFromAst o i fs = (gs, []) →
    fieldsFromAst o i (fs.map SynField.stripped) = (gs.map Field.wordless, [])
  | i, [], gs, h => by cases h; rfl
  | i, f :: fs, gs, h => by
    simp only [fieldsFromAst, Prod.mk.injEq, List.append_eq_nil_iff] at h
    obtain ⟨hg, h1, h2⟩ := h
    have e1 := fieldAttrs_stripped (o := o) (i := i) (id := f.ident) (attrs := f.attrs) (Prod.ext rfl h1)
    have e2 := fields_stripped (i := i + 1) (fs := fs) (Prod.ext rfl h2)
    subst hg
    simp only [List.map_cons, fieldsFromAst, SynField.stripped, e1, e2]
    rfl

theorem struct_stripped {fs : SynFields Ty} {style : StructStyle} {gs : List (Field Ty)}
    (h : structFromAst o fs = ((style, gs), [])) : structFromAst o fs.stripped = ((style, gs.map Field.wordless), []) := by
  cases fs with
  | named fs =>
    simp only [structFromAst, Prod.mk.injEq] at h
    obtain ⟨⟨rfl, hg⟩, he⟩ := h
    simp only [structFromAst, SynFields.stripped, fields_stripped (Prod.ext hg he)]
  | unnamed fs =>
    simp only [structFromAst, Prod.mk.injEq] at h
    obtain ⟨⟨rfl, hg⟩, he⟩ := h
    simp only [structFromAst, SynFields.stripped, fields_stripped (Prod.ext hg he), List.length_map]
  | unit => cases h; rfl

theorem variant_stripped {v : SynVariant Ty} {w : Variant Ty} (h : variantFromAst o v = (w, [])) :
    variantFromAst o v.stripped = (w.wordless, []) := by
  simp only [variantFromAst, Prod.mk.injEq, List.append_eq_nil_iff] at h
  obtain ⟨hw, h1, h2⟩ := h
  have e1 := variantAttrs_stripped (o := o) (id := v.ident) (attrs := v.attrs) (Prod.ext rfl h1)
  have e2 := struct_stripped (o := o) (fs := v.fields) (Prod.ext (Prod.ext rfl rfl) h2)
  subst hw
  simp only [variantFromAst, SynVariant.stripped, e1, e2]
  rfl

theorem variants_stripped : ∀ {vs : List (SynVariant Ty)} {ws : List (Variant Ty)}, variantsFromAst o vs = (ws, []) →
    variantsFromAst o (vs.map SynVariant.stripped) = (ws.map Variant.wordless, [])
  | [], ws, h => by cases h; rfl
  | v :: vs, ws, h => by
    simp only [variantsFromAst, Prod.mk.injEq, List.append_eq_nil_iff] at h
    obtain ⟨hw, h1, h2⟩ := h
    have e1 := variant_stripped (o := o) (v := v) (Prod.ext rfl h1)
    have e2 := variants_stripped (vs := vs) (Prod.ext rfl h2)
    subst hw
    simp only [List.map_cons, variantsFromAst, e1, e2]
    rfl

theorem consistent_stripped (vs : List (SynVariant Ty)) :
    consistentDiscriminants (vs.map SynVariant.stripped) = consistentDiscriminants vs := by
  cases vs with
  | nil => rfl
  | cons v vs =>
    simp only [List.map_cons, consistentDiscriminants, List.all_map]
    rfl

theorem Field.rename_wordless (r : RenameRule) (f : Field Ty) : f.wordless.rename r = (f.rename r).map Field.wordless := by
  unfold Field.rename
  show Option.map _ (f.attrs.name.renameAsField r) = _
  cases f.attrs.name.renameAsField r <;> rfl

theorem Variant.rename_wordless (up : Char → Bool) (r : RenameRule) (v : Variant Ty) :
    v.wordless.rename up r = (v.rename up r).map Variant.wordless := by
  unfold Variant.rename
  have e1 : v.wordless.attrs.name = v.attrs.name := rfl
  have e2 : v.wordless.attrs.renameRule = v.attrs.renameRule := rfl
  have e3 : v.wordless.fields = v.fields.map Field.wordless := rfl
  rw [e1, e2, e3, mapPanic_map (fun x => Field.rename_wordless _ x)]
  cases v.attrs.name.renameAsVariant up r with
  | none => rfl
  | some n => cases mapPanic (Field.rename v.attrs.renameRule) v.fields <;> rfl

theorem container_stripped {i : DeriveInput Ty} {c : Container Ty} (h : containerFromAst o i = some (some c, [])) :
    containerFromAst o i.stripped = some (some c.wordless, []) := by
  unfold containerFromAst at h
  simp only at h
  have main : ∀ a, (containerAttrsFromAst o i).2 = [] → (containerAttrsFromAst o i).1 = a →
      containerAttrsFromAst o i.stripped = ({ a with description := none, format := none, ex := none }, []) :=
    fun a h1 h2 => containerAttrs_stripped (Prod.ext h2 h1)
  unfold containerFromAst
  obtain ⟨id, attrs, data⟩ := i
  cases data with
  | union => simp at h
  | enum vs =>
    simp only at h
    split at h
    · rename_i hc
      cases hm : mapPanic (Variant.rename o.isUpper (containerAttrsFromAst o ⟨id, attrs, .enum vs⟩).1.renameRule) (variantsFromAst o vs).1 with
      | none => rw [hm] at h; cases h
      | some ws =>
        rw [hm] at h
        simp only [Option.some.injEq, Prod.mk.injEq, List.append_eq_nil_iff] at h
        obtain ⟨rfl, h1, h2⟩ := h
        have e1 := main _ h1 rfl
        have e2 := variants_stripped (o := o) (vs := vs) (Prod.ext rfl h2)
        simp only [e1]
        simp only [DeriveInput.stripped, SynData.stripped, consistent_stripped, hc, if_true, e2]
        rw [mapPanic_map (fun x => Variant.rename_wordless _ _ x), hm]
        simp only [Option.map_some, Container.wordless, Data.wordless, List.any_map, Option.some.injEq, Prod.mk.injEq, and_true,
          List.append_nil, Container.mk.injEq, true_and, ContainerAttrs.mk.injEq]
        simp only [Function.comp_def, Variant.wordless, List.any_map, Field.wordless]
    · simp at h
  | struct fs =>
    simp only at h
    cases hm : mapPanic (Field.rename (containerAttrsFromAst o ⟨id, attrs, .struct fs⟩).1.renameRule) (structFromAst o fs).1.2 with
    | none => rw [hm] at h; cases h
    | some ws =>
      rw [hm] at h
      simp only [Option.some.injEq, Prod.mk.injEq, List.append_eq_nil_iff] at h
      obtain ⟨rfl, h1, h2⟩ := h
      have e1 := main _ h1 rfl
      have e2 := struct_stripped (o := o) (fs := fs) (Prod.ext (Prod.ext rfl rfl) h2)
      simp only [e1]
      simp only [DeriveInput.stripped, SynData.stripped, e2]
      rw [mapPanic_map (fun x => Field.rename_wordless _ x), hm]
      simp only [Option.map_some, Container.wordless, Data.wordless, List.any_map, Option.some.injEq, Prod.mk.injEq, and_true,
        List.append_nil, Container.mk.injEq, true_and, ContainerAttrs.mk.injEq]
      simp only [Function.comp_def, Field.wordless]

theorem derive_stripped {i : DeriveInput Ty} {c : Container Ty} {b : ModelExpr Ty} (h : derive o i = .code c b) :
    ∃ b', derive o i.stripped = .code c.wordless b' := by
  obtain ⟨h1, h2⟩ := derive_code h
  have e := container_stripped h1
  have hb := body_words c
  rw [h2] at hb
  cases hs : serializeBody c.wordless with
  | error p => rw [hs] at hb; cases hb
  | ok b' =>
    refine ⟨b', ?_⟩
    unfold derive
    rw [e]
    simp [hs]

end Verif
