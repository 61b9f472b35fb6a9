import Verif.Model.Generic
/-!
# Deriving commutes with instantiation
-/

namespace Verif

variable {τ σ : Type} {o : Oracle}

theorem RefExpr.mapList_eq (f : τ → σ) : ∀ rs : List (RefExpr τ), RefExpr.mapList f rs = rs.map (RefExpr.map f)
  | [] => rfl
  | r :: rs => by rw [RefExpr.mapList, RefExpr.mapList_eq f rs]; rfl

theorem SynFields.isUnit_map (f : τ → σ) (fs : SynFields τ) : (fs.map f).isUnit = fs.isUnit := by cases fs <;> rfl

theorem SynData.kind_map (f : τ → σ) (d : SynData τ) : (d.map f).kind = d.kind := by
  cases d with
  | struct fs => cases fs <;> rfl
  | _ => rfl

theorem decideModelType_map (f : τ → σ) (d : SynData τ) (t : TagType) : decideModelType (d.map f) t = decideModelType d t := by
  cases d with
  | enum vs =>
    have h : (vs.map (SynVariant.map f)).all (fun v => v.fields.isUnit) = vs.all fun v => v.fields.isUnit := by
      rw [List.all_map]
      congr 1
      funext v
      exact SynFields.isUnit_map f v.fields
    unfold decideModelType
    simp only [SynData.map, h]
  | struct fs => cases fs <;> rfl
  | union => rfl

theorem containerAttrsFromAst_map (f : τ → σ) (i : DeriveInput τ) :
    containerAttrsFromAst o (i.map f) = containerAttrsFromAst o i := by
  simp only [containerAttrsFromAst, DeriveInput.map, SynData.kind_map, decideModelType_map]

theorem fieldsFromAst_map (f : τ → σ) (k : Nat) (fs : List (SynField τ)) : fieldsFromAst o k (fs.map (SynField.map f)) =
    ((fieldsFromAst o k fs).1.map (Field.map f), (fieldsFromAst o k fs).2) := by
  induction fs generalizing k with
  | nil => rfl
  | cons x xs ih =>
    simp only [List.map_cons, fieldsFromAst, ih]
    rfl

theorem structFromAst_map (f : τ → σ) (fs : SynFields τ) : structFromAst o (fs.map f) =
    (((structFromAst o fs).1.1, (structFromAst o fs).1.2.map (Field.map f)), (structFromAst o fs).2) := by
  cases fs <;> simp [SynFields.map, structFromAst, fieldsFromAst_map]

theorem variantFromAst_map (f : τ → σ) (v : SynVariant τ) : variantFromAst o (v.map f) =
    ((variantFromAst o v).1.map f, (variantFromAst o v).2) := by
  simp only [variantFromAst, SynVariant.map, structFromAst_map]
  rfl

theorem variantsFromAst_map (f : τ → σ) (vs : List (SynVariant τ)) : variantsFromAst o (vs.map (SynVariant.map f)) =
    ((variantsFromAst o vs).1.map (Variant.map f), (variantsFromAst o vs).2) := by
  induction vs with
  | nil => rfl
  | cons v vs ih =>
    simp only [List.map_cons, variantsFromAst, ih, variantFromAst_map]

theorem consistent_map (f : τ → σ) (vs : List (SynVariant τ)) :
    consistentDiscriminants (vs.map (SynVariant.map f)) = consistentDiscriminants vs := by
  cases vs with
  | nil => rfl
  | cons v vs =>
    simp only [List.map_cons, consistentDiscriminants, List.all_map]
    rfl

theorem mapPanic_map {α β α' β' : Type} {g : α → Option β} {g' : α' → Option β'} {a : α → α'} {b : β → β'}
    (h : ∀ x, g' (a x) = (g x).map b) (xs : List α) : mapPanic g' (xs.map a) = (mapPanic g xs).map (List.map b) := by
  induction xs with
  | nil => rfl
  | cons x xs ih =>
    rw [List.map_cons, mapPanic, mapPanic, h, ih]
    cases g x with
    | none => rfl
    | some y => cases mapPanic g xs <;> rfl

theorem Field.rename_map (f : τ → σ) (r : RenameRule) (x : Field τ) : (x.map f).rename r = (x.rename r).map (Field.map f) := by
  unfold Field.rename
  show Option.map _ (x.attrs.name.renameAsField r) = _
  cases x.attrs.name.renameAsField r <;> rfl

theorem Variant.rename_map (f : τ → σ) (up : Char → Bool) (r : RenameRule) (v : Variant τ) :
    (v.map f).rename up r = (v.rename up r).map (Variant.map f) := by
  unfold Variant.rename
  show (match v.attrs.name.renameAsVariant up r with
    | none => none
    | some n => match mapPanic (Field.rename v.attrs.renameRule) (v.fields.map (Field.map f)) with
      | none => none
      | some fs => some _) = _
  rw [mapPanic_map (fun x => Field.rename_map f _ x)]
  cases v.attrs.name.renameAsVariant up r with
  | none => rfl
  | some n => cases mapPanic (Field.rename v.attrs.renameRule) v.fields <;> rfl

theorem containerFromAst_map (f : τ → σ) (i : DeriveInput τ) : containerFromAst o (i.map f) =
    (containerFromAst o i).map fun r => (r.1.map (Container.map f), r.2) := by
  unfold containerFromAst
  rw [containerAttrsFromAst_map]
  obtain ⟨id, attrs, data⟩ := i
  cases data with
  | union => rfl
  | enum vs =>
    simp only [DeriveInput.map, SynData.map, consistent_map, variantsFromAst_map]
    split
    · rw [mapPanic_map (fun x => Variant.rename_map f _ _ x)]
      cases mapPanic (Variant.rename o.isUpper _) (variantsFromAst o vs).1 with
      | none => rfl
      | some vars =>
        simp only [Option.map, Container.map, Data.map, List.any_map]
        have h : ((fun v : Variant σ => v.fields.any fun x => x.attrs.flatten) ∘ Variant.map f) =
            fun v : Variant τ => v.fields.any fun x => x.attrs.flatten := by
          funext v
          simp only [Function.comp, Variant.map, List.any_map]
          rfl
        rw [h]
    · rfl
  | struct fs =>
    simp only [DeriveInput.map, SynData.map, structFromAst_map]
    rw [mapPanic_map (fun x => Field.rename_map f _ x)]
    cases mapPanic (Field.rename _) (structFromAst o fs).1.2 with
    | none => rfl
    | some fs' =>
      simp only [Option.map, Container.map, Data.map, List.any_map]
      rfl

/-! ## Code generation -/

theorem mapExcept_map {ε α β α' β' : Type} {g : α → Except ε β} {g' : α' → Except ε β'} {a : α → α'} {b : β → β'}
    (h : ∀ x, g' (a x) = (g x).map b) (xs : List α) : mapExcept g' (xs.map a) = (mapExcept g xs).map (List.map b) := by
  induction xs with
  | nil => rfl
  | cons x xs ih =>
    rw [List.map_cons, mapExcept, mapExcept, h, ih]
    cases g x with
    | error e => rfl
    | ok y => cases mapExcept g xs <;> rfl

theorem newtypeModel_map (f : τ → σ) (n : Bool) (p : ParamsExpr) (t : ExplicitModelType) :
    (newtypeModel (τ := τ) n p t).map f = newtypeModel n p t := by
  cases t <;> rfl

theorem fieldModelReference_map (f : τ → σ) (p : ParamsExpr) (x : Field τ) (i : Bool) :
    fieldModelReference p (x.map f) i = (fieldModelReference p x i).map f := by
  unfold fieldModelReference
  show (match x.attrs.explicitModelType with
    | some .any => _
    | some t => _
    | none => _) = _
  cases x.attrs.explicitModelType with
  | none => rfl
  | some t => cases t <;> rfl

theorem objectTypeDescription_map (f : τ → σ) (fs : List (Field τ)) (q : Field σ → Bool) (p : Field τ → Bool)
    (h : ∀ x, q (x.map f) = p x) :
    objectTypeDescription (fs.map (Field.map f)) q = (objectTypeDescription fs p).map f := by
  unfold objectTypeDescription
  rw [TypeExpr.map]
  congr 1
  induction fs with
  | nil => rfl
  | cons x xs ih =>
    simp only [List.map_cons, List.filter_cons]
    show List.map _ (if (!x.attrs.skipSerializing) = true then _ else _) = _
    cases x.attrs.skipSerializing with
    | true => simpa using ih
    | false =>
      simp only [Bool.not_false, if_true, List.map_cons, PropExpr.mapList, ih, h, fieldModelReference_map]
      rfl

theorem tupleTypeDescription_map (f : τ → σ) (fs : List (Field τ)) (q : Field σ → Bool) (p : Field τ → Bool)
    (h : ∀ x, q (x.map f) = p x) :
    tupleTypeDescription (fs.map (Field.map f)) q = (tupleTypeDescription fs p).map f := by
  unfold tupleTypeDescription
  simp only [TypeExpr.map, RefExpr.map, ModelExpr.map, RefExpr.mapList_eq, List.map_map]
  congr 3
  apply List.map_congr_left
  intro x _
  simp only [Function.comp, h, fieldModelReference_map]
  rfl

theorem serialVariants_map (f : τ → σ) (vs : List (Variant τ)) :
    serialVariants (vs.map (Variant.map f)) = (serialVariants vs).map (Variant.map f) := by
  unfold serialVariants
  rw [List.filter_map]
  rfl

theorem newtypeVariantReference_map (f : τ → σ) (v : Variant τ) :
    newtypeVariantReference (v.map f) = (newtypeVariantReference v).map (RefExpr.map f) := by
  obtain ⟨_, attrs, _, fs, _⟩ := v
  cases fs with
  | nil => rfl
  | cons x xs =>
    simp only [newtypeVariantReference, Variant.map, List.map_cons, fieldModelReference_map]
    rfl

theorem untaggedAlternative_map (f : τ → σ) (v : Variant τ) :
    untaggedAlternative (v.map f) = (untaggedAlternative v).map (RefExpr.map f) := by
  unfold untaggedAlternative
  rw [newtypeVariantReference_map]
  obtain ⟨id, attrs, style, fs, d⟩ := v
  cases style with
  | struct =>
    simp only [Variant.map, objectModel]
    rw [objectTypeDescription_map f fs _ (fun x => attrs.inline || x.attrs.inline) (fun _ => rfl)]
    rfl
  | _ => rfl

theorem adjacentAlternative_map (f : τ → σ) (v : Variant τ) :
    adjacentAlternative (v.map f) = (adjacentAlternative v).map (RefExpr.map f) := by
  unfold adjacentAlternative
  rw [newtypeVariantReference_map]
  obtain ⟨id, attrs, style, fs, d⟩ := v
  cases style with
  | struct =>
    simp only [Variant.map, tupleModel]
    rw [tupleTypeDescription_map f fs _ (fun x => x.attrs.inline || attrs.inline) (fun _ => rfl)]
    rfl
  | tuple =>
    simp only [Variant.map, tupleModel]
    rw [tupleTypeDescription_map f fs _ (fun x => attrs.inline || x.attrs.inline) (fun _ => rfl)]
    rfl
  | _ => rfl

theorem externalAlternative_map (f : τ → σ) (v : Variant τ) :
    externalAlternative (v.map f) = (externalAlternative v).map (RefExpr.map f) := by
  unfold externalAlternative
  rw [newtypeVariantReference_map]
  obtain ⟨id, attrs, style, fs, d⟩ := v
  cases style with
  | struct =>
    simp only [Variant.map, objectModel]
    rw [objectTypeDescription_map f fs _ (fun x => attrs.inline || x.attrs.inline) (fun _ => rfl)]
    rfl
  | tuple =>
    simp only [Variant.map, tupleModel]
    rw [tupleTypeDescription_map f fs _ (fun x => attrs.inline || x.attrs.inline) (fun _ => rfl)]
    rfl
  | _ => rfl

theorem internalInner_map (f : τ → σ) (v : Variant τ) :
    internalInner (v.map f) = (internalInner v).map (ModelExpr.map f) := by
  unfold internalInner
  obtain ⟨id, attrs, style, fs, d⟩ := v
  cases style with
  | struct =>
    simp only [Variant.map, objectModel]
    rw [objectTypeDescription_map f fs _ (fun x => attrs.inline || x.attrs.inline) (fun _ => rfl)]
    rfl
  | newType => cases fs <;> rfl
  | _ => rfl

theorem internalAlternative_map (f : τ → σ) (c : Container τ) (tag : String) (v : Variant τ) :
    internalAlternative (c.map f) tag (v.map f) = (internalAlternative c tag v).map (RefExpr.map f) := by
  unfold internalAlternative
  rw [internalInner_map]
  cases internalInner v <;> rfl

theorem variantNames_map (f : τ → σ) (vs : List (Variant τ)) :
    (serialVariants (vs.map (Variant.map f))).map (fun v => v.attrs.name.serialized) =
      (serialVariants vs).map fun v => v.attrs.name.serialized := by
  rw [serialVariants_map, List.map_map]
  rfl

theorem serializeEnum_map (f : τ → σ) (c : Container τ) (vs : List (Variant τ)) :
    serializeEnum (c.map f) (vs.map (Variant.map f)) = (serializeEnum c vs).map (ModelExpr.map f) := by
  have hn : serializeNewtypeEnum (c.map f) (vs.map (Variant.map f)) = (serializeNewtypeEnum c vs).map f := by
    unfold serializeNewtypeEnum
    simp only [variantNames_map]
    simp only [Container.map, serialVariants_map]
    split
    · simp only [ModelExpr.map, RefExpr.mapList_eq, List.filterMap_map, List.map_filterMap]
      congr 2
      funext v
      simp only [Function.comp, reprAlternative, Variant.map]
      cases v.discriminant <;> rfl
    · rfl
  have ha : ∀ t k, serializeAdjacentEnum (c.map f) (vs.map (Variant.map f)) t k = (serializeAdjacentEnum c vs t k).map (ModelExpr.map f) := by
    intro t k
    unfold serializeAdjacentEnum
    simp only [variantNames_map]
    rw [serialVariants_map, mapExcept_map (fun x => adjacentAlternative_map f x)]
    cases mapExcept adjacentAlternative (serialVariants vs) with
    | error e => rfl
    | ok rs =>
      simp only [Except.map, ModelExpr.map, TypeExpr.map, PropExpr.mapList, RefExpr.map, RefExpr.mapList_eq]
      rfl
  have he : serializeExternalEnum (c.map f) (vs.map (Variant.map f)) = (serializeExternalEnum c vs).map (ModelExpr.map f) := by
    unfold serializeExternalEnum
    rw [serialVariants_map, mapExcept_map (fun x => externalAlternative_map f x)]
    cases mapExcept externalAlternative (serialVariants vs) with
    | error e => rfl
    | ok rs =>
      simp only [Except.map, ModelExpr.map, TypeExpr.map, RefExpr.map, RefExpr.mapList_eq]
      rfl
  have hu : serializeUntaggedEnum (c.map f) (vs.map (Variant.map f)) = (serializeUntaggedEnum c vs).map (ModelExpr.map f) := by
    unfold serializeUntaggedEnum
    rw [serialVariants_map, mapExcept_map (fun x => untaggedAlternative_map f x)]
    cases mapExcept untaggedAlternative (serialVariants vs) with
    | error e => rfl
    | ok rs =>
      simp only [Except.map, ModelExpr.map, RefExpr.mapList_eq]
      rfl
  have hi : ∀ t, serializeInternalEnum (c.map f) (vs.map (Variant.map f)) t = (serializeInternalEnum c vs t).map (ModelExpr.map f) := by
    intro t
    unfold serializeInternalEnum
    rw [serialVariants_map, mapExcept_map (fun x => internalAlternative_map f c t x)]
    cases mapExcept (internalAlternative c t) (serialVariants vs) with
    | error e => rfl
    | ok rs =>
      simp only [Except.map, ModelExpr.map, RefExpr.mapList_eq]
      rfl
  unfold serializeEnum
  rw [hn, he, hu]
  simp only [ha, hi]
  show (match c.attrs.modelType, c.attrs.tagType with
    | .newType, _ => _
    | .object, .adjacent tag content => _
    | .dictionary, _ => _
    | .oneOf, .none => _
    | .oneOf, .internal tag => _
    | _, _ => _) = _
  cases c.attrs.modelType <;> cases c.attrs.tagType <;> rfl

theorem serializeBody_map (f : τ → σ) (c : Container τ) : serializeBody (c.map f) = (serializeBody c).map (ModelExpr.map f) := by
  obtain ⟨id, attrs, data⟩ := c
  cases data with
  | enum vs => exact serializeEnum_map f ⟨id, attrs, .enum vs⟩ vs
  | struct style fs =>
    cases style with
    | struct =>
      show Except.ok (serializeStruct _ (fs.map (Field.map f))) = _
      unfold serializeStruct
      rw [objectTypeDescription_map f fs _ (fun x => x.attrs.inline) (fun _ => rfl)]
      rfl
    | tuple =>
      show Except.ok (serializeTupleStruct _ (fs.map (Field.map f))) = _
      unfold serializeTupleStruct
      rw [tupleTypeDescription_map f fs _ (fun x => x.attrs.inline) (fun _ => rfl)]
      rfl
    | newType =>
      cases fs with
      | nil => rfl
      | cons x xs =>
        show serializeNewtypeStruct _ (x.map f) = (serializeNewtypeStruct _ x).map _
        unfold serializeNewtypeStruct
        simp only [Container.map]
        cases attrs.explicitModelType with
        | none => rfl
        | some t => cases t <;> rfl
    | unit => rfl

theorem derive_map (f : τ → σ) (i : DeriveInput τ) : derive o (i.map f) = (derive o i).map f := by
  unfold derive
  rw [containerFromAst_map]
  cases containerFromAst o i with
  | none => rfl
  | some r =>
    obtain ⟨c, errs⟩ := r
    cases c with
    | none => simp only [Option.map]; cases errs.isEmpty <;> rfl
    | some c =>
      simp only [Option.map, serializeBody_map]
      cases errs.isEmpty with
      | false => rfl
      | true => simp only [if_true]; cases serializeBody c <;> rfl

end Verif
