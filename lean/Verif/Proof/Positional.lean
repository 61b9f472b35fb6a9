import Verif.Spec.Positional
import Verif.Proof.Requires
import Verif.Proof.Refactor
/-!
# Fields whose `skip` the code generator does not look at
-/

namespace Verif

variable {τ : Type}

theorem tupleType_unskipped (fs : List (Field τ)) (pr : Field τ → Bool) (hp : ∀ f, pr f.unskipped = pr f) :
    tupleTypeDescription (fs.map Field.unskipped) pr = tupleTypeDescription fs pr := by
  unfold tupleTypeDescription
  rw [List.map_map]
  congr 3
  refine List.map_congr_left fun f _ => ?_
  simp only [Function.comp, hp]
  rfl

theorem unskipped_attrs (tag : TagType) (v : Variant τ) : (v.unskipped tag).attrs = v.attrs ∧ (v.unskipped tag).style = v.style ∧
    (v.unskipped tag).ident = v.ident ∧ (v.unskipped tag).discriminant = v.discriminant := by
  unfold Variant.unskipped
  split <;> exact ⟨rfl, rfl, rfl, rfl⟩

theorem serialVariants_unskipped (tag : TagType) (vs : List (Variant τ)) :
    serialVariants (vs.map (Variant.unskipped tag)) = (serialVariants vs).map (Variant.unskipped tag) := by
  unfold serialVariants
  rw [List.filter_map]
  congr 2
  funext v
  simp [(unskipped_attrs tag v).1]

theorem newtypeVariant_unskipped (tag : TagType) (v : Variant τ) (h : v.style = .newType) :
    newtypeVariantReference (v.unskipped tag) = newtypeVariantReference v := by
  obtain ⟨i, a, s, fs, d⟩ := v
  cases h
  cases fs <;> rfl

theorem serializeEnum_unskipped {c : Container τ} {vs : List (Variant τ)}
    (tags : c.attrs.modelType ≠ .newType → c.attrs.modelType = match c.attrs.tagType with
      | .none => .oneOf
      | .internal _ => .oneOf
      | .external => .dictionary
      | .adjacent _ _ => .object) :
    serializeEnum c.unskipped (vs.map (Variant.unskipped c.attrs.tagType)) = serializeEnum c vs := by
  unfold serializeEnum
  have ha : c.unskipped.attrs = c.attrs := rfl
  rw [ha]
  split
  · congr 1
    unfold serializeNewtypeEnum
    rw [serialVariants_unskipped]
    have h1 : ((serialVariants vs).map (Variant.unskipped c.attrs.tagType)).filterMap reprAlternative =
        (serialVariants vs).filterMap reprAlternative := by
      rw [List.filterMap_map]
      congr 1
      funext v
      obtain ⟨e1, -, -, e4⟩ := unskipped_attrs c.attrs.tagType v
      simp only [Function.comp, reprAlternative, e1, e4]
    have h2 : ((serialVariants vs).map (Variant.unskipped c.attrs.tagType)).map (fun v => v.attrs.name.serialized) =
        (serialVariants vs).map fun v => v.attrs.name.serialized := by
      rw [List.map_map]
      exact List.map_congr_left fun v _ => by simp only [Function.comp, (unskipped_attrs c.attrs.tagType v).1]
    rw [h1, h2]
    rfl
  · rename_i tag content hm ht
    unfold serializeAdjacentEnum
    rw [serialVariants_unskipped, mapExcept_erase adjacentAlternative adjacentAlternative _ _ fun v _ => ?_]
    · have h2 : ((serialVariants vs).map (Variant.unskipped c.attrs.tagType)).map (fun v => v.attrs.name.serialized) =
          (serialVariants vs).map fun v => v.attrs.name.serialized := by
        rw [List.map_map]
        exact List.map_congr_left fun v _ => by simp only [Function.comp, (unskipped_attrs c.attrs.tagType v).1]
      rw [h2]
      rfl
    · rw [ht]
      obtain ⟨i, a, s, fs, d⟩ := v
      unfold adjacentAlternative
      cases s with
      | unit => rfl
      | newType => exact newtypeVariant_unskipped _ _ rfl
      | tuple =>
        simp only [Variant.unskipped, tupleModel]
        rw [tupleType_unskipped]
        intro f; rfl
      | struct =>
        simp only [Variant.unskipped, tupleModel]
        rw [tupleType_unskipped]
        intro f; rfl
  · rename_i hm
    have ht := tags (by rw [hm]; simp)
    have ht : c.attrs.tagType = .external := by
      rw [hm] at ht
      cases hte : c.attrs.tagType <;> rw [hte] at ht <;> simp_all
    unfold serializeExternalEnum
    rw [serialVariants_unskipped, mapExcept_erase externalAlternative externalAlternative _ _ fun v _ => ?_]
    · rfl
    · rw [ht]
      obtain ⟨i, a, s, fs, d⟩ := v
      unfold externalAlternative
      cases s with
      | unit => rfl
      | newType => exact newtypeVariant_unskipped _ _ rfl
      | tuple =>
        simp only [Variant.unskipped, tupleModel]
        rw [tupleType_unskipped]
        intro f; rfl
      | struct => rfl
  · rename_i hm ht
    unfold serializeUntaggedEnum
    rw [serialVariants_unskipped, mapExcept_erase untaggedAlternative untaggedAlternative _ _ fun v _ => ?_]
    · rfl
    · rw [ht]
      obtain ⟨i, a, s, fs, d⟩ := v
      unfold untaggedAlternative
      cases s with
      | unit => rfl
      | newType => exact newtypeVariant_unskipped _ _ rfl
      | tuple => rfl
      | struct => rfl
  · rename_i tag hm ht
    unfold serializeInternalEnum
    rw [serialVariants_unskipped, mapExcept_erase (internalAlternative c tag) (internalAlternative c.unskipped tag) _ _ fun v _ => ?_]
    · rfl
    · rw [ht]
      obtain ⟨i, a, s, fs, d⟩ := v
      unfold internalAlternative internalInner
      cases s with
      | unit => rfl
      | newType => cases fs <;> rfl
      | tuple => rfl
      | struct => rfl
  · rfl

theorem serializeBody_unskipped {c : Container τ} (hsh : Shaped c) : serializeBody c.unskipped = serializeBody c := by
  unfold serializeBody
  cases hd : c.data with
  | enum vs =>
    have : c.unskipped.data = .enum (vs.map (Variant.unskipped c.attrs.tagType)) := by simp only [Container.unskipped, hd]
    rw [this]
    exact serializeEnum_unskipped (hsh.tags vs hd)
  | struct style fs =>
    cases style with
    | struct =>
      have : c.unskipped.data = .struct .struct fs := by simp only [Container.unskipped, hd]
      rw [this]
      rfl
    | unit =>
      have : c.unskipped.data = .struct .unit (fs.map Field.unskipped) := by simp only [Container.unskipped, hd]
      rw [this]
    | newType =>
      have : c.unskipped.data = .struct .newType (fs.map Field.unskipped) := by simp only [Container.unskipped, hd]
      rw [this]
      cases fs <;> rfl
    | tuple =>
      have : c.unskipped.data = .struct .tuple (fs.map Field.unskipped) := by simp only [Container.unskipped, hd]
      rw [this]
      show Except.ok (serializeTupleStruct _ (fs.map Field.unskipped)) = .ok (serializeTupleStruct _ fs)
      unfold serializeTupleStruct
      rw [tupleType_unskipped]
      · rfl
      · intro f; rfl

end Verif
