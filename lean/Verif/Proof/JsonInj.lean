import Verif.Proof.Json
/-!
# Schemas are determined by their serialized form
-/

namespace Verif

theorem str_append_cancel {a b c : String} (h : a ++ b = a ++ c) : b = c := by
  have h := congrArg String.toList h
  simp only [String.toList_append, List.append_cancel_left_eq] at h
  exact String.toList_inj.1 h

theorem optStr_inj {a b : Option String} (h : (optStr a).map Value.normal = (optStr b).map Value.normal) : a = b := by
  cases a <;> cases b <;> simp_all [optStr, Value.normal]

theorem flag_inj {a b : Bool} (h : (flag a).map Value.normal = (flag b).map Value.normal) : a = b := by
  cases a <;> cases b <;> simp_all [flag, Value.normal]

theorem normalSeq_strs (vs : List String) : normalSeq (strs vs) = strs vs := by
  induction vs with
  | nil => rfl
  | cons v vs ih => simp [strs, normalSeq, Value.normal] at ih ⊢; exact ih

theorem strs_inj {a b : List String} (h : strs a = strs b) : a = b := by
  induction a generalizing b with
  | nil => cases b <;> simp_all [strs]
  | cons x a ih =>
    cases b with
    | nil => simp [strs] at h
    | cons y b =>
      simp only [strs, List.map_cons, List.cons.injEq, Value.str.injEq] at h
      rw [h.1, ih h.2]

theorem seqStrs_inj {a b : List String} (h : (nonEmptySeq (strs a)).map Value.normal = (nonEmptySeq (strs b)).map Value.normal) :
    a = b := by
  cases a with
  | nil => cases b with
    | nil => rfl
    | cons y b => simp [nonEmptySeq, strs] at h
  | cons x a => cases b with
    | nil => simp [nonEmptySeq, strs] at h
    | cons y b =>
      have h' : normalSeq (strs (x :: a)) = normalSeq (strs (y :: b)) := by
        simpa [nonEmptySeq, strs, Value.normal] using h
      rw [normalSeq_strs, normalSeq_strs] at h'
      exact strs_inj h'

theorem enum_inj {a b : Option (List String)} (h : (a.map fun vs => Value.seq (strs vs)).map Value.normal =
    (b.map fun vs => Value.seq (strs vs)).map Value.normal) : a = b := by
  cases a with
  | none => cases b <;> simp_all
  | some a => cases b with
    | none => simp at h
    | some b =>
      simp only [Option.map_some, Value.normal, normalSeq_strs, Option.some.injEq, Value.seq.injEq] at h
      rw [strs_inj h]

theorem lk_description (d : ModelData) : lk "description" d.entries = none :=
  lk_none_of_sublist (keys_data d) (by decide)
theorem lk_nullable (d : TypeDesc) : lk "nullable" d.entries = none :=
  lk_none_of_sublist (keys_desc d) (by decide)
theorem lk_ref (m : Model) : lk "$ref" m.entries = none :=
  lk_none_of_sublist (keys_model m) (by decide)
theorem lk_typed {k : String} (t : ModelType) (h : k ∈ ["oneOf", "allOf", "anyOf"]) : lk k t.entries = none := by
  refine lk_none_of_sublist (keys_type t) ?_
  simp only [List.mem_cons, List.not_mem_nil, or_false] at h
  rcases h with rfl | rfl | rfl <;> decide

theorem entries_ne_nil (m : Model) : m.entries ≠ [] := by
  obtain ⟨d, data⟩ := m
  rcases data with ⟨n, td⟩ | _ | _ | _ <;> simp [Model.entries, ModelData.entries, ModelType.entries]
  cases td <;> simp [TypeDesc.entries]

theorem insertAll_keys (es : List (Key × Value)) (k : Key) :
    k ∈ BMap.keys (BMap.insertAll (normalMap es) []) ↔ k ∈ BMap.keys es := by
  rw [← BMap.get_isSome_iff, BMap.get_insertAll, BMap.get_nil, Option.or_none, BMap.get_isSome_iff,
    normalMap_eq]
  simp [BMap.keys]

theorem normal_map_nil {es : List (Key × Value)} (h : (Value.map es).normal = .map []) : es = [] := by
  cases es with
  | nil => rfl
  | cons e es =>
    simp only [Value.normal, Value.map.injEq] at h
    have := (insertAll_keys (e :: es) e.1).2 (by simp [BMap.keys])
    rw [h] at this
    simp [BMap.keys] at this

theorem normal_nil : (Value.map []).normal = .map [] := rfl

/-! ### Sortedness of the parts -/

theorem propsSorted_inline {m : Model} : (Ref.inline m).PropsSorted ↔ m.PropsSorted := by
  simp [Ref.PropsSorted, Model.PropsSorted, Ref.objects]

theorem propsSorted_refs {d : Option String} {rs : List Ref} :
    ((⟨d, .oneOf rs⟩ : Model).PropsSorted ↔ ∀ r ∈ rs, r.PropsSorted) ∧
    ((⟨d, .allOf rs⟩ : Model).PropsSorted ↔ ∀ r ∈ rs, r.PropsSorted) ∧
    ((⟨d, .anyOf rs⟩ : Model).PropsSorted ↔ ∀ r ∈ rs, r.PropsSorted) := by
  simp only [Model.PropsSorted, Ref.PropsSorted, Model.objects, ModelData.objects, refsObjects_eq, List.mem_flatMap]
  have : (∀ o, (∃ a ∈ rs, o ∈ a.objects) → BMap.Sorted o.properties) ↔
      ∀ r ∈ rs, ∀ o ∈ r.objects, BMap.Sorted o.properties :=
    ⟨fun h r hr o ho => h o ⟨r, hr, ho⟩, fun h o ⟨r, hr, ho⟩ => h r hr o ho⟩
  exact ⟨this, this, this⟩

/-- The objects of a type description have sorted properties. -/
def TypeDesc.PropsSorted (d : TypeDesc) : Prop := ∀ o ∈ d.objects, BMap.Sorted o.properties

theorem propsSorted_single {d n td} : (⟨d, .single ⟨n, td⟩⟩ : Model).PropsSorted ↔ td.PropsSorted := by
  simp [Model.PropsSorted, TypeDesc.PropsSorted, Model.objects, ModelData.objects, ModelType.objects]

theorem propsSorted_array {r : Ref} : (TypeDesc.array r).PropsSorted ↔ r.PropsSorted := by
  simp [TypeDesc.PropsSorted, Ref.PropsSorted, TypeDesc.objects]

theorem propsSorted_object {ps a req} : (TypeDesc.object ⟨ps, a, req⟩).PropsSorted ↔
    BMap.Sorted ps ∧ (∀ p ∈ ps, p.2.PropsSorted) ∧ (∀ r, a = some r → r.PropsSorted) := by
  simp only [TypeDesc.PropsSorted, Ref.PropsSorted, TypeDesc.objects, propsObjects_eq, List.mem_cons,
    List.mem_append, List.mem_flatMap]
  constructor
  · intro h
    refine ⟨h _ (.inl rfl), ?_, ?_⟩
    · intro p hp o ho
      exact h o (.inr (.inl ⟨p.2, List.mem_map_of_mem hp, ho⟩))
    · rintro r rfl o ho
      exact h o (.inr (.inr ho))
  · rintro ⟨h1, h2, h3⟩ o (rfl | ⟨r, hr, ho⟩ | ho)
    · exact h1
    · obtain ⟨p, hp, rfl⟩ := List.mem_map.1 hr
      exact h2 p hp o ho
    · cases a with
      | none => simp [optObjects] at ho
      | some r => exact h3 r rfl o ho

/-! ### Injectivity -/

theorem sameEntries_sub {es es' fs fs' : List (Key × Value)} {k₀ : String}
    (h : SameEntries (es ++ fs) (es' ++ fs')) (hk : (BMap.keys es).Sublist [.str k₀])
    (hk' : (BMap.keys es').Sublist [.str k₀]) (hf : lk k₀ fs = none) (hf' : lk k₀ fs' = none) :
    SameEntries fs fs' := by
  intro k
  by_cases e : k = k₀
  · rw [e, hf, hf']
  · have := h k
    rwa [lk_append, lk_append, lk_none_of_sublist hk (by simpa using e), lk_none_of_sublist hk' (by simpa using e),
      Option.none_or, Option.none_or] at this

mutual
theorem Ref.ser_inj : ∀ (r r' : Ref), r.PropsSorted → r'.PropsSorted → r.ser.normal = r'.ser.normal → r = r'
  | .link a, .link b, _, _, h => by
    simp [Ref.ser, Value.normal, normalMap, BMap.insertAll, BMap.insert] at h
    rw [h]
  | .link a, .inline m, _, _, h => by
    have := sameEntries_of_normal h (by simp [BMap.keys]) (nodup_model m) "$ref"
    rw [lk_ref] at this
    simp at this
  | .link a, .any, _, _, h => by
    have := normal_map_nil h
    cases this
  | .inline m, .link b, _, _, h => by
    have := sameEntries_of_normal h (nodup_model m) (by simp [BMap.keys]) "$ref"
    rw [lk_ref] at this
    simp at this
  | .inline m, .inline m', s, s', h => by
    rw [Model.ser_inj m m' (propsSorted_inline.1 s) (propsSorted_inline.1 s')
      (sameEntries_of_normal h (nodup_model m) (nodup_model m'))]
  | .inline m, .any, _, _, h => absurd (normal_map_nil h) (entries_ne_nil m)
  | .any, .link b, _, _, h => by
    have := normal_map_nil h.symm
    cases this
  | .any, .inline m, _, _, h => absurd (normal_map_nil h.symm) (entries_ne_nil m)
  | .any, .any, _, _, _ => rfl
termination_by structural x => x

theorem Model.ser_inj : ∀ (m m' : Model), m.PropsSorted → m'.PropsSorted → SameEntries m.entries m'.entries → m = m'
  | ⟨d, data⟩, ⟨d', data'⟩, s, s', h => by
    have hd : d = d' := by
      have := h "description"
      simp only [Model.entries, lk_append, lk_entriesOf, if_true, entriesOf_nil, lk_nil, Option.or_none,
        lk_description] at this
      exact optStr_inj this
    have hs : SameEntries data.entries data'.entries := by
      simp only [Model.entries] at h
      exact sameEntries_sub h (keysWithin [("description", _)] ["description"] rfl ["description"] (by decide))
        (keysWithin [("description", _)] ["description"] rfl ["description"] (by decide))
        (lk_description _) (lk_description _)
    rw [hd, ModelData.ser_inj d data data' s s' hs]
termination_by structural x => x

theorem ModelData.ser_inj : ∀ (d : Option String) {d'} (data data' : ModelData), (⟨d, data⟩ : Model).PropsSorted →
    (⟨d', data'⟩ : Model).PropsSorted → SameEntries data.entries data'.entries → data = data'
  | _, _, .single ⟨n, td⟩, .single ⟨n', td'⟩, s, s', h => by
    simp only [ModelData.entries, ModelType.entries] at h
    have hn : n = n' := by
      have := h "nullable"
      simp only [lk_append, lk_entriesOf, if_true, entriesOf_nil, lk_nil, Option.or_none, lk_nullable] at this
      exact flag_inj this
    have hs : SameEntries td.entries td'.entries :=
      sameEntries_sub h (keysWithin [("nullable", _)] ["nullable"] rfl ["nullable"] (by decide))
        (keysWithin [("nullable", _)] ["nullable"] rfl ["nullable"] (by decide)) (lk_nullable _) (lk_nullable _)
    rw [hn, TypeDesc.ser_inj td td' (propsSorted_single.1 s) (propsSorted_single.1 s') hs]
  | _, _, .oneOf rs, .oneOf rs', s, s', h => by
    have := h "oneOf"
    simp [ModelData.entries, Value.normal] at this
    rw [refs_inj rs rs' (propsSorted_refs.1.1 s) (propsSorted_refs.1.1 s') this]
  | _, _, .allOf rs, .allOf rs', s, s', h => by
    have := h "allOf"
    simp [ModelData.entries, Value.normal] at this
    rw [refs_inj rs rs' (propsSorted_refs.2.1.1 s) (propsSorted_refs.2.1.1 s') this]
  | _, _, .anyOf rs, .anyOf rs', s, s', h => by
    have := h "anyOf"
    simp [ModelData.entries, Value.normal] at this
    rw [refs_inj rs rs' (propsSorted_refs.2.2.1 s) (propsSorted_refs.2.2.1 s') this]
  | _, _, .single t, .oneOf _, _, _, h => by have := h "oneOf"; rw [ModelData.entries, lk_typed t (by simp)] at this; simp [ModelData.entries] at this
  | _, _, .single t, .allOf _, _, _, h => by have := h "allOf"; rw [ModelData.entries, lk_typed t (by simp)] at this; simp [ModelData.entries] at this
  | _, _, .single t, .anyOf _, _, _, h => by have := h "anyOf"; rw [ModelData.entries, lk_typed t (by simp)] at this; simp [ModelData.entries] at this
  | _, _, .oneOf _, .single t, _, _, h => by have := (h "oneOf").symm; rw [ModelData.entries, lk_typed t (by simp)] at this; simp [ModelData.entries] at this
  | _, _, .allOf _, .single t, _, _, h => by have := (h "allOf").symm; rw [ModelData.entries, lk_typed t (by simp)] at this; simp [ModelData.entries] at this
  | _, _, .anyOf _, .single t, _, _, h => by have := (h "anyOf").symm; rw [ModelData.entries, lk_typed t (by simp)] at this; simp [ModelData.entries] at this
  | _, _, .oneOf _, .allOf _, _, _, h => by have := h "oneOf"; simp [ModelData.entries] at this
  | _, _, .oneOf _, .anyOf _, _, _, h => by have := h "oneOf"; simp [ModelData.entries] at this
  | _, _, .allOf _, .oneOf _, _, _, h => by have := h "oneOf"; simp [ModelData.entries] at this
  | _, _, .allOf _, .anyOf _, _, _, h => by have := h "allOf"; simp [ModelData.entries] at this
  | _, _, .anyOf _, .oneOf _, _, _, h => by have := h "oneOf"; simp [ModelData.entries] at this
  | _, _, .anyOf _, .allOf _, _, _, h => by have := h "anyOf"; simp [ModelData.entries] at this
termination_by structural _ _ x => x

theorem TypeDesc.ser_inj : ∀ (td td' : TypeDesc), td.PropsSorted → td'.PropsSorted →
    SameEntries td.entries td'.entries → td = td'
  | .string v f e, td', _, _, h => by
    have ht := h "type"
    cases td' <;> simp [TypeDesc.entries, Value.normal] at ht
    have h1 := h "enum"
    have h2 := h "format"
    have h3 := h "example"
    simp only [TypeDesc.entries, lk_cons_str, lk_entriesOf, entriesOf_nil, lk_nil, Option.or_none, reduceIte,
      String.reduceEq] at h1 h2 h3
    rw [enum_inj h1, optStr_inj h2, optStr_inj h3]
  | .number f e, td', _, _, h => by
    have ht := h "type"
    cases td' <;> simp [TypeDesc.entries, Value.normal] at ht
    have h2 := h "format"
    have h3 := h "example"
    simp only [TypeDesc.entries, lk_cons_str, lk_entriesOf, entriesOf_nil, lk_nil, Option.or_none, reduceIte,
      String.reduceEq] at h2 h3
    rw [optStr_inj h2, optStr_inj h3]
  | .integer f e, td', _, _, h => by
    have ht := h "type"
    cases td' <;> simp [TypeDesc.entries, Value.normal] at ht
    have h2 := h "format"
    have h3 := h "example"
    simp only [TypeDesc.entries, lk_cons_str, lk_entriesOf, entriesOf_nil, lk_nil, Option.or_none, reduceIte,
      String.reduceEq] at h2 h3
    rw [optStr_inj h2, optStr_inj h3]
  | .boolean, td', _, _, h => by
    have ht := h "type"
    cases td' <;> simp [TypeDesc.entries, Value.normal] at ht
    rfl
  | .array r, td', s, s', h => by
    have ht := h "type"
    cases td' with
    | array r' =>
      have h1 := h "items"
      simp only [TypeDesc.entries, lk_cons_str, reduceIte, String.reduceEq, Option.map_some, Option.some.injEq] at h1
      rw [Ref.ser_inj r r' (propsSorted_array.1 s) (propsSorted_array.1 s') h1]
    | _ => simp [TypeDesc.entries, Value.normal] at ht
  | .object ⟨ps, a, req⟩, td', s, s', h => by
    have ht := h "type"
    cases td' with
    | object o' =>
      obtain ⟨ps', a', req'⟩ := o'
      have h1 := h "properties"
      have h2 := h "additionalProperties"
      have h3 := h "required"
      simp only [TypeDesc.entries, ModelObject.entries, lk_cons_str, lk_entriesOf, entriesOf_nil, lk_nil,
        Option.or_none, reduceIte, String.reduceEq] at h1 h2 h3
      have s := propsSorted_object.1 s
      have s' := propsSorted_object.1 s'
      have hp : (serProps ps).map (fun e => (e.1, e.2.normal)) = (serProps ps').map (fun e => (e.1, e.2.normal)) := by
        have hs : BMap.Sorted (serProps ps) := by rw [serProps_eq]; exact sorted_str _ s.1
        have hs' : BMap.Sorted (serProps ps') := by rw [serProps_eq]; exact sorted_str _ s'.1
        cases he : (serProps ps).isEmpty <;> cases he' : (serProps ps').isEmpty <;>
          simp [nonEmptyMap, he, he', normal_sorted hs, normal_sorted hs'] at h1
        · simpa using h1
        · rw [List.isEmpty_iff.1 he, List.isEmpty_iff.1 he']
      rw [props_inj ps ps' s.2.1 s'.2.1 hp, optRef_inj a a' s.2.2 s'.2.2 h2, seqStrs_inj h3]
    | _ => simp [TypeDesc.entries, Value.normal] at ht
termination_by structural x => x

theorem props_inj : ∀ (ps ps' : List (String × Ref)), (∀ p ∈ ps, p.2.PropsSorted) → (∀ p ∈ ps', p.2.PropsSorted) →
    (serProps ps).map (fun e => (e.1, e.2.normal)) = (serProps ps').map (fun e => (e.1, e.2.normal)) → ps = ps'
  | [], [], _, _, _ => rfl
  | [], _ :: _, _, _, h => by simp [serProps] at h
  | _ :: _, [], _, _, h => by simp [serProps] at h
  | (k, r) :: ps, (k', r') :: ps', s, s', h => by
    simp only [serProps, List.map_cons, List.cons.injEq, Prod.mk.injEq, Key.str.injEq] at h
    rw [h.1.1, Ref.ser_inj r r' (s (k, r) (by simp)) (s' (k', r') (by simp)) h.1.2,
      props_inj ps ps' (fun x hx => s x (by simp [hx])) (fun x hx => s' x (by simp [hx])) h.2]
termination_by structural x => x

theorem optRef_inj : ∀ (a a' : Option Ref), (∀ r, a = some r → r.PropsSorted) → (∀ r, a' = some r → r.PropsSorted) →
    (serOptRef a).map Value.normal = (serOptRef a').map Value.normal → a = a'
  | none, none, _, _, _ => rfl
  | none, some _, _, _, h => by simp [serOptRef] at h
  | some _, none, _, _, h => by simp [serOptRef] at h
  | some r, some r', s, s', h => by
    simp only [serOptRef, Option.map_some, Option.some.injEq] at h
    rw [Ref.ser_inj r r' (s r rfl) (s' r' rfl) h]
termination_by structural x => x

theorem refs_inj : ∀ (rs rs' : List Ref), (∀ r ∈ rs, r.PropsSorted) → (∀ r ∈ rs', r.PropsSorted) →
    normalSeq (serRefs rs) = normalSeq (serRefs rs') → rs = rs'
  | [], [], _, _, _ => rfl
  | [], _ :: _, _, _, h => by simp [serRefs, normalSeq] at h
  | _ :: _, [], _, _, h => by simp [serRefs, normalSeq] at h
  | r :: rs, r' :: rs', s, s', h => by
    simp only [serRefs, normalSeq, List.cons.injEq] at h
    rw [Ref.ser_inj r r' (s r (by simp)) (s' r' (by simp)) h.1,
      refs_inj rs rs' (fun x hx => s x (by simp [hx])) (fun x hx => s' x (by simp [hx])) h.2]
termination_by structural x => x

end

end Verif
