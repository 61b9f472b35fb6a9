import Verif.Spec.Links
/-!
# C16-C19: `add_property`, `merge`, `try_merge`

`Except.ok` / `Except.error` is the returned `Result`; the second component is the receiver afterwards.
-/

namespace Verif

/-- **C16**. `add_property` succeeds iff the name is not a property. On success the name maps to the new
reference, other properties and `additionalProperties` are unchanged, and `required` gets the name appended
iff asked. On failure nothing changes. -/
theorem c16_add_property (o : ModelObject) (k : String) (r : Ref) (req : Bool) :
    ((o.addProperty k r req).1 = .ok () ↔ k ∉ BMap.keys o.properties) ∧
    (k ∉ BMap.keys o.properties →
      (∀ k', BMap.get k' (o.addProperty k r req).2.properties =
        if k' = k then some r else BMap.get k' o.properties) ∧
      (o.addProperty k r req).2.required = o.required ++ (if req then [k] else []) ∧
      (o.addProperty k r req).2.additional = o.additional) ∧
    (k ∈ BMap.keys o.properties → (o.addProperty k r req).2 = o) := by
  unfold ModelObject.addProperty
  cases h : BMap.containsKey k o.properties with
  | true =>
    have h := BMap.containsKey_iff.1 h
    simp [h]
  | false =>
    have h := BMap.containsKey_false_iff.1 h
    refine ⟨by simp [h], ?_, fun h' => absurd h' h⟩
    intro _
    refine ⟨fun k' => BMap.get_insert _ _ _ _, ?_, rfl⟩
    cases req <;> simp

example : (ModelObject.empty.addProperty "id" .any true).2 = ⟨[("id", .any)], none, ["id"]⟩ := rfl

/-! ## merge -/

theorem mergeProps_ok (props other : List (String × Ref)) :
    (mergeProps props other).1 = .ok () ↔
      (∀ k ∈ BMap.keys other, k ∉ BMap.keys props) ∧ (BMap.keys other).Nodup := by
  induction other generalizing props with
  | nil => simp [mergeProps, BMap.keys]
  | cons b other ih =>
    obtain ⟨k, r⟩ := b
    simp only [mergeProps]
    cases h : BMap.containsKey k props with
    | true =>
      have := BMap.containsKey_iff.1 h
      simp only [if_true, reduceCtorEq, false_iff]
      rintro ⟨h1, _⟩
      exact h1 k (by simp [BMap.keys]) this
    | false =>
      have hk := BMap.containsKey_false_iff.1 h
      simp only [Bool.false_eq_true, if_false, ih]
      have hmem : ∀ k', k' ∈ BMap.keys (BMap.insert k r props) ↔ k' = k ∨ k' ∈ BMap.keys props :=
        fun k' => BMap.mem_keys_insert
      have hkeys : BMap.keys ((k, r) :: other) = k :: BMap.keys other := rfl
      rw [hkeys, List.nodup_cons]
      constructor
      · rintro ⟨h1, h2⟩
        refine ⟨?_, ?_, h2⟩
        · intro k' hk'
          rcases List.mem_cons.1 hk' with rfl | hk'
          · exact hk
          · intro hp; exact h1 k' hk' ((hmem k').2 (.inr hp))
        · intro hm; exact h1 k hm ((hmem k).2 (.inl rfl))
      · rintro ⟨h1, h2, h3⟩
        refine ⟨?_, h3⟩
        intro k' hk' hm
        rcases (hmem k').1 hm with rfl | hm
        · exact h2 hk'
        · exact h1 k' (List.mem_cons_of_mem _ hk') hm

theorem mergeProps_get (props other : List (String × Ref)) (h : (mergeProps props other).1 = .ok ())
    (k : String) : BMap.get k (mergeProps props other).2 = (BMap.get k props).or (BMap.get k other) := by
  induction other generalizing props with
  | nil => simp [mergeProps]
  | cons b other ih =>
    obtain ⟨k0, r⟩ := b
    have hd := (mergeProps_ok props _).1 h
    simp only [mergeProps] at h ⊢
    cases hc : BMap.containsKey k0 props with
    | true => rw [hc] at h; simp at h
    | false =>
      rw [hc] at h
      simp only [Bool.false_eq_true, if_false] at h ⊢
      rw [ih _ h, BMap.get_insert, BMap.get_cons]
      by_cases e : k = k0
      · subst e
        have := BMap.get_eq_none_iff.2 (BMap.containsKey_false_iff.1 hc)
        simp [this]
      · simp [e]

theorem mergeProps_sorted (props other : List (String × Ref)) (h : BMap.Sorted props) :
    BMap.Sorted (mergeProps props other).2 := by
  induction other generalizing props with
  | nil => exact h
  | cons b other ih =>
    simp only [mergeProps]
    split
    · exact h
    · exact ih _ (BMap.sorted_insert h)

/-- The objects `merge` works on are `BTreeMap`s. -/
def ModelObject.PropsSorted (o : ModelObject) : Prop := BMap.Sorted o.properties

theorem merge_fst (o a : ModelObject) : (o.merge a).1 = (mergeProps o.properties a.properties).1 := by
  unfold ModelObject.merge
  split <;> simp_all

theorem merge_props (o a : ModelObject) :
    (o.merge a).2.properties = (mergeProps o.properties a.properties).2 := by
  unfold ModelObject.merge
  split <;> simp_all

/-- **C17**. `merge` succeeds iff the property names are disjoint; then the properties are the union,
`required` is the concatenation and `additionalProperties` the receiver's. -/
theorem c17_merge (o a : ModelObject) (ha : a.PropsSorted) :
    ((o.merge a).1 = .ok () ↔ ∀ k ∈ BMap.keys a.properties, k ∉ BMap.keys o.properties) ∧
    ((o.merge a).1 = .ok () →
      (∀ k, BMap.get k (o.merge a).2.properties = (BMap.get k o.properties).or (BMap.get k a.properties)) ∧
      (o.merge a).2.required = o.required ++ a.required ∧
      (o.merge a).2.additional = o.additional) := by
  have hn : (BMap.keys a.properties).Nodup := BMap.nodup_keys ha
  constructor
  · rw [merge_fst, mergeProps_ok]; simp [hn]
  · intro h
    have h' := h; rw [merge_fst] at h'
    refine ⟨fun k => by rw [merge_props]; exact mergeProps_get _ _ h' k, ?_⟩
    unfold ModelObject.merge at h ⊢
    split at h
    · simp at h
    · simp

/-- **C17** (symmetry and unit). The merged properties do not depend on which side is the receiver, and
merging an empty object changes nothing. -/
theorem c17_merge_symm_unit (o a : ModelObject) (ho : o.PropsSorted) (ha : a.PropsSorted)
    (h : (o.merge a).1 = .ok ()) :
    (a.merge o).1 = .ok () ∧ (o.merge a).2.properties = (a.merge o).2.properties ∧
    o.merge .empty = (.ok (), o) := by
  have hd := (c17_merge o a ha).1.1 h
  have h' : (a.merge o).1 = .ok () := by
    rw [(c17_merge a o ho).1]
    intro k hk hk'; exact hd k hk' hk
  refine ⟨h', ?_, ?_⟩
  · apply BMap.ext
    · rw [merge_props]; exact mergeProps_sorted _ _ ho
    · rw [merge_props]; exact mergeProps_sorted _ _ ha
    · intro k
      rw [((c17_merge o a ha).2 h).1, ((c17_merge a o ho).2 h').1]
      cases h1 : BMap.get k o.properties <;> cases h2 : BMap.get k a.properties <;> simp
      have m1 : k ∈ BMap.keys o.properties := BMap.get_isSome_iff.1 (by rw [h1]; rfl)
      have m2 : k ∈ BMap.keys a.properties := BMap.get_isSome_iff.1 (by rw [h2]; rfl)
      exact absurd m1 (hd k m2)
  · cases o; simp [ModelObject.merge, mergeProps, ModelObject.empty]

example : let o : ModelObject := ⟨[("b", .any)], none, ["b"]⟩
    let a : ModelObject := ⟨[("a", .link "A"), ("c", .any)], none, ["c"]⟩
    o.PropsSorted ∧ a.PropsSorted ∧
      o.merge a = (.ok (), ⟨[("a", .link "A"), ("b", .any), ("c", .any)], none, ["b", "c"]⟩) := by
  refine ⟨?_, ?_, rfl⟩ <;> unfold ModelObject.PropsSorted BMap.Sorted <;> decide

/-- **C18** is false: a failing merge keeps the properties inserted before the conflict. -/
theorem c18_is_false : ∃ o a : ModelObject, o.PropsSorted ∧ a.PropsSorted ∧
    (o.merge a).1 ≠ .ok () ∧ (o.merge a).2.properties ≠ o.properties := by
  refine ⟨⟨[("b", .any)], none, []⟩, ⟨[("a", .any), ("b", .any)], none, []⟩, ?_, ?_, ?_, ?_⟩
  · unfold ModelObject.PropsSorted BMap.Sorted; decide
  · unfold ModelObject.PropsSorted BMap.Sorted; decide
  · intro h; cases h
  · intro h
    have : ["a", "b"] = ["b"] := congrArg (fun ps => BMap.keys ps) h
    revert this; decide

theorem mergeProps_exact (props other : List (String × Ref)) (hn : (BMap.keys other).Nodup) :
    (mergeProps props other).2 =
      BMap.insertAll (other.takeWhile fun b => decide (b.1 ∉ BMap.keys props)) props := by
  induction other generalizing props with
  | nil => rfl
  | cons b other ih =>
    obtain ⟨k, r⟩ := b
    have hk : k ∉ BMap.keys other ∧ (BMap.keys other).Nodup := by
      have : BMap.keys ((k, r) :: other) = k :: BMap.keys other := rfl
      rwa [this, List.nodup_cons] at hn
    simp only [mergeProps]
    cases hc : BMap.containsKey k props with
    | true =>
      have := BMap.containsKey_iff.1 hc
      simp [this, BMap.insertAll]
    | false =>
      have hkp := BMap.containsKey_false_iff.1 hc
      simp only [Bool.false_eq_true, if_false, List.takeWhile_cons, hkp, not_false_eq_true, decide_true,
        if_true]
      rw [ih _ hk.2]
      have e : other.takeWhile (fun b => decide (b.1 ∉ BMap.keys (BMap.insert k r props))) =
          other.takeWhile (fun b => decide (b.1 ∉ BMap.keys props)) := by
        have : ∀ l : List (String × Ref), (∀ b ∈ l, b.1 ≠ k) →
            l.takeWhile (fun b => decide (b.1 ∉ BMap.keys (BMap.insert k r props))) =
            l.takeWhile (fun b => decide (b.1 ∉ BMap.keys props)) := by
          intro l
          induction l with
          | nil => intro _; rfl
          | cons b l ihl =>
            intro hl
            have hb := hl b List.mem_cons_self
            have : b.1 ∈ BMap.keys (BMap.insert k r props) ↔ b.1 ∈ BMap.keys props := by
              rw [BMap.mem_keys_insert]; simp [hb]
            simp only [List.takeWhile_cons, this]
            rw [ihl (fun x hx => hl x (List.mem_cons_of_mem _ hx))]
        apply this
        intro b hb e
        exact hk.1 (e ▸ List.mem_map_of_mem (f := Prod.fst) hb)
      rw [e]; rfl

/-- **C18** (the part that holds). A failed merge never changes `required` or `additionalProperties`; the
receiver's properties afterwards are the old ones plus exactly the argument's properties that precede the
first conflicting one in key order. In particular existing properties are never changed, and nothing at
all changes if the argument's first property conflicts.
Missing: the receiver may have gained properties (`c18_is_false`). -/
theorem c18_failed_merge_partial (o a : ModelObject) (ha : a.PropsSorted) (h : (o.merge a).1 ≠ .ok ()) :
    (o.merge a).2.required = o.required ∧ (o.merge a).2.additional = o.additional ∧
    (o.merge a).2.properties =
      BMap.insertAll (a.properties.takeWhile fun b => decide (b.1 ∉ BMap.keys o.properties)) o.properties ∧
    (∀ k r, BMap.get k o.properties = some r → BMap.get k (o.merge a).2.properties = some r) ∧
    (∀ k r rest, a.properties = (k, r) :: rest → k ∈ BMap.keys o.properties → (o.merge a).2 = o) := by
  have hex := mergeProps_exact o.properties a.properties (BMap.nodup_keys ha)
  refine ⟨?_, ?_, ?_, ?_, ?_⟩
  · unfold ModelObject.merge at h ⊢
    split <;> simp_all
  · unfold ModelObject.merge
    split <;> rfl
  · rw [merge_props]; exact hex
  · intro k r hg
    rw [merge_props, hex, BMap.get_insertAll]
    have : BMap.get k (a.properties.takeWhile fun b => decide (b.1 ∉ BMap.keys o.properties)).reverse = none := by
      rw [BMap.get_eq_none_iff]
      intro hm
      obtain ⟨b, hb, rfl⟩ := List.mem_map.1 hm
      rw [List.mem_reverse] at hb
      have hall : ∀ l : List (String × Ref), b ∈ l.takeWhile (fun b => decide (b.1 ∉ BMap.keys o.properties)) →
          b.1 ∉ BMap.keys o.properties := by
        intro l
        induction l with
        | nil => intro h; cases h
        | cons c l ih =>
          intro hb
          rw [List.takeWhile_cons] at hb
          split at hb
          · rename_i hc
            rcases List.mem_cons.1 hb with rfl | hb
            · simpa using hc
            · exact ih hb
          · cases hb
      exact hall _ hb (BMap.get_isSome_iff.1 (by rw [hg]; rfl))
    rw [this, hg]; rfl
  · intro k r rest e hk
    unfold ModelObject.merge
    rw [e]
    cases o
    simp [mergeProps, BMap.containsKey_iff.2 hk]

example : let o : ModelObject := ⟨[("b", .any)], none, ["b"]⟩
    let a : ModelObject := ⟨[("a", .any), ("b", .any)], none, ["a"]⟩
    (o.merge a).1 ≠ .ok () := by intro o a h; cases h

/-- The object of a single-object model. -/
def Model.asObject (m : Model) : Option ModelObject :=
  match m.data with
  | .single ⟨_, .object o⟩ => some o
  | _ => none

/-- `nullable` of a single-type model. -/
def Model.nullable? (m : Model) : Option Bool :=
  match m.data with
  | .single t => some t.nullable
  | _ => none

/-- **C19**. `try_merge` succeeds iff both models are single object types with disjoint property names.
Whatever the outcome, description and nullability of the receiver are unchanged; the receiver's object is
merged as by `merge`; if either side is not an object nothing changes. -/
theorem c19_try_merge (m other : Model)
    (hs : ∀ a, other.asObject = some a → a.PropsSorted) :
    ((m.tryMerge other).1 = .ok () ↔ ∃ o a, m.asObject = some o ∧ other.asObject = some a ∧
      ∀ k ∈ BMap.keys a.properties, k ∉ BMap.keys o.properties) ∧
    (m.tryMerge other).2.description = m.description ∧
    (m.tryMerge other).2.nullable? = m.nullable? ∧
    (∀ o a, m.asObject = some o → other.asObject = some a →
      (m.tryMerge other).2.asObject = some (o.merge a).2 ∧
      (o.merge a).2.additional = o.additional) ∧
    (m.asObject = none ∨ other.asObject = none → (m.tryMerge other).2 = m) := by
  have none_case : (m.asObject = none ∨ other.asObject = none) →
      m.tryMerge other = (.error .conflict, m) := by
    intro h
    unfold Model.tryMerge
    split
    · split
      · rename_i d n o _ n' o' e
        rcases h with h | h
        · simp [Model.asObject] at h
        · simp [Model.asObject, e] at h
      · rfl
    · rfl
  have some_case : ∀ o a, m.asObject = some o → other.asObject = some a →
      ∃ n, m.data = .single ⟨n, .object o⟩ ∧
      m.tryMerge other = ((o.merge a).1, ⟨m.description, .single ⟨n, .object (o.merge a).2⟩⟩) := by
    intro o a h1 h2
    obtain ⟨d, data⟩ := m
    obtain ⟨d', data'⟩ := other
    unfold Model.asObject at h1 h2
    split at h1 <;> try contradiction
    split at h2 <;> try contradiction
    rename_i n1 o1 e1 _ n2 o2 e2
    simp only at e1 e2; subst e1; subst e2
    cases h1; cases h2
    exact ⟨n1, rfl, rfl⟩
  cases h1 : m.asObject with
  | none =>
    rw [none_case (.inl h1)]
    refine ⟨by simp, rfl, rfl, by simp, fun _ => rfl⟩
  | some o =>
    cases h2 : other.asObject with
    | none =>
      rw [none_case (.inr h2)]
      refine ⟨by simp, rfl, rfl, by simp, fun _ => rfl⟩
    | some a =>
      obtain ⟨n, hd, e⟩ := some_case o a h1 h2
      rw [e]
      refine ⟨?_, rfl, ?_, ?_, by simp⟩
      · rw [(c17_merge o a (hs a h2)).1]
        constructor
        · intro h; exact ⟨o, a, rfl, rfl, h⟩
        · rintro ⟨o', a', h3, h4, h⟩; cases h3; cases h4; exact h
      · simp [Model.nullable?, hd]
      · intro o' a' h3 h4; cases h3; cases h4
        refine ⟨rfl, ?_⟩
        unfold ModelObject.merge; split <;> rfl

example : (Model.tryMerge ⟨some "d", .single ⟨true, .object ⟨[("a", .any)], none, []⟩⟩⟩
    ⟨none, .single ⟨false, .object ⟨[("t", .any)], some .any, ["t"]⟩⟩⟩) =
    (.ok (), ⟨some "d", .single ⟨true, .object ⟨[("a", .any), ("t", .any)], none, ["t"]⟩⟩⟩) := rfl

end Verif
