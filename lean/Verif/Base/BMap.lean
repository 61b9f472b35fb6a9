/-!
# `std::collections::BTreeMap`

`BTreeMap<K, V>` is modelled by the list of its bindings in iteration order, i.e. an association
list that is strictly increasing in the key order (`BMap.Sorted`).  The operations used by `opg` are
`insert`, `contains_key`, `entry(..)` (vacant / occupied), `is_empty`, `len`, `iter` (the list itself).
Rust's `Ord for str` compares UTF-8 bytes, which on valid UTF-8 is the code point order of Lean's
`compare` on `String`.
-/

set_option linter.unusedSectionVars false

namespace Verif

/-- `BTreeMap<K, V>` as its binding list in iteration order (the maps of models.rs 25, 189-196, 275-286, 517-521, 934). -/
abbrev BMap (K V : Type) := List (K × V)

namespace BMap
variable {K V : Type}

/-- `BTreeMap::insert`: replaces the value of an existing key, otherwise adds a binding in key order
(models.rs 544, 557-558, 582, 958, 975; macros.rs 143, 353, 486, 561, 739). -/
def insert [Ord K] (k : K) (v : V) : List (K × V) → List (K × V)
  | [] => [(k, v)]
  | (k', v') :: rest =>
    match compare k k' with
    | .lt => (k, v) :: (k', v') :: rest
    | .eq => (k, v) :: rest
    | .gt => (k', v') :: insert k v rest

/-- `BTreeMap::get`, used to define `contains_key` and in statements (std, not called in /repo). -/
def get [DecidableEq K] (k : K) : List (K × V) → Option V
  | [] => none
  | (k', v') :: rest => if k = k' then some v' else get k rest

/-- `BTreeMap::contains_key` (models.rs 532, 542, 556, 1058). -/
def containsKey [DecidableEq K] (k : K) (m : List (K × V)) : Bool := (get k m).isSome

/-- `BTreeMap::keys`, in iteration order (std, for use in statements). -/
def keys (m : List (K × V)) : List K := m.map Prod.fst

/-- The `BTreeMap` representation invariant: keys strictly increasing. -/
def Sorted [Ord K] (m : List (K × V)) : Prop :=
  m.Pairwise (fun a b => compare a.1 b.1 = .lt)

/-- A sequence of `insert` calls, left to right (for example macros.rs 353). -/
def insertAll [Ord K] (kvs : List (K × V)) (m : List (K × V)) : List (K × V) :=
  kvs.foldl (fun m kv => insert kv.1 kv.2 m) m

/-! ## Laws -/

section laws
variable [Ord K] [DecidableEq K] [Std.TransOrd K] [Std.LawfulEqOrd K]

theorem compare_self (k : K) : compare k k = .eq := Std.ReflCmp.compare_self

theorem eq_of_compare {a b : K} (h : compare a b = .eq) : a = b := Std.LawfulEqCmp.eq_of_compare h

theorem ne_of_lt {a b : K} (h : compare a b = .lt) : a ≠ b := by
  intro e; subst e; rw [compare_self] at h; cases h

theorem lt_trans {a b c : K} (h : compare a b = .lt) (h' : compare b c = .lt) :
    compare a c = .lt := Std.TransCmp.lt_trans h h'

theorem gt_iff_lt {a b : K} : compare a b = .gt ↔ compare b a = .lt := Std.OrientedCmp.gt_iff_lt

theorem lt_irrefl {a : K} : compare a a ≠ .lt := by rw [compare_self]; decide

theorem lt_asymm {a b : K} (h : compare a b = .lt) : compare b a ≠ .lt := by
  intro h'; exact lt_irrefl (lt_trans h h')

@[simp] theorem get_nil (k : K) : get k ([] : List (K × V)) = none := rfl

theorem get_cons (k : K) (b : K × V) (m : List (K × V)) :
    get k (b :: m) = if k = b.1 then some b.2 else get k m := rfl

theorem get_eq_none_iff {k : K} {m : List (K × V)} : get k m = none ↔ k ∉ keys m := by
  induction m with
  | nil => simp [keys]
  | cons b m ih =>
    rw [get_cons]; simp only [keys, List.map_cons, List.mem_cons] at *
    by_cases h : k = b.1 <;> simp [h, ih]

theorem get_isSome_iff {k : K} {m : List (K × V)} : (get k m).isSome ↔ k ∈ keys m := by
  have := get_eq_none_iff (k := k) (m := m)
  cases h : get k m <;> simp_all

theorem containsKey_iff {k : K} {m : List (K × V)} : containsKey k m = true ↔ k ∈ keys m := get_isSome_iff

theorem containsKey_false_iff {k : K} {m : List (K × V)} : containsKey k m = false ↔ k ∉ keys m := by
  rw [← Bool.not_eq_true, containsKey_iff]

theorem mem_of_get {k : K} {v : V} {m : List (K × V)} (h : get k m = some v) : (k, v) ∈ m := by
  induction m with
  | nil => simp at h
  | cons b m ih =>
    rw [get_cons] at h
    split at h
    · rename_i e; cases h; subst e; exact List.mem_cons_self
    · exact List.mem_cons_of_mem _ (ih h)

/-- Reading after an insert: the new value at the key, the old ones elsewhere. -/
theorem get_insert (k k' : K) (v : V) (m : List (K × V)) :
    get k' (insert k v m) = if k' = k then some v else get k' m := by
  induction m with
  | nil => simp [insert, get_cons]
  | cons b m ih =>
    obtain ⟨kb, vb⟩ := b
    simp only [insert]
    split
    · rfl
    · rename_i h
      have := eq_of_compare h; subst this
      simp only [get_cons]; split <;> simp_all
    · rename_i h
      simp only [get_cons, ih]
      by_cases e : k' = kb
      · subst e
        have : k' ≠ k := by
          intro e; subst e; rw [compare_self] at h; cases h
        simp [this]
      · simp [e]

theorem get_insert_self (k : K) (v : V) (m : List (K × V)) : get k (insert k v m) = some v := by
  simp [get_insert]

theorem get_insert_ne {k k' : K} (h : k' ≠ k) (v : V) (m : List (K × V)) :
    get k' (insert k v m) = get k' m := by simp [get_insert, h]

theorem mem_insert_sub {k : K} {v : V} {b : K × V} {m : List (K × V)}
    (h : b ∈ insert k v m) : b = (k, v) ∨ b ∈ m := by
  induction m with
  | nil => simp [insert] at h; exact .inl h
  | cons c m ih =>
    simp only [insert] at h
    split at h
    · simpa using h
    · simp only [List.mem_cons] at h ⊢
      rcases h with h | h
      · exact .inl h
      · exact .inr (.inr h)
    · simp only [List.mem_cons] at h ⊢
      rcases h with h | h
      · exact .inr (.inl h)
      · rcases ih h with h | h
        · exact .inl h
        · exact .inr (.inr h)

theorem mem_keys_insert {k k' : K} {v : V} {m : List (K × V)} :
    k' ∈ keys (insert k v m) ↔ k' = k ∨ k' ∈ keys m := by
  rw [← get_isSome_iff, ← get_isSome_iff, get_insert]
  by_cases h : k' = k <;> simp [h]

/-- `insert` keeps the representation invariant. -/
theorem sorted_insert {k : K} {v : V} {m : List (K × V)} (h : Sorted m) : Sorted (insert k v m) := by
  induction m with
  | nil => simp [insert, Sorted]
  | cons b m ih =>
    obtain ⟨kb, vb⟩ := b
    rw [Sorted, List.pairwise_cons] at h
    simp only [insert]
    split
    · rename_i hc
      rw [Sorted, List.pairwise_cons, List.pairwise_cons]
      refine ⟨?_, h.1, h.2⟩
      intro a ha
      rcases List.mem_cons.1 ha with rfl | ha
      · exact hc
      · exact lt_trans hc (h.1 a ha)
    · rename_i hc
      have := eq_of_compare hc; subst this
      rw [Sorted, List.pairwise_cons]; exact ⟨h.1, h.2⟩
    · rename_i hc
      rw [Sorted, List.pairwise_cons]
      refine ⟨?_, ih h.2⟩
      intro a ha
      rcases mem_insert_sub ha with rfl | ha
      · exact gt_iff_lt.1 hc
      · exact h.1 a ha

theorem sorted_nil : Sorted ([] : List (K × V)) := List.Pairwise.nil

theorem nodup_keys {m : List (K × V)} (h : Sorted m) : (keys m).Nodup := by
  unfold keys List.Nodup
  rw [List.pairwise_map]
  exact List.Pairwise.imp (fun h => ne_of_lt h) h

theorem get_of_mem {k : K} {v : V} {m : List (K × V)} (hs : Sorted m) (h : (k, v) ∈ m) :
    get k m = some v := by
  induction m with
  | nil => cases h
  | cons b m ih =>
    rw [Sorted, List.pairwise_cons] at hs
    rw [get_cons]
    rcases List.mem_cons.1 h with rfl | h
    · simp
    · have := ne_of_lt (hs.1 _ h)
      simp only [Ne] at this
      rw [if_neg (fun e => this e.symm)]
      exact ih hs.2 h

theorem get_iff_mem {k : K} {v : V} {m : List (K × V)} (hs : Sorted m) :
    get k m = some v ↔ (k, v) ∈ m := ⟨mem_of_get, get_of_mem hs⟩

/-- Extensionality: a sorted map is determined by its lookups. -/
theorem ext {m m' : List (K × V)} (hs : Sorted m) (hs' : Sorted m')
    (h : ∀ k, get k m = get k m') : m = m' := by
  induction m generalizing m' with
  | nil =>
    cases m' with
    | nil => rfl
    | cons b m' => have := h b.1; simp [get_cons] at this
  | cons b m ih =>
    obtain ⟨kb, vb⟩ := b
    cases m' with
    | nil => have := h kb; simp [get_cons] at this
    | cons c m' =>
      obtain ⟨kc, vc⟩ := c
      rw [Sorted, List.pairwise_cons] at hs hs'
      have hk : kb = kc := by
        cases hc : compare kb kc with
        | eq => exact eq_of_compare hc
        | lt =>
          have h1 := h kb
          simp only [get_cons, if_true] at h1
          rw [if_neg (ne_of_lt hc)] at h1
          have := hs'.1 _ (mem_of_get h1.symm)
          exact absurd (lt_trans hc this) lt_irrefl
        | gt =>
          have hc := gt_iff_lt.1 hc
          have h1 := h kc
          simp only [get_cons, if_true] at h1
          rw [if_neg (ne_of_lt hc)] at h1
          have := hs.1 _ (mem_of_get h1)
          exact absurd (lt_trans hc this) lt_irrefl
      subst hk
      have hv : vb = vc := by have := h kb; simpa [get_cons] using this
      subst hv
      congr 1
      apply ih hs.2 hs'.2
      intro k
      by_cases e : k = kb
      · subst e
        have a : get k m = none := by
          rw [get_eq_none_iff]; intro hm
          simp only [keys, List.mem_map] at hm
          obtain ⟨p, hp, rfl⟩ := hm
          exact lt_irrefl (hs.1 p hp)
        have b : get k m' = none := by
          rw [get_eq_none_iff]; intro hm
          simp only [keys, List.mem_map] at hm
          obtain ⟨p, hp, rfl⟩ := hm
          exact lt_irrefl (hs'.1 p hp)
        rw [a, b]
      · have := h k
        simpa [get_cons, e] using this

theorem sorted_insertAll (kvs : List (K × V)) {m : List (K × V)} (h : Sorted m) :
    Sorted (insertAll kvs m) := by
  induction kvs generalizing m with
  | nil => exact h
  | cons b kvs ih => exact ih (sorted_insert h)

/-- A sequence of inserts: the last binding given for a key wins, older content is kept elsewhere. -/
theorem get_insertAll (kvs : List (K × V)) (m : List (K × V)) (k : K) :
    get k (insertAll kvs m) = (get k kvs.reverse).or (get k m) := by
  induction kvs generalizing m with
  | nil => simp [insertAll]
  | cons b kvs ih =>
    have : insertAll (b :: kvs) m = insertAll kvs (insert b.1 b.2 m) := rfl
    rw [this, ih, get_insert, List.reverse_cons]
    clear this ih
    generalize kvs.reverse = l
    induction l with
    | nil => by_cases e : k = b.1 <;> simp [get_cons, e]
    | cons c l ih =>
      simp only [List.cons_append, get_cons]
      by_cases e : k = c.1
      · simp [e]
      · simp only [e, if_false]; exact ih

theorem get_of_mem_nodup {k : K} {v : V} {m : List (K × V)} (hs : (keys m).Nodup) (h : (k, v) ∈ m) :
    get k m = some v := by
  induction m with
  | nil => cases h
  | cons b m ih =>
    simp only [keys, List.map_cons, List.nodup_cons] at hs
    rw [get_cons]
    rcases List.mem_cons.1 h with rfl | h
    · simp
    · rw [if_neg (fun e => hs.1 (by rw [← e]; exact List.mem_map_of_mem (f := Prod.fst) h))]
      exact ih hs.2 h

theorem get_perm {l l' : List (K × V)} (hp : l.Perm l') (hn : (keys l).Nodup) (k : K) :
    get k l = get k l' := by
  have hn' : (keys l').Nodup := (hp.map Prod.fst).nodup_iff.1 hn
  cases h : get k l with
  | some v => exact (get_of_mem_nodup hn' (hp.mem_iff.1 (mem_of_get h))).symm
  | none =>
    have h := get_eq_none_iff.1 h
    refine (get_eq_none_iff.2 ?_).symm
    intro h'; exact h ((hp.map Prod.fst).mem_iff.2 h')

/-- Inserting the same bindings with pairwise distinct keys in any order gives the same map. -/
theorem insertAll_perm {l l' : List (K × V)} (hp : l.Perm l') (hn : (keys l).Nodup)
    {m : List (K × V)} (hs : Sorted m) : insertAll l m = insertAll l' m := by
  apply ext (sorted_insertAll _ hs) (sorted_insertAll _ hs)
  intro k
  rw [get_insertAll, get_insertAll]
  have hr : l.reverse.Perm l'.reverse := (List.reverse_perm l).trans (hp.trans (List.reverse_perm l').symm)
  have hn' : (keys l.reverse).Nodup := ((List.reverse_perm l).map Prod.fst).nodup_iff.2 hn
  rw [get_perm hr hn']

end laws
end BMap
end Verif
