import Verif.Spec.Json
/-!
# Serialized values: keys and lookups
-/

namespace Verif

instance : Std.TransOrd Key where
  eq_swap := by
    intro a b
    cases a with
    | str a => cases b with
      | str b => exact Std.OrientedCmp.eq_swap (cmp := (compare : String → String → Ordering))
      | num b => rfl
    | num a => cases b with
      | str b => rfl
      | num b => exact Std.OrientedCmp.eq_swap (cmp := (compare : Nat → Nat → Ordering))
  isLE_trans := by
    intro a b c h h'
    cases a with
    | str a => cases b with
      | str b => cases c with
        | str c => exact Std.TransCmp.isLE_trans (cmp := (compare : String → String → Ordering)) h h'
        | num c => rfl
      | num b => cases c with
        | str c => cases h'
        | num c => rfl
    | num a => cases b with
      | str b => cases h
      | num b => cases c with
        | str c => cases h'
        | num c => exact Std.TransCmp.isLE_trans (cmp := (compare : Nat → Nat → Ordering)) h h'

instance : Std.LawfulEqOrd Key where
  compare_self := by
    intro a
    cases a with
    | str a => exact Std.ReflCmp.compare_self (cmp := (compare : String → String → Ordering))
    | num a => exact Std.ReflCmp.compare_self (cmp := (compare : Nat → Nat → Ordering))
  eq_of_compare := by
    intro a b h
    cases a with
    | str a => cases b with
      | str b => exact congrArg Key.str (Std.LawfulEqCmp.eq_of_compare (cmp := (compare : String → String → Ordering)) h)
      | num b => cases h
    | num a => cases b with
      | str b => cases h
      | num b => exact congrArg Key.num (Std.LawfulEqCmp.eq_of_compare (cmp := (compare : Nat → Nat → Ordering)) h)

/-! ## Lookups -/

/-- Lookup of a string key. -/
def lk (k : String) (es : List (Key × Value)) : Option Value := BMap.get (.str k) es

@[simp] theorem lk_nil (k : String) : lk k [] = none := rfl

@[simp] theorem lk_cons_str (k k' : String) (v : Value) (es) :
    lk k ((.str k', v) :: es) = if k = k' then some v else lk k es := by
  simp [lk, BMap.get_cons]

@[simp] theorem lk_cons_num (k : String) (n : Nat) (v : Value) (es) : lk k ((.num n, v) :: es) = lk k es := by
  simp [lk, BMap.get_cons]

@[simp] theorem entriesOf_nil : entriesOf [] = [] := rfl

theorem lk_append (k : String) (es es' : List (Key × Value)) : lk k (es ++ es') = (lk k es).or (lk k es') := by
  induction es with
  | nil => simp
  | cons e es ih =>
    obtain ⟨k' | n, v⟩ := e
    · rw [List.cons_append, lk_cons_str, lk_cons_str, ih]; split <;> simp
    · rw [List.cons_append, lk_cons_num, lk_cons_num, ih]

@[simp] theorem lk_entriesOf (k k' : String) (v : Option Value) (fs : List (String × Option Value)) :
    lk k (entriesOf ((k', v) :: fs)) = (if k = k' then v.or (lk k (entriesOf fs)) else lk k (entriesOf fs)) := by
  cases v with
  | none => simp [entriesOf]
  | some v => simp [entriesOf]

theorem lk_eq_none {k : String} {es : List (Key × Value)} : lk k es = none ↔ .str k ∉ BMap.keys es :=
  BMap.get_eq_none_iff

theorem keys_append {K V : Type} (es es' : List (K × V)) : BMap.keys (es ++ es') = BMap.keys es ++ BMap.keys es' := by
  simp [BMap.keys]

/-- The keys of a struct are among the names of its fields, in order. -/
theorem keys_entriesOf (fs : List (String × Option Value)) :
    (BMap.keys (entriesOf fs)).Sublist (fs.map fun f => Key.str f.1) := by
  induction fs with
  | nil => exact List.Sublist.slnil
  | cons f fs ih =>
    obtain ⟨k, v⟩ := f
    cases v with
    | none => exact ih.cons _
    | some v => exact ih.cons_cons _

/-! ## Normal forms -/

theorem normalMap_eq (es : List (Key × Value)) : normalMap es = es.map fun e => (e.1, e.2.normal) := by
  induction es with
  | nil => rfl
  | cons e es ih => obtain ⟨k, v⟩ := e; simp [normalMap, ih]

theorem normalSeq_eq (vs : List Value) : normalSeq vs = vs.map Value.normal := by
  induction vs with
  | nil => rfl
  | cons v vs ih => simp [normalSeq, ih]

theorem get_map_snd {K V W : Type} [DecidableEq K] (f : V → W) (k : K) (es : List (K × V)) :
    BMap.get k (es.map fun e => (e.1, f e.2)) = (BMap.get k es).map f := by
  induction es with
  | nil => rfl
  | cons e es ih =>
    simp only [List.map_cons, BMap.get]
    split
    · rfl
    · exact ih

theorem keys_map_snd {K V W : Type} (f : V → W) (es : List (K × V)) :
    BMap.keys (es.map fun e => (e.1, f e.2)) = BMap.keys es := by
  simp [BMap.keys, Function.comp_def]

theorem get_normalEntries {es : List (Key × Value)} (hn : (BMap.keys es).Nodup) (k : Key) :
    BMap.get k (BMap.insertAll (normalMap es) []) = (BMap.get k es).map Value.normal := by
  have hn' : (BMap.keys (normalMap es)).Nodup := by rw [normalMap_eq, keys_map_snd]; exact hn
  rw [BMap.get_insertAll, BMap.get_perm (List.reverse_perm _)
    (((List.reverse_perm _).map Prod.fst).nodup_iff.2 hn') k, normalMap_eq, get_map_snd]
  simp

/-- Same lookups up to the order of map entries. -/
def SameEntries (es es' : List (Key × Value)) : Prop :=
  ∀ k, (lk k es).map Value.normal = (lk k es').map Value.normal

theorem sameEntries_of_normal {es es' : List (Key × Value)} (h : (Value.map es).normal = (Value.map es').normal)
    (hn : (BMap.keys es).Nodup) (hn' : (BMap.keys es').Nodup) : SameEntries es es' := by
  intro k
  simp only [Value.normal, Value.map.injEq] at h
  rw [lk, lk, ← get_normalEntries hn, ← get_normalEntries hn', h]

theorem sorted_map_snd {K V W : Type} [Ord K] (f : V → W) {es : List (K × V)} (h : BMap.Sorted es) :
    BMap.Sorted (es.map fun e => (e.1, f e.2)) := by
  unfold BMap.Sorted at h ⊢
  exact List.pairwise_map.2 h

theorem insertAll_sorted {es : List (Key × Value)} (h : BMap.Sorted es) : BMap.insertAll es [] = es := by
  refine BMap.ext (BMap.sorted_insertAll _ BMap.sorted_nil) h ?_
  intro k
  have hn := BMap.nodup_keys h
  rw [BMap.get_insertAll, BMap.get_perm (List.reverse_perm _) (((List.reverse_perm _).map Prod.fst).nodup_iff.2 hn) k]
  simp

theorem normal_sorted {es : List (Key × Value)} (h : BMap.Sorted es) :
    (Value.map es).normal = .map (es.map fun e => (e.1, e.2.normal)) := by
  rw [Value.normal, normalMap_eq, insertAll_sorted (sorted_map_snd _ h)]

/-! ## Schemas -/

theorem serProps_eq (ps : List (String × Ref)) : serProps ps = ps.map fun p => (Key.str p.1, p.2.ser) := by
  induction ps with
  | nil => rfl
  | cons p ps ih => obtain ⟨k, r⟩ := p; simp [serProps, ih]

theorem serRefs_eq (rs : List Ref) : serRefs rs = rs.map Ref.ser := by
  induction rs with
  | nil => rfl
  | cons r rs ih => simp [serRefs, ih]

theorem serOptRef_eq (r : Option Ref) : serOptRef r = r.map Ref.ser := by
  cases r <;> rfl

theorem sorted_str {V W : Type} (f : V → W) {ps : List (String × V)} (h : BMap.Sorted ps) :
    BMap.Sorted (ps.map fun p => (Key.str p.1, f p.2)) := by
  unfold BMap.Sorted at h ⊢
  exact List.pairwise_map.2 h

/-- The keys a schema may have, in the order in which they are written. -/
def schemaKeys : List Key := ["description", "nullable", "type", "enum", "format", "example", "items", "properties",
  "additionalProperties", "required", "oneOf", "allOf", "anyOf"].map Key.str

theorem schemaKeys_nodup : schemaKeys.Nodup := by decide

theorem keysWithin (fs : List (String × Option Value)) (names : List String) (hf : fs.map Prod.fst = names)
    (ks : List String) (h : names.Sublist ks) : (BMap.keys (entriesOf fs)).Sublist (ks.map Key.str) := by
  subst hf
  have := keys_entriesOf fs
  rw [show (fs.map fun f => Key.str f.1) = (fs.map Prod.fst).map Key.str by simp] at this
  exact this.trans (h.map _)

theorem keys_desc (d : TypeDesc) : (BMap.keys d.entries).Sublist
    (["type", "enum", "format", "example", "items", "properties", "additionalProperties", "required"].map Key.str) := by
  cases d with
  | string v f e =>
    exact keysWithin [("type", some _), ("enum", _), ("format", _), ("example", _)] ["type", "enum", "format", "example"] rfl _ (by decide)
  | number f e => exact keysWithin [("type", some _), ("format", _), ("example", _)] ["type", "format", "example"] rfl _ (by decide)
  | integer f e => exact keysWithin [("type", some _), ("format", _), ("example", _)] ["type", "format", "example"] rfl _ (by decide)
  | boolean => exact keysWithin [("type", some _)] ["type"] rfl _ (by decide)
  | array r => exact keysWithin [("type", some _), ("items", some _)] ["type", "items"] rfl _ (by decide)
  | object o =>
    obtain ⟨ps, a, r⟩ := o
    exact keysWithin [("type", some _), ("properties", _), ("additionalProperties", _), ("required", _)] ["type", "properties", "additionalProperties", "required"] rfl _
      (by decide)

theorem keys_type (t : ModelType) : (BMap.keys t.entries).Sublist
    (["nullable", "type", "enum", "format", "example", "items", "properties", "additionalProperties",
      "required"].map Key.str) := by
  obtain ⟨n, d⟩ := t
  rw [ModelType.entries, keys_append]
  exact List.Sublist.append (keysWithin [("nullable", _)] ["nullable"] rfl ["nullable"] (by decide)) (keys_desc d)

theorem keys_data (d : ModelData) : (BMap.keys d.entries).Sublist
    (["nullable", "type", "enum", "format", "example", "items", "properties", "additionalProperties",
      "required", "oneOf", "allOf", "anyOf"].map Key.str) := by
  cases d with
  | single t => exact (keys_type t).trans (List.Sublist.map _ (by decide))
  | oneOf rs => exact keysWithin [("oneOf", some _)] ["oneOf"] rfl _ (by decide)
  | allOf rs => exact keysWithin [("allOf", some _)] ["allOf"] rfl _ (by decide)
  | anyOf rs => exact keysWithin [("anyOf", some _)] ["anyOf"] rfl _ (by decide)

theorem keys_model (m : Model) : (BMap.keys m.entries).Sublist schemaKeys := by
  obtain ⟨n, d⟩ := m
  rw [Model.entries, keys_append]
  exact List.Sublist.append (keysWithin [("description", _)] ["description"] rfl ["description"] (by decide)) (keys_data d)

theorem nodup_model (m : Model) : (BMap.keys m.entries).Nodup := (keys_model m).nodup schemaKeys_nodup

theorem lk_none_of_sublist {k : String} {es : List (Key × Value)} {ks : List Key} (h : (BMap.keys es).Sublist ks)
    (hk : Key.str k ∉ ks) : lk k es = none :=
  lk_eq_none.2 fun h' => hk (h.subset h')

end Verif
