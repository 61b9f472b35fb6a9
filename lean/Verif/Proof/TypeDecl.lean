import Verif.Proof.ApiLocal
/-!
# `describe_type!`
-/

namespace Verif

theorem PropDecl.named?_some {name : String} {p q : PropDecl} (h : p.named? name = some q) : q = p ∧ p.name = name := by
  unfold PropDecl.named? at h
  split at h
  · cases h; exact ⟨rfl, ‹_›⟩
  · cases h

theorem lastOf_prop_mem {name : String} {ps : List PropDecl} {p : PropDecl}
    (h : lastOf (PropDecl.named? name) ps = some p) : p ∈ ps := by
  obtain ⟨q, hq, e⟩ := lastOf_mem h
  rw [(PropDecl.named?_some e).1]
  exact hq

theorem get_describeProperties (name : String) (ps : List PropDecl) (m : List (String × Ref)) :
    BMap.get name (describeProperties ps m) =
      match lastOf (PropDecl.named? name) ps with
      | some p => some p.value.ref
      | none => BMap.get name m := by
  induction ps generalizing m with
  | nil => rfl
  | cons p ps ih =>
    obtain ⟨n, r, v⟩ := p
    rw [describeProperties, ih, lastOf_cons, BMap.get_insert]
    cases lastOf (PropDecl.named? name) ps with
    | some q => rfl
    | none =>
      by_cases h : name = n
      · subst h; simp [PropDecl.named?, PropDecl.name, PropDecl.value]
      · have : ¬ n = name := fun e => h e.symm
        simp [PropDecl.named?, PropDecl.name, h, this]

theorem sorted_describeProperties (ps : List PropDecl) {m : List (String × Ref)} (h : BMap.Sorted m) :
    BMap.Sorted (describeProperties ps m) := by
  induction ps generalizing m with
  | nil => exact h
  | cons p ps ih => obtain ⟨n, r, v⟩ := p; rw [describeProperties]; exact ih (BMap.sorted_insert h)

theorem describeRequired_eq (ps : List PropDecl) :
    describeRequired ps = (ps.filter PropDecl.required).map PropDecl.name := by
  induction ps with
  | nil => rfl
  | cons p ps ih =>
    obtain ⟨n, r, v⟩ := p
    rw [describeRequired, ih]
    cases r with
    | false => rfl
    | true => rfl

theorem spells_object {d : Option String} {ps : List PropDecl} (h : ∀ p ∈ ps, SpellsRef p.value p.value.ref) :
    SpellsModel (.object d ps) (TypeDecl.object d ps).model := by
  rw [TypeDecl.model]
  refine .object (sorted_describeProperties ps BMap.sorted_nil) (fun name => ?_) (fun name p r hp hr => ?_)
    (describeRequired_eq ps)
  · rw [get_describeProperties]
    cases lastOf (PropDecl.named? name) ps <;> simp
  · rw [get_describeProperties, hp] at hr
    cases hr
    exact h p (lastOf_prop_mem hp)

mutual
theorem TypeDecl.spells : ∀ t : TypeDecl, SpellsModel t t.model
  | .rawModel m => .rawModel m
  | .rawType d data => .rawType d data
  | .string d f e vs => .string d f e vs
  | .number d f e => .number d f e
  | .integer d f e => .integer d f e
  | .boolean d => .boolean d
  | .array _ items => .array items.spells
  | .object _ ps => spells_object (PropDecl.spellsAll ps)
termination_by structural t => t
theorem RefDecl.spells : ∀ r : RefDecl, SpellsRef r r.ref
  | .link name => .link name
  | .inline t => .inline t.spells
termination_by structural r => r
theorem PropDecl.spells : ∀ p : PropDecl, SpellsRef p.value p.value.ref
  | .mk _ _ v => v.spells
termination_by structural p => p
theorem PropDecl.spellsAll : ∀ (ps : List PropDecl), ∀ p ∈ ps, SpellsRef p.value p.value.ref
  | [], _, h => nomatch h
  | p :: ps, q, h => by
    rcases List.mem_cons.1 h with e | h
    · exact e ▸ PropDecl.spells p
    · exact PropDecl.spellsAll ps q h
termination_by structural ps => ps
end

theorem spells_object_unique {d : Option String} {ps : List PropDecl}
    (ih : ∀ p ∈ ps, ∀ r, SpellsRef p.value r → r = p.value.ref) {m : Model} (h : SpellsModel (.object d ps) m) :
    m = (TypeDecl.object d ps).model := by
  cases h with
  | object sorted names values req =>
    rw [TypeDecl.model, req, describeRequired_eq]
    rename_i properties required
    have : properties = describeProperties ps [] := by
      apply BMap.ext sorted (sorted_describeProperties ps BMap.sorted_nil)
      intro name
      rw [get_describeProperties]
      cases hl : lastOf (PropDecl.named? name) ps with
      | none => exact (names name).2 hl
      | some p =>
        cases hg : BMap.get name properties with
        | none => rw [(names name).1 hg] at hl; cases hl
        | some r => rw [ih p (lastOf_prop_mem hl) r (values name p r hl hg)]
    rw [this]

mutual
theorem TypeDecl.unique : ∀ (t : TypeDecl) (m : Model), SpellsModel t m → m = t.model
  | .rawModel _, _, h => by cases h; rfl
  | .rawType _ _, _, h => by cases h; rfl
  | .string .., _, h => by cases h; rfl
  | .number .., _, h => by cases h; rfl
  | .integer .., _, h => by cases h; rfl
  | .boolean _, _, h => by cases h; rfl
  | .array _ items, _, h => by
    cases h with
    | array h => rw [RefDecl.unique items _ h]; rfl
  | .object _ ps, _, h => spells_object_unique (PropDecl.uniqueAll ps) h
termination_by structural t => t
theorem RefDecl.unique : ∀ (r : RefDecl) (x : Ref), SpellsRef r x → x = r.ref
  | .link _, _, h => by cases h; rfl
  | .inline t, _, h => by
    cases h with
    | inline h => rw [TypeDecl.unique t _ h]; rfl
termination_by structural r => r
theorem PropDecl.unique : ∀ (p : PropDecl) (x : Ref), SpellsRef p.value x → x = p.value.ref
  | .mk _ _ v, x, h => RefDecl.unique v x h
termination_by structural p => p
theorem PropDecl.uniqueAll : ∀ (ps : List PropDecl), ∀ p ∈ ps, ∀ r, SpellsRef p.value r → r = p.value.ref
  | [], _, h, _, _ => nomatch h
  | p :: ps, q, h, r, hr => by
    rcases List.mem_cons.1 h with e | h
    · rw [e] at hr ⊢
      exact PropDecl.unique p r hr
    · exact PropDecl.uniqueAll ps q h r hr
termination_by structural ps => ps
end

/-! ## Names of bare segments -/

theorem afterColon_prefix (pre cs : List Char) (h : ':' ∉ cs) : afterColon (pre ++ ':' :: cs) = cs := by
  induction pre with
  | nil => simp [afterColon, h]
  | cons c pre ih => simp only [List.cons_append, afterColon]; rw [if_pos (by simp), ih]

theorem afterColon_none (cs : List Char) (h : ':' ∉ cs) : afterColon cs = cs := by
  cases cs with
  | nil => rfl
  | cons c cs =>
    simp only [List.mem_cons, not_or] at h
    simp only [afterColon]
    rw [if_neg h.2, if_neg (fun e => h.1 e.symm)]

theorem printSegments_last (init : List (String × List TypePath)) (name : String) :
    ∃ pre, (printSegments (init ++ [(name, [])])).toList = pre ++ name.toList ∧ (pre = [] ∨ ∃ p, pre = p ++ [':']) := by
  induction init with
  | nil => exact ⟨[], by simp [printSegments, printArgs], .inl rfl⟩
  | cons s init ih =>
    obtain ⟨n, args⟩ := s
    obtain ⟨pre, e, h⟩ := ih
    have : printSegments ((n, args) :: (init ++ [(name, [])])) =
        n ++ printArgs args ++ "::" ++ printSegments (init ++ [(name, [])]) := by
      cases init <;> rfl
    refine ⟨(n ++ printArgs args ++ "::").toList ++ pre, ?_, .inr ?_⟩
    · rw [List.cons_append, this, String.toList_append, e, List.append_assoc]
    · rcases h with rfl | ⟨p, rfl⟩
      · exact ⟨(n ++ printArgs args ++ ":").toList, by simp [String.toList_append]⟩
      · exact ⟨(n ++ printArgs args ++ "::").toList ++ p, by simp⟩

theorem afterColon_print (leading : Bool) (init : List (String × List TypePath)) (name : String) (h : ':' ∉ name.toList) :
    afterColon (TypePath.print (.mk leading (init ++ [(name, [])]))).toList = name.toList := by
  obtain ⟨pre, e, hp⟩ := printSegments_last init name
  have key : ∀ lead : List Char, (lead = [] ∨ ∃ p, lead = p ++ [':']) → afterColon (lead ++ (pre ++ name.toList)) = name.toList := by
    intro lead hl
    rcases hp with rfl | ⟨p, rfl⟩
    · rcases hl with rfl | ⟨q, rfl⟩
      · exact afterColon_none _ h
      · have := afterColon_prefix q name.toList h
        simpa using this
    · have := afterColon_prefix (lead ++ p) name.toList h
      simpa using this
  rw [TypePath.print, String.toList_append, e]
  cases leading with
  | false => exact key [] (.inl rfl)
  | true => exact key [':', ':'] (.inr ⟨[':'], rfl⟩)

theorem asciiLowerChar_eq (ch : Char) : asciiLowerChar ch = ch.toLower := by
  unfold asciiLowerChar Char.toLower
  by_cases h : 'A' ≤ ch ∧ ch ≤ 'Z'
  · have h' : ch.val ≥ 'A'.val ∧ ch.val ≤ 'Z'.val := h
    rw [if_pos h, dif_pos h']
    have h2 : ch.val.toNat ≤ 90 := h.2
    have v : (ch.toNat + 32).isValidChar := .inl (by show ch.val.toNat + 32 < _; omega)
    unfold Char.ofNat
    rw [dif_pos v]
    apply Char.ext
    apply UInt32.toNat_inj.1
    show ch.toNat + 32 = _
    rw [UInt32.toNat_add]
    show ch.val.toNat + 32 = (ch.val.toNat + 32) % _
    rw [Nat.mod_eq_of_lt (by omega)]
  · have h' : ¬ (ch.val ≥ 'A'.val ∧ ch.val ≤ 'Z'.val) := h
    rw [if_neg h, dif_neg h']

end Verif
