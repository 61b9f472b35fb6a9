import Verif.Spec.Choice
/-!
# Acceptance and rejection exclude each other
-/

namespace Verif

variable {x : Bool} {reg : List (String × Model)}

theorem not_valid_link {n m j} (hg : BMap.get n reg = some m) (h : ¬ ValidModel x reg m j) : ¬ Valid x reg (.link n) j := by
  intro hv
  cases hv with
  | link hg' hv => rw [hg] at hg'; cases hg'; exact h hv

theorem not_valid_inline {m j} (h : ¬ ValidModel x reg m j) : ¬ Valid x reg (.inline m) j := by
  intro hv
  cases hv with
  | inline hv => exact h hv

theorem not_valid_type {d n td j} (h : ¬ OfType td j) (hn : n = true → j ≠ .null) :
    ¬ ValidModel x reg ⟨d, .single ⟨n, td⟩⟩ j := by
  intro hv
  cases hv with
  | null => exact hn rfl rfl
  | _ => exact h trivial

theorem ofType_string {v f e j} (h : ¬ OfType (.string v f e) j) (t) : j ≠ .str t := by rintro rfl; exact h trivial

/-- Of two positions in a list, at least one is among the elements other than a given one. -/
theorem two_positions {α : Type} {pre post pre' mid post' : List α} {a b c}
    (h : pre ++ a :: post = pre' ++ b :: mid ++ c :: post') : b ∈ pre ++ post ∨ c ∈ pre ++ post := by
  induction pre generalizing pre' with
  | nil =>
    cases pre' with
    | nil =>
      simp only [List.nil_append, List.cons_append, List.cons.injEq] at h
      right; rw [h.2]; simp
    | cons p pre' =>
      simp only [List.nil_append, List.cons_append, List.cons.injEq] at h
      left; rw [h.2]; simp
  | cons p pre ih =>
    cases pre' with
    | nil =>
      simp only [List.nil_append, List.cons_append, List.cons.injEq] at h
      left; rw [h.1]; simp
    | cons p' pre' =>
      simp only [List.cons_append, List.cons.injEq] at h
      rcases ih (pre' := pre') (by simpa using h.2) with h' | h'
      · left; simp at h' ⊢; exact .inr h'
      · right; simp at h' ⊢; exact .inr h'

mutual
theorem Valid.not_invalid : ∀ {r j}, Valid x reg r j → ¬ Invalid x reg r j
  | _, _, .any, h => nomatch h
  | _, _, .link hg hv, h => by
    cases h with
    | link hg' hv' => rw [hg] at hg'; cases hg'; exact ValidModel.not_invalid hv hv'
  | _, _, .inline hv, h => by
    cases h with
    | inline hv' => exact ValidModel.not_invalid hv hv'
termination_by structural _ _ h => h
theorem ValidModel.not_invalid : ∀ {m j}, ValidModel x reg m j → ¬ InvalidModel x reg m j
  | _, _, .null, h => by
    cases h with
    | type hn _ => exact hn rfl rfl
  | _, _, .string hv, h => by
    cases h with
    | type _ h => exact h trivial
    | string h => exact h (hv _ rfl)
  | _, _, .number, h => by cases h with | type _ h => exact h trivial
  | _, _, .numberInt, h => by cases h with | type _ h => exact h trivial
  | _, _, .integer, h => by cases h with | type _ h => exact h trivial
  | _, _, .boolean, h => by cases h with | type _ h => exact h trivial
  | _, _, .array hv, h => by
    cases h with
    | type _ h => exact h trivial
    | item hx hi => exact Valid.not_invalid (hv _ hx) hi
  | _, _, .object hr hp ha, h => by
    cases h with
    | type _ h => exact h trivial
    | required h hk => exact hk (hr _ h)
    | property h hg hi => exact Valid.not_invalid (hp _ _ _ h hg) hi
    | additional h hg hadd hi => exact Valid.not_invalid (ha _ _ _ h hg hadd) hi
  | _, _, .oneOf he hv hx, h => by
    cases h with
    | oneOfNone h => exact Valid.not_invalid hv (h _ (by rw [he]; simp))
    | oneOfTwo hex he' h1 h2 =>
      rcases two_positions (he.symm.trans he') with hm | hm
      · exact Invalid.not_valid (hx hex _ hm) h1
      · exact Invalid.not_valid (hx hex _ hm) h2
  | _, _, .anyOf hm hv, h => by
    cases h with
    | anyOf h => exact Valid.not_invalid hv (h _ hm)
  | _, _, .allOf hv, h => by
    cases h with
    | allOf hm hi => exact Valid.not_invalid (hv _ hm) hi
termination_by structural _ _ h => h
theorem Invalid.not_valid : ∀ {r j}, Invalid x reg r j → ¬ Valid x reg r j
  | _, _, .link hg hi, h => by
    cases h with
    | link hg' hv' => rw [hg] at hg'; cases hg'; exact InvalidModel.not_valid hi hv'
  | _, _, .inline hi, h => by
    cases h with
    | inline hv' => exact InvalidModel.not_valid hi hv'
termination_by structural _ _ h => h
theorem InvalidModel.not_valid : ∀ {m j}, InvalidModel x reg m j → ¬ ValidModel x reg m j
  | _, _, .type hn ht, h => not_valid_type ht hn h
  | _, _, .string hn, h => by
    cases h with
    | string h => exact hn (h _ rfl)
  | _, _, .item hx hi, h => by
    cases h with
    | array h => exact Invalid.not_valid hi (h _ hx)
  | _, _, .required hr hk, h => by
    cases h with
    | object h _ _ => exact hk (h _ hr)
  | _, _, .property hm hg hi, h => by
    cases h with
    | object _ h _ => exact Invalid.not_valid hi (h _ _ _ hm hg)
  | _, _, .additional hm hg ha hi, h => by
    cases h with
    | object _ _ h => exact Invalid.not_valid hi (h _ _ _ hm hg ha)
  | _, _, .oneOfNone hi, h => by
    cases h with
    | oneOf he hv _ => exact Invalid.not_valid (hi _ (by rw [he]; simp)) hv
  | _, _, .oneOfTwo hex he h1 h2, h => by
    cases h with
    | oneOf he' _ hx =>
      rcases two_positions (he'.symm.trans he) with hm | hm
      · exact Valid.not_invalid h1 (hx hex _ hm)
      · exact Valid.not_invalid h2 (hx hex _ hm)
  | _, _, .anyOf hi, h => by
    cases h with
    | anyOf hm hv => exact Invalid.not_valid (hi _ hm) hv
  | _, _, .allOf hm hi, h => by
    cases h with
    | allOf h => exact Invalid.not_valid hi (h _ hm)
termination_by structural _ _ h => h
end

end Verif
