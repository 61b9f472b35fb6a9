import Verif.Model.Case
import Verif.Spec.Words
import Verif.Proof.Chars
/-! # Lemmas about the case conversions -/

namespace Verif
open Spec Chars

theorem intercalate_cons (s : Char) (w : List Char) (ws : List (List Char)) :
    [s].intercalate (w :: ws) = w ++ ws.flatMap (fun w => s :: w) := by
  induction ws generalizing w with
  | nil => simp [List.intercalate]
  | cons v vs ih =>
    have := ih v
    simp only [List.intercalate, List.intersperse_cons_cons, List.flatten_cons, List.flatMap_cons] at this ⊢
    rw [this]; simp

theorem intercalate_nil (s : Char) : [s].intercalate ([] : List (List Char)) = [] := rfl

theorem map_intercalate (f : Char → Char) (s : Char) (ws : List (List Char)) :
    ([s].intercalate ws).map f = [f s].intercalate (ws.map (List.map f)) := by
  cases ws with
  | nil => rfl
  | cons w ws =>
    rw [List.map_cons, intercalate_cons, intercalate_cons, List.map_append]
    simp [List.map_flatMap, List.flatMap_map]

theorem not_upper_of_tail {c : Char} (h : IsWordTail c) : c.isUpper = false := by
  rw [not_isUpper_iff]
  rcases h with h | h
  · rw [isLower_iff] at h; omega
  · rw [isDigit_iff] at h; omega

theorem ascii_of_tail {c : Char} (h : IsWordTail c) : c.toNat < 128 := by
  rcases h with h | h
  · rw [isLower_iff] at h; omega
  · rw [isDigit_iff] at h; omega

theorem snakeLoop_tail {up : Char → Bool} (hup : AsciiUpper up) (cs rest : List Char)
    (h : ∀ x ∈ cs, IsWordTail x) :
    snakeLoop up false (cs ++ rest) = lowered cs ++ snakeLoop up false rest := by
  induction cs with
  | nil => rfl
  | cons c cs ih =>
    have hc := h c List.mem_cons_self
    have : up c = false := by rw [hup c (ascii_of_tail hc)]; exact not_upper_of_tail hc
    simp only [List.cons_append, snakeLoop, this, Bool.and_false]
    rw [ih (fun x hx => h x (List.mem_cons_of_mem _ hx))]
    simp [lowered]

theorem up_of_cap {up : Char → Bool} (hup : AsciiUpper up) {c : Char} (h : c.isUpper = true) :
    up c = true := by
  rw [hup c]
  · exact h
  · rw [isUpper_iff] at h; omega

theorem snakeLoop_words {up : Char → Bool} (hup : AsciiUpper up) (ws : List (List Char))
    (h : ∀ w ∈ ws, CapWord w) :
    snakeLoop up false ws.flatten = ws.flatMap (fun w => '_' :: lowered w) := by
  induction ws with
  | nil => rfl
  | cons w ws ih =>
    obtain ⟨c, cs, rfl, hc, hcs⟩ := h w List.mem_cons_self
    rw [List.flatten_cons, List.cons_append, snakeLoop, up_of_cap hup hc, snakeLoop_tail hup cs _ hcs,
      ih (fun x hx => h x (List.mem_cons_of_mem _ hx))]
    simp [lowered]

theorem snakeLoop_first {up : Char → Bool} (hup : AsciiUpper up) (ws : List (List Char))
    (h : ∀ w ∈ ws, CapWord w) :
    snakeLoop up true ws.flatten = ['_'].intercalate (ws.map lowered) := by
  cases ws with
  | nil => rfl
  | cons w ws =>
    obtain ⟨c, cs, rfl, hc, hcs⟩ := h w List.mem_cons_self
    rw [List.flatten_cons, List.cons_append, snakeLoop, snakeLoop_tail hup cs _ hcs,
      snakeLoop_words hup ws (fun x hx => h x (List.mem_cons_of_mem _ hx)), List.map_cons,
      intercalate_cons]
    simp [lowered, List.flatMap_map]

theorem uppered_lowered (w : List Char) : uppered (lowered w) = uppered w := by
  simp [uppered, lowered, upper_lower]

theorem map_dash_word {ws : List (List Char)} (h : ∀ w ∈ ws, '_' ∉ w) :
    ws.map (List.map fun c => if c = '_' then '-' else c) = ws := by
  have : ∀ w ∈ ws, w.map (fun c => if c = '_' then '-' else c) = w := by
    intro w hw
    have := h w hw
    have e : w.map (fun c => if c = '_' then '-' else c) = w.map id := by
      apply List.map_congr_left
      intro c hc
      have : c ≠ '_' := fun e => this (e ▸ hc)
      simp [this]
    simpa using e
  calc ws.map (List.map fun c => if c = '_' then '-' else c) = ws.map id :=
        List.map_congr_left (fun w hw => this w hw)
    _ = ws := by simp

theorem tail_ne_underscore {c : Char} (h : IsWordTail c) : c ≠ '_' := by
  intro e; subst e; revert h; unfold IsWordTail; decide

theorem lowered_no_underscore {w : List Char} (h : CapWord w) : '_' ∉ lowered w := by
  obtain ⟨c, cs, rfl, hc, hcs⟩ := h
  intro hm
  simp only [lowered, List.mem_map] at hm
  obtain ⟨x, hx, he⟩ := hm
  have he := lower_eq_underscore.1 he
  subst he
  rcases List.mem_cons.1 hx with e | e
  · subst e; revert hc; decide
  · exact tail_ne_underscore (hcs _ e) rfl

theorem low_no_underscore {w : List Char} (h : LowWord w) : '_' ∉ w := by
  obtain ⟨c, cs, rfl, hc, hcs⟩ := h
  intro hx
  rcases List.mem_cons.1 hx with e | e
  · subst e; revert hc; decide
  · exact tail_ne_underscore (hcs _ e) rfl

theorem uppered_no_underscore {w : List Char} (h : '_' ∉ w) : '_' ∉ uppered w := by
  intro hm
  simp only [uppered, List.mem_map] at hm
  obtain ⟨x, hx, he⟩ := hm
  rw [upper_eq_underscore] at he; subst he; exact h hx

/-! ## Fields -/

theorem pascalLoop_word (cs rest : List Char) (h : '_' ∉ cs) :
    pascalLoop false (cs ++ rest) = cs ++ pascalLoop false rest := by
  induction cs with
  | nil => rfl
  | cons c cs ih =>
    have hc : c ≠ '_' := fun e => h (e ▸ List.mem_cons_self)
    simp only [List.cons_append, pascalLoop, hc, if_false]
    rw [ih (fun hx => h (List.mem_cons_of_mem _ hx))]
    rfl

theorem pascalLoop_first (w rest : List Char) (hw : w ≠ []) (h : '_' ∉ w) :
    pascalLoop true (w ++ rest) = capitalised w ++ pascalLoop false rest := by
  cases w with
  | nil => exact absurd rfl hw
  | cons c cs =>
    have hc : c ≠ '_' := fun e => h (e ▸ List.mem_cons_self)
    simp only [List.cons_append, pascalLoop, hc, if_false, if_true]
    rw [pascalLoop_word _ _ (fun hx => h (List.mem_cons_of_mem _ hx))]
    rfl

theorem pascalLoop_words (ws : List (List Char)) (h : ∀ w ∈ ws, w ≠ [] ∧ '_' ∉ w) :
    pascalLoop false (ws.flatMap fun w => '_' :: w) = ws.flatMap capitalised := by
  induction ws with
  | nil => rfl
  | cons w ws ih =>
    have hw := h w List.mem_cons_self
    rw [List.flatMap_cons, List.cons_append, pascalLoop, if_pos rfl, pascalLoop_first w _ hw.1 hw.2,
      ih (fun x hx => h x (List.mem_cons_of_mem _ hx)), List.flatMap_cons]

theorem pascalLoop_joined (ws : List (List Char)) (h : ∀ w ∈ ws, w ≠ [] ∧ '_' ∉ w) :
    pascalLoop true (['_'].intercalate ws) = ws.flatMap capitalised := by
  cases ws with
  | nil => rfl
  | cons w ws =>
    have hw := h w List.mem_cons_self
    rw [intercalate_cons, pascalLoop_first w _ hw.1 hw.2,
      pascalLoop_words ws (fun x hx => h x (List.mem_cons_of_mem _ hx)), List.flatMap_cons]

theorem low_ok {w : List Char} (h : LowWord w) : w ≠ [] ∧ '_' ∉ w :=
  ⟨by obtain ⟨c, cs, rfl, _⟩ := h; simp, low_no_underscore h⟩

/-- The result of `pascalLoop true` is empty exactly on strings of underscores. -/
theorem pascalLoop_nil_iff (b : Bool) (cs : List Char) :
    pascalLoop b cs = [] ↔ ∀ c ∈ cs, c = '_' := by
  induction cs generalizing b with
  | nil => simp [pascalLoop]
  | cons c cs ih =>
    by_cases hc : c = '_'
    · subst hc; simp [pascalLoop, ih]
    · cases b <;> simp [pascalLoop, hc]

/-- The first character `pascalLoop true` produces is the upper-cased first non-underscore. -/
theorem pascalLoop_head (cs : List Char) :
    (pascalLoop true cs).head? = (cs.find? (fun c => c ≠ '_')).map Char.toUpper := by
  induction cs with
  | nil => rfl
  | cons c cs ih =>
    by_cases hc : c = '_'
    · subst hc; simpa [pascalLoop] using ih
    · simp [pascalLoop, hc]

/-! ## Injectivity -/

theorem ofList_inj {a b : List Char} : String.ofList a = String.ofList b ↔ a = b := by
  constructor
  · intro h; have := congrArg String.toList h; simpa [String.toList_ofList] using this
  · intro h; rw [h]

theorem map_inj_on {f : Char → Char} {P : Char → Prop}
    (hf : ∀ c d, P c → P d → f c = f d → c = d) :
    ∀ (a b : List Char), (∀ c ∈ a, P c) → (∀ c ∈ b, P c) → a.map f = b.map f → a = b := by
  intro a
  induction a with
  | nil => intro b _ _ h; cases b <;> simp_all
  | cons c a ih =>
    intro b ha hb h
    cases b with
    | nil => simp at h
    | cons d b =>
      simp only [List.map_cons, List.cons.injEq] at h
      have := hf c d (ha c List.mem_cons_self) (hb d List.mem_cons_self) h.1
      rw [this, ih b (fun x hx => ha x (List.mem_cons_of_mem _ hx))
        (fun x hx => hb x (List.mem_cons_of_mem _ hx)) h.2]

/-- A character outside the uppercase test is not an ASCII capital. -/
theorem not_cap_of_not_up {up : Char → Bool} (hup : AsciiUpper up) {c : Char} (h : up c = false) :
    c.isUpper = false := by
  cases hc : c.isUpper with
  | false => rfl
  | true => rw [up_of_cap hup hc] at h; cases h

theorem not_low_of_up {up : Char → Bool} (hup : AsciiUpper up) {c : Char} (h : up c = true) :
    c.isLower = false := by
  cases hc : c.isLower with
  | false => rfl
  | true =>
    rw [isLower_iff] at hc
    rw [hup c (by omega)] at h
    rw [isUpper_iff] at h; omega

/-- `snakeLoop` with an arbitrary separator and an arbitrary final character map. -/
def sepLoop (up : Char → Bool) (sep : Char) (f : Char → Char) : Bool → List Char → List Char
  | _, [] => []
  | first, ch :: rest =>
    (if !first && up ch then [sep] else []) ++ f ch :: sepLoop up sep f false rest

theorem snakeLoop_map (up : Char → Bool) (g : Char → Char) (b : Bool) (cs : List Char) :
    (snakeLoop up b cs).map g = sepLoop up (g '_') (fun c => g c.toLower) b cs := by
  induction cs generalizing b with
  | nil => rfl
  | cons c cs ih =>
    rw [snakeLoop, sepLoop, List.map_append, List.map_cons, ih]
    split <;> simp

theorem sepLoop_inj {up : Char → Bool} {sep : Char} {f : Char → Char} {P : Char → Prop}
    (hsep : ∀ c, P c → f c ≠ sep)
    (hf : ∀ c d, P c → P d → up c = up d → f c = f d → c = d) :
    ∀ a b : List Char, (∀ c ∈ a, P c) → (∀ c ∈ b, P c) →
      sepLoop up sep f false a = sepLoop up sep f false b → a = b := by
  intro a
  induction a with
  | nil => intro b _ _ h; cases b <;> simp_all [sepLoop]
  | cons c a ih =>
    intro b ha hb h
    cases b with
    | nil => simp [sepLoop] at h
    | cons d b =>
      have pc := ha c List.mem_cons_self
      have pd := hb d List.mem_cons_self
      have pa := fun x hx => ha x (List.mem_cons_of_mem _ hx)
      have pb := fun x hx => hb x (List.mem_cons_of_mem _ hx)
      simp only [sepLoop, Bool.not_false, Bool.true_and] at h
      cases hc : up c <;> cases hd : up d <;> simp [hc, hd] at h
      · rw [hf c d pc pd (by rw [hc, hd]) h.1, ih b pa pb h.2]
      · exact absurd h.1 (hsep c pc)
      · exact absurd h.1.symm (hsep d pd)
      · rw [hf c d pc pd (by rw [hc, hd]) h.1, ih b pa pb h.2]

theorem sepLoop_inj_first {up : Char → Bool} {sep : Char} {f : Char → Char} {P : Char → Prop}
    (hsep : ∀ c, P c → f c ≠ sep)
    (hf : ∀ c d, P c → P d → up c = up d → f c = f d → c = d)
    (hf0 : ∀ c d : Char, P c → P d → c.isLower = false → d.isLower = false → f c = f d → c = d)
    (a b : List Char) (ha : ∀ c ∈ a, P c) (hb : ∀ c ∈ b, P c)
    (fa : ∀ c, a.head? = some c → c.isLower = false) (fb : ∀ c, b.head? = some c → c.isLower = false)
    (h : sepLoop up sep f true a = sepLoop up sep f true b) : a = b := by
  cases a with
  | nil => cases b <;> simp_all [sepLoop]
  | cons c a =>
    cases b with
    | nil => simp [sepLoop] at h
    | cons d b =>
      simp [sepLoop] at h
      rw [hf0 c d (ha c List.mem_cons_self) (hb d List.mem_cons_self) (fa c rfl) (fb d rfl) h.1,
        sepLoop_inj hsep hf a b (fun x hx => ha x (List.mem_cons_of_mem _ hx))
          (fun x hx => hb x (List.mem_cons_of_mem _ hx)) h.2]

/-! ### Character facts for the word rules -/

theorem up_lowerInj {up : Char → Bool} (hup : AsciiUpper up) {c d : Char} (hu : up c = up d)
    (h : c.toLower = d.toLower) : c = d := by
  cases hc : up c with
  | true => exact lower_inj (not_low_of_up hup hc) (not_low_of_up hup (hu ▸ hc)) h
  | false =>
    have hc' := not_cap_of_not_up hup hc
    have hd' := not_cap_of_not_up hup (hu ▸ hc : up d = false)
    rwa [lower_of_not_upper hc', lower_of_not_upper hd'] at h

theorem up_upperInj {up : Char → Bool} (hup : AsciiUpper up) {c d : Char} (hu : up c = up d)
    (h : c.toLower.toUpper = d.toLower.toUpper) : c = d := by
  rw [upper_lower, upper_lower] at h
  cases hc : up c with
  | true =>
    rwa [upper_of_not_lower (not_low_of_up hup hc), upper_of_not_lower (not_low_of_up hup (hu ▸ hc))] at h
  | false => exact upper_inj (not_cap_of_not_up hup hc) (not_cap_of_not_up hup (hu ▸ hc)) h

theorem low_upperInj {c d : Char} (hc : c.isLower = false) (hd : d.isLower = false)
    (h : c.toLower.toUpper = d.toLower.toUpper) : c = d := by
  rwa [upper_lower, upper_lower, upper_of_not_lower hc, upper_of_not_lower hd] at h

/-- The character map of `dashed`. -/
abbrev dashChar (c : Char) : Char := if c = '_' then '-' else c

theorem dashChar_inj {c d : Char} (hc : c ≠ '-') (hd : d ≠ '-') (h : dashChar c = dashChar d) : c = d := by
  unfold dashChar at h
  split at h <;> split at h
  · rename_i a b; rw [a, b]
  · exact absurd h.symm hd
  · exact absurd h hc
  · exact h

theorem dashChar_eq_dash {c : Char} (h : dashChar c = '-') : c = '_' ∨ c = '-' := by
  unfold dashChar at h; split at h
  · left; assumption
  · right; exact h

/-! ### Pascal case of fields -/

theorem isLower_upper {c : Char} (h : c.isLower = true) : c.toUpper.isUpper = true := by
  rw [isLower_iff] at h; rw [isUpper_iff, toNat_upper]; split <;> omega

theorem not_lower_upper {c : Char} (_h : c.isUpper = false) : c.toUpper.isLower = false := by
  rw [not_isLower_iff, toNat_upper]; split <;> omega

theorem pascalLoop_start {c : Char} {cs : List Char} (h : cleanField true (c :: cs) = true) :
    pascalLoop true (c :: cs) = c.toUpper :: pascalLoop false cs ∧ c.isLower = true ∧
      cleanField false cs = true := by
  simp only [cleanField, if_true, Bool.and_eq_true] at h
  have hc : c ≠ '_' := by intro e; subst e; exact absurd h.1 (by decide)
  simp [pascalLoop, hc, h.1, h.2]

theorem pascalLoop_inj (n : Nat) : ∀ a b : List Char, a.length ≤ n →
    cleanField false a = true → cleanField false b = true →
    pascalLoop false a = pascalLoop false b → a = b := by
  induction n with
  | zero =>
    intro a b hl ha hb h
    have : a = [] := List.length_eq_zero_iff.1 (by omega)
    subst this
    cases b with
    | nil => rfl
    | cons d b =>
      simp only [cleanField] at hb
      by_cases hd : d = '_'
      · subst hd
        cases b with
        | nil => simp at hb
        | cons e b =>
          simp at hb
          have := (pascalLoop_start hb).1
          have e2 : pascalLoop false ('_' :: e :: b) = pascalLoop true (e :: b) := by simp [pascalLoop]
          rw [e2, this] at h; simp [pascalLoop] at h
      · simp [pascalLoop, hd] at h
  | succ n ih =>
    intro a b hl ha hb h
    -- shape of a clean continuation
    have shape : ∀ l : List Char, cleanField false l = true →
        l = [] ∨ (∃ e r, l = '_' :: e :: r ∧ e.isLower = true ∧ cleanField false r = true ∧
          pascalLoop false l = e.toUpper :: pascalLoop false r) ∨
        (∃ e r, l = e :: r ∧ e ≠ '_' ∧ e.isUpper = false ∧ cleanField false r = true ∧
          pascalLoop false l = e :: pascalLoop false r) := by
      intro l hcl
      cases l with
      | nil => exact .inl rfl
      | cons d l =>
        right
        by_cases hd : d = '_'
        · subst hd
          cases l with
          | nil => simp [cleanField] at hcl
          | cons e r =>
            left
            simp only [cleanField, Bool.false_eq_true, if_false, if_true] at hcl
            have hcl' : cleanField true (e :: r) = true := by
              simp only [cleanField, if_true]; simpa using hcl
            obtain ⟨h1, h2, h3⟩ := pascalLoop_start hcl'
            refine ⟨e, r, rfl, h2, h3, ?_⟩
            rw [← h1]; simp [pascalLoop]
        · right
          simp [cleanField, hd] at hcl
          exact ⟨d, l, rfl, hd, hcl.1, hcl.2, by simp [pascalLoop, hd]⟩
    rcases shape a ha with rfl | ⟨e, r, rfl, h1, h2, h3⟩ | ⟨e, r, rfl, h0, h1, h2, h3⟩ <;>
    rcases shape b hb with rfl | ⟨e', r', rfl, h1', h2', h3'⟩ | ⟨e', r', rfl, h0', h1', h2', h3'⟩
    · rfl
    · rw [h3'] at h; simp [pascalLoop] at h
    · rw [h3'] at h; simp [pascalLoop] at h
    · rw [h3] at h; simp [pascalLoop] at h
    · rw [h3, h3'] at h
      injection h with q1 q2
      have hcap : ∀ x : Char, x.isLower = true → x.isUpper = false := by
        intro x hx; rw [isLower_iff] at hx; rw [not_isUpper_iff]; omega
      have := upper_inj (hcap _ h1) (hcap _ h1') q1
      simp only [List.length_cons] at hl
      rw [this, ih r r' (by omega) h2 h2' q2]
    · rw [h3, h3'] at h
      injection h with q1 q2
      have := isLower_upper h1
      rw [q1, h1'] at this; cases this
    · rw [h3] at h; simp [pascalLoop] at h
    · rw [h3, h3'] at h
      injection h with q1 q2
      have := isLower_upper h1'
      rw [← q1, h1] at this; cases this
    · rw [h3, h3'] at h
      injection h with q1 q2
      simp only [List.length_cons] at hl
      rw [q1, ih r r' (by omega) h2 h2' q2]

end Verif
