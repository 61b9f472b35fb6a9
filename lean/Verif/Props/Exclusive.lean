import Verif.Proof.Validity
import Verif.Props.Conform
/-!
# C41: tuples under exclusive `oneOf`
-/

namespace Verif

variable {env : Env} {s : Serde} {reg : List (String × Model)}

theorem tuple_schema {ts : List Ty} {m} (h : HasSchema env (.tuple ts) m) :
    ∃ rs, Pointwise (fun t r => Mentions env t false {} r) ts rs ∧ m = tupleSchema none false rs := by
  obtain ⟨td, htd, rfl⟩ := yields_single (hasSchema_yields h rfl)
  obtain ⟨r, hr', rfl⟩ := yields_array htd
  obtain ⟨m', hm', rfl⟩ := yields_inline hr'
  obtain ⟨rs, hrs, rfl⟩ := yields_oneOf hm'
  exact ⟨rs, (Pointwise.map_left hrs).imp fun t r h => yields_mention h, rfl⟩

theorem valid_tuple_iff {d n rs xs} : ValidModel true reg (tupleSchema d n rs) (.arr xs) ↔
    ∀ x ∈ xs, ExactlyOne reg rs x := by
  constructor
  · intro h x hx
    cases h with
    | array h =>
      cases h x hx with
      | inline h =>
        cases h with
        | oneOf he hv hi => exact ⟨_, _, _, he, hv, hi rfl⟩
  · intro h
    refine .array fun x hx => ?_
    obtain ⟨pre, r, post, he, hv, hi⟩ := h x hx
    exact .inline (.oneOf he hv fun _ => hi)

theorem split_at {α : Type} {l : List α} {k : Nat} {a} (h : l[k]? = some a) :
    ∃ pre post, l = pre ++ a :: post ∧ pre.length = k := by
  induction l generalizing k with
  | nil => simp at h
  | cons b l ih =>
    cases k with
    | zero => simp at h; subst h; exact ⟨[], l, rfl, rfl⟩
    | succ k =>
      obtain ⟨pre, post, rfl, hk⟩ := ih (by simpa using h)
      exact ⟨b :: pre, post, rfl, by simp [hk]⟩

theorem exactlyOne_of {rs : List Ref} {k : Nat} {r j} (h : rs[k]? = some r) (hv : Valid true reg r j)
    (hi : ∀ (l : Nat) r', l ≠ k → rs[l]? = some r' → Invalid true reg r' j) : ExactlyOne reg rs j := by
  obtain ⟨pre, post, rfl, hk⟩ := split_at h
  refine ⟨pre, r, post, rfl, hv, ?_⟩
  intro r' hr'
  rcases List.mem_append.1 hr' with hr' | hr'
  · obtain ⟨l, hl⟩ := List.getElem?_of_mem hr'
    have hlt : l < pre.length := (List.getElem?_eq_some_iff.1 hl).1
    exact hi l r' (by omega) (by rw [List.getElem?_append_left hlt]; exact hl)
  · obtain ⟨l, hl⟩ := List.getElem?_of_mem hr'
    refine hi (pre.length + 1 + l) r' (by omega) ?_
    rw [List.getElem?_append_right (by omega)]
    have : pre.length + 1 + l - pre.length = l + 1 := by omega
    rw [this]
    simpa using hl

theorem not_exactlyOne {rs : List Ref} {k l : Nat} {r r' j} (h : rs[k]? = some r) (h' : rs[l]? = some r') (hkl : k < l)
    (hv : Valid true reg r j) (hv' : Valid true reg r' j) : ¬ ExactlyOne reg rs j := by
  rintro ⟨pre, r₀, post, he, _, hi⟩
  obtain ⟨pre', rest, rfl, hk⟩ := split_at h
  rw [List.getElem?_append_right (by omega)] at h'
  have : l - pre'.length = (l - k - 1) + 1 := by omega
  rw [this] at h'
  obtain ⟨mid, post', rfl, _⟩ := split_at (l := rest) (k := l - k - 1) (by simpa using h')
  rcases two_positions (he.symm.trans (by simp : _ = pre' ++ r :: mid ++ r' :: post')) with hm | hm
  · exact (hi _ hm).not_valid hv
  · exact (hi _ hm).not_valid hv'

/-- **C41** for tuples whose components exclude each other: if every value of each component is accepted by the
reference of that component and rejected by those of the others, then every value of the tuple is accepted under
exclusive `oneOf`.  Missing: components that overlap, see `c41_is_false` and `c41_scalars`. -/
theorem c41_disjoint_partial (env : Env) (s : Serde) (reg : List (String × Model)) (ts : List Ty) (m : Model)
    (schema : HasSchema env (.tuple ts) m) :
    ∃ rs, Pointwise (fun t r => Mentions env t false {} r) ts rs ∧
      ((∀ (k : Nat) t r x, ts[k]? = some t → rs[k]? = some r → Ser env s t x → Valid true reg r x) →
       (∀ (k l : Nat) t r x, l ≠ k → ts[k]? = some t → rs[l]? = some r → Ser env s t x → Invalid true reg r x) →
       ∀ j, Ser env s (.tuple ts) j → ValidModel true reg m j) := by
  obtain ⟨rs, hrs, rfl⟩ := tuple_schema schema
  refine ⟨rs, hrs, fun own others j hj => ?_⟩
  cases hj with
  | @tuple _ xs hl h =>
    refine valid_tuple_iff.2 fun x hx => ?_
    obtain ⟨k, hk⟩ := List.getElem?_of_mem hx
    have hlt : k < ts.length := by
      have := (List.getElem?_eq_some_iff.1 hk).1
      omega
    have hk' : ts[k]? = some ts[k] := List.getElem?_eq_getElem hlt
    obtain ⟨r, hrk, _⟩ := hrs.get hk'
    have hser := h k _ x hk' hk
    exact exactlyOne_of hrk (own k _ r x hk' hrk hser) fun l r' hl hr' => others k l _ r' x hl hk' hr' hser

/-- Values accepted by two components are rejected in a tuple: under exclusive `oneOf` a tuple value is not accepted
as soon as one of its items is accepted by the references of two components. -/
theorem c41_overlap_rejected (env : Env) (reg : List (String × Model)) (ts : List Ty) (m : Model)
    (schema : HasSchema env (.tuple ts) m) :
    ∃ rs, Pointwise (fun t r => Mentions env t false {} r) ts rs ∧
      ∀ (k l : Nat) r r' x xs, k < l → rs[k]? = some r → rs[l]? = some r' → x ∈ xs → Valid true reg r x →
        Valid true reg r' x → ¬ ValidModel true reg m (.arr xs) := by
  obtain ⟨rs, hrs, rfl⟩ := tuple_schema schema
  refine ⟨rs, hrs, fun k l r r' x xs hkl hr hr' hx hv hv' h => ?_⟩
  exact not_exactlyOne hr hr' hkl hv hv' (valid_tuple_iff.1 h x hx)

/-- **C41**, exactly when: if all components have values, then under exclusive `oneOf` all values of a tuple are accepted iff
each value of each component is accepted by exactly one of the references. -/
theorem c41_exact (env : Env) (s : Serde) (reg : List (String × Model)) (ts : List Ty) (m : Model)
    (schema : HasSchema env (.tuple ts) m) (inhabited : ∀ t ∈ ts, ∃ x, Ser env s t x) :
    ∃ rs, Pointwise (fun t r => Mentions env t false {} r) ts rs ∧
      ((∀ j, Ser env s (.tuple ts) j → ValidModel true reg m j) ↔
        ∀ t ∈ ts, ∀ x, Ser env s t x → ExactlyOne reg rs x) := by
  obtain ⟨rs, hrs, rfl⟩ := tuple_schema schema
  refine ⟨rs, hrs, fun h t ht x hx => ?_, fun h j hj => ?_⟩
  · obtain ⟨k, hk⟩ := List.getElem?_of_mem ht
    have : ∀ (us : List Ty), (∀ t ∈ us, ∃ x, Ser env s t x) →
        ∃ xs : List Json, xs.length = us.length ∧ ∀ (i : Nat) t x, us[i]? = some t → xs[i]? = some x → Ser env s t x := by
      intro us
      induction us with
      | nil => intro _; exact ⟨[], rfl, fun i t x h => by simp at h⟩
      | cons u us ih =>
        intro hu
        obtain ⟨y, hy⟩ := hu u List.mem_cons_self
        obtain ⟨xs, hl, hxs⟩ := ih fun t ht => hu t (List.mem_cons_of_mem _ ht)
        refine ⟨y :: xs, by simp [hl], fun i t x h1 h2 => ?_⟩
        cases i with
        | zero => simp at h1 h2; subst h1 h2; exact hy
        | succ i => exact hxs i t x (by simpa using h1) (by simpa using h2)
    obtain ⟨xs, hl, hxs⟩ := this ts inhabited
    have hlt : k < xs.length := by rw [hl]; exact (List.getElem?_eq_some_iff.1 hk).1
    have := h (.arr (xs.set k x)) (.tuple (by simp [hl]) fun i t' x' h1 h2 => by
      by_cases e : k = i
      · subst e
        rw [hk] at h1; cases h1
        rw [List.getElem?_set_self hlt] at h2; cases h2
        exact hx
      · rw [List.getElem?_set_ne e] at h2
        exact hxs i t' x' h1 h2)
    exact valid_tuple_iff.1 this x (List.mem_iff_getElem?.2 ⟨k, List.getElem?_set_self hlt⟩)
  · cases hj with
    | @tuple _ xs hl hs =>
      refine valid_tuple_iff.2 fun x hx => ?_
      obtain ⟨k, hk⟩ := List.getElem?_of_mem hx
      have hlt : k < ts.length := by
        have := (List.getElem?_eq_some_iff.1 hk).1
        omega
      have hk' : ts[k]? = some ts[k] := List.getElem?_eq_getElem hlt
      exact h _ (List.getElem_mem hlt) x (hs k _ x hk' hk)

/-! ## Tuples of scalars -/

theorem prim_mention {p : Prim} {r} (h : Mentions env (.prim p) false {} r) :
    ∃ td, r = .inline ⟨none, .single ⟨false, td⟩⟩ ∧ (∀ v f e, td = .string v f e → v = none) ∧
      ∀ j, OfType td j ↔ match p.family with
        | .string => ∃ t, j = .str t
        | .number => (∃ t, j = .num t) ∨ ∃ i, j = .int i
        | .integer => ∃ i, j = .int i
        | .boolean => ∃ b, j = .bool b := by
  obtain ⟨cx, cx', h⟩ := h
  rcases mentionReturns_iff.1 h with ⟨l, hl, _⟩ | ⟨_, m, hs, rfl⟩
  · have := (linkName_some hl).2; simp [typeName] at this
  · obtain ⟨td, htd, rfl⟩ := yields_single (hasSchema_yields ⟨cx, cx', hs⟩ rfl)
    refine ⟨td, ?_, ?_, ?_⟩
    · cases p <;> simp only [Prim.schema, simpleExpr] at htd <;>
        first
        | (rw [yields_string htd]; rfl)
        | (rw [yields_integer htd]; rfl)
        | (rw [yields_number htd]; rfl)
        | (rw [yields_boolean htd]; rfl)
    · intro v f e he
      subst he
      cases p <;> simp only [Prim.schema, simpleExpr] at htd <;>
        first
        | (have := yields_string htd; cases this; rfl)
        | (have := yields_integer htd; cases this; done)
        | (have := yields_number htd; cases this; done)
        | (have := yields_boolean htd; cases this; done)
    · intro j
      cases p <;> simp only [Prim.schema, simpleExpr] at htd <;>
        first
        | rw [yields_string htd]
        | rw [yields_integer htd]
        | rw [yields_number htd]
        | rw [yields_boolean htd]
      all_goals cases j <;> simp [OfType, Prim.family]

/-- What the schema of a scalar accepts. -/
def ScalarJson (k : SimpleKind) (j : Json) : Prop :=
  match k with
  | .string => ∃ t, j = .str t
  | .number => (∃ t, j = .num t) ∨ ∃ i, j = .int i
  | .integer => ∃ i, j = .int i
  | .boolean => ∃ b, j = .bool b

theorem scalar_ref {x : Bool} {p : Prim} {r} (h : Mentions env (.prim p) false {} r) (j : Json) :
    (ScalarJson p.family j → Valid x reg r j) ∧ (¬ ScalarJson p.family j → Invalid x reg r j) := by
  obtain ⟨td, rfl, hstr, hj⟩ := prim_mention h
  refine ⟨fun h => .inline ?_, fun h => .inline (.type (by simp) fun h' => h ((hj j).1 h'))⟩
  have ht := (hj j).2 h
  cases td with
  | string v f e =>
    have := hstr v f e rfl
    subst this
    cases j <;> simp [OfType] at ht
    exact .string (by simp)
  | number f e =>
    cases j <;> simp [OfType] at ht
    · exact .numberInt
    · exact .number
  | integer f e =>
    cases j <;> simp [OfType] at ht
    exact .integer
  | boolean =>
    cases j <;> simp [OfType] at ht
    exact .boolean
  | array r =>
    exfalso
    have := (hj (.arr [])).1 trivial
    cases hp : p.family <;> rw [hp] at this <;> simp at this
  | object o =>
    exfalso
    have := (hj (.obj [])).1 trivial
    cases hp : p.family <;> rw [hp] at this <;> simp at this

theorem primJson_scalar (hf : s.nonFinite = false) {p j} (h : PrimJson s p j) : ScalarJson p.family j := by
  cases p <;> simp only [PrimJson, hf, Bool.false_eq_true, false_and, or_false] at h <;>
    first | exact h | exact .inl h | (obtain ⟨c, rfl⟩ := h; exact ⟨_, rfl⟩)

theorem primJson_disjoint (hf : s.nonFinite = false) {p q : Prim} {j} (h : PrimJson s p j)
    (hn : ¬ Share p.family q.family) : ¬ ScalarJson q.family j := by
  have h := primJson_scalar hf h
  revert h hn
  cases p.family <;> cases q.family <;> intro hn h h' <;> simp [Share] at hn <;>
    cases j <;> simp [ScalarJson] at h h'

/-- A value of each scalar type. -/
def someJson : Prim → Json
  | .char | .str | .string => .str 'a'.toString
  | .bool | .atomicBool => .bool true
  | .f32 | .f64 => .num "0.5"
  | _ => .int 1

theorem someJson_written (p : Prim) : PrimJson s p (someJson p) := by
  cases p <;> simp only [PrimJson, someJson] <;> first | exact .inl ⟨_, rfl⟩ | exact ⟨_, rfl⟩

/-- `(bool, String)`: each value is accepted by exactly one of the references. -/
example (m : Model) (j : Json) (hm : HasSchema Sample.env (.tuple [.prim .bool, .prim .string]) m)
    (hj : Ser Sample.env Sample.serde (.tuple [.prim .bool, .prim .string]) j) : ValidModel true [] m j := by
  obtain ⟨rs, hrs, h⟩ := c41_exact Sample.env Sample.serde [] _ m hm (by
    intro t ht
    simp at ht
    rcases ht with rfl | rfl
    · exact ⟨.bool true, .prim ⟨_, rfl⟩⟩
    · exact ⟨.str "a", .prim ⟨_, rfl⟩⟩)
  refine h.2 ?_ j hj
  intro t ht x hx
  cases hrs with
  | @cons _ r1 _ _ h1 hrs => cases hrs with
    | @cons _ r2 _ _ h2 hrs =>
      cases hrs
      simp at ht
      rcases ht with rfl | rfl
      · cases hx with
        | prim hx =>
          obtain ⟨b, rfl⟩ := hx
          exact ⟨[], r1, [r2], rfl, (scalar_ref h1 _).1 ⟨b, rfl⟩, by simp; exact (scalar_ref h2 _).2 (by simp [ScalarJson, Prim.family])⟩
      · cases hx with
        | prim hx =>
          obtain ⟨b, rfl⟩ := hx
          exact ⟨[r1], r2, [], rfl, (scalar_ref h2 _).1 ⟨b, rfl⟩, by simp; exact (scalar_ref h1 _).2 (by simp [ScalarJson, Prim.family])⟩

/-- **C41** for tuples of scalars, exactly: all values of the tuple are accepted under exclusive `oneOf` iff the JSON
types of its components are pairwise different, integers counting as numbers. -/
theorem c41_scalars (env : Env) (s : Serde) (reg : List (String × Model)) (ps : List Prim) (m : Model)
    (finite : s.nonFinite = false) (schema : HasSchema env (.tuple (ps.map .prim)) m) :
    (∀ j, Ser env s (.tuple (ps.map .prim)) j → ValidModel true reg m j) ↔
      ps.Pairwise fun p q => ¬ Share p.family q.family := by
  have share_symm : ∀ a b, Share a b → Share b a := by intro a b; cases a <;> cases b <;> simp [Share]
  constructor
  · intro h
    rw [List.pairwise_iff_getElem]
    intro k l hk hl hkl hsh
    obtain ⟨rs, hrs, hrej⟩ := c41_overlap_rejected env reg _ m schema
    have hmk : (ps.map Ty.prim)[k]? = some (.prim ps[k]) := by simp [hk]
    have hml : (ps.map Ty.prim)[l]? = some (.prim ps[l]) := by simp [hl]
    obtain ⟨r, hr, hrm⟩ := hrs.get hmk
    obtain ⟨r', hr', hrm'⟩ := hrs.get hml
    have hval := h (.arr (ps.map someJson)) (by
      refine .tuple (by simp) ?_
      intro i t x ht hx
      simp only [List.getElem?_map, Option.map_eq_some_iff] at ht hx
      obtain ⟨a, ha, rfl⟩ := ht
      obtain ⟨b, hb, rfl⟩ := hx
      rw [ha] at hb
      cases hb
      exact .prim (someJson_written a))
    have memk : someJson ps[k] ∈ ps.map someJson := List.mem_map_of_mem (List.getElem_mem hk)
    have meml : someJson ps[l] ∈ ps.map someJson := List.mem_map_of_mem (List.getElem_mem hl)
    have ownk := primJson_scalar finite (someJson_written (s := s) ps[k])
    have ownl := primJson_scalar finite (someJson_written (s := s) ps[l])
    by_cases hint : ps[k].family = .number ∧ ps[l].family = .integer
    · refine hrej k l r r' _ _ hkl hr hr' meml ((scalar_ref hrm _).1 ?_) ((scalar_ref hrm' _).1 ownl) hval
      rw [hint.1]
      rw [hint.2] at ownl
      exact .inr ownl
    · refine hrej k l r r' _ _ hkl hr hr' memk ((scalar_ref hrm _).1 ownk) ((scalar_ref hrm' _).1 ?_) hval
      revert ownk hsh hint
      cases ps[k].family <;> cases ps[l].family <;> simp [Share, ScalarJson]
      intro i hi
      exact .inr ⟨i, hi⟩
  · intro hp
    obtain ⟨rs, hrs, hok⟩ := c41_disjoint_partial env s reg _ m schema
    have hne : ∀ (k l : Nat) (p q : Prim), l ≠ k → ps[k]? = some p → ps[l]? = some q → ¬ Share p.family q.family := by
      intro k l p q hlk hk hl
      obtain ⟨hk', rfl⟩ := List.getElem?_eq_some_iff.1 hk
      obtain ⟨hl', rfl⟩ := List.getElem?_eq_some_iff.1 hl
      rw [List.pairwise_iff_getElem] at hp
      rcases Nat.lt_or_gt_of_ne hlk with h | h
      · intro hs; exact hp l k hl' hk' h (share_symm _ _ hs)
      · exact hp k l hk' hl' h
    refine hok ?_ ?_
    · intro k t r x ht hr hx
      obtain ⟨r', hr', hm⟩ := hrs.get ht
      rw [hr] at hr'; cases hr'
      simp only [List.getElem?_map, Option.map_eq_some_iff] at ht
      obtain ⟨p, hp', rfl⟩ := ht
      cases hx with
      | prim hx => exact (scalar_ref hm x).1 (primJson_scalar finite hx)
    · intro k l t r x hlk ht hr hx
      simp only [List.getElem?_map, Option.map_eq_some_iff] at ht
      obtain ⟨p, hp', rfl⟩ := ht
      have hlen : ∀ {α β : Type} {R : α → β → Prop} {as : List α} {bs : List β}, Pointwise R as bs → as.length = bs.length := by
        intro α β R as bs h
        induction h with
        | nil => rfl
        | cons _ _ ih => simp [ih]
      have hl' : l < (ps.map Ty.prim).length := by
        rw [hlen hrs]; exact (List.getElem?_eq_some_iff.1 hr).1
      obtain ⟨r', hr', hm⟩ := hrs.get (List.getElem?_eq_getElem hl')
      rw [hr] at hr'; cases hr'
      simp only [List.getElem_map] at hm
      simp only [List.length_map] at hl'
      cases hx with
      | prim hx =>
        exact (scalar_ref hm x).2 (primJson_disjoint finite hx (hne k l p _ hlk hp' (List.getElem?_eq_getElem hl')))

/-- C41 is false: no pair of `u8`s is accepted by the schema of `(u8, u8)` under exclusive `oneOf`. -/
theorem c41_is_false : ∃ env m, HasSchema env (.tuple [.prim .u8, .prim .u8]) m ∧
    ∀ s j, Ser env s (.tuple [.prim .u8, .prim .u8]) j → ¬ ValidModel true [] m j := by
  refine ⟨Sample.env, _, ⟨Components.empty, _, 5, rfl⟩, ?_⟩
  intro s j hj
  cases hj with
  | @tuple _ xs hl h =>
    cases xs with
    | nil => simp at hl
    | cons x xs =>
      have hx := h 0 (.prim .u8) x rfl rfl
      cases hx with
      | prim hx =>
        obtain ⟨i, rfl⟩ := hx
        obtain ⟨rs, hrs, hrej⟩ := c41_overlap_rejected Sample.env [] [.prim .u8, .prim .u8] _ ⟨Components.empty, _, 5, rfl⟩
        obtain ⟨r, hr, hrm⟩ := hrs.get (i := 0) (a := .prim .u8) rfl
        obtain ⟨r', hr', hrm'⟩ := hrs.get (i := 1) (a := .prim .u8) rfl
        exact hrej 0 1 r r' (.int i) _ (by omega) hr hr' List.mem_cons_self
          ((scalar_ref hrm _).1 ⟨i, rfl⟩) ((scalar_ref hrm' _).1 ⟨i, rfl⟩)

/-- `(String, bool, f64)` satisfies the condition of `c41_scalars`, `(i32, f64)` does not. -/
example : ([.string, .bool, .f64] : List Prim).Pairwise (fun p q => ¬ Share p.family q.family) ∧
    ¬ ([.i32, .f64] : List Prim).Pairwise (fun p q => ¬ Share p.family q.family) := by
  simp [Prim.family, Share]

example : ∃ m, HasSchema Sample.env (.tuple ([.string, .bool, .f64].map .prim)) m ∧
    ValidModel true [] m (.arr [.str "a", .bool true, .num "0.5"]) := by
  refine ⟨_, ⟨Components.empty, _, 5, rfl⟩, ?_⟩
  refine (c41_scalars Sample.env ⟨false, fun _ => false⟩ [] [.string, .bool, .f64] _ rfl ⟨Components.empty, _, 5, rfl⟩).2
    (by simp [Prim.family, Share]) _ ?_
  refine .tuple rfl ?_
  intro k t x ht hx
  match k with
  | 0 => cases ht; cases hx; exact .prim ⟨_, rfl⟩
  | 1 => cases ht; cases hx; exact .prim ⟨_, rfl⟩
  | 2 => cases ht; cases hx; exact .prim (.inl ⟨_, rfl⟩)
  | k + 3 => simp at ht

end Verif
