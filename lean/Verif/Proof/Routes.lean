import Verif.Spec.Routes
import Verif.Proof.Exact
import Verif.Proof.ApiDoc
import Verif.Proof.Shapes
import Verif.Proof.Grow
/-!
# Requests and paths
-/

namespace Verif

theorem Matches.prefix {pre t url : List Char} {bs} (hp : '{' ∉ pre) :
    Matches (pre ++ t) url bs ↔ ∃ u, url = pre ++ u ∧ Matches t u bs := by
  induction pre generalizing url with
  | nil => simp
  | cons c pre ih =>
    simp only [List.mem_cons, not_or] at hp
    constructor
    · intro h
      generalize hx : c :: pre ++ t = x at h
      cases h with
      | nil => cases hx
      | parameter => simp only [List.cons_append, List.cons.injEq] at hx; exact absurd hx.1.symm hp.1
      | char _ h =>
        cases hx
        obtain ⟨u, rfl, h'⟩ := (ih hp.2).1 h
        exact ⟨u, rfl, h'⟩
    · rintro ⟨u, rfl, h⟩
      exact .char (fun e => hp.1 e.symm) ((ih hp.2).2 ⟨u, rfl, h⟩)

theorem close_unique {a b s t : List Char} (ha : '}' ∉ a) (hb : '}' ∉ b) (h : a ++ '}' :: s = b ++ '}' :: t) :
    a = b ∧ s = t := by
  induction a generalizing b with
  | nil =>
    cases b with
    | nil => simpa using h
    | cons c b => simp only [List.nil_append, List.cons_append, List.cons.injEq] at h; simp [← h.1] at hb
  | cons c a ih =>
    cases b with
    | nil => simp only [List.nil_append, List.cons_append, List.cons.injEq] at h; simp [h.1] at ha
    | cons d b =>
      simp only [List.mem_cons, not_or] at ha hb
      simp only [List.cons_append, List.cons.injEq] at h
      obtain ⟨rfl, rfl⟩ := ih ha.2 hb.2 h.2
      exact ⟨by rw [h.1], rfl⟩

/-- The parameter a template starts with. -/
theorem Matches.open {cs url : List Char} {bs} (h : Matches ('{' :: cs) url bs) :
    ∃ name w t u bs', cs = name.toList ++ '}' :: t ∧ '}' ∉ name.toList ∧ Filling w ∧ url = w.toList ++ u ∧
      bs = (name, w) :: bs' ∧ Matches t u bs' := by
  generalize hc : '{' :: cs = x at h
  cases h with
  | nil => cases hc
  | char hne => cases hc; exact absurd rfl hne
  | @parameter name w t u bs' hn hw h =>
    cases hc
    exact ⟨name, w, t, u, bs', rfl, hn, hw, rfl, rfl, h⟩

theorem Matches.param_iff {name : String} {t url : List Char} {bs} (hn : '}' ∉ name.toList) :
    Matches ('{' :: (name.toList ++ '}' :: t)) url bs ↔
      ∃ w u bs', Filling w ∧ url = w.toList ++ u ∧ bs = (name, w) :: bs' ∧ Matches t u bs' := by
  constructor
  · intro h
    obtain ⟨n, w, t', u, bs', e, hn', hw, rfl, rfl, h₁⟩ := h.open
    obtain ⟨e', rfl⟩ := close_unique hn hn' e
    cases String.toList_inj.1 e'
    exact ⟨w, u, bs', hw, rfl, rfl, h₁⟩
  · rintro ⟨w, u, bs', hw, rfl, rfl, h⟩
    exact .parameter hn hw h

theorem SegOf.param {s name} (h : SegOf s (.parameter name)) : ∃ t, s.param? = some (name, t) := by
  cases h with
  | named _ t => exact ⟨t, rfl⟩
  | @bare _ t _ h => exact ⟨t, by simp [PathSeg.param?, h]⟩

theorem SegOf.parameter {s e b} (h : SegOf s e) (hb : s.param? = some b) : e = .parameter b.1 := by
  cases h with
  | literal => cases hb
  | named => cases hb; rfl
  | bare h =>
    simp only [PathSeg.param?, h, Option.map_some, Option.some.injEq] at hb
    rw [← hb]

/-- The names and texts of what a path is filled with. -/
def nameTexts (bs : List ((String × Ty) × String)) : List (String × String) := bs.map fun b => (b.1.1, b.2)

theorem serves_matches {ss : List PathSeg} {p : UrlPath} (h : Pointwise SegOf ss p) (hc : ∀ s ∈ ss, s.NoBraces)
    (url : List Char) (bs) : (∃ bs', nameTexts bs' = bs ∧ Serves ss url bs') ↔
      Matches (p.flatMap fun e => '/' :: e.segment) url bs := by
  induction h generalizing url bs with
  | nil =>
    constructor
    · rintro ⟨_, rfl, h⟩; cases h; exact .nil
    · intro h; cases h; exact ⟨[], rfl, .nil⟩
  | @cons s e ss p hs hp ih =>
    have ih := ih fun s hs => hc s (List.mem_cons_of_mem _ hs)
    have hs' := hc s List.mem_cons_self
    rw [List.flatMap_cons]
    cases e with
    | path l =>
      cases hs
      have hl : '{' ∉ '/' :: l.toList := by
        simp only [List.mem_cons, not_or]
        exact ⟨by decide, hs'⟩
      rw [show ('/' :: PathElement.segment (.path l)) = '/' :: l.toList from rfl, Matches.prefix hl]
      constructor
      · rintro ⟨bs', rfl, h⟩
        cases h with
        | @literal _ _ u _ h => exact ⟨u, rfl, (ih _ _).1 ⟨_, rfl, h⟩⟩
        | typed hb => cases hb
      · rintro ⟨u, rfl, h⟩
        obtain ⟨bs', rfl, h'⟩ := (ih _ _).2 h
        exact ⟨bs', rfl, .literal h'⟩
    | parameter n =>
      obtain ⟨t, ht⟩ := hs.param
      have hn : '}' ∉ n.toList := by
        cases s with
        | literal => cases ht
        | _ => exact hs' n t ht
      have e : ('/' :: PathElement.segment (.parameter n)) ++ (p.flatMap fun e => '/' :: e.segment) =
          ['/'] ++ ('{' :: (n.toList ++ '}' :: (p.flatMap fun e => '/' :: e.segment))) := by
        simp [PathElement.segment]
      rw [e, Matches.prefix (by decide)]
      simp only [Matches.param_iff hn]
      constructor
      · rintro ⟨bs', rfl, h⟩
        cases h with
        | literal => cases ht
        | @typed _ b w _ u bs' hb hw h =>
          rw [ht] at hb
          cases hb
          exact ⟨_, rfl, w, u, _, hw, rfl, rfl, (ih _ _).1 ⟨_, rfl, h⟩⟩
      · rintro ⟨_, rfl, w, u, bs', hw, rfl, rfl, h⟩
        obtain ⟨bs', rfl, h'⟩ := (ih _ _).2 h
        exact ⟨_, rfl, .typed ht hw h'⟩

/-- A URL for the path, with `x` for every parameter. -/
theorem serves_x {ss : List PathSeg} {p : UrlPath} (h : Pointwise SegOf ss p) :
    ∃ url bs, Serves ss url bs ∧ ∀ b ∈ bs, b.2 = "x" := by
  induction h with
  | nil => exact ⟨[], [], .nil, by simp⟩
  | @cons s e ss p hs hp ih =>
    obtain ⟨url, bs, h, hb⟩ := ih
    cases e with
    | path l => cases hs; exact ⟨_, bs, .literal h, hb⟩
    | parameter n =>
      obtain ⟨t, ht⟩ := hs.param
      exact ⟨_, _, .typed (w := "x") ht ⟨by decide, by decide⟩ h, by simpa using hb⟩

theorem split_open {cs : List Char} (h : '{' ∈ cs) : ∃ a b, cs = a ++ '{' :: b ∧ '{' ∉ a := by
  induction cs with
  | nil => cases h
  | cons c cs ih =>
    by_cases hc : c = '{'
    · exact ⟨[], cs, by rw [hc]; rfl, by simp⟩
    · simp only [List.mem_cons] at h
      obtain ⟨a, b, rfl, ha⟩ := ih (h.resolve_left fun e => hc e.symm)
      exact ⟨c :: a, b, rfl, by simp only [List.mem_cons, not_or]; exact ⟨fun e => hc e.symm, ha⟩⟩

theorem matches_noBraces {ss : List PathSeg} {p : UrlPath} (h : Pointwise SegOf ss p) {url : List Char} {bs}
    (hs : Serves ss url bs) (hx : ∀ b ∈ bs, b.2 = "x")
    (hm : Matches (p.flatMap fun e => '/' :: e.segment) url (nameTexts bs)) : ∀ s ∈ ss, s.NoBraces := by
  induction h generalizing url bs with
  | nil => simp
  | @cons s e ss p hseg hp ih =>
    rw [List.flatMap_cons] at hm
    cases hs with
    | @literal l _ u _ hs =>
      cases hseg
      have hl : '{' ∉ l.toList := by
        intro hmem
        obtain ⟨a, b, e, ha⟩ := split_open hmem
        have ha' : '{' ∉ '/' :: a := by simp only [List.mem_cons, not_or]; exact ⟨by decide, ha⟩
        rw [show ('/' :: PathElement.segment (.path l)) = '/' :: l.toList from rfl, e,
          show ('/' :: (a ++ '{' :: b)) ++ (p.flatMap fun e => '/' :: e.segment) =
            ('/' :: a) ++ ('{' :: (b ++ p.flatMap fun e => '/' :: e.segment)) by simp,
          Matches.prefix ha'] at hm
        obtain ⟨u', hu, hm⟩ := hm
        obtain ⟨n, w, t, u'', bs', -, -, -, rfl, hbs, -⟩ := hm.open
        have hu : a ++ '{' :: (b ++ u) = a ++ (w.toList ++ u'') := by simpa [e] using hu
        have hu := List.append_cancel_left hu
        have hw : w = "x" := by
          cases bs with
          | nil => cases hbs
          | cons b bs =>
            simp only [nameTexts, List.map_cons, List.cons.injEq, Prod.mk.injEq] at hbs
            rw [← hbs.1.2]
            exact hx b List.mem_cons_self
        rw [hw] at hu
        simp at hu
      intro s' hs'
      cases hs' with
      | head => exact hl
      | tail _ hs' =>
        have hl' : '{' ∉ '/' :: l.toList := by simp only [List.mem_cons, not_or]; exact ⟨by decide, hl⟩
        rw [show ('/' :: PathElement.segment (.path l)) = '/' :: l.toList from rfl, Matches.prefix hl'] at hm
        obtain ⟨u', hu, hm⟩ := hm
        have hu : u = u' := by simpa using hu
        subst hu
        exact ih hs hx hm s' hs'
    | @typed _ b w _ u bs hb hw hs =>
      obtain rfl := hseg.parameter hb
      have e : ('/' :: PathElement.segment (.parameter b.1)) ++ (p.flatMap fun e => '/' :: e.segment) =
          ['/'] ++ ('{' :: (b.1.toList ++ '}' :: (p.flatMap fun e => '/' :: e.segment))) := by
        simp [PathElement.segment]
      rw [e, Matches.prefix (by decide)] at hm
      obtain ⟨u', hu, hm⟩ := hm
      have hn : '}' ∉ b.1.toList := by
        obtain ⟨n, w', t, u'', bs', -, hn, -, -, hbs, -⟩ := hm.open
        simp only [nameTexts, List.map_cons, List.cons.injEq, Prod.mk.injEq] at hbs
        rw [hbs.1.1]
        exact hn
      obtain ⟨w', u'', bs', hw', rfl, hbs, hm⟩ := (Matches.param_iff hn).1 hm
      simp only [nameTexts, List.map_cons, List.cons.injEq, Prod.mk.injEq] at hbs
      obtain ⟨⟨-, rfl⟩, rfl⟩ := hbs
      have hu : u = u'' := by simpa using hu
      subst hu
      intro s' hs'
      cases hs' with
      | head =>
        unfold PathSeg.NoBraces
        split
        · cases hb
        · intro n t ht
          rw [hb] at ht
          cases ht
          exact hn
      | tail _ hs' => exact ih hs (fun b hb => hx b (List.mem_cons_of_mem _ hb)) hm s' hs'

/-! ## What a URL determines -/

theorem Serves.start {ss url bs} (h : Serves ss url bs) : url = [] ∨ ∃ u, url = '/' :: u := by
  cases h with
  | nil => exact .inl rfl
  | literal => exact .inr ⟨_, rfl⟩
  | typed => exact .inr ⟨_, rfl⟩

theorem slash_unique {a b s t : List Char} (ha : '/' ∉ a) (hb : '/' ∉ b) (hs : s = [] ∨ ∃ u, s = '/' :: u)
    (ht : t = [] ∨ ∃ u, t = '/' :: u) (h : a ++ s = b ++ t) : a = b ∧ s = t := by
  induction a generalizing b with
  | nil =>
    cases b with
    | nil => exact ⟨rfl, by simpa using h⟩
    | cons c b =>
      rcases hs with rfl | ⟨u, rfl⟩
      · simp at h
      · simp only [List.nil_append, List.cons_append, List.cons.injEq] at h
        simp [← h.1] at hb
  | cons c a ih =>
    cases b with
    | nil =>
      rcases ht with rfl | ⟨u, rfl⟩
      · simp at h
      · simp only [List.nil_append, List.cons_append, List.cons.injEq] at h
        simp [h.1] at ha
    | cons d b =>
      simp only [List.mem_cons, not_or] at ha hb
      simp only [List.cons_append, List.cons.injEq] at h
      obtain ⟨rfl, rfl⟩ := ih ha.2 hb.2 h.2
      exact ⟨by rw [h.1], rfl⟩

theorem Serves.unique {ss url bs bs'} (h : Serves ss url bs) (h' : Serves ss url bs') : bs = bs' := by
  induction h generalizing bs' with
  | nil => cases h'; rfl
  | @literal s ss url bs h ih =>
    generalize hu : '/' :: (s.toList ++ url) = u at h'
    cases h' with
    | literal h' =>
      simp only [List.cons.injEq, true_and] at hu
      obtain rfl := List.append_cancel_left hu
      exact ih h'
    | typed hb => cases hb
  | @typed seg b w ss url bs hb hw h ih =>
    generalize hu : '/' :: (w.toList ++ url) = u at h'
    cases h' with
    | literal => cases hb
    | typed hb' hw' h' =>
      simp only [List.cons.injEq, true_and] at hu
      obtain ⟨e, rfl⟩ := slash_unique hw.2 hw'.2 h.start h'.start hu
      cases String.toList_inj.1 e
      rw [hb] at hb'
      cases hb'
      rw [ih h']

/-! ## Pieces -/

/-- A text that a piece can stand for. -/
def PieceText : Option (List Char) → List Char → Prop
  | some l, x => x = l
  | none, x => x ≠ []

/-- The URL with these pieces. -/
def urlOf (xs : List (List Char)) : List Char := xs.flatMap fun x => '/' :: x

theorem urlOf_start (xs) : urlOf xs = [] ∨ ∃ u, urlOf xs = '/' :: u := by
  cases xs with
  | nil => exact .inl rfl
  | cons x xs => exact .inr ⟨_, rfl⟩

theorem urlOf_inj {xs ys : List (List Char)} (hx : ∀ x ∈ xs, '/' ∉ x) (hy : ∀ y ∈ ys, '/' ∉ y)
    (h : urlOf xs = urlOf ys) : xs = ys := by
  induction xs generalizing ys with
  | nil => cases ys with
    | nil => rfl
    | cons => simp [urlOf] at h
  | cons x xs ih =>
    cases ys with
    | nil => simp [urlOf] at h
    | cons y ys =>
      have h : x ++ urlOf xs = y ++ urlOf ys := by simpa [urlOf] using h
      obtain ⟨rfl, h'⟩ := slash_unique (hx x List.mem_cons_self) (hy y List.mem_cons_self) (urlOf_start _) (urlOf_start _) h
      rw [ih (fun x h => hx x (List.mem_cons_of_mem _ h)) (fun y h => hy y (List.mem_cons_of_mem _ h)) h']

theorem pieceText_literals (ls : List (List Char)) : Pointwise PieceText (ls.map some) ls := by
  induction ls with
  | nil => exact .nil
  | cons l ls ih => exact .cons rfl ih

theorem pieceText_literals_eq {ls xs : List (List Char)} (h : Pointwise PieceText (ls.map some) xs) : xs = ls := by
  induction ls generalizing xs with
  | nil => cases h; rfl
  | cons l ls ih =>
    cases h with
    | cons hx h => rw [hx, ih h]

theorem param_pieces {s : PathSeg} {b} (h : s.param? = some b) : s.pieces = [none] := by
  cases s with
  | literal => cases h
  | bare => rfl
  | named => rfl

theorem serves_pieces {ss : List PathSeg} {p : UrlPath} (hp : Pointwise SegOf ss p) (url : List Char) :
    (∃ bs, Serves ss url bs) ↔
      ∃ xs, url = urlOf xs ∧ (∀ x ∈ xs, '/' ∉ x) ∧ Pointwise PieceText (ss.flatMap PathSeg.pieces) xs := by
  constructor
  · rintro ⟨bs, h⟩
    clear hp
    induction h with
    | nil => exact ⟨[], rfl, by simp, .nil⟩
    | @literal s ss url bs h ih =>
      obtain ⟨xs, rfl, hx, h⟩ := ih
      refine ⟨Read.splitSlash s.toList ++ xs, ?_, ?_, ?_⟩
      · simp [urlOf, List.flatMap_append, Read.splitSlash_join]
      · intro x h
        rcases List.mem_append.1 h with h | h
        · exact Read.splitSlash_noSlash _ x h
        · exact hx x h
      · exact (pieceText_literals _).append h
    | @typed seg b w ss url bs hb hw h ih =>
      obtain ⟨xs, rfl, hx, h⟩ := ih
      refine ⟨w.toList :: xs, rfl, ?_, ?_⟩
      · intro x h
        cases h with
        | head => exact hw.2
        | tail _ h => exact hx x h
      · rw [List.flatMap_cons, param_pieces hb]
        refine .cons ?_ h
        intro e
        exact hw.1 (String.toList_eq_nil_iff.1 e)
  · rintro ⟨xs, rfl, hx, h⟩
    induction hp generalizing xs with
    | nil => cases h; exact ⟨[], .nil⟩
    | @cons s e ss p hs hp ih =>
      rw [List.flatMap_cons] at h
      obtain ⟨xs₁, xs₂, rfl, h₁, h₂⟩ := h.unappend
      obtain ⟨bs, h₂⟩ := ih xs₂ (fun x h => hx x (List.mem_append.2 (.inr h))) h₂
      cases e with
      | path l =>
        cases hs
        obtain rfl := pieceText_literals_eq h₁
        rw [urlOf, List.flatMap_append, Read.splitSlash_join]
        exact ⟨bs, .literal h₂⟩
      | parameter n =>
        obtain ⟨t, ht⟩ := hs.param
        rw [param_pieces ht] at h₁
        cases h₁ with
        | @cons _ x _ _ hne h₁ =>
          cases h₁
          refine ⟨((n, t), String.ofList x) :: bs, ?_⟩
          have := Serves.typed (w := String.ofList x) ht ⟨?_, ?_⟩ h₂
          · simpa [urlOf] using this
          · intro e
            have := congrArg String.toList e
            exact hne (by simpa using this)
          · simpa using hx x (by simp)

theorem overlap_iff {ps qs : List (Option (List Char))} (hp : ∀ l, some l ∈ ps → '/' ∉ l) (hq : ∀ l, some l ∈ qs → '/' ∉ l) :
    (∃ xs : List (List Char), (∀ x ∈ xs, '/' ∉ x) ∧ Pointwise PieceText ps xs ∧ Pointwise PieceText qs xs) ↔
      Pointwise Overlap ps qs := by
  constructor
  · rintro ⟨xs, -, h, h'⟩
    clear hp hq
    induction h generalizing qs with
    | nil => cases h'; exact .nil
    | @cons a x as xs ha _ ih =>
      cases h' with
      | @cons b _ _ _ hb h' =>
        refine .cons ?_ (ih h')
        cases a <;> cases b <;> simp_all [PieceText, Overlap]
  · intro h
    induction h with
    | nil => exact ⟨[], by simp, .nil, .nil⟩
    | @cons a b as bs hab _ ih =>
      obtain ⟨xs, hx, h, h'⟩ := ih (fun l h => hp l (List.mem_cons_of_mem _ h)) (fun l h => hq l (List.mem_cons_of_mem _ h))
      have : ∃ x : List Char, '/' ∉ x ∧ PieceText a x ∧ PieceText b x := by
        cases a with
        | none =>
          cases b with
          | none => exact ⟨['x'], by decide, by simp [PieceText], by simp [PieceText]⟩
          | some l => exact ⟨l, hq l List.mem_cons_self, hab, rfl⟩
        | some l =>
          cases b with
          | none => exact ⟨l, hp l List.mem_cons_self, rfl, hab⟩
          | some l' => exact ⟨l, hp l List.mem_cons_self, rfl, hab⟩
      obtain ⟨x, hs, ha, hb⟩ := this
      refine ⟨x :: xs, ?_, .cons ha h, .cons hb h'⟩
      intro y hy
      cases hy with
      | head => exact hs
      | tail _ hy => exact hx y hy

theorem pieces_noSlash (ss : List PathSeg) : ∀ l, some l ∈ ss.flatMap PathSeg.pieces → '/' ∉ l := by
  intro l h
  obtain ⟨s, _, h⟩ := List.mem_flatMap.1 h
  cases s with
  | literal s =>
    obtain ⟨l', h, e⟩ := List.mem_map.1 h
    cases e
    exact Read.splitSlash_noSlash _ _ h
  | bare => simp [PathSeg.pieces] at h
  | named => simp [PathSeg.pieces] at h

end Verif
