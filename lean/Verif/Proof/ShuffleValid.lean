import Verif.Proof.Shuffle
/-!
# Schemas that are the same up to order accept the same values
-/

namespace Verif

variable {x : Bool} {reg reg' : List (String × Model)}

theorem SameRefs.upToOrder {rs rs'} (h : SameRefs rs rs') : UpToOrder SameRef rs rs' := by
  induction rs generalizing rs' with
  | nil => cases h; exact .nil
  | cons r rs ih => cases h with | cons h e t => exact .cons h e (ih t)

theorem UpToOrder.split {α β : Type} {R : α → β → Prop} {a : α} {post} : ∀ {pre : List α} {bs},
    UpToOrder R (pre ++ a :: post) bs → ∃ pre' b post', bs = pre' ++ b :: post' ∧ R a b ∧ UpToOrder R (pre ++ post) (pre' ++ post')
  | [], _, .cons h e t => ⟨_, _, _, e, h, t⟩
  | c :: pre, bs, .cons (b := d) (pre := p) (post := q) h e t => by
    obtain ⟨p1, b, q1, hs, hr, ht⟩ := t.split
    subst e
    rcases List.append_eq_append_iff.1 hs with ⟨y, rfl, hq⟩ | ⟨y, rfl, hq⟩
    · subst hq
      refine ⟨p ++ d :: y, b, q1, by simp, hr, ?_⟩
      rw [List.append_assoc, List.cons_append]
      rw [List.append_assoc] at ht
      exact .cons h rfl ht
    · cases y with
      | nil =>
        simp only [List.nil_append] at hq
        subst hq
        refine ⟨p1 ++ [d], b, q1, by simp, hr, ?_⟩
        rw [List.append_assoc]
        exact .cons h rfl ht
      | cons z y =>
        obtain ⟨rfl, rfl⟩ := List.cons_eq_cons.1 hq
        refine ⟨p1, _, y ++ d :: q, by simp, hr, ?_⟩
        rw [← List.append_assoc]
        refine .cons h rfl ?_
        rw [List.append_assoc]
        exact ht

theorem SameRefs.insertLeft {r r' post} (h : SameRef r' r) : ∀ {pre rs}, SameRefs (pre ++ post) rs →
    SameRefs (pre ++ r' :: post) (r :: rs)
  | [], _, t => .cons (pre := []) h rfl t
  | c :: pre, rs, .cons (pre := p) h' e t => by
    subst e
    exact .cons (pre := r :: p) h' rfl (SameRefs.insertLeft h (pre := pre) t)

mutual
theorem SameRef.symm {r r'} : SameRef r r' → SameRef r' r
  | .link => .link
  | .any => .any
  | .inline h => .inline h.symm
theorem SameModel.symm {r r'} : SameModel r r' → SameModel r' r
  | .single h => .single h.symm
  | .oneOf h => .oneOf h.symm
  | .anyOf h => .anyOf h.symm
  | .allOf h => .allOf h.symm
theorem SameDesc.symm {r r'} : SameDesc r r' → SameDesc r' r
  | .string => .string
  | .values h he => .values h.symm (he.imp Eq.symm And.symm)
  | .number => .number
  | .integer => .integer
  | .boolean => .boolean
  | .array h => .array h.symm
  | .object hr hk hp ha hs => .object hr.symm (fun k => (hk k).symm) (fun k r r' h h' => (hp k r' r h' h).symm) ha.symm
      fun r r' h h' => (hs r' r h' h).symm
theorem SameRefs.symm {r r'} : SameRefs r r' → SameRefs r' r
  | .nil => .nil
  | .cons h e t => by subst e; exact SameRefs.insertLeft h.symm t.symm
end

theorem SameRegistry.symm (h : SameRegistry reg reg') : SameRegistry reg' reg :=
  ⟨fun n => (h.keys n).symm, fun n m m' hm hm' => (h.schemas n m' m hm' hm).symm⟩

theorem SameRegistry.get (h : SameRegistry reg reg') {n m} (hm : BMap.get n reg = some m) :
    ∃ m', BMap.get n reg' = some m' ∧ SameModel m m' := by
  have hk := (h.keys n).1 (BMap.get_isSome_iff.1 (by rw [hm]; rfl))
  obtain ⟨m', hm'⟩ := Option.isSome_iff_exists.1 (BMap.get_isSome_iff.2 hk)
  exact ⟨m', hm', h.schemas n m m' hm hm'⟩

theorem same_get {ps ps' : List (String × Ref)} (hk : ∀ k, k ∈ BMap.keys ps ↔ k ∈ BMap.keys ps') {k r}
    (h : BMap.get k ps = some r) : ∃ r', BMap.get k ps' = some r' :=
  Option.isSome_iff_exists.1 (BMap.get_isSome_iff.2 ((hk k).1 (BMap.get_isSome_iff.1 (by rw [h]; rfl))))

theorem same_none {ps ps' : List (String × Ref)} (hk : ∀ k, k ∈ BMap.keys ps ↔ k ∈ BMap.keys ps') {k}
    (h : BMap.get k ps = none) : BMap.get k ps' = none := by
  rw [BMap.get_eq_none_iff] at h ⊢
  exact fun hh => h ((hk k).2 hh)

theorem SameDesc.ofType {td td' j} (h : SameDesc td td') (ht : ¬OfType td j) : ¬OfType td' j := by
  cases h <;> cases j <;> exact ht

mutual
theorem turn_valid (R : SameRegistry reg reg') {r j} : Valid x reg r j → ∀ {r'}, SameRef r r' → Valid x reg' r' j
  | .any, _, hs => by cases hs; exact .any
  | .link hg hv, _, hs => by
    cases hs
    obtain ⟨m', hm', hs⟩ := R.get hg
    exact .link hm' (turn_validModel R hv hs)
  | .inline hv, _, hs => by
    cases hs with
    | inline h => exact .inline (turn_validModel R hv h)
theorem turn_validModel (R : SameRegistry reg reg') {m j} : ValidModel x reg m j → ∀ {m'}, SameModel m m' → ValidModel x reg' m' j
  | .null, m', hs => by cases hs; exact .null
  | .string h, m', hs => by
    cases hs with
    | single hd =>
      cases hd with
      | string => exact .string h
      | values hp => exact .string (by rintro _ ⟨⟩; exact hp.mem_iff.1 (h _ rfl))
  | .number, m', hs => by cases hs with | single hd => cases hd; exact .number
  | .numberInt, m', hs => by cases hs with | single hd => cases hd; exact .numberInt
  | .integer, m', hs => by cases hs with | single hd => cases hd; exact .integer
  | .boolean, m', hs => by cases hs with | single hd => cases hd; exact .boolean
  | .array h, m', hs => by
    cases hs with
    | single hd => cases hd with | array hd => exact .array fun y hy => turn_valid R (h y hy) hd
  | .object hr hp ha, m', hs => by
    cases hs with
    | single hd =>
      cases hd with
      | object er ek ep ea es =>
        refine .object (fun k hk => hr k (er.mem_iff.2 hk)) ?_ ?_
        · intro k v r' hm hg
          obtain ⟨r, hr'⟩ := same_get (fun k => (ek k).symm) hg
          exact turn_valid R (hp k v r hm hr') (ep k r r' hr' hg)
        · intro k v r' hm hg hh
          obtain ⟨r, hr'⟩ := opt_partner ea hh
          exact turn_valid R (ha k v r hm (same_none (fun k => (ek k).symm) hg) hr') (es r r' hr' hh)
  | .oneOf he hv hx, m', hs => by
    cases hs with
    | oneOf h =>
      have hu := h.upToOrder
      rw [he] at hu
      obtain ⟨pre', r', post', he', hs, hq⟩ := hu.split
      refine .oneOf he' (turn_valid R hv hs) ?_
      intro hx' q' hq'
      obtain ⟨q, hm, hs'⟩ := hq.mem_right hq'
      exact turn_invalid R (hx hx' q hm) hs'
  | .anyOf h hv, m', hs => by
    cases hs with
    | anyOf hh =>
      obtain ⟨r', hr', hs⟩ := hh.upToOrder.mem_left h
      exact .anyOf hr' (turn_valid R hv hs)
  | .allOf h, m', hs => by
    cases hs with
    | allOf hh =>
      refine .allOf ?_
      intro r' hr'
      obtain ⟨r, hr, hs⟩ := hh.upToOrder.mem_right hr'
      exact turn_valid R (h r hr) hs
theorem turn_invalid (R : SameRegistry reg reg') {r j} : Invalid x reg r j → ∀ {r'}, SameRef r r' → Invalid x reg' r' j
  | .link hg hv, _, hs => by
    cases hs
    obtain ⟨m', hm', hs⟩ := R.get hg
    exact .link hm' (turn_invalidModel R hv hs)
  | .inline hv, _, hs => by
    cases hs with
    | inline h => exact .inline (turn_invalidModel R hv h)
theorem turn_invalidModel (R : SameRegistry reg reg') {m j} : InvalidModel x reg m j → ∀ {m'}, SameModel m m' → InvalidModel x reg' m' j
  | .type hn h, m', hs => by
    cases hs with
    | single hd => exact .type hn (hd.ofType h)
  | .string h, m', hs => by
    cases hs with
    | single hd =>
      cases hd with
      | string => exact .string h
      | values hp => exact .string fun hh => h (hp.mem_iff.2 hh)
  | .item hm hv, m', hs => by
    cases hs with
    | single hd => cases hd with | array hd => exact .item hm (turn_invalid R hv hd)
  | .required h hk, m', hs => by
    cases hs with
    | single hd => cases hd with | object er => exact .required (er.mem_iff.1 h) hk
  | .property h hg hv, m', hs => by
    cases hs with
    | single hd =>
      cases hd with
      | object er ek ep ea es =>
        obtain ⟨r', hr'⟩ := same_get ek hg
        exact .property h hr' (turn_invalid R hv (ep _ _ _ hg hr'))
  | .additional h hg ha hv, m', hs => by
    cases hs with
    | single hd =>
      cases hd with
      | object er ek ep ea es =>
        obtain ⟨r', hr'⟩ := opt_partner ea.symm ha
        exact .additional h (same_none ek hg) hr' (turn_invalid R hv (es _ _ ha hr'))
  | .oneOfNone h, m', hs => by
    cases hs with
    | oneOf hh =>
      refine .oneOfNone ?_
      intro r' hr'
      obtain ⟨r, hr, hs⟩ := hh.upToOrder.mem_right hr'
      exact turn_invalid R (h r hr) hs
  | .oneOfTwo (pre := pre) (r := r) (mid := mid) (r' := r2) (post := post) he e hv hv', m', hs => by
    cases hs with
    | oneOf hh =>
      have hu := hh.upToOrder
      rw [e, List.append_assoc, List.cons_append] at hu
      obtain ⟨p1, r1', q1, e1, s1, t1⟩ := hu.split
      rw [← List.append_assoc] at t1
      obtain ⟨p2, r2', q2, e2, s2, t2⟩ := t1.split
      have v1 := turn_valid R hv s1
      have v2 := turn_valid R hv' s2
      rw [e1]
      rcases List.append_eq_append_iff.1 e2 with ⟨y, hp, hq⟩ | ⟨y, hp, hq⟩
      · rw [hq]
        exact .oneOfTwo (pre := p1) (mid := y) (post := q2) he (by simp) v1 v2
      · cases y with
        | nil =>
          simp only [List.nil_append] at hq
          rw [hp, ← hq]
          exact .oneOfTwo (pre := p2) (mid := []) (post := q2) he (by simp) v1 v2
        | cons z y =>
          obtain ⟨hz, hq⟩ := List.cons_eq_cons.1 hq
          rw [hp, ← hz]
          exact .oneOfTwo (pre := p2) (mid := y) (post := q1) he (by simp) v2 v1
  | .anyOf h, m', hs => by
    cases hs with
    | anyOf hh =>
      refine .anyOf ?_
      intro r' hr'
      obtain ⟨r, hr, hs⟩ := hh.upToOrder.mem_right hr'
      exact turn_invalid R (h r hr) hs
  | .allOf h hv, m', hs => by
    cases hs with
    | allOf hh =>
      obtain ⟨r', hr', hs⟩ := hh.upToOrder.mem_left h
      exact .allOf hr' (turn_invalid R hv hs)
end

end Verif
