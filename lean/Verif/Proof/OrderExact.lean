import Verif.Proof.OpenApiApi
import Verif.Props.Order
import Verif.Proof.Used
/-!
# When the order of mentions does not matter, exactly
-/

namespace Verif

variable {env : Env}

/-- The code of `t` mentions `v` by reference, itself or in what it inlines. -/
inductive Direct (env : Env) : Ty → Ty → Prop
  | here {t v n} (h : Asks env t v true) (hn : typeName env v = some n) : Direct env t v
  | through {t u b v} (h : Asks env t u b) (hi : b = true → typeName env u = none) (h' : Direct env u v) : Direct env t v

theorem runReqs_member {k : Nat} : ∀ {qs : List Req} {cx as cx'}, runReqs env (getSchema env k) qs cx = some (as, cx') →
    ∀ q ∈ qs, ∃ cx1 a cx2, q.run env (getSchema env k) cx1 = some (a, cx2) ∧ cx2.Keeps cx'
  | [], _, _, _, _, _, h => nomatch h
  | q :: qs, cx, as, cx', h, q', hq => by
    obtain ⟨a, as', cx1, h1, h2, _⟩ := runReqs_cons_some h
    rcases List.mem_cons.1 hq with rfl | hq
    · exact ⟨cx, a, cx1, h1, runReqs_keeps h2⟩
    · exact runReqs_member h2 q' hq

/-- What the code of a type mentions by reference is registered when it returns. -/
theorem direct_registered (k : Nat) : ∀ {t v n cx m cx'}, getSchema env k t cx = some (m, cx') → Direct env t v →
    typeName env v = some n → n ∈ BMap.keys cx'.schemas := by
  induction k with
  | zero => intro t v n cx m cx' h; simp [getSchema] at h
  | succ k ih =>
    intro t v n cx m cx' h hd hn
    obtain ⟨j, e, as, hk, he, hrun, _⟩ := getSchema_some h
    cases hk
    cases hd with
    | here h hn' =>
      obtain ⟨e', he', hm⟩ := h
      rw [he] at he'; cases he'
      obtain ⟨q, hq, hqe⟩ := mem_asked.1 hm
      obtain ⟨cx1, a, cx2, hr, hk⟩ := runReqs_member hrun q hq
      refine hk.keys ?_
      rcases Req.run_some hr with ⟨u, i, p, r, rfl, h3, _⟩ | ⟨u, m, rfl, h3, _⟩
      · simp only [Req.asked, Prod.mk.injEq, Bool.not_eq_true'] at hqe
        obtain ⟨rfl, rfl⟩ := hqe
        rcases mentionWith_some h3 with ⟨l, hln, _, ⟨hk, he⟩ | ⟨hk, m, cx3, h4, he⟩⟩ | ⟨hln, m, h4, _⟩
        · have := (linkName_some hln).2
          rw [hn] at this; cases this
          subst he
          exact BMap.containsKey_iff.1 hk
        · have := (linkName_some hln).2
          rw [hn] at this; cases this
          subst he
          exact BMap.mem_keys_insert.2 (.inl rfl)
        · rcases linkName_none hln with h | h
          · cases h
          · rw [hn] at h; cases h
      · simp [Req.asked] at hqe
    | @through _ u b _ h hi h' =>
      obtain ⟨e', he', hm⟩ := h
      rw [he] at he'; cases he'
      obtain ⟨q, hq, hqe⟩ := mem_asked.1 hm
      obtain ⟨cx1, a, cx2, hr, hk⟩ := runReqs_member hrun q hq
      refine hk.keys ?_
      rcases Req.run_some hr with ⟨w, i, p, r, rfl, h3, _⟩ | ⟨w, m, rfl, h3, _⟩
      · simp only [Req.asked, Prod.mk.injEq] at hqe
        obtain ⟨rfl, rfl⟩ := hqe
        have hnone : ∀ l, linkName env w i ≠ some l := by
          intro l hl
          obtain ⟨e1, e2⟩ := linkName_some hl
          rw [hi (by rw [e1]; rfl)] at e2
          cases e2
        rcases mentionWith_some h3 with ⟨l, hln, _⟩ | ⟨hln, m, h4, _⟩
        · exact absurd hln (hnone l)
        · exact ih h4 h' hn
      · simp only [Req.asked, Prod.mk.injEq] at hqe
        obtain ⟨rfl, -⟩ := hqe
        exact ih h3 h' hn

/-- A name that is touched is that of a type mentioned by reference, or touched by one. -/
theorem Touches.direct {t : Ty} {x : String} (h : Touches env t x) :
    ∃ v n, Direct env t v ∧ typeName env v = some n ∧ (n = x ∨ Touches env v x) := by
  induction h with
  | byRef h hn => exact ⟨_, _, .here h hn, hn, .inl rfl⟩
  | @deep t t' b name h h' ih =>
    cases hn : typeName env t' with
    | none =>
      obtain ⟨v, n, hd, hv, hx⟩ := ih
      exact ⟨v, n, .through h (fun _ => hn) hd, hv, hx⟩
    | some n =>
      cases b with
      | true => exact ⟨t', n, .here h hn, hn, .inr h'⟩
      | false =>
        obtain ⟨v, n, hd, hv, hx⟩ := ih
        exact ⟨v, n, .through h (fun e => by cases e) hd, hv, hx⟩

theorem Direct.needs {t v : Ty} (h : Direct env t v) : Needs env t v := by
  induction h with
  | here h _ => exact .one h
  | through h _ _ ih => exact .more h ih

theorem Direct.linked {t v : Ty} (h : Direct env t v) {roots : List (Ty × Bool)} (hr : Reached env roots t) :
    Linked env roots v := by
  induction h with
  | here h _ => exact .inr ⟨_, hr, h⟩
  | through h _ _ ih => exact ih (.step hr h)

theorem Reached.trans {roots : List (Ty × Bool)} {t : Ty} {b : Bool} {u : Ty} (ht : Reached env roots t)
    (hu : Reached env [(t, b)] u) : Reached env roots u := by
  induction hu with
  | root h =>
    rw [List.mem_singleton] at h
    cases h
    exact ht
  | step _ ha ih => exact .step ih ha

theorem Linked.trans {roots roots' : List (Ty × Bool)} (h : ∀ t b, (t, b) ∈ roots' → Linked env roots t) {u : Ty}
    (hu : Linked env roots' u) : Linked env roots u := by
  rcases hu with hu | ⟨w, hw, ha⟩
  · exact h _ _ hu
  · refine .inr ⟨w, ?_, ha⟩
    clear ha
    induction hw with
    | root h' => exact linked_reached (h _ _ h')
    | step _ ha ih => exact .step ih ha

/-- After a single mention by reference from the empty registry, its name has its schema. -/
theorem mention_first {t : Ty} {p : Params} {n : String} {r cx'} (h : MentionReturns env t false p .empty r cx')
    (hn : typeName env t = some n) : ∃ m cx2, SchemaReturns env t .empty m cx2 ∧ BMap.get n cx'.schemas = some m ∧
      ∀ x ∈ BMap.keys cx2.schemas, x ∈ BMap.keys cx'.schemas := by
  rcases mentionReturns_iff.1 h with ⟨l, hl, _, ⟨hk, _⟩ | ⟨_, m, cx2, hs, rfl⟩⟩ | ⟨hl, _⟩
  · cases hk
  · have := (linkName_some hl).2
    rw [hn] at this; cases this
    exact ⟨m, cx2, hs, BMap.get_insert_self _ _ _, fun x hx => BMap.mem_keys_insert.2 (.inr hx)⟩
  · rcases linkName_none hl with h | h
    · cases h
    · rw [hn] at h; cases h

theorem mention_again {t : Ty} {p : Params} {n : String} {r cx cx'} (h : MentionReturns env t false p cx r cx')
    (hn : typeName env t = some n) (hk : n ∈ BMap.keys cx.schemas) : cx' = cx := by
  rcases mentionReturns_iff.1 h with ⟨l, hl, _, ⟨_, he⟩ | ⟨hk', _⟩⟩ | ⟨hl, _⟩
  · exact he
  · have := (linkName_some hl).2
    rw [hn] at this; cases this
    exact absurd hk hk'
  · rcases linkName_none hl with h | h
    · cases h
    · rw [hn] at h; cases h

/-- The order of mentions by reference, of any of the types linked, does not matter. -/
def AnyOrder (env : Env) (roots : List (Ty × Bool)) : Prop :=
  ∀ calls calls' rs rs' cx cx', (∀ c ∈ calls, ∃ t p, c = Call.mention t false p ∧ Linked env roots t) →
    calls.Perm calls' → CallsReturn env .empty calls rs cx → CallsReturn env .empty calls' rs' cx' →
    cx.schemas = cx'.schemas

/-- Two mentions in either order. -/
theorem AnyOrder.two {roots : List (Ty × Bool)} (h : AnyOrder env roots) {t t' : Ty} (hl : Linked env roots t)
    (hl' : Linked env roots t') {r1 cx1 r2 cx2 r3 cx3 r4 cx4}
    (h1 : MentionReturns env t false {} .empty r1 cx1) (h2 : MentionReturns env t' false {} cx1 r2 cx2)
    (h3 : MentionReturns env t' false {} .empty r3 cx3) (h4 : MentionReturns env t false {} cx3 r4 cx4) :
    cx2.schemas = cx4.schemas := by
  refine h [.mention t false {}, .mention t' false {}] [.mention t' false {}, .mention t false {}] _ _ _ _ ?_
    (List.Perm.swap _ _ _) (.mention h1 (.mention h2 (.nil _))) (.mention h3 (.mention h4 (.nil _)))
  intro c hc
  simp only [List.mem_cons, List.not_mem_nil, or_false] at hc
  rcases hc with rfl | rfl
  · exact ⟨_, _, rfl, hl⟩
  · exact ⟨_, _, rfl, hl'⟩

/-- Then a type leaves all names registered that it touches. -/
theorem AnyOrder.touched {roots : List (Ty × Bool)} (ho : AnyOrder env roots) :
    ∀ {t : Ty}, Expands env t → Linked env roots t → ∀ {n r cx}, typeName env t = some n →
      MentionReturns env t false {} .empty r cx → ∀ x, Touches env t x → x ∈ BMap.keys cx.schemas := by
  intro t hx
  have key : ∀ {t : Ty}, Expands env t → (Linked env roots t → ∀ {n r cx}, typeName env t = some n →
      MentionReturns env t false {} .empty r cx → ∀ x, Touches env t x → x ∈ BMap.keys cx.schemas) ∧
      ∀ {v : Ty}, Needs env t v → (Linked env roots v → ∀ {n r cx}, typeName env v = some n →
      MentionReturns env v false {} .empty r cx → ∀ x, Touches env v x → x ∈ BMap.keys cx.schemas) := by
    intro t hx
    induction hx with
    | @intro t e he hsub ih =>
      have hneeds : ∀ {v : Ty}, Needs env t v → (Linked env roots v → ∀ {n r cx}, typeName env v = some n →
          MentionReturns env v false {} .empty r cx → ∀ x, Touches env v x → x ∈ BMap.keys cx.schemas) := by
        intro v hv
        cases hv with
        | one ha =>
          obtain ⟨e', he', hm⟩ := ha
          rw [he] at he'; cases he'
          exact (ih _ _ hm).1
        | more ha hv =>
          obtain ⟨e', he', hm⟩ := ha
          rw [he] at he'; cases he'
          exact (ih _ _ hm).2 hv
      refine ⟨?_, hneeds⟩
      intro hl n r cx hn hm x hx
      obtain ⟨v, n', hd, hv, hx'⟩ := hx.direct
      obtain ⟨m, cx2, ⟨k, hs⟩, -, hkeys⟩ := mention_first hm hn
      have hreg : n' ∈ BMap.keys cx.schemas := hkeys _ (direct_registered k hs hd hv)
      rcases hx' with rfl | hx'
      · exact hreg
      · have hlv : Linked env roots v := hd.linked (linked_reached hl)
        have hev : Expands env v := Expands.of_needs hd.needs (.intro he hsub)
        obtain ⟨r3, cx3, h3⟩ := expands_mention hev false {} .empty
        obtain ⟨r4, cx4, h4⟩ := expands_mention (.intro he hsub : Expands env t) false {} cx3
        obtain ⟨r2, cx2', h2⟩ := expands_mention hev false {} cx
        have hsame := ho.two hl hlv hm h2 h3 h4
        rw [mention_again h2 hv hreg] at hsame
        rw [hsame]
        exact h4.keeps.keys (hneeds hd.needs hlv hv h3 x hx')
  exact (key hx).1

/-- If the order does not matter, names are consistent. -/
theorem AnyOrder.consistent {roots : List (Ty × Bool)} (finite : ∀ t, Linked env roots t → Expands env t)
    (ho : AnyOrder env roots) : NamesConsistent env roots := by
  have half : ∀ t t' name, Linked env roots t → Linked env roots t' →
      typeName env t = some name → typeName env t' = some name →
      (∀ m m', HasSchema env t m → HasSchema env t' m' → m = m') ∧
      ∀ n, n ≠ name → Touches env t n → Touches env t' n := by
    intro t t' name hl hl' hn hn'
    obtain ⟨r1, cx1, h1⟩ := expands_mention (finite t hl) false {} .empty
    obtain ⟨r2, cx2, h2⟩ := expands_mention (finite t' hl') false {} cx1
    obtain ⟨r3, cx3, h3⟩ := expands_mention (finite t' hl') false {} .empty
    obtain ⟨r4, cx4, h4⟩ := expands_mention (finite t hl) false {} cx3
    have hsame := ho.two hl hl' h1 h2 h3 h4
    obtain ⟨m, cxm, hs, hg, hk⟩ := mention_first h1 hn
    obtain ⟨m', cxm', hs', hg', hk'⟩ := mention_first h3 hn'
    have e2 := mention_again h2 hn' (BMap.get_isSome_iff.1 (by rw [hg]; rfl))
    have e4 := mention_again h4 hn (BMap.get_isSome_iff.1 (by rw [hg']; rfl))
    rw [e2, e4] at hsame
    constructor
    · intro a b ha hb
      rw [ha.unique ⟨_, _, hs⟩, hb.unique ⟨_, _, hs'⟩]
      rw [hsame, hg'] at hg
      cases hg
      rfl
    · intro n hne ht
      have hmem := ho.touched (finite t hl) hl hn h1 n ht
      rw [hsame] at hmem
      obtain ⟨b, hb, rfl⟩ := List.mem_map.1 hmem
      obtain ⟨u, hu, hun, -⟩ := named_calls (roots := [(t', true)]) (.mention h3 (.nil _))
        (by simp [Call.isMention]) (by simp [rootsOf]) (fun _ hb => by cases hb) b hb
      rcases hu with hu | ⟨w, hw, ha⟩
      · rw [List.mem_singleton] at hu
        cases hu
        rw [hn'] at hun
        cases hun
        exact absurd rfl hne
      · obtain ⟨x, hx, hh⟩ := touches_of_reached (calls := [.mention t' false {}]) hw
        simp only [rootsOf, List.mem_cons, List.not_mem_nil, or_false] at hx
        subst hx
        rcases hh with hh | hh
        · have hh : t' = w := hh
          subst hh
          exact .byRef ha hun
        · exact hh _ (.byRef ha hun)
  intro t t' name hl hl' hn hn'
  refine ⟨fun cx m cx1 cx' m' cx1' h h' => (half t t' name hl hl' hn hn').1 m m' ⟨_, _, h⟩ ⟨_, _, h'⟩, fun n hne => ?_⟩
  exact ⟨(half t t' name hl hl' hn hn').2 n hne, (half t' t name hl' hl hn' hn).2 n hne⟩

end Verif
