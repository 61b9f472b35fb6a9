import Verif.Proof.Returns
import Verif.Spec.Deps
/-!
# The final registry, and termination
-/

namespace Verif

variable {env : Env} {roots : List (Ty × Bool)}

def Req.asked : Req → Ty × Bool
  | .mention t inline _ => (t, !inline)
  | .schema t => (t, false)

mutual
theorem RefExpr.asked_eq : ∀ e : RefExpr Ty, e.asked = e.reqs.map Req.asked
  | .mention t i p => by simp [RefExpr.asked, RefExpr.reqs, Req.asked]
  | .inline m => by simp [RefExpr.asked, RefExpr.reqs, ModelExpr.asked_eq m]
  | .any => by simp [RefExpr.asked, RefExpr.reqs]
theorem ModelExpr.asked_eq : ∀ e : ModelExpr Ty, e.asked = e.reqs.map Req.asked
  | .getSchema t => by simp [ModelExpr.asked, ModelExpr.reqs, Req.asked]
  | .getSchemaWithParams t p => by simp [ModelExpr.asked, ModelExpr.reqs, Req.asked]
  | .single d n td => by simp [ModelExpr.asked, ModelExpr.reqs, TypeExpr.asked_eq td]
  | .oneOf d rs => by simp [ModelExpr.asked, ModelExpr.reqs, RefExpr.askedList_eq rs]
  | .tagged m a b c d => by simp [ModelExpr.asked, ModelExpr.reqs, ModelExpr.asked_eq m]
theorem TypeExpr.asked_eq : ∀ e : TypeExpr Ty, e.asked = e.reqs.map Req.asked
  | .string .. => by simp [TypeExpr.asked, TypeExpr.reqs]
  | .number .. => by simp [TypeExpr.asked, TypeExpr.reqs]
  | .integer .. => by simp [TypeExpr.asked, TypeExpr.reqs]
  | .boolean => by simp [TypeExpr.asked, TypeExpr.reqs]
  | .array r => by simp [TypeExpr.asked, TypeExpr.reqs, RefExpr.asked_eq r]
  | .object es => by simp [TypeExpr.asked, TypeExpr.reqs, PropExpr.askedList_eq es]
  | .dictionary r => by simp [TypeExpr.asked, TypeExpr.reqs, RefExpr.asked_eq r]
theorem RefExpr.askedList_eq : ∀ es : List (RefExpr Ty), RefExpr.askedList es = (RefExpr.reqsList es).map Req.asked
  | [] => by simp [RefExpr.askedList, RefExpr.reqsList]
  | r :: rs => by simp [RefExpr.askedList, RefExpr.reqsList, RefExpr.asked_eq r, RefExpr.askedList_eq rs]
theorem PropExpr.askedList_eq : ∀ es : List (PropExpr Ty), PropExpr.askedList es = (PropExpr.reqsList es).map Req.asked
  | [] => by simp [PropExpr.askedList, PropExpr.reqsList]
  | .mk _ r _ :: rs => by simp [PropExpr.askedList, PropExpr.reqsList, RefExpr.asked_eq r, PropExpr.askedList_eq rs]
end

theorem mem_asked {e : ModelExpr Ty} {x} : x ∈ e.asked ↔ ∃ q ∈ e.reqs, q.asked = x := by
  rw [ModelExpr.asked_eq, List.mem_map]

/-! ## The final registry -/

/-- Every entry is the schema of a linked type of that name whose own names are all registered. -/
def Honest (env : Env) (roots : List (Ty × Bool)) (cx : Components) : Prop :=
  ∀ l m, BMap.get l cx.schemas = some m → ∃ t, Linked env roots t ∧ typeName env t = some l ∧
    (∃ c c', SchemaReturns env t c m c') ∧ ∀ n, Touches env t n → n ∈ BMap.keys cx.schemas

theorem honest_empty : Honest env roots Components.empty := by
  intro l m h; simp [Components.empty] at h

theorem linkName_some {t i l} (h : linkName env t i = some l) : i = false ∧ typeName env t = some l := by
  unfold linkName at h
  cases i <;> simp_all

theorem linkName_none {t i} (h : linkName env t i = none) : i = true ∨ typeName env t = none := by
  unfold linkName at h
  cases i <;> simp_all

/-- The names a request stands for. -/
def Req.Touches (env : Env) (q : Req) (n : String) : Prop :=
  Verif.Touches env q.asked.1 n ∨ (q.asked.2 = true ∧ typeName env q.asked.1 = some n)

theorem honest_mention {k t i p cx r cx'} (hc : NamesConsistent env roots)
    (ih : ∀ t cx m cx', Honest env roots cx → Reached env roots t → getSchema env k t cx = some (m, cx') →
      Honest env roots cx' ∧ ∀ n, Touches env t n → n ∈ BMap.keys cx'.schemas)
    (hcx : Honest env roots cx) (hr : Reached env roots t) (hl : i = false → Linked env roots t)
    (h : mentionWith env (getSchema env k) t i p cx = some (r, cx')) :
    Honest env roots cx' ∧ ∀ n, (Touches env t n ∨ (i = false ∧ typeName env t = some n)) →
      n ∈ BMap.keys cx'.schemas := by
  rcases mentionWith_some h with ⟨l, hln, hr', ⟨hk, he⟩ | ⟨hk, m, cx2, h2, he⟩⟩ | ⟨hln, m, h2, _⟩
  · subst he
    obtain ⟨hi, hn⟩ := linkName_some hln
    refine ⟨hcx, ?_⟩
    have hk' := BMap.containsKey_iff.1 hk
    obtain ⟨m, hm⟩ := Option.isSome_iff_exists.1 (BMap.get_isSome_iff.2 hk')
    obtain ⟨t0, hl0, hn0, _, ht0⟩ := hcx l m hm
    rintro n (hn' | ⟨_, hn'⟩)
    · by_cases e : n = l
      · exact e ▸ hk'
      · exact ht0 n (((hc t t0 l (hl hi) hl0 hn hn0).2 n e).1 hn')
    · rw [hn] at hn'; cases hn'; exact hk'
  · obtain ⟨hi, hn⟩ := linkName_some hln
    obtain ⟨hh, ht⟩ := ih t cx m cx2 hcx hr h2
    subst he
    have hkeys : ∀ n, n ∈ BMap.keys cx2.schemas → n ∈ BMap.keys (BMap.insert l m cx2.schemas) := by
      intro n hn; rw [BMap.mem_keys_insert]; exact .inr hn
    constructor
    · intro l' m' hg
      simp only [BMap.get_insert] at hg
      split at hg
      · rename_i e
        cases hg
        subst e
        exact ⟨t, hl hi, hn, ⟨cx, cx2, k, h2⟩, fun n hn => hkeys n (ht n hn)⟩
      · obtain ⟨t0, a, b, c, d⟩ := hh l' m' hg
        exact ⟨t0, a, b, c, fun n hn => hkeys n (d n hn)⟩
    · rintro n (hn' | ⟨_, hn'⟩)
      · exact hkeys n (ht n hn')
      · rw [hn] at hn'; cases hn'
        show l ∈ BMap.keys (BMap.insert l m cx2.schemas)
        rw [BMap.mem_keys_insert]; exact .inl rfl
  · obtain ⟨hh, ht⟩ := ih t cx m cx' hcx hr h2
    refine ⟨hh, ?_⟩
    rintro n (hn' | ⟨hi, hn'⟩)
    · exact ht n hn'
    · rcases linkName_none hln with h | h
      · rw [hi] at h; cases h
      · rw [h] at hn'; cases hn'

theorem honest_runReqs {k} (hc : NamesConsistent env roots)
    (ih : ∀ t cx m cx', Honest env roots cx → Reached env roots t → getSchema env k t cx = some (m, cx') →
      Honest env roots cx' ∧ ∀ n, Touches env t n → n ∈ BMap.keys cx'.schemas)
    {qs : List Req} (hq : ∀ q ∈ qs, Reached env roots q.asked.1 ∧ (q.asked.2 = true → Linked env roots q.asked.1))
    {cx as cx'} (hcx : Honest env roots cx) (h : runReqs env (getSchema env k) qs cx = some (as, cx')) :
    Honest env roots cx' ∧ ∀ q ∈ qs, ∀ n, q.Touches env n → n ∈ BMap.keys cx'.schemas := by
  induction qs generalizing cx as with
  | nil =>
    simp only [runReqs, Option.some.injEq, Prod.mk.injEq] at h
    rw [← h.2]
    exact ⟨hcx, by simp⟩
  | cons q qs ihq =>
    obtain ⟨a, as', cx1, h1, h2, _⟩ := runReqs_cons_some h
    have hq0 := hq q List.mem_cons_self
    have step : Honest env roots cx1 ∧ ∀ n, q.Touches env n → n ∈ BMap.keys cx1.schemas := by
      rcases Req.run_some h1 with ⟨t, i, p, r, rfl, h3, _⟩ | ⟨t, m, rfl, h3, _⟩
      · simp only [Req.asked, Bool.not_eq_true'] at hq0
        have := honest_mention hc ih hcx hq0.1 hq0.2 h3
        simpa only [Req.Touches, Req.asked, Bool.not_eq_true'] using this
      · have := ih t cx m cx1 hcx hq0.1 h3
        refine ⟨this.1, ?_⟩
        rintro n (hn | ⟨hn, _⟩)
        · exact this.2 n hn
        · cases hn
    obtain ⟨hh, ht⟩ := ihq (fun q hq' => hq q (List.mem_cons_of_mem _ hq')) step.1 h2
    refine ⟨hh, ?_⟩
    intro q' hq' n hn
    rcases List.mem_cons.1 hq' with rfl | hq'
    · exact (runReqs_keeps h2).keys (step.2 n hn)
    · exact ht q' hq' n hn

theorem honest_getSchema (hc : NamesConsistent env roots) (k : Nat) :
    ∀ t cx m cx', Honest env roots cx → Reached env roots t → getSchema env k t cx = some (m, cx') →
      Honest env roots cx' ∧ ∀ n, Touches env t n → n ∈ BMap.keys cx'.schemas := by
  induction k with
  | zero => intro t cx m cx' _ _ h; simp [getSchema] at h
  | succ k ih =>
    intro t cx m cx' hcx hr h
    obtain ⟨n, e, as, hk, he, hrun, _⟩ := getSchema_some h
    cases hk
    have := honest_runReqs hc ih (qs := e.reqs) (by
      intro q hq
      have hm : q.asked ∈ e.asked := mem_asked.2 ⟨q, hq, rfl⟩
      refine ⟨.step hr ⟨e, he, hm⟩, fun hb => .inr ⟨t, hr, e, he, ?_⟩⟩
      rw [← hb]; exact hm) hcx hrun
    refine ⟨this.1, ?_⟩
    intro n hn
    cases hn with
    | byRef h hn' =>
      obtain ⟨e', he', hm⟩ := h
      rw [he] at he'; cases he'
      obtain ⟨q, hq, hqe⟩ := mem_asked.1 hm
      exact this.2 q hq n (.inr ⟨by rw [hqe], by rw [hqe]; exact hn'⟩)
    | deep h h' =>
      obtain ⟨e', he', hm⟩ := h
      rw [he] at he'; cases he'
      obtain ⟨q, hq, hqe⟩ := mem_asked.1 hm
      exact this.2 q hq n (.inl (by rw [hqe]; exact h'))

theorem honest_calls (hc : NamesConsistent env roots) {cx calls rs cx'} (run : CallsReturn env cx calls rs cx')
    (hm : ∀ c ∈ calls, c.isMention = true) (hroots : ∀ x ∈ rootsOf calls, x ∈ roots)
    (hcx : Honest env roots cx) :
    Honest env roots cx' ∧ ∀ x ∈ rootsOf calls, ∀ n, (Touches env x.1 n ∨ (x.2 = true ∧ typeName env x.1 = some n)) →
      n ∈ BMap.keys cx'.schemas := by
  induction run with
  | nil cx => exact ⟨hcx, by simp [rootsOf]⟩
  | @mention cx t inline p r cx1 calls rs cx2 h hr ih =>
    obtain ⟨k, h⟩ := h
    simp only [rootsOf, List.mem_cons, forall_eq_or_imp] at hroots
    have := honest_mention hc (honest_getSchema hc k) hcx (.root hroots.1)
      (fun hi => .inl (by have := hroots.1; simp only [hi, Bool.not_false] at this; exact this)) h
    obtain ⟨a, b⟩ := ih (fun c hc' => hm c (List.mem_cons_of_mem _ hc')) hroots.2 this.1
    refine ⟨a, ?_⟩
    simp only [rootsOf, List.mem_cons, forall_eq_or_imp, Bool.not_eq_true']
    refine ⟨fun n hn => ?_, b⟩
    exact (CallsReturn.keeps hr).keys (this.2 n hn)
  | addModel hr ih => simpa [Call.isMention] using hm _ List.mem_cons_self
  | @security cx name s calls rs cx2 hr ih =>
    refine ih (fun c hc' => hm c (List.mem_cons_of_mem _ hc')) hroots ?_
    have : (cx.mentionSecurityScheme name s).2.schemas = cx.schemas := by
      unfold Components.mentionSecurityScheme; split <;> rfl
    unfold Honest at hcx ⊢
    rw [this]; exact hcx

theorem touches_of_reached {calls t} (h : Reached env (rootsOf calls) t) :
    ∃ x ∈ rootsOf calls, x.1 = t ∨ (∀ n, Touches env t n → Touches env x.1 n) := by
  induction h with
  | root h => exact ⟨_, h, .inl rfl⟩
  | @step t t' b h ha ih =>
    obtain ⟨x, hx, hh⟩ := ih
    refine ⟨x, hx, .inr ?_⟩
    intro n hn
    rcases hh with rfl | hh
    · exact .deep ha hn
    · exact hh n (.deep ha hn)

/-- The registry after a sequence of mentions from the empty registry. -/
theorem registry_spec {calls rs cx'} (hc : NamesConsistent env (rootsOf calls))
    (hm : ∀ c ∈ calls, c.isMention = true) (run : CallsReturn env Components.empty calls rs cx')
    (name : String) (m : Model) :
    BMap.get name cx'.schemas = some m ↔
      ∃ t, Linked env (rootsOf calls) t ∧ typeName env t = some name ∧ ∃ cx cx1, SchemaReturns env t cx m cx1 := by
  obtain ⟨hh, hk⟩ := honest_calls hc run hm (fun _ h => h) honest_empty
  constructor
  · intro h
    obtain ⟨t, a, b, c, _⟩ := hh name m h
    exact ⟨t, a, b, c⟩
  · rintro ⟨t, hl, hn, cx, cx1, hs⟩
    have hmem : name ∈ BMap.keys cx'.schemas := by
      rcases hl with hl | ⟨u, hu, ha⟩
      · exact hk _ hl name (.inr ⟨rfl, hn⟩)
      · obtain ⟨x, hx, hh'⟩ := touches_of_reached hu
        refine hk x hx name (.inl ?_)
        rcases hh' with rfl | hh'
        · exact .byRef ha hn
        · exact hh' _ (.byRef ha hn)
    obtain ⟨m', hm'⟩ := Option.isSome_iff_exists.1 (BMap.get_isSome_iff.2 hmem)
    obtain ⟨t', hl', hn', ⟨c, c', hs'⟩, _⟩ := hh name m' hm'
    rw [hm', (hc t t' name hl hl' hn hn').1 _ _ _ _ _ _ hs hs']

/-! ## Termination -/

theorem expands_returns {t} (h : Expands env t) : ∀ cx, ∃ m cx', SchemaReturns env t cx m cx' := by
  induction h with
  | @intro t e he h ih =>
    intro cx
    have key : ∀ qs : List Req, (∀ q ∈ qs, q ∈ e.reqs) → ∀ cx, ∃ n as cx',
        runReqs env (getSchema env n) qs cx = some (as, cx') := by
      intro qs
      induction qs with
      | nil => intro _ cx; exact ⟨0, [], cx, rfl⟩
      | cons q qs ihq =>
        intro hq cx
        have hq0 : q.asked ∈ e.asked := mem_asked.2 ⟨q, hq q List.mem_cons_self, rfl⟩
        have hret := ih q.asked.1 q.asked.2 hq0
        have h1 : ∃ n a cx1, q.run env (getSchema env n) cx = some (a, cx1) := by
          obtain ⟨m, cx1, n, hn⟩ := hret cx
          cases q with
          | schema t => exact ⟨n, .model m, cx1, by simp only [Req.asked] at hn; simp [Req.run, hn]⟩
          | mention t i p =>
            simp only [Req.asked] at hn
            have : ∃ r cx1, mentionWith env (getSchema env n) t i (p.eval env) cx = some (r, cx1) := by
              rw [mentionWith_eq]
              cases linkName env t i with
              | none => simp [hn]
              | some l =>
                simp only [hn]
                split <;> simp
            obtain ⟨r, cx1, hr⟩ := this
            exact ⟨n, .ref r, cx1, by simp [Req.run, hr]⟩
        obtain ⟨n, a, cx1, h1⟩ := h1
        obtain ⟨k, as, cx2, h2⟩ := ihq (fun q' hq' => hq q' (List.mem_cons_of_mem _ hq')) cx1
        have h1' : runReqs env (getSchema env n) [q] cx = some ([a], cx1) := by simp [runReqs, h1]
        have h1'' := runReqs_fuel_mono (Nat.le_max_left n k) h1'
        have h2' := runReqs_fuel_mono (Nat.le_max_right n k) h2
        refine ⟨max n k, a :: as, cx2, ?_⟩
        have := runReqs_append (env := env) (rec := getSchema env (max n k)) [q] qs cx
        rw [h1''] at this
        simp only [h2'] at this
        exact this
    obtain ⟨n, as, cx', hr⟩ := key e.reqs (fun _ h => h) cx
    refine ⟨(e.fill env as).1, cx', n + 1, ?_⟩
    rw [getSchema_eq, he]
    simp only [hr]

theorem expands_iff {t e} (he : schemaExpr env t = some e) :
    Expands env t ↔ ∀ t' b, (t', b) ∈ e.asked → Expands env t' := by
  constructor
  · rintro ⟨he', h⟩
    rw [he] at he'; cases he'; exact h
  · exact .intro he

theorem expands_strip : ∀ t : Ty, Expands env t.strip ↔ Expands env t
  | .wrap w t => by
    rw [expands_iff (t := .wrap w t) (e := .getSchema t) rfl]
    simp only [Ty.strip, ModelExpr.asked, List.mem_singleton, Prod.mk.injEq, and_imp]
    rw [expands_strip t]
    constructor
    · rintro h t' b rfl _; exact h
    · intro h; exact h t false rfl rfl
  | .prim _ | .option _ | .tuple _ | .seq _ _ | .dict _ _ | .unit | .uuid | .naiveDateTime | .dateTime
  | .naiveDate | .named _ => by simp [Ty.strip]

/-- Of the types linked under a name, all have a finite expansion or none has one. -/
def NamesAgree (env : Env) (roots : List (Ty × Bool)) : Prop :=
  ∀ t t' name, Linked env roots t → Linked env roots t' → typeName env t = some name → typeName env t' = some name →
    Expands env t' → Expands env t

theorem NamesUnique.agree (h : NamesUnique env roots) : NamesAgree env roots := by
  intro t t' name hl hl' hn hn' hx
  rw [← expands_strip, h t t' name hl hl' hn hn', expands_strip]
  exact hx

/-- Every registered name belongs to a linked type with a finite expansion. -/
def Grounded (env : Env) (roots : List (Ty × Bool)) (cx : Components) : Prop :=
  ∀ l ∈ BMap.keys cx.schemas, ∃ t, Linked env roots t ∧ typeName env t = some l ∧ Expands env t

theorem grounded_empty : Grounded env roots Components.empty := by
  intro l h; simp [Components.empty, BMap.keys] at h

theorem grounded_mention {k t i p cx r cx'} (hc : NamesAgree env roots)
    (ih : ∀ t cx m cx', Grounded env roots cx → Reached env roots t → getSchema env k t cx = some (m, cx') →
      Grounded env roots cx' ∧ Expands env t)
    (hcx : Grounded env roots cx) (hr : Reached env roots t) (hl : i = false → Linked env roots t)
    (h : mentionWith env (getSchema env k) t i p cx = some (r, cx')) :
    Grounded env roots cx' ∧ Expands env t := by
  rcases mentionWith_some h with ⟨l, hln, hr', ⟨hk, he⟩ | ⟨hk, m, cx2, h2, he⟩⟩ | ⟨hln, m, h2, _⟩
  · subst he
    obtain ⟨hi, hn⟩ := linkName_some hln
    obtain ⟨t0, hl0, hn0, hx⟩ := hcx l (BMap.containsKey_iff.1 hk)
    exact ⟨hcx, hc t t0 l (hl hi) hl0 hn hn0 hx⟩
  · obtain ⟨hi, hn⟩ := linkName_some hln
    obtain ⟨hh, ht⟩ := ih t cx m cx2 hcx hr h2
    subst he
    refine ⟨?_, ht⟩
    intro l' hl'
    simp only [BMap.mem_keys_insert] at hl'
    rcases hl' with rfl | hl'
    · exact ⟨t, hl hi, hn, ht⟩
    · exact hh l' hl'
  · exact ih t cx m cx' hcx hr h2

theorem grounded_getSchema (hc : NamesAgree env roots) (k : Nat) :
    ∀ t cx m cx', Grounded env roots cx → Reached env roots t → getSchema env k t cx = some (m, cx') →
      Grounded env roots cx' ∧ Expands env t := by
  induction k with
  | zero => intro t cx m cx' _ _ h; simp [getSchema] at h
  | succ k ih =>
    intro t cx m cx' hcx hr h
    obtain ⟨n, e, as, hk, he, hrun, _⟩ := getSchema_some h
    cases hk
    have key : ∀ (qs : List Req), (∀ q ∈ qs, q ∈ e.reqs) → ∀ cx as cx', Grounded env roots cx →
        runReqs env (getSchema env k) qs cx = some (as, cx') →
        Grounded env roots cx' ∧ ∀ q ∈ qs, Expands env q.asked.1 := by
      intro qs
      induction qs with
      | nil =>
        intro _ cx as cx' hcx h
        simp only [runReqs, Option.some.injEq, Prod.mk.injEq] at h
        rw [← h.2]
        exact ⟨hcx, by simp⟩
      | cons q qs ihq =>
        intro hq cx as cx' hcx h
        obtain ⟨a, as', cx1, h1, h2, _⟩ := runReqs_cons_some h
        have hq0 : q.asked ∈ e.asked := mem_asked.2 ⟨q, hq q List.mem_cons_self, rfl⟩
        have step : Grounded env roots cx1 ∧ Expands env q.asked.1 := by
          rcases Req.run_some h1 with ⟨t', i, p, r, rfl, h3, _⟩ | ⟨t', m, rfl, h3, _⟩
          · refine grounded_mention hc ih hcx (.step hr ⟨e, he, hq0⟩) ?_ h3
            intro hi
            subst hi
            exact .inr ⟨t, hr, e, he, hq0⟩
          · exact ih t' cx m cx1 hcx (.step hr ⟨e, he, hq0⟩) h3
        obtain ⟨hh, ht⟩ := ihq (fun q' hq' => hq q' (List.mem_cons_of_mem _ hq')) cx1 as' cx' step.1 h2
        refine ⟨hh, ?_⟩
        intro q' hq'
        rcases List.mem_cons.1 hq' with rfl | hq'
        · exact step.2
        · exact ht q' hq'
    have := key e.reqs (fun _ h => h) cx as cx' hcx hrun
    refine ⟨this.1, .intro he ?_⟩
    intro t' b hb
    obtain ⟨q, hq, hqe⟩ := mem_asked.1 hb
    have := this.2 q hq
    rw [hqe] at this
    exact this

theorem grounded_calls (hc : NamesAgree env roots) {cx calls rs cx'} (run : CallsReturn env cx calls rs cx')
    (hm : ∀ c ∈ calls, c.isMention = true) (hroots : ∀ x ∈ rootsOf calls, x ∈ roots)
    (hcx : Grounded env roots cx) : ∀ x ∈ rootsOf calls, Expands env x.1 := by
  induction run with
  | nil cx => simp [rootsOf]
  | @mention cx t inline p r cx1 calls rs cx2 h hr ih =>
    obtain ⟨k, h⟩ := h
    simp only [rootsOf, List.mem_cons, forall_eq_or_imp] at hroots ⊢
    have := grounded_mention hc (grounded_getSchema hc k) hcx (.root hroots.1)
      (fun hi => .inl (by have := hroots.1; simp only [hi, Bool.not_false] at this; exact this)) h
    exact ⟨this.2, ih (fun c hc' => hm c (List.mem_cons_of_mem _ hc')) hroots.2 this.1⟩
  | addModel hr ih => simpa [Call.isMention] using hm _ List.mem_cons_self
  | @security cx name s calls rs cx2 hr ih =>
    refine ih (fun c hc' => hm c (List.mem_cons_of_mem _ hc')) hroots ?_
    have : (cx.mentionSecurityScheme name s).2.schemas = cx.schemas := by
      unfold Components.mentionSecurityScheme; split <;> rfl
    unfold Grounded at hcx ⊢
    rw [this]; exact hcx

theorem expands_mention {t} (h : Expands env t) (i p cx) : ∃ r cx', MentionReturns env t i p cx r cx' := by
  obtain ⟨m, cx1, hs⟩ := expands_returns h cx
  cases hl : linkName env t i with
  | none => exact ⟨_, cx1, mentionReturns_iff.2 (.inr ⟨hl, m, hs, rfl⟩)⟩
  | some l =>
    by_cases hk : l ∈ BMap.keys cx.schemas
    · exact ⟨.link l, cx, mentionReturns_iff.2 (.inl ⟨l, hl, rfl, .inl ⟨hk, rfl⟩⟩)⟩
    · exact ⟨.link l, _, mentionReturns_iff.2 (.inl ⟨l, hl, rfl, .inr ⟨hk, m, cx1, hs, rfl⟩⟩)⟩

theorem expands_calls : ∀ (calls : List Call), (∀ x ∈ rootsOf calls, Expands env x.1) → ∀ cx,
    ∃ rs cx', CallsReturn env cx calls rs cx'
  | [], _, cx => ⟨[], cx, .nil cx⟩
  | .mention t i p :: rest, h, cx => by
    simp only [rootsOf, List.mem_cons, forall_eq_or_imp] at h
    obtain ⟨r, cx1, h1⟩ := expands_mention h.1 i p cx
    obtain ⟨rs, cx2, h2⟩ := expands_calls rest h.2 cx1
    exact ⟨r :: rs, cx2, .mention h1 h2⟩
  | .addModel name m :: rest, h, cx => by
    obtain ⟨rs, cx2, h2⟩ := expands_calls rest h (cx.addModel name m)
    exact ⟨rs, cx2, .addModel h2⟩
  | .security name s :: rest, h, cx => by
    obtain ⟨rs, cx2, h2⟩ := expands_calls rest h (cx.mentionSecurityScheme name s).2
    exact ⟨rs, cx2, .security h2⟩

/-! ## Unique names are consistent -/

theorem strip_schema {cx m cx'} : ∀ t : Ty, SchemaReturns env t.strip cx m cx' ↔ SchemaReturns env t cx m cx'
  | .wrap w t => by
    rw [schemaReturns_iff (t := .wrap w t) (e := .getSchema t) rfl]
    exact strip_schema t
  | .prim _ | .option _ | .tuple _ | .seq _ _ | .dict _ _ | .unit | .uuid | .naiveDateTime | .dateTime
  | .naiveDate | .named _ => by simp [Ty.strip]

theorem touches_wrap {w t n} : Touches env (.wrap w t) n ↔ Touches env t n := by
  constructor
  · intro h
    cases h with
    | byRef h hn =>
      obtain ⟨e, he, hm⟩ := h
      simp only [schemaExpr, Option.some.injEq] at he
      subst he
      simp [ModelExpr.asked] at hm
    | deep h h' =>
      obtain ⟨e, he, hm⟩ := h
      simp only [schemaExpr, Option.some.injEq] at he
      subst he
      simp only [ModelExpr.asked, List.mem_singleton, Prod.mk.injEq] at hm
      rw [← hm.1]; exact h'
  · intro h
    exact .deep (t' := t) (b := false) ⟨_, rfl, by simp [ModelExpr.asked]⟩ h

theorem strip_touches {n} : ∀ t : Ty, Touches env t.strip n ↔ Touches env t n
  | .wrap w t => by rw [touches_wrap]; exact strip_touches t
  | .prim _ | .option _ | .tuple _ | .seq _ _ | .dict _ _ | .unit | .uuid | .naiveDateTime | .dateTime
  | .naiveDate | .named _ => by simp [Ty.strip]

theorem NamesUnique.consistent (h : NamesUnique env roots) : NamesConsistent env roots := by
  intro t t' name hl hl' hn hn'
  have e := h t t' name hl hl' hn hn'
  constructor
  · intro cx m cx1 cx' m' cx1' hs hs'
    rw [← strip_schema] at hs hs'
    rw [e] at hs
    obtain ⟨n, hs⟩ := hs
    obtain ⟨k, hs'⟩ := hs'
    exact getSchema_indep n hs hs'
  · intro n _
    rw [← strip_touches t, e, strip_touches]

end Verif
