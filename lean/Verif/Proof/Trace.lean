import Verif.Spec.Trace
import Verif.Proof.Size
import Verif.Proof.Order
import Verif.Props.Order
/-!
# The calls a mention makes
-/

namespace Verif

section
variable {env : Env}

/-! ## Every run has a trace -/

theorem trace_reqs {k : Nat}
    (ih : ∀ t cx m cx', getSchema env k t cx = some (m, cx') → ∃ e ts, schemaExpr env t = some e ∧ Trace env e.asked cx ts cx')
    {qs : List Req} {cx as cx'} (h : runReqs env (getSchema env k) qs cx = some (as, cx')) :
    ∃ ts, Trace env (qs.map Req.asked) cx ts cx' := by
  induction qs generalizing cx as with
  | nil =>
    simp only [runReqs, Option.some.injEq, Prod.mk.injEq] at h
    rw [← h.2]
    exact ⟨[], .nil _⟩
  | cons q qs ihq =>
    obtain ⟨a, as', cx1, h1, h2, _⟩ := runReqs_cons_some h
    obtain ⟨ts', hrest⟩ := ihq h2
    rcases Req.run_some h1 with ⟨t, i, p, r, rfl, h3, _⟩ | ⟨t, m, rfl, h3, _⟩
    · rcases mentionWith_some h3 with ⟨l, hln, hr', ⟨hk, he⟩ | ⟨hk, m, cx2, h4, he⟩⟩ | ⟨hln, m, h4, _⟩
      · subst he
        obtain ⟨rfl, hn⟩ := linkName_some hln
        exact ⟨ts', .known hn (BMap.containsKey_iff.1 hk) hrest⟩
      · obtain ⟨rfl, hn⟩ := linkName_some hln
        obtain ⟨e, ts, hc, ht⟩ := ih _ _ _ _ h4
        subst he
        exact ⟨_, .new hn (BMap.containsKey_false_iff.1 hk) hc ht ⟨k, h4⟩ hrest⟩
      · obtain ⟨e, ts, hc, ht⟩ := ih _ _ _ _ h4
        refine ⟨_, .inPlace ?_ hc ht hrest⟩
        rcases linkName_none hln with h | h
        · exact .inl (by simp [h])
        · exact .inr h
    · obtain ⟨e, ts, hc, ht⟩ := ih _ _ _ _ h3
      exact ⟨_, .inPlace (.inl rfl) hc ht hrest⟩

theorem trace_getSchema : ∀ (k : Nat) t cx m cx', getSchema env k t cx = some (m, cx') →
    ∃ e ts, schemaExpr env t = some e ∧ Trace env e.asked cx ts cx'
  | 0, _, _, _, _, h => by cases h
  | k + 1, t, cx, m, cx', h => by
    obtain ⟨n, e, as, hk, he, hrun, -⟩ := getSchema_some h
    cases hk
    obtain ⟨ts, ht⟩ := trace_reqs (trace_getSchema k) hrun
    exact ⟨e, ts, he, by rw [ModelExpr.asked_eq]; exact ht⟩

theorem trace_calls {cx calls rs cx'} (run : CallsReturn env cx calls rs cx')
    (hm : ∀ c ∈ calls, ∃ t i p, c = .mention t i p) : ∃ ts, Trace env (rootsOf calls) cx ts cx' := by
  induction run with
  | nil cx => exact ⟨[], .nil _⟩
  | @mention cx t i p r cx1 calls rs cx2 h hr ih =>
    obtain ⟨ts', hrest⟩ := ih fun c hc => hm c (List.mem_cons_of_mem _ hc)
    obtain ⟨k, h⟩ := h
    rcases mentionWith_some h with ⟨l, hln, hr', ⟨hk, he⟩ | ⟨hk, m, cx2, h4, he⟩⟩ | ⟨hln, m, h4, _⟩
    · subst he
      obtain ⟨rfl, hn⟩ := linkName_some hln
      exact ⟨ts', .known hn (BMap.containsKey_iff.1 hk) hrest⟩
    · obtain ⟨rfl, hn⟩ := linkName_some hln
      obtain ⟨e, ts, hc, ht⟩ := trace_getSchema _ _ _ _ _ h4
      subst he
      exact ⟨_, .new hn (BMap.containsKey_false_iff.1 hk) hc ht ⟨k, h4⟩ hrest⟩
    · obtain ⟨e, ts, hc, ht⟩ := trace_getSchema _ _ _ _ _ h4
      refine ⟨_, .inPlace ?_ hc ht hrest⟩
      rcases linkName_none hln with h | h
      · exact .inl (by simp [h])
      · exact .inr h
  | addModel hr ih => obtain ⟨_, _, _, h⟩ := hm _ List.mem_cons_self; cases h
  | security hr ih => obtain ⟨_, _, _, h⟩ := hm _ List.mem_cons_self; cases h

/-- There is only one. -/
theorem Trace.unique {asks cx ts cx'} (h : Trace env asks cx ts cx') :
    ∀ {us cx''}, Trace env asks cx us cx'' → us = ts ∧ cx'' = cx' := by
  induction h with
  | nil cx => intro us cx'' h; cases h; exact ⟨rfl, rfl⟩
  | known hn hk _ ih =>
    intro us cx'' h
    cases h with
    | known _ _ h => exact ih h
    | new hn' hk' => rw [hn] at hn'; cases hn'; exact absurd hk hk'
    | inPlace hb => rw [hn] at hb; simp at hb
  | new hn hk hc ht hr _ ih1 ih2 =>
    intro us cx'' h
    cases h with
    | known hn' hk' h => rw [hn] at hn'; cases hn'; exact absurd hk' hk
    | new hn' hk' hc' ht' hr' h' =>
      rw [hn] at hn'; cases hn'
      rw [hc] at hc'; cases hc'
      obtain ⟨rfl, rfl⟩ := ih1 ht'
      obtain ⟨k1, h1⟩ := hr
      obtain ⟨k2, h2⟩ := hr'
      cases getSchema_indep k1 h1 h2
      obtain ⟨rfl, rfl⟩ := ih2 h'
      exact ⟨rfl, rfl⟩
    | inPlace hb => rw [hn] at hb; simp at hb
  | inPlace hb hc ht _ ih1 ih2 =>
    intro us cx'' h
    cases h with
    | known hn' _ h => rw [hn'] at hb; simp at hb
    | new hn' => rw [hn'] at hb; simp at hb
    | inPlace hb' hc' ht' h' =>
      rw [hc] at hc'; cases hc'
      obtain ⟨rfl, rfl⟩ := ih1 ht'
      obtain ⟨rfl, rfl⟩ := ih2 h'
      exact ⟨rfl, rfl⟩

/-! ## What declarations ask for -/

/-- What is copied for an ask. -/
def askCopied (env : Env) (q : Ty × Bool) : List Nat := if q.2 && q.1.linkable env then [] else q.1.copied env

/-- The asks have at most `n` nodes and copy at most `cs`. -/
def AsksWithin (env : Env) (asks : List (Ty × Bool)) (n : Nat) (cs : List Nat) : Prop :=
  total (fun q => q.1.nodes) asks ≤ n ∧ ∀ q ∈ asks, ∀ j ∈ askCopied env q, j ∈ cs

theorem AsksWithin.nil {n cs} : AsksWithin env [] n cs := ⟨by simp [total], by simp⟩

theorem AsksWithin.append {a b n n' cs cs'} (h : AsksWithin env a n cs) (h' : AsksWithin env b n' cs') :
    AsksWithin env (a ++ b) (n + n') (cs ++ cs') := by
  refine ⟨by rw [total_append]; exact Nat.add_le_add h.1 h'.1, fun q hq j hj => ?_⟩
  rcases List.mem_append.1 hq with hq | hq
  · exact List.mem_append_left _ (h.2 q hq j hj)
  · exact List.mem_append_right _ (h'.2 q hq j hj)

theorem AsksWithin.mono {a n n' cs cs'} (h : AsksWithin env a n cs) (hn : n ≤ n') (hc : ∀ j ∈ cs, j ∈ cs') : AsksWithin env a n' cs' :=
  ⟨Nat.le_trans h.1 hn, fun q hq j hj => hc j (h.2 q hq j hj)⟩

theorem AsksWithin.one (t : Ty) (b : Bool) : AsksWithin env [(t, b)] t.nodes (if b && t.linkable env then [] else t.copied env) :=
  ⟨by simp [total], fun q hq j hj => by rw [List.mem_singleton] at hq; subst hq; exact hj⟩

theorem fits_field (p : ParamsExpr) (f : Field Ty) (i : Bool) :
    AsksWithin env (fieldModelReference p f i).asked f.ty.nodes (f.copied env i) := by
  unfold fieldModelReference Field.copied
  cases he : f.attrs.explicitModelType with
  | none => exact AsksWithin.one f.ty (!i)
  | some w => cases w <;> exact .nil

theorem fits_object (fs : List (Field Ty)) (pred : Field Ty → Bool) :
    AsksWithin env (objectTypeDescription fs pred).asked (nodesFields fs) (fs.flatMap fun f => f.copied env (pred f)) := by
  unfold objectTypeDescription
  simp only [TypeExpr.asked]
  induction fs with
  | nil => exact .nil
  | cons f fs ih =>
    have h := fits_field (env := env) f.attrs.params f (pred f)
    cases hs : f.attrs.skipSerializing <;>
      simp only [List.filter_cons, hs, Bool.not_true, Bool.not_false, Bool.false_eq_true, if_false, if_true, List.map_cons,
        PropExpr.askedList, nodesFields, List.flatMap_cons]
    · exact (h.append ih).mono (by omega) (fun _ h => h)
    · exact ih.mono (by omega) (fun j h => List.mem_append_right _ h)

theorem fits_tuple (fs : List (Field Ty)) (pred : Field Ty → Bool) :
    AsksWithin env (tupleTypeDescription fs pred).asked (nodesFields fs) (fs.flatMap fun f => f.copied env (pred f)) := by
  unfold tupleTypeDescription
  simp only [TypeExpr.asked, RefExpr.asked, ModelExpr.asked]
  induction fs with
  | nil => exact .nil
  | cons f fs ih =>
    have h := fits_field (env := env) f.attrs.params f (pred f)
    simp only [List.map_cons, RefExpr.askedList, nodesFields, List.flatMap_cons]
    exact (h.append ih).mono (by omega) (fun _ h => h)

theorem field_copied_sub (f : Field Ty) (i : Bool) : ∀ j ∈ f.copied env i, j ∈ f.ty.copied env := by
  intro j hj
  unfold Field.copied at hj
  split at hj
  · cases hj
  · split at hj
    · cases hj
    · exact hj

theorem fits_newtype {v : Variant Ty} {r : RefExpr Ty} (hs : v.style = .newType) (h : newtypeVariantReference v = .ok r)
    (int : Bool) : AsksWithin env r.asked (nodesFields v.fields) (v.copied env int) := by
  unfold newtypeVariantReference at h
  unfold Variant.copied
  rw [hs]
  split at h
  · cases h
  · rename_i f fs hf
    cases h
    rw [hf]
    refine (fits_field (env := env) (f.attrs.params.or v.attrs.params) f v.attrs.inline).mono
      (by simp only [nodesFields]; omega) (fun j hj => ?_)
    cases int <;> simp only [Bool.false_eq_true, if_false, if_true, List.flatMap_cons]
    · exact List.mem_append_left _ hj
    · exact List.mem_append_left _ (field_copied_sub _ _ j hj)

theorem fits_untagged {v : Variant Ty} {r : RefExpr Ty} (h : untaggedAlternative v = .ok r) (int : Bool) :
    AsksWithin env r.asked (nodesFields v.fields) (v.copied env int) := by
  unfold untaggedAlternative at h
  split at h
  · rename_i hs
    exact fits_newtype hs h int
  · rename_i hs
    cases h
    rw [fields_copied (by rw [hs]; simp)]
    exact fits_object v.fields (fun f => v.attrs.inline || f.attrs.inline)
  · cases h

theorem fits_adjacent {v : Variant Ty} {r : RefExpr Ty} (h : adjacentAlternative v = .ok r) (int : Bool) :
    AsksWithin env r.asked (nodesFields v.fields) (v.copied env int) := by
  unfold adjacentAlternative at h
  split at h
  · rename_i hs
    exact fits_newtype hs h int
  · rename_i hs
    cases h
    rw [fields_copied (by rw [hs]; simp)]
    exact fits_tuple v.fields (fun f => v.attrs.inline || f.attrs.inline)
  · rename_i hs
    cases h
    rw [fields_copied (by rw [hs]; simp)]
    have e : (fun f : Field Ty => f.attrs.inline || v.attrs.inline) = fun f => v.attrs.inline || f.attrs.inline := by
      funext f; rw [Bool.or_comm]
    rw [e]
    exact fits_tuple v.fields (fun f => v.attrs.inline || f.attrs.inline)
  · cases h

theorem fits_external {v : Variant Ty} {r : RefExpr Ty} (h : externalAlternative v = .ok r) (int : Bool) :
    AsksWithin env r.asked (nodesFields v.fields) (v.copied env int) := by
  unfold externalAlternative at h
  split at h
  · cases h
    exact .nil
  · rename_i hs
    exact fits_newtype hs h int
  · rename_i hs
    cases h
    rw [fields_copied (by rw [hs]; simp)]
    exact fits_tuple v.fields (fun f => v.attrs.inline || f.attrs.inline)
  · rename_i hs
    cases h
    rw [fields_copied (by rw [hs]; simp)]
    exact fits_object v.fields (fun f => v.attrs.inline || f.attrs.inline)

theorem fits_internal {c : Container Ty} {tag : String} {v : Variant Ty} {r : RefExpr Ty}
    (h : internalAlternative c tag v = .ok r) : AsksWithin env r.asked (nodesFields v.fields) (v.copied env true) := by
  unfold internalAlternative at h
  cases hi : internalInner v with
  | error e => rw [hi] at h; cases h
  | ok m =>
    rw [hi] at h
    cases h
    unfold internalInner at hi
    split at hi
    · cases hi
      exact .nil
    · rename_i hs
      split at hi
      · cases hi
      · rename_i f fs hf
        cases hi
        refine (AsksWithin.one f.ty false).mono ?_ ?_
        · simp only [hf, nodesFields]; omega
        · intro j hj
          simp only [Variant.copied, hs, if_true, hf, List.flatMap_cons]
          exact List.mem_append_left _ (by simpa using hj)
    · rename_i hs
      cases hi
      rw [fields_copied (by rw [hs]; simp)]
      exact fits_object v.fields (fun f => v.attrs.inline || f.attrs.inline)
    · cases hi

theorem fits_alternatives {f : Variant Ty → Except MacroPanic (RefExpr Ty)} (int : Bool)
    (hf : ∀ v r, f v = .ok r → AsksWithin env r.asked (nodesFields v.fields) (v.copied env int)) :
    ∀ (vs : List (Variant Ty)) (rs : List (RefExpr Ty)), mapExcept f (serialVariants vs) = .ok rs →
      AsksWithin env (RefExpr.askedList rs) (nodesVariants vs) (vs.flatMap (Variant.copied env int))
  | [], rs, h => by
    simp only [serialVariants, List.filter_nil, mapExcept] at h
    cases h; exact .nil
  | v :: vs, rs, h => by
    unfold serialVariants at h
    cases hs : v.attrs.skipSerializing with
    | true =>
      simp only [List.filter_cons, hs, Bool.not_true, Bool.false_eq_true, if_false] at h
      exact (fits_alternatives int hf vs rs h).mono (by simp only [nodesVariants]; omega)
        (fun j hj => by rw [List.flatMap_cons]; exact List.mem_append_right _ hj)
    | false =>
      simp only [List.filter_cons, hs, Bool.not_false, if_true] at h
      unfold mapExcept at h
      cases hv : f v with
      | error e => rw [hv] at h; cases h
      | ok r =>
        rw [hv] at h
        simp only at h
        cases hr : mapExcept f (vs.filter fun v => !v.attrs.skipSerializing) with
        | error e => rw [hr] at h; cases h
        | ok rs' =>
          rw [hr] at h
          cases h
          rw [List.flatMap_cons]
          exact ((hf _ _ hv).append (fits_alternatives int hf vs rs' hr)).mono (by simp only [nodesVariants]; omega) (fun _ h => h)

theorem asked_repr (vs : List (Variant Ty)) : RefExpr.askedList (vs.filterMap reprAlternative) = [] := by
  induction vs with
  | nil => rfl
  | cons v vs ih =>
    rw [List.filterMap_cons]
    cases hd : v.discriminant with
    | none => simp only [reprAlternative, hd, Option.map_none]; exact ih
    | some d => simp [reprAlternative, hd, RefExpr.askedList, RefExpr.asked, ModelExpr.asked, TypeExpr.asked, ih]

theorem fits_enum {c : Container Ty} {vs : List (Variant Ty)} {e : ModelExpr Ty} (h : serializeEnum c vs = .ok e) :
    AsksWithin env e.asked (nodesVariants vs) (vs.flatMap (Variant.copied env c.internal)) := by
  unfold serializeEnum at h
  split at h
  · cases h
    unfold serializeNewtypeEnum
    split
    · simp only [ModelExpr.asked, asked_repr]; exact .nil
    · exact .nil
  · unfold serializeAdjacentEnum at h
    split at h
    · cases h
    · rename_i rs hr
      cases h
      have := fits_alternatives (env := env) c.internal (fun v r h => fits_adjacent h _) _ _ hr
      simpa [ModelExpr.asked, TypeExpr.asked, PropExpr.askedList, RefExpr.asked] using this
  · unfold serializeExternalEnum at h
    split at h
    · cases h
    · rename_i rs hr
      cases h
      exact fits_alternatives (env := env) c.internal (fun v r h => fits_external h _) _ _ hr
  · unfold serializeUntaggedEnum at h
    split at h
    · cases h
    · rename_i rs hr
      cases h
      exact fits_alternatives (env := env) c.internal (fun v r h => fits_untagged h _) _ _ hr
  · rename_i tag hm ht
    unfold serializeInternalEnum at h
    split at h
    · cases h
    · rename_i rs hr
      cases h
      have hi : c.internal = true := by unfold Container.internal; rw [ht]
      rw [hi]
      exact fits_alternatives (env := env) true (fun v r h => fits_internal h) _ _ hr
  · cases h

theorem fits_body {c : Container Ty} {e : ModelExpr Ty} (h : serializeBody c = .ok e) :
    AsksWithin env e.asked (c.nodes - 1) (c.copied env) := by
  unfold serializeBody at h
  unfold Container.nodes Container.copied
  split at h
  · rename_i vs hd
    rw [hd]
    exact (fits_enum (env := env) h).mono (by simp) (fun _ h => h)
  · rename_i fs hd
    cases h
    rw [hd]
    exact (fits_object fs (fun f => f.attrs.inline)).mono (by simp) (fun _ h => h)
  · rename_i fs hd
    cases h
    rw [hd]
    exact (fits_tuple fs (fun f => f.attrs.inline)).mono (by simp) (fun _ h => h)
  · rename_i fs hd
    rw [hd]
    cases fs with
    | nil => cases h
    | cons f fs =>
      simp only at h
      unfold serializeNewtypeStruct at h
      simp only at h
      cases he : c.attrs.explicitModelType with
      | none =>
        rw [he] at h
        cases h
        refine (AsksWithin.one f.ty false).mono (by simp only [nodesFields]; omega) (fun j hj => ?_)
        simp only [Option.isSome_none, Bool.false_eq_true, if_false, List.flatMap_cons]
        exact List.mem_append_left _ (by simpa using hj)
      | some w =>
        rw [he] at h
        cases w <;> first | cases h | skip
        all_goals exact .nil
  · cases h

theorem fits_members (ts : List Ty) :
    AsksWithin env (RefExpr.askedList (ts.map fun t => RefExpr.mention t false {})) (nodesTypes ts) (copiedMembers env ts) := by
  induction ts with
  | nil => exact .nil
  | cons t ts ih =>
    simp only [List.map_cons, RefExpr.askedList, RefExpr.asked, nodesTypes, copiedMembers]
    exact (AsksWithin.one t true).append ih

/-- What a type asks for, unless it is derived. -/
theorem fits_type {t : Ty} {e : ModelExpr Ty} (hn : ∀ i, t ≠ .named i) (h : schemaExpr env t = some e) :
    AsksWithin env e.asked (t.nodes - 1) (t.copied env) := by
  cases t with
  | named i => exact absurd rfl (hn i)
  | prim p => cases h; cases p <;> exact .nil
  | wrap w t => cases h; exact (AsksWithin.one t false).mono (by simp [Ty.nodes]) (fun j h => by simpa [Ty.copied] using h)
  | option t => cases h; exact (AsksWithin.one t false).mono (by simp [Ty.nodes]) (fun j h => by simpa [Ty.copied] using h)
  | tuple ts => cases h; exact (fits_members ts).mono (by simp [Ty.nodes]) (fun j h => by simpa [Ty.copied] using h)
  | seq k t => cases h; exact (AsksWithin.one t true).mono (by simp [Ty.nodes]) (fun j h => by simpa [Ty.copied] using h)
  | dict k t => cases h; exact (AsksWithin.one t true).mono (by simp [Ty.nodes]) (fun j h => by simpa [Ty.copied] using h)
  | _ => cases h; exact .nil

/-- What a derived type asks for. -/
theorem fits_named {i : Nat} {e : ModelExpr Ty} (h : schemaExpr env (.named i) = some e) :
    AsksWithin env e.asked ((env.decl i).nodes - 1) ((env.decl i).copied env) := by
  simp only [schemaExpr] at h
  cases hb : serializeBody (env.decl i) with
  | error x => rw [hb] at h; cases h
  | ok b => rw [hb] at h; cases h; exact fits_body hb

/-! ## Each derived type once -/

theorem derivedOf_append (a b : List Ty) : derivedOf (a ++ b) = derivedOf a ++ derivedOf b := by
  induction a with
  | nil => rfl
  | cons t a ih => cases t <;> simp [derivedOf, ih]

theorem envNodes_append (a b : List Nat) : env.nodes (a ++ b) = env.nodes a + env.nodes b := by
  induction a with
  | nil => simp [Env.nodes]
  | cons i a ih => simp only [List.cons_append, Env.nodes, ih]; omega

theorem Trace.keys_mono {asks cx ts cx'} (h : Trace env asks cx ts cx') :
    ∀ k ∈ BMap.keys cx.schemas, k ∈ BMap.keys cx'.schemas := by
  induction h with
  | nil => exact fun _ h => h
  | known _ _ _ ih => exact ih
  | new _ _ _ _ _ _ ih1 ih2 => exact fun k hk => ih2 k (BMap.mem_keys_insert.2 (.inr (ih1 k hk)))
  | inPlace _ _ _ _ ih1 ih2 => exact fun k hk => ih2 k (ih1 k hk)

/-- Behind boxes and options there is one derived type, and its code makes the calls. -/
theorem Trace.core : ∀ {t : Ty} {e : ModelExpr Ty} {cx ts cx'}, t.linkable env = true → schemaExpr env t = some e →
    Trace env e.asked cx ts cx' → ∃ i eᵢ chain us, schemaExpr env (.named i) = some eᵢ ∧ Trace env eᵢ.asked cx us cx' ∧
      t :: ts = chain ++ us ∧ derivedOf chain = [i] ∧ chain.length ≤ t.nodes ∧ typeName env t = some (env.decl i).ident ∧
      (t = .named i ∨ Needs env t (.named i)) ∧ us.length ≤ ts.length
  | .named i, e, cx, ts, cx', hl, he, h => by
    refine ⟨i, e, [.named i], ts, he, h, rfl, rfl, by simp [Ty.nodes], ?_, .inl rfl, Nat.le_refl _⟩
    simp only [Ty.linkable] at hl
    simp only [typeName, Container.typeName]
    cases hi : (env.decl i).attrs.inline
    · rfl
    · rw [hi] at hl; cases hl
  | .wrap w t, e, cx, ts, cx', hl, he, h => by
    cases he
    cases h with
    | inPlace hb hc ht hr =>
      cases hr
      obtain ⟨i, eᵢ, chain, us, h1, h2, h3, h4, h5, h6, h7, h8⟩ := Trace.core (t := t) hl hc ht
      refine ⟨i, eᵢ, .wrap w t :: chain, us, h1, h2, ?_, h4, ?_, h6, .inr ?_, ?_⟩
      · rw [List.append_nil, h3]; rfl
      · simp only [List.length_cons, Ty.nodes]; omega
      · have ha : Asks env (.wrap w t) t false := ⟨_, rfl, List.mem_singleton.2 rfl⟩
        rcases h7 with rfl | h7
        · exact .one ha
        · exact .more ha h7
      · simp only [List.length_cons, List.append_nil]; omega
  | .option t, e, cx, ts, cx', hl, he, h => by
    cases he
    cases h with
    | inPlace hb hc ht hr =>
      cases hr
      obtain ⟨i, eᵢ, chain, us, h1, h2, h3, h4, h5, h6, h7, h8⟩ := Trace.core (t := t) hl hc ht
      refine ⟨i, eᵢ, .option t :: chain, us, h1, h2, ?_, h4, ?_, h6, .inr ?_, ?_⟩
      · rw [List.append_nil, h3]; rfl
      · simp only [List.length_cons, Ty.nodes]; omega
      · have ha : Asks env (.option t) t false := ⟨_, rfl, List.mem_singleton.2 rfl⟩
        rcases h7 with rfl | h7
        · exact .one ha
        · exact .more ha h7
      · simp only [List.length_cons, List.append_nil]; omega

/-- What is shown of a trace. -/
structure Once (env : Env) (asks : List (Ty × Bool)) (cx : Components) (ts : List Ty) (cx' : Components) : Prop where
  nodup : (derivedOf ts).Nodup
  fresh : ∀ i ∈ derivedOf ts, (env.decl i).ident ∉ BMap.keys cx.schemas
  names : ∀ k, k ∈ BMap.keys cx'.schemas ↔ k ∈ BMap.keys cx.schemas ∨ ∃ i ∈ derivedOf ts, k = (env.decl i).ident
  asked : ∀ i ∈ derivedOf ts, ∃ q ∈ asks, q.1 = .named i ∨ Needs env q.1 (.named i)
  length : ts.length ≤ total (fun q => q.1.nodes) asks + env.nodes (derivedOf ts)

theorem once_known {asks cx ts cx'} (q : Ty × Bool) (h : Once env asks cx ts cx') : Once env (q :: asks) cx ts cx' where
  nodup := h.nodup
  fresh := h.fresh
  names := h.names
  asked i hi := by
    obtain ⟨q, hq, h⟩ := h.asked i hi
    exact ⟨q, List.mem_cons_of_mem _ hq, h⟩
  length := by have := h.length; simp only [total]; omega

theorem once_inPlace {t : Ty} {b : Bool} {e : ModelExpr Ty} {asks cx ts cx₁ ts' cx'} (hn : ∀ i, t ≠ .named i)
    (hc : schemaExpr env t = some e) (h₁ : Once env e.asked cx ts cx₁) (h₂ : Once env asks cx₁ ts' cx')
    (hf : total (fun q => q.1.nodes) e.asked + 1 ≤ t.nodes) :
    Once env ((t, b) :: asks) cx (t :: (ts ++ ts')) cx' := by
  have hd : derivedOf (t :: (ts ++ ts')) = derivedOf ts ++ derivedOf ts' := by
    cases t with
    | named i => exact absurd rfl (hn i)
    | _ => simp only [derivedOf, derivedOf_append]
  constructor
  · rw [hd, List.nodup_append]
    refine ⟨h₁.nodup, h₂.nodup, ?_⟩
    rintro i hi j hj rfl
    exact h₂.fresh i hj ((h₁.names _).2 (.inr ⟨i, hi, rfl⟩))
  · rw [hd]
    intro i hi
    rcases List.mem_append.1 hi with hi | hi
    · exact h₁.fresh i hi
    · exact fun hk => h₂.fresh i hi ((h₁.names _).2 (.inl hk))
  · intro k
    rw [h₂.names, h₁.names, hd]
    simp only [List.mem_append, or_and_right, exists_or, or_assoc]
  · rw [hd]
    intro i hi
    rcases List.mem_append.1 hi with hi | hi
    · obtain ⟨q, hq, h⟩ := h₁.asked i hi
      have ha : Asks env t q.1 q.2 := ⟨e, hc, hq⟩
      refine ⟨(t, b), List.mem_cons_self, .inr ?_⟩
      rcases h with h | h
      · rw [h] at ha; exact .one ha
      · exact .more ha h
    · obtain ⟨q, hq, h⟩ := h₂.asked i hi
      exact ⟨q, List.mem_cons_of_mem _ hq, h⟩
  · have a := h₁.length
    have b := h₂.length
    rw [hd, envNodes_append]
    simp only [List.length_cons, List.length_append, total]
    omega

theorem once_new {t : Ty} {i : Nat} {e : ModelExpr Ty} {m : Model} {asks cx us cx₁ ts' cx' chain ts}
    (hc : schemaExpr env (.named i) = some e) (hi : t = .named i ∨ Needs env t (.named i)) (hx : Expands env t)
    (hk : (env.decl i).ident ∉ BMap.keys cx.schemas)
    (h₁ : Once env e.asked cx us cx₁)
    (h₂ : Once env asks { cx₁ with schemas := BMap.insert (env.decl i).ident m cx₁.schemas } ts' cx')
    (hf : total (fun q => q.1.nodes) e.asked + 1 ≤ (env.decl i).nodes)
    (ht : t :: ts = chain ++ us) (hch : derivedOf chain = [i]) (hl : chain.length ≤ t.nodes) :
    Once env ((t, true) :: asks) cx (t :: (ts ++ ts')) cx' := by
  have hts : t :: (ts ++ ts') = chain ++ (us ++ ts') := by rw [← List.cons_append, ht, List.append_assoc]
  have hd : derivedOf (t :: (ts ++ ts')) = i :: (derivedOf us ++ derivedOf ts') := by
    rw [hts, derivedOf_append, derivedOf_append, hch]; rfl
  have hxi : Expands env (.named i) := by
    rcases hi with rfl | hi
    · exact hx
    · exact hx.of_needs hi
  have hneeds : ∀ j ∈ derivedOf us, Needs env (.named i) (.named j) := by
    intro j hj
    obtain ⟨q, hq, h⟩ := h₁.asked j hj
    have ha : Asks env (.named i) q.1 q.2 := ⟨e, hc, hq⟩
    rcases h with h | h
    · rw [h] at ha; exact .one ha
    · exact .more ha h
  constructor
  · rw [hd, List.nodup_cons, List.nodup_append]
    refine ⟨fun h => ?_, h₁.nodup, h₂.nodup, ?_⟩
    · rcases List.mem_append.1 h with h | h
      · exact hxi.not_needs_self (hneeds i h)
      · exact h₂.fresh i h (BMap.mem_keys_insert.2 (.inl rfl))
    · rintro j hj j' hj' rfl
      exact h₂.fresh j hj' (BMap.mem_keys_insert.2 (.inr ((h₁.names _).2 (.inr ⟨j, hj, rfl⟩))))
  · rw [hd]
    intro j hj
    rcases List.mem_cons.1 hj with rfl | hj
    · exact hk
    rcases List.mem_append.1 hj with hj | hj
    · exact h₁.fresh j hj
    · exact fun hk => h₂.fresh j hj (BMap.mem_keys_insert.2 (.inr ((h₁.names _).2 (.inl hk))))
  · intro k
    rw [h₂.names, BMap.mem_keys_insert, h₁.names, hd]
    simp only [List.mem_cons, List.mem_append, or_and_right, exists_or, exists_eq_left]
    constructor
    · rintro ((h | h | h) | h)
      · exact .inr (.inl h)
      · exact .inl h
      · exact .inr (.inr (.inl h))
      · exact .inr (.inr (.inr h))
    · rintro (h | h | h | h)
      · exact .inl (.inr (.inl h))
      · exact .inl (.inl h)
      · exact .inl (.inr (.inr h))
      · exact .inr h
  · rw [hd]
    intro j hj
    rcases List.mem_cons.1 hj with rfl | hj
    · exact ⟨(t, true), List.mem_cons_self, hi⟩
    rcases List.mem_append.1 hj with hj | hj
    · refine ⟨(t, true), List.mem_cons_self, .inr ?_⟩
      rcases hi with rfl | hi
      · exact hneeds j hj
      · exact hi.trans (hneeds j hj)
    · obtain ⟨q, hq, h⟩ := h₂.asked j hj
      exact ⟨q, List.mem_cons_of_mem _ hq, h⟩
  · have a := h₁.length
    have b := h₂.length
    rw [hd, hts]
    simp only [List.length_append, total, Env.nodes, envNodes_append]
    omega

theorem Container.nodes_ne_zero (c : Container Ty) : 1 ≤ c.nodes := by
  unfold Container.nodes; split <;> omega

theorem Ty.nodes_ne_zero (t : Ty) : 1 ≤ t.nodes := by
  cases t <;> simp only [Ty.nodes] <;> omega

theorem Needs.reached {roots : List (Ty × Bool)} {t u : Ty} (h : Needs env t u) (ht : Reached env roots t) :
    Reached env roots u := by
  induction h with
  | one ha => exact .step ht ha
  | more ha _ ih => exact ih (.step ht ha)

theorem trace_once {roots : List (Ty × Bool)}
    (noCopies : ∀ i, Reached env roots (.named i) → (env.decl i).copied env = []) :
    ∀ (n : Nat) (asks : List (Ty × Bool)) {cx ts cx'}, ts.length ≤ n → Trace env asks cx ts cx' →
      (∀ q ∈ asks, askCopied env q = []) → (∀ q ∈ asks, Reached env roots q.1) → (∀ q ∈ asks, Expands env q.1) →
      Once env asks cx ts cx' := by
  intro n
  induction n with
  | zero =>
    intro asks
    induction asks with
    | nil =>
      intro cx ts cx' _ h _ _ _
      cases h
      exact ⟨by simp [derivedOf], by simp [derivedOf], by simp [derivedOf], by simp [derivedOf], by simp⟩
    | cons q asks iha =>
      intro cx ts cx' hl h hc hr hx
      cases h with
      | known _ _ h =>
        exact once_known _ (iha hl h (fun q hq => hc q (List.mem_cons_of_mem _ hq)) (fun q hq => hr q (List.mem_cons_of_mem _ hq))
          (fun q hq => hx q (List.mem_cons_of_mem _ hq)))
      | new => simp at hl
      | inPlace => simp at hl
  | succ n ihn =>
    intro asks
    induction asks with
    | nil =>
      intro cx ts cx' _ h _ _ _
      cases h
      exact ⟨by simp [derivedOf], by simp [derivedOf], by simp [derivedOf], by simp [derivedOf], by simp⟩
    | cons q asks iha =>
      intro cx ts cx' hl h hc hr hx
      have hc' := fun q hq => hc q (List.mem_cons_of_mem _ hq)
      have hr' := fun q hq => hr q (List.mem_cons_of_mem _ hq)
      have hx' := fun q hq => hx q (List.mem_cons_of_mem _ hq)
      cases h with
      | known _ _ h => exact once_known _ (iha hl h hc' hr' hx')
      | @new t name e m _ _ ts _ ts' _ hn hk he ht _ h =>
        simp only [List.length_cons, List.length_append] at hl
        have hlk : t.linkable env = true := by rw [← typeName_linkable, hn]; rfl
        obtain ⟨i, eᵢ, chain, us, h1, h2, h3, h4, h5, h6, h7, h8⟩ := Trace.core hlk he ht
        rw [hn] at h6
        cases h6
        have hri : Reached env roots (.named i) := by
          have hrt := hr _ List.mem_cons_self
          rcases h7 with rfl | h7
          · exact hrt
          · exact h7.reached hrt
        have hxi : Expands env (.named i) := by
          have hxt := hx _ List.mem_cons_self
          rcases h7 with rfl | h7
          · exact hxt
          · exact hxt.of_needs h7
        have hf := fits_named h1
        have hp := (env.decl i).nodes_ne_zero
        have hf1 := hf.1
        refine once_new h1 h7 (hx _ List.mem_cons_self) hk (ihn eᵢ.asked (by omega) h2 ?_ ?_ ?_) (iha (by omega) h hc' hr' hx')
          (by omega) h3 h4 h5
        · intro q hq
          have := hf.2 q hq
          rw [noCopies i hri] at this
          exact List.eq_nil_iff_forall_not_mem.2 fun j hj => by cases this j hj
        · exact fun q hq => .step hri ⟨eᵢ, h1, hq⟩
        · exact fun q hq => (expands_iff h1).1 hxi q.1 q.2 hq
      | @inPlace t b e _ _ ts _ ts' _ hb he ht h =>
        simp only [List.length_cons, List.length_append] at hl
        have hcp : t.copied env = [] := by
          have := hc _ List.mem_cons_self
          unfold askCopied at this
          split at this
          · rename_i hh
            simp only [Bool.and_eq_true] at hh
            rw [← typeName_linkable] at hh
            rcases hb with rfl | hb
            · exact absurd hh.1 (by simp)
            · rw [hb] at hh; exact absurd hh.2 (by simp)
          · exact this
        have hnn : ∀ i, t ≠ .named i := by rintro i rfl; cases hcp
        have hf := fits_type hnn he
        have hp := t.nodes_ne_zero
        have hf1 := hf.1
        refine once_inPlace hnn he (ihn e.asked (by omega) ht ?_ ?_ ?_) (iha (by omega) h hc' hr' hx') (by omega)
        · intro q hq
          have := hf.2 q hq
          rw [hcp] at this
          exact List.eq_nil_iff_forall_not_mem.2 fun j hj => by cases this j hj
        · exact fun q hq => .step (hr _ List.mem_cons_self) ⟨e, he, hq⟩
        · exact fun q hq => (expands_iff he).1 (hx _ List.mem_cons_self) q.1 q.2 hq

end
end Verif
