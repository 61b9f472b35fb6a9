import Verif.Spec.Evolve
import Verif.Proof.Conform
/-!
# Types that grow: proofs
-/

namespace Verif

/-- Contents written for fields, and the same contents for the grown fields. -/
abbrev SameContents (ps ps' : List (Field Ty × Json)) : Prop :=
  Pointwise (fun p p' => p.1.Grows p'.1 ∧ p'.2 = p.2) ps ps'

theorem grown_of_pointwise {fs fs' : List (Field Ty)} (h : Pointwise Field.Grows fs fs') : Grown fs fs' := by
  induction h with
  | nil => exact .nil
  | cons h _ ih => exact .same h ih

theorem kept_grows {fs fs' : List (Field Ty)} (h : Grown fs fs') : ∀ {ps : List (Field Ty × Json)},
    Kept fs (ps.map Prod.fst) → ∃ ps', SameContents ps ps' ∧ Kept fs' (ps'.map Prod.fst) := by
  induction h with
  | nil =>
    intro ps hk
    cases ps with
    | nil => exact ⟨[], .nil, .nil⟩
    | cons p ps => cases hk
  | @same f f' fs fs' h t ih =>
    intro ps hk
    generalize hg : ps.map Prod.fst = gs at hk
    cases hk with
    | keep hs hk =>
      cases ps with
      | nil => cases hg
      | cons p ps =>
        simp only [List.map_cons, List.cons.injEq] at hg
        obtain ⟨rfl, rfl⟩ := hg
        obtain ⟨ps', h1, h2⟩ := ih hk
        exact ⟨(f', p.2) :: ps', .cons ⟨h, rfl⟩ h1, .keep (by rw [h.skip]; exact hs) h2⟩
    | drop hs hk =>
      subst hg
      obtain ⟨ps', h1, h2⟩ := ih hk
      exact ⟨ps', h1, .drop (hs.imp (fun x => by rw [h.skip]; exact x) h.optional) h2⟩
  | added h t ih =>
    intro ps hk
    obtain ⟨ps', h1, h2⟩ := ih hk
    exact ⟨ps', h1, .drop h.symm h2⟩

theorem SameContents.entries {ps ps'} (h : SameContents ps ps') : fieldEntries ps' = fieldEntries ps := by
  induction h with
  | nil => rfl
  | @cons p p' ps ps' h _ ih =>
    simp only [fieldEntries, List.flatMap_cons] at ih ⊢
    rw [ih, h.1.flatten, h.1.key, h.2]

theorem SameContents.contents {ps ps'} (h : SameContents ps ps') : ps'.map Prod.snd = ps.map Prod.snd := by
  induction h with
  | nil => rfl
  | cons h _ ih => simp [ih, h.2]

theorem SameContents.back {ps ps'} (h : SameContents ps ps') : ∀ p' ∈ ps', ∃ p ∈ ps, p.1.Grows p'.1 ∧ p'.2 = p.2 := by
  induction h with
  | nil => simp
  | cons h _ ih =>
    intro p' hp
    rcases List.mem_cons.1 hp with rfl | hp
    · exact ⟨_, List.mem_cons_self, h⟩
    · obtain ⟨p, a, b⟩ := ih p' hp
      exact ⟨p, List.mem_cons_of_mem _ a, b⟩

variable {env env' : Env} {s : Serde}

theorem contents_explicit {ps ps' : List (Field Ty × Json)} (h : SameContents ps ps')
    (he : ∀ p ∈ ps, ∀ t, p.1.attrs.explicitModelType = .some t → ExplicitJson t p.1.attrs.nullable p.2) :
    ∀ p ∈ ps', ∀ t, p.1.attrs.explicitModelType = .some t → ExplicitJson t p.1.attrs.nullable p.2 := by
  intro p' hp t ht
  obtain ⟨p, hm, hg, hj⟩ := h.back p' hp
  rw [hg.nullable, hj]
  exact he p hm t (by rw [← hg.explicit]; exact ht)

theorem contents_written {S : Ty → Json → Prop} {ps ps' : List (Field Ty × Json)} (h : SameContents ps ps')
    (hs : ∀ p ∈ ps, p.1.attrs.explicitModelType = .none → S p.1.ty p.2) :
    ∀ p ∈ ps', p.1.attrs.explicitModelType = .none → S p.1.ty p.2 := by
  intro p' hp hn
  obtain ⟨p, hm, hg, hj⟩ := h.back p' hp
  rw [hg.ty, hj]
  exact hs p hm (by rw [← hg.explicit]; exact hn)

theorem Variant.Grows.grown {v v' : Variant Ty} (h : v.Grows v') : Grown v.fields v'.fields := by
  have := h.fields
  split at this
  · exact this
  · exact grown_of_pointwise this

theorem Variant.Grows.pointwise {v v' : Variant Ty} (h : v.Grows v') (hn : v.style ≠ .struct) :
    Pointwise Field.Grows v.fields v'.fields := by
  have := h.fields
  rw [if_neg hn] at this
  exact this

theorem written_grows {vs vs' : List (Variant Ty)} (h : ∀ v ∈ vs, ∃ v' ∈ vs', v.Grows v') {v}
    (hv : v ∈ writtenVariants vs) : ∃ v' ∈ writtenVariants vs', v.Grows v' := by
  obtain ⟨hm, hw⟩ := List.mem_filter.1 hv
  obtain ⟨v', hm', hg⟩ := h v hm
  exact ⟨v', List.mem_filter.2 ⟨hm', by rw [hg.skip]; exact hw⟩, hg⟩

theorem writtenAsUnit_grows {v v' : Variant Ty} (h : v.Grows v') (hu : WrittenAsUnit v) : WrittenAsUnit v' := by
  rcases hu with hu | ⟨hst, f, rest, hf, hk⟩
  · exact .inl (by rw [h.style]; exact hu)
  · refine .inr ⟨by rw [h.style]; exact hst, ?_⟩
    have hp := h.pointwise (by rw [hst]; decide)
    rw [hf] at hp
    generalize v'.fields = fs' at hp
    cases hp with
    | cons h t => exact ⟨_, _, rfl, by rw [h.skip]; exact hk⟩

theorem serialFields_grows {fs fs' : List (Field Ty)} (h : Pointwise Field.Grows fs fs') :
    Pointwise Field.Grows (serialFields fs) (serialFields fs') := by
  induction h with
  | nil => exact .nil
  | cons h _ ih =>
    simp only [serialFields, List.filter_cons, h.skip] at ih ⊢
    split
    · exact .cons h ih
    · exact ih

/-- The data of the grown type, by the data of the old one. -/
theorem grows_struct {i} (G : (env.decl i).Grows (env'.decl i)) {fs} (hd : (env.decl i).data = .struct .struct fs) :
    ∃ fs', (env'.decl i).data = .struct .struct fs' ∧ Grown fs fs' := by
  have h := G.data
  rw [hd] at h
  generalize (env'.decl i).data = d at h
  cases h with
  | struct _ h => exact ⟨_, rfl, h⟩
  | fixed h => exact ⟨_, rfl, grown_of_pointwise h⟩

theorem grows_fixed {i} (G : (env.decl i).Grows (env'.decl i)) {style fs} (hd : (env.decl i).data = .struct style fs)
    (hs : style ≠ .struct ∨ (env.decl i).attrs.transparent = true) :
    ∃ fs', (env'.decl i).data = .struct style fs' ∧ Pointwise Field.Grows fs fs' := by
  have h := G.data
  rw [hd] at h
  generalize (env'.decl i).data = d at h
  cases h with
  | struct ht h => rcases hs with hs | hs
                   · exact absurd rfl hs
                   · rw [hs] at ht; cases ht
  | fixed h => exact ⟨_, rfl, h⟩

theorem grows_enum {i} (G : (env.decl i).Grows (env'.decl i)) {vs} (hd : (env.decl i).data = .enum vs) :
    ∃ vs', (env'.decl i).data = .enum vs' ∧ ∀ v ∈ vs, ∃ v' ∈ vs', v.Grows v' := by
  have h := G.data
  rw [hd] at h
  generalize (env'.decl i).data = d at h
  cases h with
  | enum h => exact ⟨_, rfl, h⟩

theorem explicit_grows {f f' : Field Ty} {j} (h : f.Grows f')
    (he : ∀ t, f.attrs.explicitModelType = .some t → ExplicitJson t f.attrs.nullable j) :
    ∀ t, f'.attrs.explicitModelType = .some t → ExplicitJson t f'.attrs.nullable j := by
  intro t ht
  rw [h.nullable]
  exact he t (by rw [← h.explicit]; exact ht)

theorem field_grows {S : Ty → Json → Prop} {f f' : Field Ty} {j} (h : f.Grows f')
    (he : f.attrs.explicitModelType = .none → S f.ty j) :
    f'.attrs.explicitModelType = .none → S f'.ty j := by
  intro ht
  rw [h.ty]
  exact he (by rw [← h.explicit]; exact ht)

/-- What was written for a value is written for a value of the grown type. -/
theorem ser_grows (G : env.Grows s env') {t j} (h : Ser env s t j) : Ser env' s t j := by
  induction h with
  | prim h => exact .prim h
  | wrap hw _ ih => exact .wrap hw ih
  | tuple1 _ ih => exact .tuple1 ih
  | none => exact .none
  | some _ ih => exact .some ih
  | tuple hl _ ih => exact .tuple hl ih
  | seq _ ih => exact .seq ih
  | dict _ ih => exact .dict ih
  | unit => exact .unit
  | uuid t => exact .uuid t
  | naiveDateTime t => exact .naiveDateTime t
  | dateTime t => exact .dateTime t
  | naiveDate t => exact .naiveDate t
  | @struct i fs ps hd ht hk he _ ih =>
    obtain ⟨fs', hd', hg⟩ := grows_struct (G.decl i) hd
    obtain ⟨ps', hc, hk'⟩ := kept_grows hg hk
    have e : structTag (env'.decl i) = structTag (env.decl i) := by
      simp only [structTag, (G.decl i).tag, (G.decl i).name]
    rw [← hc.entries, ← e]
    exact .struct hd' (by rw [(G.decl i).transparent]; exact ht) hk' (contents_explicit hc he) (contents_written hc ih)
  | @tupleStruct i fs ps hd ht hk he _ ih =>
    obtain ⟨fs', hd', hg⟩ := grows_fixed (G.decl i) hd (.inl (by decide))
    obtain ⟨ps', hc, hk'⟩ := kept_grows (grown_of_pointwise hg) hk
    rw [← hc.contents]
    exact .tupleStruct hd' (by rw [(G.decl i).transparent]; exact ht) hk' (contents_explicit hc he) (contents_written hc ih)
  | @transparent i style fs f j hd hn ht hf he _ ih =>
    obtain ⟨fs', hd', hg⟩ := grows_fixed (G.decl i) hd (.inr ht)
    have hp := serialFields_grows hg
    rw [hf] at hp
    generalize hu : serialFields fs' = us at hp
    cases hp with
    | cons h t =>
      cases t with
      | nil =>
        exact .transparent hd' hn (by rw [(G.decl i).transparent]; exact ht) hu (explicit_grows h he) (field_grows h ih)
  | @newtypeStruct i f rest j hd hc he _ ih =>
    obtain ⟨fs', hd', hg⟩ := grows_fixed (G.decl i) hd (.inl (by decide))
    cases hg with
    | cons h t =>
      exact .newtypeStruct hd' (by rw [(G.decl i).explicit]; exact hc) (explicit_grows h he) (field_grows h ih)
  | @explicitNewtype i fs t j hd hc he =>
    obtain ⟨fs', hd', hg⟩ := grows_fixed (G.decl i) hd (.inl (by decide))
    exact .explicitNewtype hd' (by rw [(G.decl i).explicit]; exact hc) (by rw [(G.decl i).nullable]; exact he)
  | @repr i vs v n hd hr hu hv =>
    obtain ⟨vs', hd', hg⟩ := grows_enum (G.decl i) hd
    obtain ⟨v', hv', _⟩ := written_grows hg hv
    exact .repr hd' hr (G.repr i vs' hr hd') hv'
  | @unitVariant i vs v j hd hr hv hu hj =>
    obtain ⟨vs', hd', hg⟩ := grows_enum (G.decl i) hd
    obtain ⟨v', hv', h⟩ := written_grows hg hv
    exact .unitVariant hd' hr hv' (writtenAsUnit_grows h hu) (by rw [(G.decl i).tag, h.key]; exact hj)
  | @newtypeVariant i vs v f rest c j hd hr hv hst hf hk he _ hj ih =>
    obtain ⟨vs', hd', hg⟩ := grows_enum (G.decl i) hd
    obtain ⟨v', hv', h⟩ := written_grows hg hv
    have hp := h.pointwise (by rw [hst]; decide)
    rw [hf] at hp
    generalize hu : v'.fields = us at hp
    cases hp with
    | cons hf' t =>
      exact .newtypeVariant hd' hr hv' (by rw [h.style]; exact hst) hu (by rw [hf'.skip]; exact hk)
        (explicit_grows hf' he) (field_grows hf' ih) (by rw [(G.decl i).tag, h.key]; exact hj)
  | @tupleVariant i vs v ps j hd hr hv hst hk he _ hj ih =>
    obtain ⟨vs', hd', hg⟩ := grows_enum (G.decl i) hd
    obtain ⟨v', hv', h⟩ := written_grows hg hv
    obtain ⟨ps', hc, hk'⟩ := kept_grows h.grown hk
    exact .tupleVariant hd' hr hv' (by rw [h.style]; exact hst) hk' (contents_explicit hc he) (contents_written hc ih)
      (by rw [(G.decl i).tag, h.key, hc.contents]; exact hj)
  | @structVariant i vs v ps j hd hr hv hst hk he _ hj ih =>
    obtain ⟨vs', hd', hg⟩ := grows_enum (G.decl i) hd
    obtain ⟨v', hv', h⟩ := written_grows hg hv
    obtain ⟨ps', hc, hk'⟩ := kept_grows h.grown hk
    exact .structVariant hd' hr hv' (by rw [h.style]; exact hst) hk' (contents_explicit hc he) (contents_written hc ih)
      (by rw [(G.decl i).tag, h.key, hc.entries]; exact hj)

end Verif
