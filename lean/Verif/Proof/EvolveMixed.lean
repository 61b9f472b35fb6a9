import Verif.Spec.EvolveMixed
import Verif.Proof.Evolve
/-!
# Types that grow, some of them written by hand: proofs
-/

namespace Verif

variable {env env' : Env} {s : Serde}

/-- What was written for a value is written for a value of the grown type, if what is written by hand stays so. -/
theorem serBy_grows {hand hand' : Nat → Option (Json → Prop)} (G : env.GrowsBy s hand env' hand') {t j} (h : SerBy env s hand t j) :
    SerBy env' s hand' t j := by
  induction h with
  | byHand hh h =>
    obtain ⟨v', hh', hv⟩ := G.byHand _ _ hh
    exact .byHand hh' (hv _ h)
  | prim h => exact .prim h
  | wrap hw _ ih => exact .wrap hw ih
  | tuple1 _ ih => exact .tuple1 ih
  | none => exact .none
  | some _ ih => exact .some ih
  | tuple hl _ ih => exact .tuple hl ih
  | seq _ ih => exact .seq ih
  | dict _ ih => exact .dict ih
  | unit => exact .unit
  | uuid t => exact .uuid t
  | naiveDateTime t => exact .naiveDateTime t
  | dateTime t => exact .dateTime t
  | naiveDate t => exact .naiveDate t
  | @struct i fs ps hh hd ht hk he _ ih =>
    obtain ⟨fs', hd', hg⟩ := grows_struct (G.decl i hh) hd
    obtain ⟨ps', hc, hk'⟩ := kept_grows hg hk
    have e : structTag (env'.decl i) = structTag (env.decl i) := by
      simp only [structTag, (G.decl i hh).tag, (G.decl i hh).name]
    rw [← hc.entries, ← e]
    exact .struct (G.derived i hh) hd' (by rw [(G.decl i hh).transparent]; exact ht) hk' (contents_explicit hc he) (contents_written hc ih)
  | @tupleStruct i fs ps hh hd ht hk he _ ih =>
    obtain ⟨fs', hd', hg⟩ := grows_fixed (G.decl i hh) hd (.inl (by decide))
    obtain ⟨ps', hc, hk'⟩ := kept_grows (grown_of_pointwise hg) hk
    rw [← hc.contents]
    exact .tupleStruct (G.derived i hh) hd' (by rw [(G.decl i hh).transparent]; exact ht) hk' (contents_explicit hc he) (contents_written hc ih)
  | @transparent i style fs f j hh hd hn ht hf he _ ih =>
    obtain ⟨fs', hd', hg⟩ := grows_fixed (G.decl i hh) hd (.inr ht)
    have hp := serialFields_grows hg
    rw [hf] at hp
    generalize hu : serialFields fs' = us at hp
    cases hp with
    | cons h t =>
      cases t with
      | nil =>
        exact .transparent (G.derived i hh) hd' hn (by rw [(G.decl i hh).transparent]; exact ht) hu (explicit_grows h he) (field_grows h ih)
  | @newtypeStruct i f rest j hh hd hc he _ ih =>
    obtain ⟨fs', hd', hg⟩ := grows_fixed (G.decl i hh) hd (.inl (by decide))
    cases hg with
    | cons h t =>
      exact .newtypeStruct (G.derived i hh) hd' (by rw [(G.decl i hh).explicit]; exact hc) (explicit_grows h he) (field_grows h ih)
  | @explicitNewtype i fs t j hh hd hc he =>
    obtain ⟨fs', hd', hg⟩ := grows_fixed (G.decl i hh) hd (.inl (by decide))
    exact .explicitNewtype (G.derived i hh) hd' (by rw [(G.decl i hh).explicit]; exact hc) (by rw [(G.decl i hh).nullable]; exact he)
  | @repr i vs v n hh hd hr hu hv =>
    obtain ⟨vs', hd', hg⟩ := grows_enum (G.decl i hh) hd
    obtain ⟨v', hv', _⟩ := written_grows hg hv
    exact .repr (G.derived i hh) hd' hr (G.repr i vs' hh hr hd') hv'
  | @unitVariant i vs v j hh hd hr hv hu hj =>
    obtain ⟨vs', hd', hg⟩ := grows_enum (G.decl i hh) hd
    obtain ⟨v', hv', h⟩ := written_grows hg hv
    exact .unitVariant (G.derived i hh) hd' hr hv' (writtenAsUnit_grows h hu) (by rw [(G.decl i hh).tag, h.key]; exact hj)
  | @newtypeVariant i vs v f rest c j hh hd hr hv hst hf hk he _ hj ih =>
    obtain ⟨vs', hd', hg⟩ := grows_enum (G.decl i hh) hd
    obtain ⟨v', hv', h⟩ := written_grows hg hv
    have hp := h.pointwise (by rw [hst]; decide)
    rw [hf] at hp
    generalize hu : v'.fields = us at hp
    cases hp with
    | cons hf' t =>
      exact .newtypeVariant (G.derived i hh) hd' hr hv' (by rw [h.style]; exact hst) hu (by rw [hf'.skip]; exact hk)
        (explicit_grows hf' he) (field_grows hf' ih) (by rw [(G.decl i hh).tag, h.key]; exact hj)
  | @tupleVariant i vs v ps j hh hd hr hv hst hk he _ hj ih =>
    obtain ⟨vs', hd', hg⟩ := grows_enum (G.decl i hh) hd
    obtain ⟨v', hv', h⟩ := written_grows hg hv
    obtain ⟨ps', hc, hk'⟩ := kept_grows h.grown hk
    exact .tupleVariant (G.derived i hh) hd' hr hv' (by rw [h.style]; exact hst) hk' (contents_explicit hc he) (contents_written hc ih)
      (by rw [(G.decl i hh).tag, h.key, hc.contents]; exact hj)
  | @structVariant i vs v ps j hh hd hr hv hst hk he _ hj ih =>
    obtain ⟨vs', hd', hg⟩ := grows_enum (G.decl i hh) hd
    obtain ⟨v', hv', h⟩ := written_grows hg hv
    obtain ⟨ps', hc, hk'⟩ := kept_grows h.grown hk
    exact .structVariant (G.derived i hh) hd' hr hv' (by rw [h.style]; exact hst) hk' (contents_explicit hc he) (contents_written hc ih)
      (by rw [(G.decl i hh).tag, h.key, hc.entries]; exact hj)

end Verif
