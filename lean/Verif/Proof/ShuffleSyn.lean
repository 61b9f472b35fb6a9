import Verif.Proof.ShuffleGen
import Verif.Proof.Skip
/-!
# Declaring fields and variants in another order: the macro
-/

namespace Verif

variable {o : Oracle}

theorem mapPanic_insert {α β : Type} {f : α → Option β} {b r post} (hb : f b = some r) : ∀ {pre : List α} {rs},
    mapPanic f (pre ++ post) = some rs → ∃ p q, rs = p ++ q ∧ mapPanic f (pre ++ b :: post) = some (p ++ r :: q)
  | [], rs, h => ⟨[], rs, rfl, by
      rw [List.nil_append] at h
      simp only [List.nil_append, mapPanic, hb, h]⟩
  | a :: pre, rs, h => by
    simp only [List.cons_append, mapPanic] at h ⊢
    cases ha : f a with
    | none => rw [ha] at h; cases h
    | some x =>
      rw [ha] at h
      cases ht : mapPanic f (pre ++ post) with
      | none => simp only [ht] at h; cases h
      | some xs =>
        simp only [ht] at h
        cases h
        obtain ⟨p, q, rfl, hm⟩ := mapPanic_insert hb ht
        exact ⟨x :: p, q, rfl, by simp only [hm, List.cons_append]⟩

theorem mapPanic_shuffled {α β : Type} {R : α → α → Prop} {S : β → β → Prop} {f : α → Option β}
    (hf : ∀ a a' b, R a a' → f a = some b → ∃ b', f a' = some b' ∧ S b b') {as as'} (h : UpToOrder R as as') {bs}
    (he : mapPanic f as = some bs) : ∃ bs', mapPanic f as' = some bs' ∧ UpToOrder S bs bs' := by
  induction h generalizing bs with
  | nil => cases he; exact ⟨[], rfl, .nil⟩
  | @cons a b as bs pre post h e t ih =>
    subst e
    simp only [mapPanic] at he
    cases ha : f a with
    | none => rw [ha] at he; cases he
    | some x =>
      rw [ha] at he
      cases ht : mapPanic f as with
      | none => simp only [ht] at he; cases he
      | some xs =>
        simp only [ht] at he
        cases he
        obtain ⟨es', hes, hr⟩ := ih ht
        obtain ⟨x', hx, hrx⟩ := hf a b x h ha
        obtain ⟨p, q, rfl, hm⟩ := mapPanic_insert hx hes
        exact ⟨_, hm, .cons hrx rfl hr⟩

theorem mapPanic_perm {α β : Type} {f : α → Option β} {as as'} (h : as.Perm as') {bs} (he : mapPanic f as = some bs) :
    ∃ bs', mapPanic f as' = some bs' ∧ bs.Perm bs' := by
  obtain ⟨bs', h1, h2⟩ := mapPanic_shuffled (R := Eq) (S := Eq) (f := f) (fun a a' b h hb => ⟨b, h ▸ hb, rfl⟩)
    (upToOrder_perm (fun _ => rfl) h) he
  exact ⟨bs', h1, h2.perm⟩

theorem fieldsFromAst_named {i} {fs : List (SynField Ty)} (hn : ∀ f ∈ fs, f.ident ≠ none) : (fieldsFromAst o i fs).1 =
    fs.map fun f => ⟨(fieldAttrsFromAst o 0 f.ident f.attrs).1, f.ty⟩ := by
  induction fs generalizing i with
  | nil => rfl
  | cons f fs ih =>
    simp only [fieldsFromAst, List.map_cons, ih fun g hg => hn g (List.mem_cons_of_mem _ hg)]
    have := hn f List.mem_cons_self
    cases hi : f.ident with
    | none => exact absurd hi this
    | some x => rfl

theorem structFromAst_shuffled {fs fs' : SynFields Ty} (h : fs.Shuffled fs') (he : (structFromAst o fs).2 = []) :
    (structFromAst o fs').2 = [] ∧ (structFromAst o fs').1.1 = (structFromAst o fs).1.1 ∧
    ((structFromAst o fs').1.2 = (structFromAst o fs).1.2 ∨
      (structFromAst o fs).1.1 = .struct ∧ (structFromAst o fs).1.2.Perm (structFromAst o fs').1.2) := by
  cases h with
  | same => exact ⟨he, rfl, .inl rfl⟩
  | @named fs fs' hn hp =>
    have hn' : ∀ f ∈ fs', f.ident ≠ none := fun f hf => hn f (hp.mem_iff.2 hf)
    simp only [structFromAst] at he ⊢
    refine ⟨?_, trivial, .inr ⟨trivial, ?_⟩⟩
    · rw [fieldsFromAst_errs] at he ⊢
      have := hp.flatMap_right (fieldErrors o)
      rw [he] at this
      exact List.nil_perm.1 this
    · rw [fieldsFromAst_named hn, fieldsFromAst_named hn']
      exact hp.map _

/-- A variant that was parsed from the same variant up to the order of fields. -/
theorem variantFromAst_shuffled {v v' : SynVariant Ty} (h : v.Shuffled v') (he : (variantFromAst o v).2 = []) :
    (variantFromAst o v').2 = [] ∧ (variantFromAst o v).1.Shuffled (variantFromAst o v').1 := by
  obtain ⟨h⟩ := h
  simp only [variantFromAst] at he ⊢
  obtain ⟨e1, e2⟩ := List.append_eq_nil_iff.1 he
  obtain ⟨k1, k2, k3⟩ := structFromAst_shuffled h e2
  refine ⟨by rw [e1, k1]; rfl, ?_⟩
  rw [k2]
  rcases k3 with k3 | ⟨k3, k4⟩
  · rw [k3]; exact .same
  · exact .fields (v := ⟨v.ident, _, _, _, _⟩) k3 k4

theorem variantsFromAst_shuffled {vs vs' : List (SynVariant Ty)} (h : UpToOrder SynVariant.Shuffled vs vs') 
    (he : (variantsFromAst o vs).2 = []) : (variantsFromAst o vs').2 = [] ∧
      UpToOrder Variant.Shuffled (variantsFromAst o vs).1 (variantsFromAst o vs').1 := by
  have hl : ∀ vs : List (SynVariant Ty), (variantsFromAst o vs).1 = vs.map fun v => (variantFromAst o v).1 := by
    intro vs
    induction vs with
    | nil => rfl
    | cons v vs ih => simp only [variantsFromAst, List.map_cons, ih]
  have hr : ∀ vs : List (SynVariant Ty), (variantsFromAst o vs).2 = vs.flatMap fun v => (variantFromAst o v).2 := by
    intro vs
    induction vs with
    | nil => rfl
    | cons v vs ih => simp only [variantsFromAst, List.flatMap_cons, ih]
  rw [hr, List.flatMap_eq_nil_iff] at he
  rw [hr, List.flatMap_eq_nil_iff, hl, hl]
  constructor
  · intro v' hv'
    obtain ⟨v, hv, hs⟩ := h.mem_right hv'
    exact (variantFromAst_shuffled hs (he v hv)).1
  · refine (h.imp fun a ha b _ hs => ?_).map (S := Variant.Shuffled) (f := fun v => (variantFromAst o v).1) fun a b (hs :
      (variantFromAst o a).1.Shuffled (variantFromAst o b).1) => hs
    exact (variantFromAst_shuffled hs (he a ha)).2

theorem rename_shuffled {u r} {v v' : Variant Ty} {w} (h : v.Shuffled v') (hw : Variant.rename u r v = some w) :
    ∃ w', Variant.rename u r v' = some w' ∧ w.Shuffled w' := by
  cases h with
  | same => exact ⟨w, hw, .same⟩
  | @fields fs hs hp =>
    unfold Variant.rename at hw ⊢
    dsimp only
    cases hn : v.attrs.name.renameAsVariant u r with
    | none => rw [hn] at hw; cases hw
    | some n =>
      rw [hn] at hw
      dsimp only at hw ⊢
      cases hm : mapPanic (Field.rename v.attrs.renameRule) v.fields with
      | none => rw [hm] at hw; cases hw
      | some gs =>
        rw [hm] at hw
        cases hw
        obtain ⟨gs', h1, h2⟩ := mapPanic_perm hp hm
        rw [h1]
        exact ⟨_, rfl, .fields (v := ⟨v.ident, _, v.style, gs, v.discriminant⟩) hs h2⟩

theorem containerFromAst_shuffled {item item' : DeriveInput Ty} (h : item.Shuffled item') {c : Container Ty}
    (hc : containerFromAst o item = some (some c, [])) :
    ∃ c', containerFromAst o item' = some (some c', []) ∧ c.Shuffled c' := by
  obtain ⟨ident, attrs, data⟩ := item
  obtain ⟨h⟩ := h
  dsimp only at h ⊢
  cases h with
  | @struct fs fs' hf =>
    have ha : containerAttrsFromAst o ⟨ident, attrs, .struct fs'⟩ = containerAttrsFromAst o ⟨ident, attrs, .struct fs⟩ := by
      cases hf <;> rfl
    unfold containerFromAst at hc ⊢
    rw [ha]
    generalize containerAttrsFromAst o ⟨ident, attrs, SynData.struct fs⟩ = p at hc ⊢
    obtain ⟨a, errs⟩ := p
    dsimp only at hc ⊢
    have hall : (structFromAst o fs).2 = [] := by
      split at hc
      · cases hc
      · simp only [Option.some.injEq, Prod.mk.injEq] at hc
        exact (List.append_eq_nil_iff.1 hc.2).2
    obtain ⟨k1, k2, k3⟩ := structFromAst_shuffled hf hall
    generalize structFromAst o fs = q at *
    generalize structFromAst o fs' = q' at *
    obtain ⟨⟨st, gs⟩, es⟩ := q
    obtain ⟨⟨st', gs'⟩, es'⟩ := q'
    dsimp only at *
    subst k1 k2 hall
    have hp : gs.Perm gs' := by
      rcases k3 with rfl | ⟨_, h⟩
      · exact .refl _
      · exact h
    cases hm : mapPanic (Field.rename a.renameRule) gs with
    | none => rw [hm] at hc; cases hc
    | some ws =>
      rw [hm] at hc
      simp only [Option.some.injEq, Prod.mk.injEq] at hc
      obtain ⟨rfl, he⟩ := hc
      obtain ⟨ws', h1, h2⟩ := mapPanic_perm hp hm
      have hflat : (gs'.any fun f => f.attrs.flatten) = gs.any fun f => f.attrs.flatten := by
        rw [Bool.eq_iff_iff, List.any_eq_true, List.any_eq_true]
        simp only [hp.mem_iff]
      rw [h1]
      dsimp only
      rw [he, hflat]
      refine ⟨_, rfl, .mk (c := ⟨ident, _, .struct _ ws⟩) ?_⟩
      rcases k3 with rfl | ⟨rfl, _⟩
      · rw [hm] at h1; cases h1; exact .same
      · exact .fields h2
  | @enum vs vs' hv =>
    have hisU : ∀ v v' : SynVariant Ty, v.Shuffled v' → v'.fields.isUnit = v.fields.isUnit ∧ v'.discriminant = v.discriminant := by
      rintro v _ ⟨h⟩
      refine ⟨?_, rfl⟩
      dsimp only
      generalize v.fields = fs at h
      cases h <;> rfl
    have hu : (vs'.all fun v => v.fields.isUnit) = (vs.all fun v => v.fields.isUnit) := by
      rw [Bool.eq_iff_iff, List.all_eq_true, List.all_eq_true]
      constructor
      · intro h v hv1
        obtain ⟨w, hw, hs⟩ := hv.mem_left hv1
        rw [← (hisU _ _ hs).1]; exact h w hw
      · intro h v hv1
        obtain ⟨w, hw, hs⟩ := hv.mem_right hv1
        rw [(hisU _ _ hs).1]; exact h w hw
    have ha : containerAttrsFromAst o ⟨ident, attrs, .enum vs'⟩ = containerAttrsFromAst o ⟨ident, attrs, .enum vs⟩ := by
      have hm : ∀ t, decideModelType (SynData.enum vs') t = decideModelType (SynData.enum vs) t := by
        intro t; unfold decideModelType; simp only [hu]
      simp only [containerAttrsFromAst, hm]
      rfl
    unfold containerFromAst at hc ⊢
    rw [ha]
    generalize containerAttrsFromAst o ⟨ident, attrs, SynData.enum vs⟩ = p at hc ⊢
    obtain ⟨a, errs⟩ := p
    simp only at hc ⊢
    cases hd : consistentDiscriminants vs with
    | false => rw [hd] at hc; cases hc
    | true =>
      have hd' : consistentDiscriminants vs' = true := by
        rw [consistentAll_iff] at hd ⊢
        intro v hv1 w hw1
        obtain ⟨v0, hv0, e1⟩ := hv.mem_right hv1
        obtain ⟨w0, hw0, e2⟩ := hv.mem_right hw1
        rw [(hisU _ _ e1).2, (hisU _ _ e2).2]
        exact hd v0 hv0 w0 hw0
      rw [hd] at hc
      rw [hd']
      simp only [if_true] at hc ⊢
      cases hm : mapPanic (Variant.rename o.isUpper a.renameRule) (variantsFromAst o vs).1 with
      | none => rw [hm] at hc; cases hc
      | some ws =>
        rw [hm] at hc
        simp only [Option.some.injEq, Prod.mk.injEq] at hc
        obtain ⟨rfl, he⟩ := hc
        obtain ⟨e1, e2⟩ := List.append_eq_nil_iff.1 he
        obtain ⟨k1, k2⟩ := variantsFromAst_shuffled hv e2
        obtain ⟨ws', k3, k4⟩ := mapPanic_shuffled (R := Variant.Shuffled) (S := Variant.Shuffled)
          (f := Variant.rename o.isUpper a.renameRule) (fun _ _ _ h hw => rename_shuffled h hw) k2 hm
        have hflat : ((variantsFromAst o vs').1.any fun v => v.fields.any fun f => f.attrs.flatten) =
            (variantsFromAst o vs).1.any fun v => v.fields.any fun f => f.attrs.flatten := by
          rw [Bool.eq_iff_iff, List.any_eq_true, List.any_eq_true]
          have hf : ∀ v v' : Variant Ty, v.Shuffled v' → (v'.fields.any fun f => f.attrs.flatten) = v.fields.any fun f => f.attrs.flatten := by
            intro v v' h
            have := h.attrs.2.2.2.1
            rw [Bool.eq_iff_iff, List.any_eq_true, List.any_eq_true]
            simp only [this.mem_iff]
          constructor
          · rintro ⟨v, hv, h⟩
            obtain ⟨w, hw, hs⟩ := k2.mem_right hv
            exact ⟨w, hw, by rw [← hf _ _ hs]; exact h⟩
          · rintro ⟨v, hv, h⟩
            obtain ⟨w, hw, hs⟩ := k2.mem_left hv
            exact ⟨w, hw, by rw [hf _ _ hs]; exact h⟩
        rw [k3]
        dsimp only
        rw [hflat, e1, k1]
        exact ⟨_, rfl, .mk (c := ⟨ident, _, .enum ws⟩) (.variants k4)⟩

theorem derive_shuffled {item item' : DeriveInput Ty} (h : item.Shuffled item') {c : Container Ty} {b} (hd : derive o item = .code c b)
    (ho : Orderly c) : ∃ c' b', derive o item' = .code c' b' ∧ c.Shuffled c' ∧ ModelTurn b b' := by
  unfold derive at hd ⊢
  have hc : containerFromAst o item = some (some c, []) ∧ serializeBody c = .ok b := by
    split at hd
    · cases hd
    · split at hd <;> cases hd
    · rename_i c₀ errs heq
      split at hd
      · rename_i hempty
        rw [List.isEmpty_iff] at hempty
        subst hempty
        split at hd
        · cases hd
        · rename_i body hb
          cases hd
          exact ⟨heq, hb⟩
      · cases hd
  obtain ⟨c', hc', hs⟩ := containerFromAst_shuffled h hc.1
  obtain ⟨b', hb', ht⟩ := serializeBody_turn ho hs hc.2
  rw [hc']
  simp only [List.isEmpty_nil, if_true, hb']
  exact ⟨c', b', rfl, hs, ht⟩

end Verif
