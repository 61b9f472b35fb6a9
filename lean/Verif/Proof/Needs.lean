import Verif.Spec.Generic
import Verif.Proof.Bound
/-!
# What the generated impl needs
-/

namespace Verif

theorem mem_opgBounds {ps : List WherePred} {t : SynType} : (Trait.opgModel, t) ∈ opgBounds ps ↔ WherePred.bound t ∈ ps := by
  unfold opgBounds
  rw [List.mem_filterMap]
  constructor
  · rintro ⟨p, hp, h⟩
    cases p with
    | given _ => cases h
    | bound u => cases h; exact hp
  · intro h
    exact ⟨_, h, rfl⟩

theorem holds_weaken {rules} (hs : Structural rules) {user : List (Trait × SynType)} {all : List String} (hall : "PhantomData" ∉ all)
    {bounded : List (Trait × SynType)} {b : Trait × SynType}
    (h : Holds rules (user ++ all.map fun x => (.opgModel, .var x)) b)
    (hb : ∀ x ∈ all, Occurs x b.2 → (Trait.opgModel, SynType.var x) ∈ bounded) : Holds rules (user ++ bounded) b := by
  induction h with
  | given h =>
    refine .given ?_
    rcases List.mem_append.1 h with h | h
    · exact List.mem_append_left _ h
    · obtain ⟨x, hx, rfl⟩ := List.mem_map.1 h
      exact List.mem_append_right _ (hb x hx (.bare _ _ (fun e => hall (e ▸ hx))))
  | rule hr h ih => exact .rule hr fun n hn => ih n hn fun x hx ho => hb x hx (hs _ _ hr n hn x ho)
  | group h ih => exact .group (ih fun x hx ho => hb x hx (.group ho))
  | paren h ih => exact .paren (ih fun x hx ho => hb x hx (.paren ho))

theorem occurs_named {x n : String} {args : List SynType} {t : SynType} (hn : n ≠ "PhantomData") (ht : t ∈ args) (h : Occurs x t) :
    Occurs x (.named n args) :=
  .arg (by simpa [SynSeg.ident] using hn) (.head _) (List.mem_map.2 ⟨t, ht, rfl⟩) (.type h)

theorem library_structural : Structural LibraryImpl := by
  intro b needs h n hn x ho
  cases h with
  | simple => cases hn
  | one h =>
    rename_i m t
    rw [List.mem_singleton] at hn
    subst hn
    refine occurs_named ?_ (.head _) ho
    rintro rfl
    simp at h
  | map h =>
    rename_i m k t
    have hm : m ≠ "PhantomData" := by rintro rfl; simp at h
    simp only [List.mem_cons, List.not_mem_nil, or_false] at hn
    rcases hn with rfl | rfl
    · exact occurs_named hm (.tail _ (.head _)) ho
    · exact occurs_named hm (.head _) ho
  | reference => rw [List.mem_singleton] at hn; subst hn; exact .reference ho
  | slice => rw [List.mem_singleton] at hn; subst hn; exact .slice ho
  | array => rw [List.mem_singleton] at hn; subst hn; exact .array ho
  | tuple => obtain ⟨t, ht, rfl⟩ := List.mem_map.1 hn; exact .tuple ht ho
  | unit => cases hn

/-! ## The converse of `serializeBody_asks` -/

variable {τ : Type}

theorem fieldRef_asks {p : ParamsExpr} {f : Field τ} {i : Bool} (h : f.attrs.explicitModelType = none) :
    (f.ty, !i) ∈ (fieldModelReference p f i).asked := by
  unfold fieldModelReference
  rw [h]
  exact .head _

theorem mem_propAskedList {es : List (PropExpr τ)} {x} : x ∈ PropExpr.askedList es ↔ ∃ n r q, .mk n r q ∈ es ∧ x ∈ r.asked := by
  induction es with
  | nil => simp [PropExpr.askedList]
  | cons e es ih =>
    obtain ⟨n, r, q⟩ := e
    simp only [PropExpr.askedList, List.mem_append, ih, List.mem_cons]
    constructor
    · rintro (h | ⟨n', r', q', h, hx⟩)
      · exact ⟨n, r, q, .inl rfl, h⟩
      · exact ⟨n', r', q', .inr h, hx⟩
    · rintro ⟨n', r', q', h | h, hx⟩
      · cases h; exact .inl hx
      · exact .inr ⟨n', r', q', h, hx⟩

theorem objectType_asks {fs : List (Field τ)} {p : Field τ → Bool} {f : Field τ} (hf : f ∈ fs)
    (hk : f.attrs.skipSerializing = false) (h : f.attrs.explicitModelType = none) :
    ∃ b, (f.ty, b) ∈ (objectTypeDescription fs p).asked := by
  unfold objectTypeDescription
  simp only [TypeExpr.asked, mem_propAskedList]
  exact ⟨_, _, _, _, List.mem_map.2 ⟨f, List.mem_filter.2 ⟨hf, by simp [hk]⟩, rfl⟩, fieldRef_asks h⟩

theorem tupleType_asks {fs : List (Field τ)} {p : Field τ → Bool} {f : Field τ} (hf : f ∈ fs)
    (h : f.attrs.explicitModelType = none) : ∃ b, (f.ty, b) ∈ (tupleTypeDescription fs p).asked := by
  unfold tupleTypeDescription
  simp only [TypeExpr.asked, RefExpr.asked, ModelExpr.asked, mem_askedList]
  exact ⟨_, _, List.mem_map.2 ⟨f, hf, rfl⟩, fieldRef_asks h⟩

theorem mapExcept_mem_left {ε α β : Type} {f : α → Except ε β} {as : List α} {bs : List β} (h : mapExcept f as = .ok bs) {a}
    (ha : a ∈ as) : ∃ b ∈ bs, f a = .ok b := by
  induction as generalizing bs with
  | nil => cases ha
  | cons a' as ih =>
    rw [mapExcept] at h
    split at h
    · cases h
    · rename_i b' hb'
      split at h
      · cases h
      · rename_i bs' hbs
        cases h
        rcases List.mem_cons.1 ha with rfl | ha
        · exact ⟨b', List.mem_cons_self, hb'⟩
        · obtain ⟨b, hb, h⟩ := ih hbs ha
          exact ⟨b, List.mem_cons_of_mem _ hb, h⟩

/-- Newtype variants have one field, unit variants none. -/
def Variant.Sized (v : Variant τ) : Prop := (v.style = .newType → v.fields.length = 1) ∧ (v.style = .unit → v.fields = [])

theorem newtypeVariant_asks' {v : Variant τ} (hz : v.fields.length = 1) {r} (h : newtypeVariantReference v = .ok r) {f : Field τ}
    (hf : f ∈ v.fields) (he : f.attrs.explicitModelType = none) : ∃ b, (f.ty, b) ∈ r.asked := by
  unfold newtypeVariantReference at h
  split at h
  · cases h
  · rename_i g fs hg
    cases h
    rw [hg] at hf hz
    cases fs with
    | nil => rw [List.mem_singleton] at hf; subst hf; exact ⟨_, fieldRef_asks he⟩
    | cons _ _ => simp at hz

theorem alternative_asks {c : Container τ} {tag : String} {v : Variant τ} (hz : v.Sized) {f : Field τ} (hf : f ∈ v.fields)
    (hk : f.attrs.skipSerializing = false) (he : f.attrs.explicitModelType = none) {r : RefExpr τ}
    (h : untaggedAlternative v = .ok r ∨ adjacentAlternative v = .ok r ∨ externalAlternative v = .ok r ∨ internalAlternative c tag v = .ok r) :
    ∃ b, (f.ty, b) ∈ r.asked := by
  rcases h with h | h | h | h
  · unfold untaggedAlternative at h
    split at h
    · exact newtypeVariant_asks' (hz.1 ‹_›) h hf he
    · cases h; exact objectType_asks hf hk he
    · cases h
  · unfold adjacentAlternative at h
    split at h
    · exact newtypeVariant_asks' (hz.1 ‹_›) h hf he
    · cases h; exact tupleType_asks hf he
    · cases h; exact tupleType_asks hf he
    · cases h
  · unfold externalAlternative at h
    split at h
    · rename_i hs
      rw [hz.2 hs] at hf
      cases hf
    · exact newtypeVariant_asks' (hz.1 ‹_›) h hf he
    · cases h; exact tupleType_asks hf he
    · cases h; exact objectType_asks hf hk he
  · unfold internalAlternative at h
    split at h
    · cases h
    · rename_i m hm
      cases h
      show ∃ b, (f.ty, b) ∈ m.asked
      unfold internalInner at hm
      split at hm
      · rename_i hs
        rw [hz.2 hs] at hf
        cases hf
      · rename_i hs
        have hl := hz.1 hs
        split at hm
        · cases hm
        · rename_i g fs hg
          cases hm
          rw [hg] at hf hl
          cases fs with
          | nil => rw [List.mem_singleton] at hf; subst hf; exact ⟨_, .head _⟩
          | cons _ _ => simp at hl
      · cases hm; exact objectType_asks hf hk he
      · cases hm

theorem serializeEnum_asks_all {c : Container τ} {vs : List (Variant τ)} {e} (h : serializeEnum c vs = .ok e)
    (hn : c.attrs.modelType = .newType → ∀ v ∈ vs, v.fields = []) {v : Variant τ} (hv : v ∈ vs) (hvs : v.attrs.skipSerializing = false)
    (hz : v.Sized) {f : Field τ} (hf : f ∈ v.fields) (hk : f.attrs.skipSerializing = false) (he : f.attrs.explicitModelType = none) :
    ∃ b, (f.ty, b) ∈ e.asked := by
  have hv' : v ∈ serialVariants vs := List.mem_filter.2 ⟨hv, by simp [hvs]⟩
  unfold serializeEnum at h
  split at h
  · rw [hn ‹_› v hv] at hf
    cases hf
  · unfold serializeAdjacentEnum at h
    split at h
    · cases h
    · rename_i hm
      cases h
      obtain ⟨r, hr, ha⟩ := mapExcept_mem_left hm hv'
      obtain ⟨b, hb⟩ := alternative_asks (c := c) (tag := "") hz hf hk he (.inr (.inl ha))
      refine ⟨b, ?_⟩
      simp only [ModelExpr.asked, TypeExpr.asked, PropExpr.askedList, RefExpr.asked, List.nil_append, List.append_nil, mem_askedList]
      exact ⟨r, hr, hb⟩
  · unfold serializeExternalEnum at h
    split at h
    · cases h
    · rename_i hm
      cases h
      obtain ⟨r, hr, ha⟩ := mapExcept_mem_left hm hv'
      obtain ⟨b, hb⟩ := alternative_asks (c := c) (tag := "") hz hf hk he (.inr (.inr (.inl ha)))
      refine ⟨b, ?_⟩
      simp only [ModelExpr.asked, TypeExpr.asked, RefExpr.asked, mem_askedList]
      exact ⟨r, hr, hb⟩
  · unfold serializeUntaggedEnum at h
    split at h
    · cases h
    · rename_i hm
      cases h
      obtain ⟨r, hr, ha⟩ := mapExcept_mem_left hm hv'
      obtain ⟨b, hb⟩ := alternative_asks (c := c) (tag := "") hz hf hk he (.inl ha)
      refine ⟨b, ?_⟩
      simp only [ModelExpr.asked, mem_askedList]
      exact ⟨r, hr, hb⟩
  · unfold serializeInternalEnum at h
    split at h
    · cases h
    · rename_i hm
      cases h
      obtain ⟨r, hr, ha⟩ := mapExcept_mem_left hm hv'
      obtain ⟨b, hb⟩ := alternative_asks hz hf hk he (.inr (.inr (.inr ha)))
      refine ⟨b, ?_⟩
      simp only [ModelExpr.asked, mem_askedList]
      exact ⟨r, hr, hb⟩
  · cases h

theorem serializeBody_asks_all {c : Container τ} {e} (h : serializeBody c = .ok e)
    (hn : ∀ vs, c.data = .enum vs → c.attrs.modelType = .newType → ∀ v ∈ vs, v.fields = [])
    (hz : ∀ vs, c.data = .enum vs → ∀ v ∈ vs, v.Sized) (hs : ∀ fs, c.data = .struct .newType fs → fs.length = 1)
    {f : Field τ} (hf : FieldSerialized c f) (he : f.attrs.explicitModelType = none)
    (hc : ∀ fs, c.data = .struct .newType fs → c.attrs.explicitModelType = none) : ∃ b, (f.ty, b) ∈ e.asked := by
  cases hf with
  | variant hd hv hvs hf hk =>
    unfold serializeBody at h
    rw [hd] at h
    exact serializeEnum_asks_all h (hn _ hd) hv hvs (hz _ hd _ hv) hf hk he
  | @struct style fs hd hf hk =>
    unfold serializeBody at h
    rw [hd] at h
    cases style with
    | struct => cases h; exact objectType_asks hf hk he
    | tuple => cases h; exact tupleType_asks hf he
    | newType =>
      have hl := hs _ hd
      cases fs with
      | nil => cases hf
      | cons g fs =>
        cases fs with
        | cons _ _ => simp at hl
        | nil =>
          rw [List.mem_singleton] at hf
          subst hf
          simp only [serializeNewtypeStruct, hc _ hd, Except.ok.injEq] at h
          subst h
          exact ⟨_, .head _⟩
    | unit => cases h

end Verif
