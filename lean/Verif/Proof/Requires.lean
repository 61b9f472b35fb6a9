import Verif.Spec.Requires
import Verif.Proof.Needs
import Verif.Proof.Parsed
import Verif.Proof.Generic
import Verif.Proof.Conform
/-!
# The types that generated code asks for
-/

namespace Verif

variable {τ : Type}

theorem mem_fieldRef {p : ParamsExpr} {f : Field τ} {i : Bool} {x : τ × Bool} :
    x ∈ (fieldModelReference p f i).asked ↔ f.attrs.explicitModelType = none ∧ x = (f.ty, !i) := by
  unfold fieldModelReference
  split
  · rename_i h; simp [RefExpr.asked, h]
  · rename_i t h ht
    simp only [RefExpr.asked, newtypeModel, ModelExpr.asked, ht, reduceCtorEq, false_and, iff_false]
    cases t <;> simp [TypeExpr.asked]
  · rename_i h; simp [RefExpr.asked, h]

theorem mem_objectType {fs : List (Field τ)} {p : Field τ → Bool} {x : τ × Bool} :
    x ∈ (objectTypeDescription fs p).asked ↔
      ∃ f ∈ fs, f.attrs.skipSerializing = false ∧ f.attrs.explicitModelType = none ∧ x = (f.ty, !p f) := by
  unfold objectTypeDescription
  simp only [TypeExpr.asked, mem_propAskedList, List.mem_map, List.mem_filter]
  constructor
  · rintro ⟨n, r, q, ⟨f, ⟨hf, hk⟩, e⟩, hx⟩
    injection e with _ e _
    subst e
    exact ⟨f, hf, by simpa using hk, mem_fieldRef.1 hx⟩
  · rintro ⟨f, hf, hk, h⟩
    exact ⟨_, _, _, ⟨f, ⟨hf, by simp [hk]⟩, rfl⟩, mem_fieldRef.2 h⟩

theorem mem_tupleType {fs : List (Field τ)} {p : Field τ → Bool} {x : τ × Bool} :
    x ∈ (tupleTypeDescription fs p).asked ↔ ∃ f ∈ fs, f.attrs.explicitModelType = none ∧ x = (f.ty, !p f) := by
  unfold tupleTypeDescription
  simp only [TypeExpr.asked, RefExpr.asked, ModelExpr.asked, mem_askedList, List.mem_map]
  constructor
  · rintro ⟨_, ⟨f, hf, rfl⟩, h⟩
    exact ⟨f, hf, mem_fieldRef.1 h⟩
  · rintro ⟨f, hf, h⟩
    exact ⟨_, ⟨f, hf, rfl⟩, mem_fieldRef.2 h⟩

theorem mem_newtypeVariant {v : Variant τ} (hz : v.fields.length = 1) {r} (h : newtypeVariantReference v = .ok r) {x : τ × Bool} :
    x ∈ r.asked ↔ ∃ f ∈ v.fields, f.attrs.explicitModelType = none ∧ x = (f.ty, !v.attrs.inline) := by
  unfold newtypeVariantReference at h
  split at h
  · cases h
  · rename_i g fs hg
    cases h
    rw [hg] at hz ⊢
    cases fs with
    | cons _ _ => simp at hz
    | nil => simp only [List.mem_singleton, exists_eq_left]; exact mem_fieldRef

/-- What an alternative asks for, by the shape of its variant. -/
def AltAsks (adjacent : Bool) (v : Variant τ) (x : τ × Bool) : Prop :=
  (v.style = .struct ∧ ∃ f ∈ v.fields, (f.attrs.skipSerializing = false ∨ adjacent = true) ∧
    f.attrs.explicitModelType = none ∧ x = (f.ty, !(v.attrs.inline || f.attrs.inline))) ∨
  (v.style = .tuple ∧ ∃ f ∈ v.fields, f.attrs.explicitModelType = none ∧ x = (f.ty, !(v.attrs.inline || f.attrs.inline))) ∨
  (v.style = .newType ∧ ∃ f ∈ v.fields, f.attrs.explicitModelType = none ∧ x = (f.ty, !v.attrs.inline))

theorem mem_untagged {v : Variant τ} (hz : v.Sized) {r} (h : untaggedAlternative v = .ok r) {x : τ × Bool} :
    x ∈ r.asked ↔ AltAsks false v x := by
  unfold untaggedAlternative at h
  split at h
  · rename_i hs
    rw [mem_newtypeVariant (hz.1 hs) h]; simp [AltAsks, hs]
  · rename_i hs
    cases h
    show x ∈ (objectTypeDescription v.fields _).asked ↔ _
    rw [mem_objectType]; simp [AltAsks, hs]
  · cases h

theorem mem_external {v : Variant τ} (hz : v.Sized) {r} (h : externalAlternative v = .ok r) {x : τ × Bool} :
    x ∈ r.asked ↔ AltAsks false v x := by
  unfold externalAlternative at h
  split at h
  · rename_i hs
    cases h
    simp [AltAsks, hs, RefExpr.asked, ModelExpr.asked, TypeExpr.asked]
  · rename_i hs
    rw [mem_newtypeVariant (hz.1 hs) h]; simp [AltAsks, hs]
  · rename_i hs
    cases h
    show x ∈ (tupleTypeDescription v.fields _).asked ↔ _
    rw [mem_tupleType]; simp [AltAsks, hs]
  · rename_i hs
    cases h
    show x ∈ (objectTypeDescription v.fields _).asked ↔ _
    rw [mem_objectType]; simp [AltAsks, hs]

theorem mem_adjacent {v : Variant τ} (hz : v.Sized) {r} (h : adjacentAlternative v = .ok r) {x : τ × Bool} :
    x ∈ r.asked ↔ AltAsks true v x := by
  unfold adjacentAlternative at h
  split at h
  · rename_i hs
    rw [mem_newtypeVariant (hz.1 hs) h]; simp [AltAsks, hs]
  · rename_i hs
    cases h
    show x ∈ (tupleTypeDescription v.fields _).asked ↔ _
    rw [mem_tupleType]; simp [AltAsks, hs]
  · rename_i hs
    cases h
    show x ∈ (tupleTypeDescription v.fields _).asked ↔ _
    rw [mem_tupleType]; simp [AltAsks, hs, Bool.or_comm]
  · cases h

theorem mem_internal {c : Container τ} {tag : String} {v : Variant τ} (hz : v.Sized) {r}
    (h : internalAlternative c tag v = .ok r) {x : τ × Bool} : x ∈ r.asked ↔
      (v.style = .struct ∧ ∃ f ∈ v.fields, f.attrs.skipSerializing = false ∧
        f.attrs.explicitModelType = none ∧ x = (f.ty, !(v.attrs.inline || f.attrs.inline))) ∨
      (v.style = .newType ∧ ∃ f ∈ v.fields, x = (f.ty, false)) := by
  unfold internalAlternative at h
  split at h
  · cases h
  · rename_i m hm
    cases h
    show x ∈ m.asked ↔ _
    unfold internalInner at hm
    split at hm
    · rename_i hs
      cases hm
      show x ∈ (objectTypeDescription [] _).asked ↔ _
      rw [mem_objectType]; simp [hs]
    · rename_i hs
      have hl := hz.1 hs
      split at hm
      · cases hm
      · rename_i g fs hg
        cases hm
        rw [hg] at hl ⊢
        cases fs with
        | cons _ _ => simp at hl
        | nil => simp [ModelExpr.asked, hs]
    · rename_i hs
      cases hm
      show x ∈ (objectTypeDescription v.fields _).asked ↔ _
      rw [mem_objectType]; simp [hs]
    · cases hm

theorem mapExcept_iff {ε α β : Type} {f : α → Except ε β} {as : List α} {bs : List β} (h : mapExcept f as = .ok bs)
    {P : β → Prop} {Q : α → Prop} (hpq : ∀ a ∈ as, ∀ b, f a = .ok b → (P b ↔ Q a)) :
    (∃ b ∈ bs, P b) ↔ ∃ a ∈ as, Q a := by
  constructor
  · rintro ⟨b, hb, hp⟩
    obtain ⟨a, ha, e⟩ := mapExcept_mem h hb
    exact ⟨a, ha, (hpq a ha b e).1 hp⟩
  · rintro ⟨a, ha, hq⟩
    obtain ⟨b, hb, e⟩ := mapExcept_mem_left h ha
    exact ⟨b, hb, (hpq a ha b e).2 hq⟩

/-- What holds of the shapes of items the macro accepts. -/
structure Shaped (c : Container τ) : Prop where
  newtype : ∀ fs, c.data = .struct .newType fs → fs.length = 1
  sized : ∀ vs, c.data = .enum vs → ∀ v ∈ vs, v.Sized
  units : ∀ vs, c.data = .enum vs → c.attrs.modelType = .newType → ∀ v ∈ vs, v.fields = []
  tags : ∀ vs, c.data = .enum vs → c.attrs.modelType ≠ .newType → c.attrs.modelType = match c.attrs.tagType with
    | .none => .oneOf
    | .internal _ => .oneOf
    | .external => .dictionary
    | .adjacent _ _ => .object

theorem derive_shaped {o : Oracle} {input : DeriveInput τ} {c : Container τ} {body : ModelExpr τ}
    (hc : derive o input = .code c body) : Shaped c := by
  have hp := container_parsed hc
  have sized : ∀ {rule : RenameRule} {fs : SynFields τ} {style fs'}, FieldsParsed o rule fs style fs' →
      (style = .newType → fs'.length = 1) ∧ (style = .unit → fs' = []) := by
    intro rule fs style fs' h
    have hl := h.length
    cases h.style with
    | named => exact ⟨(fun h => by cases h), (fun h => by cases h)⟩
    | newType f => exact ⟨(fun _ => hl), (fun h => by cases h)⟩
    | tuple _ _ => exact ⟨(fun h => by cases h), (fun h => by cases h)⟩
    | unit => exact ⟨(fun h => by cases h), (fun _ => List.length_eq_zero_iff.1 hl)⟩
  have hz : ∀ vs, c.data = .enum vs → ∀ v ∈ vs, v.Sized := by
    intro vs hd
    obtain ⟨rule, _, h⟩ := hp.data
    cases hi : input.data with
    | struct fs => rw [hi] at h; obtain ⟨_, _, h, _⟩ := h; rw [hd] at h; cases h
    | union => rw [hi] at h; exact h.elim
    | enum vs₀ =>
      rw [hi] at h
      obtain ⟨vs', h, hv⟩ := h
      rw [hd] at h
      cases h
      clear hd hi
      induction hv with
      | nil => intro v hv; cases hv
      | cons hv _ ih =>
        intro w hw
        rcases List.mem_cons.1 hw with rfl | hw
        · obtain ⟨r, _, hfp⟩ := hv.fields
          exact sized hfp
        · exact ih w hw
  have hs : ∀ fs, c.data = .struct .newType fs → fs.length = 1 := by
    intro fs hd
    obtain ⟨rule, _, h⟩ := hp.data
    cases hi : input.data with
    | struct fs => rw [hi] at h; obtain ⟨_, _, h, hfp⟩ := h; rw [hd] at h; cases h; exact (sized hfp).1 rfl
    | union => rw [hi] at h; exact h.elim
    | enum vs₀ => rw [hi] at h; obtain ⟨_, h, _⟩ := h; rw [hd] at h; cases h
  have hder : Derived o ⟨fun _ => c.map fun _ => Ty.unit, id⟩ 0 (input.map fun _ => Ty.unit) := by
    refine ⟨body.map fun _ => Ty.unit, ?_⟩
    rw [derive_map, hc]
    rfl
  have htag : ∀ vs, c.data = .enum vs → (∃ v ∈ vs, v.style ≠ .unit) → c.attrs.modelType = match c.attrs.tagType with
      | .none => .oneOf
      | .internal _ => .oneOf
      | .external => .dictionary
      | .adjacent _ _ => .object := by
    rintro vs hd ⟨v, hv, hst⟩
    exact (derived_enum (vs := vs.map (Variant.map fun _ => Ty.unit)) hder (by show Data.map _ c.data = _; rw [hd]; rfl)).2
      ⟨v.map fun _ => Ty.unit, List.mem_map.2 ⟨v, hv, rfl⟩, hst⟩
  refine ⟨hs, hz, ?_, ?_⟩
  · intro vs hd hm v hv
    apply (hz vs hd v hv).2
    cases hst : v.style with
    | unit => rfl
    | _ =>
      have h2 := htag vs hd ⟨v, hv, by rw [hst]; simp⟩
      rw [hm] at h2
      cases ht : c.attrs.tagType <;> rw [ht] at h2 <;> cases h2
  · intro vs hd hm
    by_cases hall : ∀ v ∈ vs, v.style = .unit
    · exact absurd ((derived_enum (vs := vs.map (Variant.map fun _ => Ty.unit)) hder
        (by show Data.map _ c.data = _; rw [hd]; rfl)).1 (fun v hv => by
          obtain ⟨w, hw, rfl⟩ := List.mem_map.1 hv
          exact hall w hw)) hm
    · exact htag vs hd (by simpa using hall)

theorem altAsks_iff {c : Container τ} {vs : List (Variant τ)} (hd : c.data = .enum vs) {adjacent : Bool}
    (ha : adjacent = true ↔ ∃ tag content, c.attrs.tagType = .adjacent tag content)
    (hi : ∀ tag, c.attrs.tagType ≠ .internal tag) {x : τ × Bool} :
    (∃ v ∈ serialVariants vs, AltAsks adjacent v x) ↔ Requires c x.1 x.2 := by
  constructor
  · rintro ⟨v, hv, h⟩
    obtain ⟨hv, hvs⟩ : v ∈ vs ∧ v.attrs.skipSerializing = false := by simpa [serialVariants] using hv
    rcases h with ⟨hs, f, hf, hk, he, rfl⟩ | ⟨hs, f, hf, he, rfl⟩ | ⟨hs, f, hf, he, rfl⟩
    · exact .variantField hd hv hvs hs hf (hk.imp id ha.1) he
    · exact .variantComponent hd hv hvs hs hf he
    · exact .variantWrapped hd hv hvs hs hf hi he
  · intro h
    obtain ⟨t, b⟩ := x
    have mem : ∀ {v : Variant τ}, v ∈ vs → v.attrs.skipSerializing = false → v ∈ serialVariants vs := fun hv hvs =>
      List.mem_filter.2 ⟨hv, by simp [hvs]⟩
    cases h with
    | field hd' => rw [hd] at hd'; cases hd'
    | component hd' => rw [hd] at hd'; cases hd'
    | wrapped hd' => rw [hd] at hd'; cases hd'
    | variantField hd' hv hvs hs hf hk he =>
      rw [hd] at hd'; cases hd'
      exact ⟨_, mem hv hvs, .inl ⟨hs, _, hf, hk.imp id ha.2, he, rfl⟩⟩
    | variantComponent hd' hv hvs hs hf he =>
      rw [hd] at hd'; cases hd'
      exact ⟨_, mem hv hvs, .inr (.inl ⟨hs, _, hf, he, rfl⟩)⟩
    | variantWrapped hd' hv hvs hs hf _ he =>
      rw [hd] at hd'; cases hd'
      exact ⟨_, mem hv hvs, .inr (.inr ⟨hs, _, hf, he, rfl⟩)⟩
    | variantTagged hd' _ _ _ _ ht => exact absurd ht (hi _)

theorem serializeEnum_iff {c : Container τ} {vs : List (Variant τ)} (hd : c.data = .enum vs) (hsh : Shaped c) {e}
    (h : serializeEnum c vs = .ok e) {x : τ × Bool} : x ∈ e.asked ↔ Requires c x.1 x.2 := by
  have hz : ∀ v ∈ serialVariants vs, v.Sized := fun v hv => hsh.sized vs hd v (List.mem_filter.1 hv).1
  unfold serializeEnum at h
  split at h
  · rename_i hm
    cases h
    have hno : x ∉ (serializeNewtypeEnum c vs).asked := by
      intro hx
      unfold serializeNewtypeEnum at hx
      split at hx
      · rw [ModelExpr.asked, mem_askedList] at hx
        obtain ⟨r, hr, hx⟩ := hx
        obtain ⟨v, -, hv⟩ := List.mem_filterMap.1 hr
        unfold reprAlternative at hv
        cases hd : v.discriminant with
        | none => rw [hd] at hv; cases hv
        | some d => rw [hd] at hv; cases hv; cases hx
      · cases hx
    refine ⟨fun hx => absurd hx hno, fun hr => ?_⟩
    obtain ⟨t, b⟩ := x
    have hf0 := hsh.units vs hd hm
    exfalso
    cases hr with
    | field hd' => rw [hd] at hd'; cases hd'
    | component hd' => rw [hd] at hd'; cases hd'
    | wrapped hd' => rw [hd] at hd'; cases hd'
    | variantField hd' hv _ _ hf | variantComponent hd' hv _ _ hf | variantWrapped hd' hv _ _ hf
    | variantTagged hd' hv _ _ hf =>
      rw [hd] at hd'; cases hd'
      rw [hf0 _ hv] at hf
      cases hf
  · rename_i tag content hm ht
    unfold serializeAdjacentEnum at h
    split at h
    · cases h
    · rename_i oneOf hmap
      cases h
      simp only [ModelExpr.asked, TypeExpr.asked, PropExpr.askedList, RefExpr.asked, List.nil_append, List.append_nil,
        mem_askedList]
      rw [mapExcept_iff hmap (Q := fun v => AltAsks true v x) fun v hv r hr => mem_adjacent (hz v hv) hr]
      exact altAsks_iff hd ⟨fun _ => ⟨_, _, ht⟩, fun _ => rfl⟩ (by rw [ht]; simp)
  · rename_i hm
    have ht := hsh.tags vs hd (by rw [hm]; simp)
    have ht : c.attrs.tagType = .external := by
      rw [hm] at ht
      cases hte : c.attrs.tagType <;> rw [hte] at ht <;> simp_all
    unfold serializeExternalEnum at h
    split at h
    · cases h
    · rename_i oneOf hmap
      cases h
      simp only [ModelExpr.asked, TypeExpr.asked, RefExpr.asked, mem_askedList]
      rw [mapExcept_iff hmap (Q := fun v => AltAsks false v x) fun v hv r hr => mem_external (hz v hv) hr]
      exact altAsks_iff hd (by rw [ht]; simp) (by rw [ht]; simp)
  · rename_i hm ht
    unfold serializeUntaggedEnum at h
    split at h
    · cases h
    · rename_i oneOf hmap
      cases h
      simp only [ModelExpr.asked, mem_askedList]
      rw [mapExcept_iff hmap (Q := fun v => AltAsks false v x) fun v hv r hr => mem_untagged (hz v hv) hr]
      exact altAsks_iff hd (by rw [ht]; simp) (by rw [ht]; simp)
  · rename_i tag hm ht
    unfold serializeInternalEnum at h
    split at h
    · cases h
    · rename_i oneOf hmap
      cases h
      simp only [ModelExpr.asked, mem_askedList]
      rw [mapExcept_iff hmap fun v hv r hr => mem_internal (hz v hv) hr]
      constructor
      · rintro ⟨v, hv, h⟩
        obtain ⟨hv, hvs⟩ : v ∈ vs ∧ v.attrs.skipSerializing = false := by simpa [serialVariants] using hv
        rcases h with ⟨hs, f, hf, hk, he, rfl⟩ | ⟨hs, f, hf, rfl⟩
        · exact .variantField hd hv hvs hs hf (.inl hk) he
        · exact .variantTagged hd hv hvs hs hf ht
      · intro h
        obtain ⟨t, b⟩ := x
        have mem : ∀ {v : Variant τ}, v ∈ vs → v.attrs.skipSerializing = false → v ∈ serialVariants vs := fun hv hvs =>
          List.mem_filter.2 ⟨hv, by simp [hvs]⟩
        cases h with
        | field hd' => rw [hd] at hd'; cases hd'
        | component hd' => rw [hd] at hd'; cases hd'
        | wrapped hd' => rw [hd] at hd'; cases hd'
        | variantField hd' hv hvs hs hf hk he =>
          rw [hd] at hd'; cases hd'
          refine ⟨_, mem hv hvs, .inl ⟨hs, _, hf, ?_, he, rfl⟩⟩
          rcases hk with hk | ⟨_, _, hk⟩
          · exact hk
          · rw [ht] at hk; cases hk
        | @variantComponent _ v _ hd' hv hvs hs hf he =>
          rw [hd] at hd'; cases hd'
          obtain ⟨r, -, hr⟩ := mapExcept_mem_left hmap (mem hv hvs)
          simp [internalAlternative, internalInner, hs] at hr
        | variantWrapped hd' hv hvs hs hf hi he => exact absurd ht (hi _)
        | variantTagged hd' hv hvs hs hf _ =>
          rw [hd] at hd'; cases hd'
          exact ⟨_, mem hv hvs, .inr ⟨hs, _, hf, rfl⟩⟩
  · cases h

theorem serializeBody_iff {c : Container τ} (hsh : Shaped c) {e} (h : serializeBody c = .ok e) {x : τ × Bool} :
    x ∈ e.asked ↔ Requires c x.1 x.2 := by
  unfold serializeBody at h
  split at h
  · rename_i vs hd
    exact serializeEnum_iff hd hsh h
  · rename_i fs hd
    cases h
    show x ∈ (objectTypeDescription fs _).asked ↔ _
    rw [mem_objectType]
    constructor
    · rintro ⟨f, hf, hk, he, rfl⟩
      exact .field hd hf hk he
    · intro h
      obtain ⟨t, b⟩ := x
      cases h with
      | field hd' hf hk he => rw [hd] at hd'; cases hd'; exact ⟨_, hf, hk, he, rfl⟩
      | _ hd' => rw [hd] at hd'; cases hd'
  · rename_i fs hd
    cases h
    show x ∈ (tupleTypeDescription fs _).asked ↔ _
    rw [mem_tupleType]
    constructor
    · rintro ⟨f, hf, he, rfl⟩
      exact .component hd hf he
    · intro h
      obtain ⟨t, b⟩ := x
      cases h with
      | component hd' hf he => rw [hd] at hd'; cases hd'; exact ⟨_, hf, he, rfl⟩
      | _ hd' => rw [hd] at hd'; cases hd'
  · rename_i fs hd
    have hl := hsh.newtype fs hd
    split at h
    · cases h
    · rename_i f fs'
      cases fs' with
      | cons _ _ => simp at hl
      | nil =>
        unfold serializeNewtypeStruct at h
        simp only at h
        cases hx : c.attrs.explicitModelType with
        | none =>
          rw [hx] at h
          cases h
          simp only [ModelExpr.asked, List.mem_singleton]
          constructor
          · rintro rfl
            exact .wrapped hd (.head _) hx
          · intro h
            obtain ⟨t, b⟩ := x
            cases h with
            | wrapped hd' hf he =>
              rw [hd] at hd'; cases hd'
              rw [List.mem_singleton] at hf
              rw [hf]
            | _ hd' => rw [hd] at hd'; cases hd'
        | some t =>
          have hno : x ∉ e.asked := by
            rw [hx] at h
            cases t <;> cases h <;> (intro hm; cases hm)
          refine ⟨fun hm => absurd hm hno, fun h => ?_⟩
          obtain ⟨t', b⟩ := x
          cases h with
          | wrapped hd' hf he => rw [hx] at he; cases he
          | _ hd' => rw [hd] at hd'; cases hd'
  · cases h

end Verif
