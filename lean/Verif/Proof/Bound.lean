import Verif.Spec.Bound
/-!
# Bounds of the generated impl
-/

namespace Verif

theorem mem_visitBare {all : List String} {x : String} (hx : x ∈ all) (l : Bool) (ss : List SynSeg) :
    x ∈ visitBare all l ss ↔ l = false ∧ ∃ args, ss = [⟨x, args⟩] := by
  unfold visitBare
  split
  · split
    · simp only [List.mem_singleton, List.cons.injEq, SynSeg.mk.injEq, and_true, true_and]
      constructor
      · rintro rfl; exact ⟨_, rfl, rfl⟩
      · rintro ⟨_, h, _⟩; exact h.symm
    · rename_i h
      simp only [List.not_mem_nil, List.cons.injEq, SynSeg.mk.injEq, and_true, true_and, false_iff]
      rintro ⟨_, rfl, _⟩
      exact h hx
  · rename_i h
    simp only [List.not_mem_nil, false_iff]
    rintro ⟨rfl, args, rfl⟩
    exact h _ _ rfl rfl

mutual
theorem mem_visitType {all : List String} {x : String} (hx : x ∈ all) : ∀ t : SynType, x ∈ visitType all t ↔ Occurs x t
  | .path q l ss => by
    rw [visitType, List.mem_append, mem_visitOption hx q]
    constructor
    · rintro (⟨t, rfl, h⟩ | h)
      · exact .qself h
      · split at h
        · cases h
        · rename_i hp
          rw [List.mem_append, mem_visitBare hx, mem_visitSegments hx ss] at h
          rcases h with ⟨rfl, args, rfl⟩ | ⟨s, hs, a, ha, h⟩
          · exact .bare _ _ (by intro e; subst e; simp [SynSeg.ident] at hp)
          · exact .arg hp hs ha h
    · intro h
      cases h with
      | bare _ args hn =>
        refine .inr ?_
        rw [if_neg (by simpa [SynSeg.ident] using hn)]
        exact List.mem_append_left _ ((mem_visitBare hx _ _).2 ⟨rfl, _, rfl⟩)
      | qself h => exact .inl ⟨_, rfl, h⟩
      | arg hp hs ha h =>
        refine .inr ?_
        rw [if_neg hp]
        exact List.mem_append_right _ ((mem_visitSegments hx ss).2 ⟨_, hs, _, ha, h⟩)
  | .group t => by
    rw [visitType, mem_visitType hx t]; exact ⟨.group, fun h => by cases h; assumption⟩
  | .paren t => by
    rw [visitType, mem_visitType hx t]; exact ⟨.paren, fun h => by cases h; assumption⟩
  | .reference t => by
    rw [visitType, mem_visitType hx t]; exact ⟨.reference, fun h => by cases h; assumption⟩
  | .ptr t => by
    rw [visitType, mem_visitType hx t]; exact ⟨.ptr, fun h => by cases h; assumption⟩
  | .slice t => by
    rw [visitType, mem_visitType hx t]; exact ⟨.slice, fun h => by cases h; assumption⟩
  | .array t e => by
    rw [visitType, List.mem_append, mem_visitType hx t, mem_visitTypes hx e]
    constructor
    · rintro (h | ⟨u, hu, h⟩)
      · exact .array h
      · exact .arrayLen hu h
    · intro h
      cases h with
      | array h => exact .inl h
      | arrayLen hu h => exact .inr ⟨_, hu, h⟩
  | .tuple ts => by
    rw [visitType, mem_visitTypes hx ts]
    exact ⟨fun ⟨t, ht, h⟩ => .tuple ht h, fun h => by cases h; exact ⟨_, ‹_›, ‹_›⟩⟩
  | .bareFn ts o => by
    rw [visitType, List.mem_append, mem_visitTypes hx ts, mem_visitOption hx o]
    constructor
    · rintro (⟨t, ht, h⟩ | ⟨t, rfl, h⟩)
      · exact .input ht h
      · exact .output h
    · intro h
      cases h with
      | input ht h => exact .inl ⟨_, ht, h⟩
      | output h => exact .inr ⟨_, rfl, h⟩
  | .bounds ts => by
    rw [visitType, mem_visitTypes hx ts]
    exact ⟨fun ⟨t, ht, h⟩ => .bounds ht h, fun h => by cases h; exact ⟨_, ‹_›, ‹_›⟩⟩
  | .opaque => by
    rw [visitType]
    refine ⟨fun h => ?_, fun h => ?_⟩ <;> cases h
termination_by structural t => t
theorem mem_visitOption {all : List String} {x : String} (hx : x ∈ all) : ∀ q : Option SynType,
    x ∈ visitOption all q ↔ ∃ t, q = some t ∧ Occurs x t
  | none => by simp [visitOption]
  | some t => by rw [visitOption, mem_visitType hx t]; simp
termination_by structural q => q
theorem mem_visitTypes {all : List String} {x : String} (hx : x ∈ all) : ∀ ts : List SynType,
    x ∈ visitTypes all ts ↔ ∃ t ∈ ts, Occurs x t
  | [] => by simp [visitTypes]
  | t :: ts => by rw [visitTypes, List.mem_append, mem_visitType hx t, mem_visitTypes hx ts]; simp
termination_by structural ts => ts
theorem mem_visitSegments {all : List String} {x : String} (hx : x ∈ all) : ∀ ss : List SynSeg,
    x ∈ visitSegments all ss ↔ ∃ s ∈ ss, ∃ a ∈ s.args, OccursArg x a
  | [] => by simp [visitSegments]
  | .mk i args :: ss => by
    rw [visitSegments, List.mem_append, mem_visitArgs hx args, mem_visitSegments hx ss]
    simp [SynSeg.args]
termination_by structural ss => ss
theorem mem_visitArgs {all : List String} {x : String} (hx : x ∈ all) : ∀ as : List SynArg,
    x ∈ visitArgs all as ↔ ∃ a ∈ as, OccursArg x a
  | [] => by simp [visitArgs]
  | a :: as => by rw [visitArgs, List.mem_append, mem_visitArg hx a, mem_visitArgs hx as]; simp
termination_by structural as => as
theorem mem_visitArg {all : List String} {x : String} (hx : x ∈ all) : ∀ a : SynArg, x ∈ visitArg all a ↔ OccursArg x a
  | .lifetime => by rw [visitArg]; refine ⟨fun h => ?_, fun h => ?_⟩ <;> cases h
  | .type t => by rw [visitArg, mem_visitType hx t]; exact ⟨.type, fun h => by cases h; assumption⟩
  | .binding _ t => by rw [visitArg, mem_visitType hx t]; exact ⟨.binding, fun h => by cases h; assumption⟩
  | .constraint _ ts => by
    rw [visitArg, mem_visitTypes hx ts]
    exact ⟨fun ⟨t, ht, h⟩ => .constraint ht h, fun h => by cases h; exact ⟨_, ‹_›, ‹_›⟩⟩
  | .const ts => by
    rw [visitArg, mem_visitTypes hx ts]
    exact ⟨fun ⟨t, ht, h⟩ => .const ht h, fun h => by cases h; exact ⟨_, ‹_›, ‹_›⟩⟩
termination_by structural a => a
end

theorem mem_relevantFields {τ : Type} {c : Container τ} {f : Field τ} : f ∈ c.relevantFields ↔ FieldSerialized c f := by
  unfold Container.relevantFields
  constructor
  · intro h
    split at h
    · rename_i vs hd
      obtain ⟨v, hv, h⟩ := List.mem_flatMap.1 h
      simp only [List.mem_filter, Bool.and_eq_true, Bool.not_eq_true'] at h
      exact .variant hd hv h.2.2 h.1 h.2.1
    · rename_i hd
      simp only [List.mem_filter, Bool.not_eq_true'] at h
      exact .struct hd h.1 h.2
  · intro h
    cases h with
    | struct hd hf h => rw [hd]; simp [hf, h]
    | variant hd hv hvs hf h => rw [hd]; exact List.mem_flatMap.2 ⟨_, hv, by simp [hf, h, hvs]⟩

theorem relevantFields_eq {τ : Type} (c : Container τ) : c.relevantFields = c.serializedFields := by
  unfold Container.relevantFields Container.serializedFields
  split
  · rename_i vs hd
    rw [hd]
    simp only
    clear hd
    induction vs with
    | nil => rfl
    | cons v vs ih =>
      rw [List.flatMap_cons, ih]
      cases hv : v.attrs.skipSerializing <;> simp [hv]
  · rename_i hd; rw [hd]

theorem ungroup_eq {t u : SynType} {names : List String} : AssociatedOf names t u ↔
    ∃ q l s s' ss, t.ungroup = .path q l (s :: s' :: ss) ∧ s.ident ∈ names ∧ u = .path q l (s :: s' :: ss) := by
  constructor
  · intro h
    induction h with
    | @path q l s ss h long =>
      cases ss with
      | nil => exact (long rfl).elim
      | cons s' ss => exact ⟨_, _, _, _, _, rfl, h, rfl⟩
    | group _ ih => exact ih
  · rintro ⟨q, l, s, s', ss, h, hs, rfl⟩
    revert h
    fun_induction SynType.ungroup t with
    | case1 t ih => intro h; exact .group (ih h)
    | case2 t _ => rintro rfl; exact .path hs (by simp)

theorem mem_visitAssociated {all : List String} {t u : SynType} : u ∈ visitAssociated all t ↔ AssociatedOf all t u := by
  rw [ungroup_eq]
  unfold visitAssociated
  split
  · rename_i q l s s' ss h
    rw [h]
    split
    · simp only [List.mem_singleton]
      constructor
      · rintro rfl; exact ⟨_, _, _, _, _, rfl, ‹_›, rfl⟩
      · rintro ⟨_, _, _, _, _, h, _, rfl⟩; exact h.symm
    · rename_i hn
      simp only [List.not_mem_nil, false_iff]
      rintro ⟨_, _, _, _, _, h, hs, rfl⟩
      injection h with _ _ h
      injection h with h
      exact hn (h ▸ hs)
  · rename_i h
    simp only [List.not_mem_nil, false_iff]
    rintro ⟨q, l, s, s', ss, h', _, rfl⟩
    exact h _ _ _ _ _ h'

theorem visitAssociated_length (all : List String) (t : SynType) : (visitAssociated all t).length ≤ 1 := by
  unfold visitAssociated
  split
  · split <;> simp
  · simp

theorem typeParams_withoutDefault (g : Generics) : g.withoutDefault.typeParams = g.typeParams := by
  unfold Generics.typeParams Generics.withoutDefault
  simp only
  induction g.params with
  | nil => rfl
  | cons p ps ih => cases p <;> simp_all

/-! ## The types the generated code asks for -/

variable {τ : Type}

theorem fieldRef_asked {p : ParamsExpr} {f : Field τ} {i : Bool} {x} (h : x ∈ (fieldModelReference p f i).asked) :
    x.1 = f.ty := by
  unfold fieldModelReference at h
  split at h
  · simp [RefExpr.asked] at h
  · unfold newtypeModel at h
    split at h <;> simp [RefExpr.asked, ModelExpr.asked, TypeExpr.asked] at h
  · simp [RefExpr.asked] at h
    simp [h]

theorem mem_askedList {rs : List (RefExpr τ)} {x} : x ∈ RefExpr.askedList rs ↔ ∃ r ∈ rs, x ∈ r.asked := by
  induction rs with
  | nil => simp [RefExpr.askedList]
  | cons r rs ih => simp [RefExpr.askedList, ih]

theorem objectType_asked {fs : List (Field τ)} {p : Field τ → Bool} {x} (h : x ∈ (objectTypeDescription fs p).asked) :
    ∃ f ∈ fs, f.attrs.skipSerializing = false ∧ x.1 = f.ty := by
  unfold objectTypeDescription at h
  rw [TypeExpr.asked] at h
  induction fs with
  | nil => simp [PropExpr.askedList] at h
  | cons f fs ih =>
    cases hs : f.attrs.skipSerializing with
    | true =>
      rw [List.filter_cons_of_neg (by simp [hs])] at h
      obtain ⟨g, hg, h'⟩ := ih h
      exact ⟨g, List.mem_cons_of_mem _ hg, h'⟩
    | false =>
      rw [List.filter_cons_of_pos (by simp [hs])] at h
      simp only [List.map_cons, PropExpr.askedList, List.mem_append] at h
      rcases h with h | h
      · exact ⟨f, List.mem_cons_self, hs, fieldRef_asked h⟩
      · obtain ⟨g, hg, h'⟩ := ih h
        exact ⟨g, List.mem_cons_of_mem _ hg, h'⟩

theorem tupleType_asked {fs : List (Field τ)} {p : Field τ → Bool} {x} (h : x ∈ (tupleTypeDescription fs p).asked) :
    ∃ f ∈ fs, x.1 = f.ty := by
  unfold tupleTypeDescription at h
  simp only [TypeExpr.asked, RefExpr.asked, ModelExpr.asked, mem_askedList, List.mem_map] at h
  obtain ⟨_, ⟨f, hf, rfl⟩, h⟩ := h
  exact ⟨f, hf, fieldRef_asked h⟩

/-- A field of a variant whose type may be asked for. -/
def VariantAsks (c : Container τ) (v : Variant τ) (t : τ) : Prop :=
  ∃ f ∈ v.fields, t = f.ty ∧ (f.attrs.skipSerializing = false ∨ v.style = .tuple ∨ v.style = .newType ∨
    ∃ tag content, c.attrs.tagType = .adjacent tag content)

theorem mapExcept_mem {ε α β : Type} {f : α → Except ε β} {as : List α} {bs : List β} (h : mapExcept f as = .ok bs) {b}
    (hb : b ∈ bs) : ∃ a ∈ as, f a = .ok b := by
  induction as generalizing bs with
  | nil => simp [mapExcept] at h; subst h; cases hb
  | cons a as ih =>
    rw [mapExcept] at h
    split at h
    · cases h
    · rename_i b' hb'
      split at h
      · cases h
      · rename_i bs' hbs
        cases h
        rcases List.mem_cons.1 hb with rfl | hb
        · exact ⟨a, List.mem_cons_self, hb'⟩
        · obtain ⟨a', ha, h⟩ := ih hbs hb
          exact ⟨a', List.mem_cons_of_mem _ ha, h⟩

theorem newtypeVariant_asks {c : Container τ} {v : Variant τ} (hs : v.style = .newType) {r x}
    (h : newtypeVariantReference v = .ok r) (hx : x ∈ r.asked) : VariantAsks c v x.1 := by
  unfold newtypeVariantReference at h
  split at h
  · cases h
  · rename_i f fs hf
    cases h
    exact ⟨f, by rw [hf]; exact List.mem_cons_self, fieldRef_asked hx, .inr (.inr (.inl hs))⟩

theorem untagged_asks {c : Container τ} {v : Variant τ} {r x} (h : untaggedAlternative v = .ok r) (hx : x ∈ r.asked) :
    VariantAsks c v x.1 := by
  unfold untaggedAlternative at h
  split at h
  · exact newtypeVariant_asks ‹_› h hx
  · cases h
    obtain ⟨f, hf, hk, e⟩ := objectType_asked (show x ∈ (objectTypeDescription v.fields _).asked from hx)
    exact ⟨f, hf, e, .inl hk⟩
  · cases h

theorem external_asks {c : Container τ} {v : Variant τ} {r x} (h : externalAlternative v = .ok r) (hx : x ∈ r.asked) :
    VariantAsks c v x.1 := by
  unfold externalAlternative at h
  split at h
  · cases h; cases hx
  · exact newtypeVariant_asks ‹_› h hx
  · cases h
    obtain ⟨f, hf, e⟩ := tupleType_asked (show x ∈ (tupleTypeDescription v.fields _).asked from hx)
    exact ⟨f, hf, e, .inr (.inl ‹_›)⟩
  · cases h
    obtain ⟨f, hf, hk, e⟩ := objectType_asked (show x ∈ (objectTypeDescription v.fields _).asked from hx)
    exact ⟨f, hf, e, .inl hk⟩

theorem adjacent_asks {c : Container τ} {v : Variant τ} {tag content} (ht : c.attrs.tagType = .adjacent tag content) {r x}
    (h : adjacentAlternative v = .ok r) (hx : x ∈ r.asked) : VariantAsks c v x.1 := by
  unfold adjacentAlternative at h
  split at h
  · exact newtypeVariant_asks ‹_› h hx
  · cases h
    obtain ⟨f, hf, e⟩ := tupleType_asked (show x ∈ (tupleTypeDescription v.fields _).asked from hx)
    exact ⟨f, hf, e, .inr (.inl ‹_›)⟩
  · cases h
    obtain ⟨f, hf, e⟩ := tupleType_asked (show x ∈ (tupleTypeDescription v.fields _).asked from hx)
    exact ⟨f, hf, e, .inr (.inr (.inr ⟨_, _, ht⟩))⟩
  · cases h

theorem internal_asks {c c' : Container τ} {tag} {v : Variant τ} {r x} (h : internalAlternative c' tag v = .ok r)
    (hx : x ∈ r.asked) : VariantAsks c v x.1 := by
  unfold internalAlternative at h
  split at h
  · cases h
  · rename_i m hm
    cases h
    have hx : x ∈ m.asked := hx
    unfold internalInner at hm
    split at hm
    · cases hm
      obtain ⟨f, hf, _⟩ := objectType_asked (show x ∈ (objectTypeDescription [] _).asked from hx)
      cases hf
    · split at hm
      · cases hm
      · rename_i f fs hf
        cases hm
        simp only [ModelExpr.asked, List.mem_singleton] at hx
        exact ⟨f, by rw [hf]; exact List.mem_cons_self, by rw [hx], .inr (.inr (.inl ‹_›))⟩
    · cases hm
      obtain ⟨f, hf, hk, e⟩ := objectType_asked (show x ∈ (objectTypeDescription v.fields _).asked from hx)
      exact ⟨f, hf, e, .inl hk⟩
    · cases hm

theorem serializeEnum_asks {c : Container τ} {vs : List (Variant τ)} {e x} (h : serializeEnum c vs = .ok e)
    (hx : x ∈ e.asked) : ∃ v ∈ vs, v.attrs.skipSerializing = false ∧ VariantAsks c v x.1 := by
  have serial : ∀ v, v ∈ serialVariants vs → v ∈ vs ∧ v.attrs.skipSerializing = false := by
    intro v hv
    simpa [serialVariants] using hv
  unfold serializeEnum at h
  split at h
  · cases h
    unfold serializeNewtypeEnum at hx
    split at hx
    · rw [ModelExpr.asked, mem_askedList] at hx
      obtain ⟨r, hr, hx⟩ := hx
      obtain ⟨v, -, hv⟩ := List.mem_filterMap.1 hr
      unfold reprAlternative at hv
      cases hd : v.discriminant with
      | none => rw [hd] at hv; cases hv
      | some d => rw [hd] at hv; cases hv; cases hx
    · cases hx
  · rename_i tag content _ ht
    unfold serializeAdjacentEnum at h
    split at h
    · cases h
    · rename_i oneOf hm
      cases h
      simp only [ModelExpr.asked, TypeExpr.asked, PropExpr.askedList, RefExpr.asked, List.nil_append, List.append_nil,
        mem_askedList] at hx
      obtain ⟨r, hr, hx⟩ := hx
      obtain ⟨v, hv, ha⟩ := mapExcept_mem hm hr
      exact ⟨v, (serial v hv).1, (serial v hv).2, adjacent_asks ht ha hx⟩
  · unfold serializeExternalEnum at h
    split at h
    · cases h
    · rename_i oneOf hm
      cases h
      simp only [ModelExpr.asked, TypeExpr.asked, RefExpr.asked, mem_askedList] at hx
      obtain ⟨r, hr, hx⟩ := hx
      obtain ⟨v, hv, ha⟩ := mapExcept_mem hm hr
      exact ⟨v, (serial v hv).1, (serial v hv).2, external_asks ha hx⟩
  · unfold serializeUntaggedEnum at h
    split at h
    · cases h
    · rename_i oneOf hm
      cases h
      simp only [ModelExpr.asked, mem_askedList] at hx
      obtain ⟨r, hr, hx⟩ := hx
      obtain ⟨v, hv, ha⟩ := mapExcept_mem hm hr
      exact ⟨v, (serial v hv).1, (serial v hv).2, untagged_asks ha hx⟩
  · unfold serializeInternalEnum at h
    split at h
    · cases h
    · rename_i oneOf hm
      cases h
      simp only [ModelExpr.asked, mem_askedList] at hx
      obtain ⟨r, hr, hx⟩ := hx
      obtain ⟨v, hv, ha⟩ := mapExcept_mem hm hr
      exact ⟨v, (serial v hv).1, (serial v hv).2, internal_asks ha hx⟩
  · cases h

theorem serializeBody_asks {c : Container τ} {e x} (h : serializeBody c = .ok e) (hx : x ∈ e.asked) :
    ∃ f, x.1 = f.ty ∧ (FieldSerialized c f ∨ FieldPositional c f) := by
  unfold serializeBody at h
  split at h
  · rename_i vs hd
    obtain ⟨v, hv, hs, f, hf, e, hk⟩ := serializeEnum_asks h hx
    refine ⟨f, e, ?_⟩
    rcases hk with hk | hk
    · exact .inl (.variant hd hv hs hf hk)
    · exact .inr (.variant hd hv hs hf hk)
  · rename_i fs hd
    cases h
    obtain ⟨f, hf, hk, e⟩ := objectType_asked (show x ∈ (objectTypeDescription fs _).asked from hx)
    exact ⟨f, e, .inl (.struct hd hf hk)⟩
  · rename_i fs hd
    cases h
    obtain ⟨f, hf, e⟩ := tupleType_asked (show x ∈ (tupleTypeDescription fs _).asked from hx)
    exact ⟨f, e, .inr (.struct hd hf (.inl rfl))⟩
  · rename_i fs hd
    split at h
    · cases h
    · rename_i f fs'
      unfold serializeNewtypeStruct at h
      simp only at h
      split at h
      · cases h
      · cases h
        unfold newtypeModel at hx
        split at hx <;> cases hx
      · cases h
        simp only [ModelExpr.asked, List.mem_singleton] at hx
        exact ⟨f, by rw [hx], .inr (.struct hd List.mem_cons_self (.inr rfl))⟩
  · cases h

end Verif
