import Verif.Proof.Shuffle
/-!
# Declaring fields and variants in another order: generated code
-/

namespace Verif

variable {env env' : Env}

/-! ## Fields -/

theorem newtypeModel_turn {n p t} : ModelTurn (newtypeModel n p t) (newtypeModel n p t) := by
  unfold newtypeModel
  refine .single ?_
  cases t
  · exact .string
  · exact .integer
  · exact .number
  · exact .boolean
  · exact .boolean

theorem fieldReference_turn {p} {f : Field Ty} {i} : RefTurn (fieldModelReference p f i) (fieldModelReference p f i) := by
  unfold fieldModelReference
  split
  · exact .any
  · exact .inline newtypeModel_turn
  · exact .mention

theorem object_turn {fs fs' : List (Field Ty)} (hp : fs.Perm fs') (hn : ((serialFields fs).map Field.key).Nodup) {pred} :
    TypeTurn (objectTypeDescription fs pred) (objectTypeDescription fs' pred) := by
  unfold objectTypeDescription
  refine .object (propsTurn_of ((upToOrder_perm (S := Eq) (fun _ => rfl) (hp.filter _)).map ?_)) ?_
  · rintro a _ rfl
    exact ⟨rfl, rfl, fieldReference_turn⟩
  · rw [List.map_map]
    exact hn

theorem tuple_turn {fs fs' : List (Field Ty)} (hp : fs.Perm fs') {pred} :
    TypeTurn (tupleTypeDescription fs pred) (tupleTypeDescription fs' pred) := by
  unfold tupleTypeDescription
  refine .array (.inline (.oneOf (refsTurn_of ((upToOrder_perm (S := Eq) (fun _ => rfl) hp).map ?_))))
  rintro a _ rfl
  exact fieldReference_turn

/-! ## Variants -/

theorem Variant.Shuffled.attrs {v v' : Variant Ty} (h : v.Shuffled v') : v.attrs = v'.attrs ∧ v.style = v'.style ∧
    v.discriminant = v'.discriminant ∧ v.fields.Perm v'.fields ∧ (v.style ≠ .struct → v = v') := by
  cases h with
  | same => exact ⟨rfl, rfl, rfl, .refl _, fun _ => rfl⟩
  | fields hs hp => exact ⟨rfl, rfl, rfl, hp, fun h => absurd hs h⟩

/-- A variant of which the written fields, if they have names, have different ones. -/
def OrderlyVariant (v : Variant Ty) : Prop := v.style = .struct → ((serialFields v.fields).map Field.key).Nodup

/-- `f` gives, for variants in another order, alternatives in another order. -/
def Turns (f : Variant Ty → Except MacroPanic (RefExpr Ty)) : Prop :=
  ∀ v v', OrderlyVariant v → v.Shuffled v' → ∀ e, f v = .ok e → ∃ e', f v' = .ok e' ∧ RefTurn e e'

theorem newtypeVariant_turn {v : Variant Ty} {e} (h : newtypeVariantReference v = .ok e) : RefTurn e e := by
  unfold newtypeVariantReference at h
  split at h
  · cases h
  · cases h; exact fieldReference_turn

theorem untagged_turns : Turns untaggedAlternative := by
  intro v v' ho hv e he
  obtain ⟨ha, hs, -, hp, heq⟩ := hv.attrs
  unfold untaggedAlternative at he ⊢
  rw [← hs, ← ha]
  cases hst : v.style <;> simp only [hst] at he ⊢
  · cases he
    exact ⟨_, rfl, .inline (.single (object_turn hp (ho hst)))⟩
  · cases he
  · rw [← heq (by rw [hst]; nofun)]
    exact ⟨e, he, newtypeVariant_turn he⟩
  · cases he

theorem external_turns : Turns externalAlternative := by
  intro v v' ho hv e he
  obtain ⟨ha, hs, -, hp, heq⟩ := hv.attrs
  unfold externalAlternative at he ⊢
  rw [← hs, ← ha]
  cases hst : v.style <;> simp only [hst] at he ⊢
  · cases he
    exact ⟨_, rfl, .inline (.single (object_turn hp (ho hst)))⟩
  · cases he
    exact ⟨_, rfl, .inline (.single (tuple_turn hp))⟩
  · rw [← heq (by rw [hst]; nofun)]
    exact ⟨e, he, newtypeVariant_turn he⟩
  · cases he
    exact ⟨_, rfl, .inline (.single .string)⟩

theorem adjacent_turns : Turns adjacentAlternative := by
  intro v v' ho hv e he
  obtain ⟨ha, hs, -, hp, heq⟩ := hv.attrs
  unfold adjacentAlternative at he ⊢
  rw [← hs, ← ha]
  cases hst : v.style <;> simp only [hst] at he ⊢
  · cases he
    exact ⟨_, rfl, .inline (.single (tuple_turn hp))⟩
  · cases he
    exact ⟨_, rfl, .inline (.single (tuple_turn hp))⟩
  · rw [← heq (by rw [hst]; nofun)]
    exact ⟨e, he, newtypeVariant_turn he⟩
  · cases he

theorem internal_turns {c c' : Container Ty} {tag} (hi : c.ident = c'.ident) (hn : c.attrs.nullable = c'.attrs.nullable)
    {v v' : Variant Ty} (ho : OrderlyVariant v) (hv : v.Shuffled v') {e} (he : internalAlternative c tag v = .ok e) :
    ∃ e', internalAlternative c' tag v' = .ok e' ∧ RefTurn e e' := by
  obtain ⟨ha, hs, -, hp, heq⟩ := hv.attrs
  unfold internalAlternative at he ⊢
  have key : ∀ m, internalInner v = .ok m → ∃ m', internalInner v' = .ok m' ∧ ModelTurn m m' := by
    intro m hm
    unfold internalInner at hm ⊢
    rw [← hs, ← ha]
    cases hst : v.style <;> simp only [hst] at hm ⊢
    · cases hm
      exact ⟨_, rfl, .single (object_turn hp (ho hst))⟩
    · cases hm
    · rw [← heq (by rw [hst]; nofun)]
      refine ⟨m, hm, ?_⟩
      split at hm
      · cases hm
      · cases hm; exact .getSchemaWithParams
    · cases hm
      exact ⟨_, rfl, .single (object_turn .nil .nil)⟩
  cases hm : internalInner v with
  | error => rw [hm] at he; cases he
  | ok m =>
    rw [hm] at he
    cases he
    obtain ⟨m', hm', ht⟩ := key m hm
    rw [hm', ← hi, ← hn, ← ha]
    exact ⟨_, rfl, .inline (.tagged ht)⟩

/-! ## Enums -/

theorem mapExcept_insert {ε α β : Type} {f : α → Except ε β} {b r post} (hb : f b = .ok r) : ∀ {pre : List α} {rs},
    mapExcept f (pre ++ post) = .ok rs → ∃ p q, rs = p ++ q ∧ mapExcept f (pre ++ b :: post) = .ok (p ++ r :: q)
  | [], rs, h => ⟨[], rs, rfl, by
      rw [List.nil_append] at h
      simp only [List.nil_append, mapExcept, hb, h]⟩
  | a :: pre, rs, h => by
    simp only [List.cons_append, mapExcept] at h ⊢
    cases ha : f a with
    | error => rw [ha] at h; cases h
    | ok x =>
      rw [ha] at h
      cases ht : mapExcept f (pre ++ post) with
      | error => simp only [ht] at h; cases h
      | ok xs =>
        simp only [ht] at h
        cases h
        obtain ⟨p, q, rfl, hm⟩ := mapExcept_insert hb ht
        exact ⟨x :: p, q, rfl, by simp only [hm, List.cons_append]⟩

theorem mapExcept_turn {f g : Variant Ty → Except MacroPanic (RefExpr Ty)}
    (hf : ∀ v v', OrderlyVariant v → v.Shuffled v' → ∀ e, f v = .ok e → ∃ e', g v' = .ok e' ∧ RefTurn e e') {vs vs'}
    (h : UpToOrder Variant.Shuffled vs vs') (ho : ∀ v ∈ vs, OrderlyVariant v) {es} (he : mapExcept f vs = .ok es) :
    ∃ es', mapExcept g vs' = .ok es' ∧ RefsTurn es es' := by
  induction h generalizing es with
  | nil => cases he; exact ⟨[], rfl, .nil⟩
  | @cons a b as bs pre post h e t ih =>
    subst e
    simp only [mapExcept] at he
    cases ha : f a with
    | error => rw [ha] at he; cases he
    | ok x =>
      rw [ha] at he
      cases ht : mapExcept f as with
      | error => simp only [ht] at he; cases he
      | ok xs =>
        simp only [ht] at he
        cases he
        obtain ⟨es', hes, hr⟩ := ih (fun v hv => ho v (List.mem_cons_of_mem _ hv)) ht
        obtain ⟨x', hx, hrx⟩ := hf a b (ho a List.mem_cons_self) h x ha
        obtain ⟨p, q, rfl, hm⟩ := mapExcept_insert hx hes
        exact ⟨_, hm, .cons hrx rfl hr⟩

theorem serializeEnum_turn {c : Container Ty} {d : Data Ty} {vs vs'} (h : UpToOrder Variant.Shuffled vs vs')
    (ho : ∀ v ∈ writtenVariants vs, OrderlyVariant v)
    (ht : ∀ tag content, c.attrs.tagType = .adjacent tag content → tag ≠ content) {e} (he : serializeEnum c vs = .ok e) :
    ∃ e', serializeEnum { c with data := d } vs' = .ok e' ∧ ModelTurn e e' := by
  have hsv : UpToOrder Variant.Shuffled (serialVariants vs) (serialVariants vs') :=
    h.filter fun a b h => by rw [h.attrs.1]
  have hnames : ((serialVariants vs).map fun v => v.attrs.name.serialized).Perm
      ((serialVariants vs').map fun v => v.attrs.name.serialized) :=
    (hsv.map fun a b h => by rw [h.attrs.1]).perm
  have newtype : ModelTurn (serializeNewtypeEnum c vs) (serializeNewtypeEnum { c with data := d } vs') := by
    unfold serializeNewtypeEnum
    dsimp only
    split
    · refine .oneOf (refsTurn_of (hsv.filterMap ?_))
      intro a b h
      simp only [reprAlternative, ← h.attrs.1, ← h.attrs.2.2.1]
      cases a.discriminant with
      | none => exact .inl ⟨rfl, rfl⟩
      | some x => exact .inr ⟨_, _, rfl, rfl, .inline (.single .integer)⟩
    · exact .single (.values hnames)
  have adjacent : ∀ tag content, tag ≠ content → serializeAdjacentEnum c vs tag content = .ok e →
      ∃ e', serializeAdjacentEnum { c with data := d } vs' tag content = .ok e' ∧ ModelTurn e e' := by
    intro tag content hne he
    unfold serializeAdjacentEnum at he ⊢
    cases hes : mapExcept adjacentAlternative (serialVariants vs) with
    | error => rw [hes] at he; cases he
    | ok es =>
      rw [hes] at he
      cases he
      obtain ⟨es', hes', hr⟩ := mapExcept_turn adjacent_turns hsv ho hes
      rw [hes']
      refine ⟨_, rfl, .single (.object ?_ ?_)⟩
      · exact .cons (pre := []) (.inline (.single (.values hnames))) rfl
          (.cons (pre := []) (.inline (.oneOf hr)) rfl .nil)
      · simpa [PropExpr.nm] using hne
  have external : serializeExternalEnum c vs = .ok e →
      ∃ e', serializeExternalEnum { c with data := d } vs' = .ok e' ∧ ModelTurn e e' := by
    intro he
    unfold serializeExternalEnum at he ⊢
    cases hes : mapExcept externalAlternative (serialVariants vs) with
    | error => rw [hes] at he; cases he
    | ok es =>
      rw [hes] at he
      cases he
      obtain ⟨es', hes', hr⟩ := mapExcept_turn external_turns hsv ho hes
      rw [hes']
      exact ⟨_, rfl, .single (.dictionary (.inline (.oneOf hr)))⟩
  have untagged : serializeUntaggedEnum c vs = .ok e →
      ∃ e', serializeUntaggedEnum { c with data := d } vs' = .ok e' ∧ ModelTurn e e' := by
    intro he
    unfold serializeUntaggedEnum at he ⊢
    cases hes : mapExcept untaggedAlternative (serialVariants vs) with
    | error => rw [hes] at he; cases he
    | ok es =>
      rw [hes] at he
      cases he
      obtain ⟨es', hes', hr⟩ := mapExcept_turn untagged_turns hsv ho hes
      rw [hes']
      exact ⟨_, rfl, .oneOf hr⟩
  have internal : ∀ tag, serializeInternalEnum c vs tag = .ok e →
      ∃ e', serializeInternalEnum { c with data := d } vs' tag = .ok e' ∧ ModelTurn e e' := by
    intro tag he
    unfold serializeInternalEnum at he ⊢
    cases hes : mapExcept (internalAlternative c tag) (serialVariants vs) with
    | error => rw [hes] at he; cases he
    | ok es =>
      rw [hes] at he
      cases he
      obtain ⟨es', hes', hr⟩ := mapExcept_turn (g := internalAlternative { c with data := d } tag)
        (fun v v' ho hv e he => internal_turns rfl rfl ho hv he) hsv ho hes
      rw [hes']
      exact ⟨_, rfl, .oneOf hr⟩
  unfold serializeEnum at he ⊢
  dsimp only
  cases hmt : c.attrs.modelType <;> cases htt : c.attrs.tagType <;> simp only [hmt, htt] at he ⊢
  all_goals first
    | cases he; exact ⟨_, rfl, newtype⟩
    | exact adjacent _ _ (ht _ _ htt) he
    | exact external he
    | exact untagged he
    | exact internal _ he
    | cases he

/-! ## Types -/

theorem refl_upToOrder {α : Type} {S : α → α → Prop} (hS : ∀ a, S a a) (l : List α) : UpToOrder S l l :=
  upToOrder_perm hS (.refl l)

theorem serializeBody_turn {c c' : Container Ty} (o : Orderly c) (h : c.Shuffled c') {e} (he : serializeBody c = .ok e) :
    ∃ e', serializeBody c' = .ok e' ∧ ModelTurn e e' := by
  obtain ⟨h⟩ := h
  have enum : ∀ {vs vs' d}, c.data = .enum vs → UpToOrder Variant.Shuffled vs vs' → serializeEnum c vs = .ok e →
      ∃ e', serializeEnum { c with data := d } vs' = .ok e' ∧ ModelTurn e e' := fun hd hv he =>
    serializeEnum_turn hv (o.variants _ hd) o.tag he
  have struct : ∀ {fs fs' d}, c.data = .struct .struct fs → fs.Perm fs' →
      ModelTurn (serializeStruct c fs) (serializeStruct { c with data := d } fs') := fun hd hp =>
    .single (object_turn hp (o.struct _ hd))
  unfold serializeBody at he ⊢
  dsimp only
  cases hd : c.data with
  | enum vs =>
    rw [hd] at he h
    dsimp only at he
    cases h with
    | same => exact enum hd (refl_upToOrder (fun _ => .same) vs) he
    | variants h => exact enum hd h he
  | struct s fs =>
    rw [hd] at he h
    cases h with
    | same =>
      cases s with
      | struct => cases he; exact ⟨_, rfl, struct hd (.refl _)⟩
      | tuple => cases he; exact ⟨_, rfl, .single (tuple_turn (.refl _))⟩
      | unit => cases he
      | newType =>
        cases fs with
        | nil => cases he
        | cons f fs =>
          refine ⟨e, he, ?_⟩
          dsimp only at he
          unfold serializeNewtypeStruct at he
          dsimp only at he
          split at he
          · cases he
          · cases he; exact newtypeModel_turn
          · cases he; exact .getSchemaWithParams
    | fields h => cases he; exact ⟨_, rfl, struct hd h⟩

theorem schemaExpr_turn (hs : env.Shuffled env') (t : Ty) (ho : ∀ i, t = .named i → Orderly (env.decl i)) {e}
    (he : schemaExpr env t = some e) : ∃ e', schemaExpr env' t = some e' ∧ ModelTurn e e' := by
  cases t with
  | prim p =>
    cases he
    refine ⟨_, rfl, .single ?_⟩
    cases p.schema.1
    all_goals first | exact .string | exact .number | exact .integer | exact .boolean
  | wrap w t => cases he; exact ⟨_, rfl, .getSchema⟩
  | option t => cases he; exact ⟨_, rfl, .getSchemaWithParams⟩
  | tuple ts =>
    cases he
    refine ⟨_, rfl, .single (.array (.inline (.oneOf (refsTurn_of ((refl_upToOrder (S := Eq) (fun _ => rfl) ts).map ?_)))))⟩
    rintro a _ rfl
    exact .mention
  | seq k t => cases he; exact ⟨_, rfl, .single (.array .mention)⟩
  | dict k t => cases he; exact ⟨_, rfl, .single (.dictionary .mention)⟩
  | unit => cases he; exact ⟨_, rfl, .single .string⟩
  | uuid => cases he; exact ⟨_, rfl, .single .string⟩
  | naiveDateTime => cases he; exact ⟨_, rfl, .single .string⟩
  | dateTime => cases he; exact ⟨_, rfl, .single .string⟩
  | naiveDate => cases he; exact ⟨_, rfl, .single .string⟩
  | named i =>
    simp only [schemaExpr] at he ⊢
    cases hb : serializeBody (env.decl i) with
    | error => rw [hb] at he; cases he
    | ok b =>
      rw [hb] at he
      cases he
      obtain ⟨e', he', ht⟩ := serializeBody_turn (ho i rfl) (hs.decl i) hb
      rw [he']
      exact ⟨e', rfl, ht⟩

/-! ## Asking for types -/
theorem askedList_append : ∀ as bs : List (RefExpr Ty),
    RefExpr.askedList (as ++ bs) = RefExpr.askedList as ++ RefExpr.askedList bs
  | [], _ => rfl
  | a :: as, bs => by simp only [List.cons_append, RefExpr.askedList, askedList_append as bs, List.append_assoc]

theorem propAsked_append : ∀ as bs : List (PropExpr Ty),
    PropExpr.askedList (as ++ bs) = PropExpr.askedList as ++ PropExpr.askedList bs
  | [], _ => rfl
  | .mk _ _ _ :: as, bs => by simp only [List.cons_append, PropExpr.askedList, propAsked_append as bs, List.append_assoc]

mutual
theorem RefTurn.asked {e e'} : RefTurn e e' → ∀ x, x ∈ e.asked ↔ x ∈ e'.asked
  | .mention, _ => Iff.rfl
  | .inline h, x => by simp only [RefExpr.asked]; exact h.asked x
  | .any, _ => Iff.rfl
theorem ModelTurn.asked {e e'} : ModelTurn e e' → ∀ x, x ∈ e.asked ↔ x ∈ e'.asked
  | .getSchema, _ => Iff.rfl
  | .getSchemaWithParams, _ => Iff.rfl
  | .single h, x => by simp only [ModelExpr.asked]; exact h.asked x
  | .oneOf h, x => by simp only [ModelExpr.asked]; exact h.asked x
  | .tagged h, x => by simp only [ModelExpr.asked]; exact h.asked x
theorem TypeTurn.asked {e e'} : TypeTurn e e' → ∀ x, x ∈ e.asked ↔ x ∈ e'.asked
  | .string, _ => Iff.rfl
  | .values _, _ => Iff.rfl
  | .number, _ => Iff.rfl
  | .integer, _ => Iff.rfl
  | .boolean, _ => Iff.rfl
  | .array h, x => by simp only [TypeExpr.asked]; exact h.asked x
  | .object h _, x => by simp only [TypeExpr.asked]; exact h.asked x
  | .dictionary h, x => by simp only [TypeExpr.asked]; exact h.asked x
theorem RefsTurn.asked {e e'} : RefsTurn e e' → ∀ x, x ∈ RefExpr.askedList e ↔ x ∈ RefExpr.askedList e'
  | .nil, _ => Iff.rfl
  | .cons (pre := pre) h e t, x => by
    subst e
    have ht := t.asked x
    simp only [askedList_append, RefExpr.askedList, List.mem_append, h.asked x] at ht ⊢
    rw [ht, or_left_comm]
theorem PropsTurn.asked {e e'} : PropsTurn e e' → ∀ x, x ∈ PropExpr.askedList e ↔ x ∈ PropExpr.askedList e'
  | .nil, _ => Iff.rfl
  | .cons (pre := pre) h e t, x => by
    subst e
    have ht := t.asked x
    simp only [propAsked_append, PropExpr.askedList, List.mem_append, h.asked x] at ht ⊢
    rw [ht, or_left_comm]
end

/-! ## Schemas -/

theorem Expands.turn (hs : env.Shuffled env') (ho : ∀ i, Orderly (env.decl i)) {t} (h : Expands env t) : Expands env' t := by
  induction h with
  | intro he _ ih =>
    obtain ⟨e', he', ht⟩ := schemaExpr_turn hs _ (fun i _ => ho i) he
    exact .intro he' fun t' b hb => ih t' b ((ht.asked _).2 hb)

/-- Schemas of a type are the same up to order. -/
theorem expands_same (hs : env.Shuffled env') (ho : ∀ i, Orderly (env.decl i)) {t} (h : Expands env t) : SameAt env env' t := by
  induction h with
  | intro he _ ih =>
    intro m m' hm hm'
    obtain ⟨e', he', ht⟩ := schemaExpr_turn hs _ (fun i _ => ho i) he
    exact modelTurn_same hs ht (fun x hx => ih x.1 x.2 hx) (hasSchema_yields hm he) (hasSchema_yields hm' he')

theorem Asks.turn (hs : env.Shuffled env') (ho : ∀ i, Orderly (env.decl i)) {t t' b} (h : Asks env t t' b) : Asks env' t t' b := by
  obtain ⟨e, he, ha⟩ := h
  obtain ⟨e', he', ht⟩ := schemaExpr_turn hs _ (fun i _ => ho i) he
  exact ⟨e', he', (ht.asked _).1 ha⟩

/-! ## Registries -/

/-- The same types are reached, and they have finite expansions. -/
theorem reached_turn (hs : env.Shuffled env') (ho : ∀ i, Orderly (env.decl i)) {roots}
    (hx : ∀ t, Reached env roots t → Expands env t) {t} : Reached env' roots t ↔ Reached env roots t := by
  constructor
  · intro h
    induction h with
    | root h => exact .root h
    | step _ ha ih =>
      obtain ⟨e', he', ha⟩ := ha
      obtain ⟨he, _⟩ := hx _ ih
      obtain ⟨e₁, he₁, ht⟩ := schemaExpr_turn hs _ (fun i _ => ho i) he
      rw [he'] at he₁
      cases he₁
      exact .step ih ⟨_, he, (ht.asked _).2 ha⟩
  · intro h
    induction h with
    | root h => exact .root h
    | step _ ha ih => exact .step ih (ha.turn hs ho)

theorem linked_turn (hs : env.Shuffled env') (ho : ∀ i, Orderly (env.decl i)) {roots}
    (hx : ∀ t, Reached env roots t → Expands env t) {t} : Linked env' roots t ↔ Linked env roots t := by
  refine or_congr_right ⟨?_, ?_⟩
  · rintro ⟨u, hu, ha⟩
    have hu := (reached_turn hs ho hx).1 hu
    obtain ⟨e', he', ha⟩ := ha
    obtain ⟨he, _⟩ := hx _ hu
    obtain ⟨e₁, he₁, ht⟩ := schemaExpr_turn hs _ (fun i _ => ho i) he
    rw [he'] at he₁
    cases he₁
    exact ⟨u, hu, _, he, (ht.asked _).2 ha⟩
  · rintro ⟨u, hu, ha⟩
    exact ⟨u, (reached_turn hs ho hx).2 hu, ha.turn hs ho⟩

theorem unique_turn (hs : env.Shuffled env') (ho : ∀ i, Orderly (env.decl i)) {roots}
    (hx : ∀ t, Reached env roots t → Expands env t) (hu : NamesUnique env roots) : NamesUnique env' roots := by
  intro t t' name h h' hn hn'
  rw [linked_turn hs ho hx] at h h'
  rw [hs.typeName] at hn hn'
  exact hu t t' name h h' hn hn'

theorem mention_security {t i p cx r cx'} (h : MentionReturns env t i p cx r cx') : cx'.securitySchemes = cx.securitySchemes := by
  obtain ⟨n, hn⟩ := h
  exact mentionSchema_security hn

theorem calls_turn (hs : env.Shuffled env') (ho : ∀ i, Orderly (env.decl i)) {cx calls rs cx1}
    (run : CallsReturn env cx calls rs cx1) (hm : ∀ c ∈ calls, c.isMention = true)
    (hv : ∀ t i p, .mention t i p ∈ calls → p.variants = none) (hx : ∀ x ∈ rootsOf calls, Expands env x.1) :
    ∀ cx', cx'.securitySchemes = cx.securitySchemes → ∃ rs' cx1', CallsReturn env' cx' calls rs' cx1' ∧
      Pointwise SameRef rs rs' ∧ cx1'.securitySchemes = cx1.securitySchemes := by
  induction run with
  | nil cx => intro cx' h; exact ⟨[], cx', .nil _, .nil, h⟩
  | @mention cx t i p r cx1 calls rs cx2 h hr ih =>
    intro cx' hc
    simp only [rootsOf, List.mem_cons, forall_eq_or_imp] at hx
    have hx' := hx.1.turn hs ho
    obtain ⟨r', cx1', hm'⟩ := expands_mention hx' i p cx'
    have e1 := mention_security h
    have e2 := mention_security hm'
    obtain ⟨rs', cx2', h1, h2, h3⟩ := ih (fun c hc => hm c (List.mem_cons_of_mem _ hc))
      (fun t i p h => hv t i p (List.mem_cons_of_mem _ h)) hx.2 cx1' (by rw [e1, e2, hc])
    refine ⟨r' :: rs', cx2', .mention hm' h1, .cons ?_ h2, h3⟩
    exact mention_turn hs (hv t i p List.mem_cons_self) (expands_same hs ho hx.1) ⟨_, _, h⟩ ⟨_, _, hm'⟩
  | addModel => exact absurd (hm _ List.mem_cons_self) nofun
  | @security cx n s calls rs cx2 hr ih =>
    intro cx' hc
    obtain ⟨rs', cx2', h1, h2, h3⟩ := ih (fun c hc => hm c (List.mem_cons_of_mem _ hc))
      (fun t i p h => hv t i p (List.mem_cons_of_mem _ h)) hx (cx'.mentionSecurityScheme n s).2
        (by simp only [Components.mentionSecurityScheme, hc]; split <;> simp [hc])
    exact ⟨rs', cx2', .security h1, h2, h3⟩

end Verif
