import Verif.Spec.Narrow
import Verif.Proof.Neutral
import Verif.Proof.Precise
/-!
# Programs that ask for more: proofs
-/

namespace Verif

/-! ## Schemas that accept less -/

mutual
/-- What the first accepts is accepted by the second. -/
inductive Sub (reg reg' : List (String × Model)) : Ref → Ref → Prop
  | any : Sub reg reg' .any .any
  | model {r r' m m'} (h : Resolved reg r m) (h' : Resolved reg' r' m') (hs : SubModel reg reg' m m') : Sub reg reg' r r'
inductive SubModel (reg reg' : List (String × Model)) : Model → Model → Prop
  | single {d d' n n' td td'} (hn : n = true → n' = true) (h : SubDesc reg reg' td td') :
      SubModel reg reg' ⟨d, .single ⟨n, td⟩⟩ ⟨d', .single ⟨n', td'⟩⟩
  | oneOf {d d' rs rs'} (f : Nat → Nat) (hf : ∀ k, k < rs.length → f k < rs'.length)
      (h : ∀ (k : Nat) r r', rs[k]? = some r → rs'[f k]? = some r' → Sub reg reg' r r') :
      SubModel reg reg' ⟨d, .oneOf rs⟩ ⟨d', .oneOf rs'⟩
inductive SubDesc (reg reg' : List (String × Model)) : TypeDesc → TypeDesc → Prop
  | free {v f e f' e'} : SubDesc reg reg' (.string v f e) (.string none f' e')
  | string {v v' f e f' e'} (h : ∀ t ∈ v, t ∈ v') : SubDesc reg reg' (.string (some v) f e) (.string (some v') f' e')
  | number {f e f' e'} : SubDesc reg reg' (.number f e) (.number f' e')
  | integer {f e f' e'} : SubDesc reg reg' (.integer f e) (.integer f' e')
  | boolean : SubDesc reg reg' .boolean .boolean
  | array {r r'} (h : Sub reg reg' r r') : SubDesc reg reg' (.array r) (.array r')
  | object {o o' : ModelObject} (hr : ∀ k ∈ o'.required, k ∈ o.required)
      (hp : ∀ k, BMap.get k o.properties = none → BMap.get k o'.properties = none)
      (hs : ∀ k r r', BMap.get k o.properties = some r → BMap.get k o'.properties = some r' → Sub reg reg' r r')
      (ha : o'.additional ≠ none → o.additional ≠ none ∧
        ∀ k, BMap.get k o'.properties = none → BMap.get k o.properties = none)
      (has : ∀ r r', o.additional = some r → o'.additional = some r' → Sub reg reg' r r') :
      SubDesc reg reg' (.object o) (.object o')
end

variable {reg reg' : List (String × Model)}

mutual
theorem sub_valid {r j} : Valid false reg r j → ∀ {r'}, Sub reg reg' r r' → Valid false reg' r' j
  | .any, r', hs => by
    cases hs with
    | any => exact .any
    | model h => cases h
  | .link hg hv, r', hs => by
    cases hs with
    | model h h' hs =>
      cases h with
      | link h =>
        rw [hg] at h; cases h
        exact h'.valid (sub_validModel hv hs)
  | .inline hv, r', hs => by
    cases hs with
    | model h h' hs =>
      cases h with
      | inline => exact h'.valid (sub_validModel hv hs)
theorem sub_validModel {m j} : ValidModel false reg m j → ∀ {m'}, SubModel reg reg' m m' → ValidModel false reg' m' j
  | .null, m', hs => by
    cases hs with
    | single hn hd => rw [hn rfl]; exact .null
  | .string h, m', hs => by
    cases hs with
    | single hn hd =>
      cases hd with
      | free => exact .string (fun _ h => nomatch h)
      | string hv => exact .string (by rintro _ ⟨⟩; exact hv _ (h _ rfl))
  | .number, m', hs => by cases hs with | single hn hd => cases hd; exact .number
  | .numberInt, m', hs => by cases hs with | single hn hd => cases hd; exact .numberInt
  | .integer, m', hs => by cases hs with | single hn hd => cases hd; exact .integer
  | .boolean, m', hs => by cases hs with | single hn hd => cases hd; exact .boolean
  | .array h, m', hs => by
    cases hs with
    | single hn hd =>
      cases hd with
      | array hd => exact .array fun y hy => sub_valid (h y hy) hd
  | .object hr hp ha, m', hs => by
    cases hs with
    | single hn hd =>
      cases hd with
      | object er ep es ea eas =>
        refine .object (fun k hk => hr k (er k hk)) ?_ ?_
        · intro k v r' hm hg
          obtain ⟨r, hg'⟩ : ∃ r, BMap.get k _ = some r := Option.ne_none_iff_exists'.1 fun h => by
            rw [ep k h] at hg; cases hg
          exact sub_valid (hp k v r hm hg') (es k r r' hg' hg)
        · intro k v r' hm hg hh
          obtain ⟨h1, h2⟩ := ea (by rw [hh]; simp)
          obtain ⟨r, hr'⟩ := Option.ne_none_iff_exists'.1 h1
          exact sub_valid (ha k v r hm (h2 k hg) hr') (eas r r' hr' hh)
  | .oneOf (pre := pre) he hv hx, m', hs => by
    cases hs with
    | @oneOf d d' rs rs' f hf h =>
      have hk' := hf pre.length (by rw [he]; simp)
      have := sub_valid hv (h pre.length _ _ (by rw [he]; simp) (List.getElem?_eq_getElem hk'))
      refine .oneOf (pre := rs'.take (f pre.length)) (post := rs'.drop (f pre.length + 1)) ?_ this (by rintro ⟨⟩)
      rw [List.getElem_cons_drop, List.take_append_drop]
  | .anyOf .., m', hs => by cases hs
  | .allOf .., m', hs => by cases hs
end

/-- Alternatives each of which is below one of the others. -/
theorem sub_oneOf {d d' rs rs'} (h : ∀ r ∈ rs, ∃ r' ∈ rs', Sub reg reg' r r') :
    SubModel reg reg' ⟨d, .oneOf rs⟩ ⟨d', .oneOf rs'⟩ := by
  have key : ∀ k : Nat, ∃ l : Nat, ∀ r, rs[k]? = some r → ∃ r', rs'[l]? = some r' ∧ Sub reg reg' r r' := by
    intro k
    cases hk : rs[k]? with
    | none => exact ⟨0, by simp⟩
    | some r =>
      obtain ⟨r', hr', hs⟩ := h r (List.mem_of_getElem? hk)
      obtain ⟨l, hl, rfl⟩ := List.getElem_of_mem hr'
      exact ⟨l, by rintro _ ⟨⟩; exact ⟨_, List.getElem?_eq_getElem hl, hs⟩⟩
  obtain ⟨f, hf⟩ := Classical.axiomOfChoice key
  refine .oneOf f ?_ ?_
  · intro k hk
    obtain ⟨r', hr', -⟩ := hf k _ (List.getElem?_eq_getElem hk)
    exact (List.getElem?_eq_some_iff.1 hr').1
  · intro k r r' hr hr'
    obtain ⟨q, hq, hs⟩ := hf k r hr
    rw [hr'] at hq; cases hq
    exact hs

/-! ## Metadata and tags -/

theorem subDesc_applyParams {td td' p p'} (hv : p.variants = none) (hv' : p'.variants = none)
    (h : SubDesc reg reg' td td') : SubDesc reg reg' (td.applyParams p) (td'.applyParams p') := by
  cases h with
  | free => simp only [TypeDesc.applyParams, hv, hv', overrideOpt]; exact .free
  | string h => simp only [TypeDesc.applyParams, hv, hv', overrideOpt]; exact .string h
  | number => exact .number
  | integer => exact .integer
  | boolean => exact .boolean
  | array h => exact .array h
  | object hr hp hs ha has => exact .object hr hp hs ha has

theorem sub_applyParams {m m' p p'} (hv : p.variants = none) (hv' : p'.variants = none) (hn : p.nullable = p'.nullable)
    (h : SubModel reg reg' m m') : SubModel reg reg' (m.applyParams p) (m'.applyParams p') := by
  cases h with
  | single hs h =>
    simp only [Model.applyParams, ModelData.applyParams, ModelType.applyParams, hn]
    refine .single ?_ (subDesc_applyParams hv hv' h)
    cases p'.nullable
    · exact hs
    · exact fun h => h
  | oneOf f hf h => exact .oneOf f hf h

theorem stringEnum_sub {d d' vs ws} (h : ∀ t ∈ vs, t ∈ ws) : SubModel reg reg' (stringEnum d vs) (stringEnum d' ws) :=
  .single (fun h => h) (.string h)

theorem tagged_sub {tag de de' value m₀ m₀' m m'} (h : SubModel reg reg' m₀ m₀') (ht : Tagged tag de value m₀ m)
    (ht' : Tagged tag de' value m₀' m') (hfree : ∀ d n o, m₀ = objectSchema d n o → tag ∉ BMap.keys o.properties) :
    SubModel reg reg' m m' := by
  cases ht with
  | clash d n o e hn hm => exact absurd hn (hfree d n o e)
  | added d n o e hn hm =>
    subst e hm
    cases h with
    | single hnn hd =>
      cases hd with
      | @object o o' hr hp hs ha has =>
        cases ht' with
        | added d' n' o' e' hn' hm' =>
          cases e'
          subst hm'
          refine .single hnn (.object ?_ ?_ ?_ ?_ has)
          · intro k hk
            rcases List.mem_append.1 hk with hk | hk
            · exact List.mem_append_left _ (hr k hk)
            · exact List.mem_append_right _ hk
          · intro k
            simp only [BMap.get_insert]
            split
            · simp
            · exact hp k
          · intro k r r'
            simp only [BMap.get_insert]
            split
            · rintro ⟨⟩ ⟨⟩; exact .model .inline .inline (stringEnum_sub fun _ h => h)
            · exact hs k r r'
          · intro h
            obtain ⟨h1, h2⟩ := ha h
            refine ⟨h1, fun k => ?_⟩
            simp only [BMap.get_insert]
            split
            · simp
            · exact h2 k
        | clash d' n' o' e' hn' hm' =>
          cases e'
          exact absurd (hp tag (BMap.get_eq_none_iff.2 hn)) (fun h => BMap.get_eq_none_iff.1 h hn')
        | notObject hh => exact absurd rfl (hh _ _ _)
  | notObject hh hm =>
    cases ht' with
    | added d' n' o' e' hn' hm' =>
      subst e'
      cases h with
      | single hnn hd => cases hd <;> exact absurd rfl (hh _ _ _)
    | clash d' n' o' e' hn' hm' => subst hm hm'; exact h
    | notObject hh' hm' => subst hm hm'; exact h

/-! ## Fields -/

variable {env env' : Env} {roots roots' : List (Ty × Bool)}

/-- Schemas of `t` in the first program are below those in the second. -/
abbrev Below (env env' : Env) (reg reg' : List (String × Model)) (t : Ty) : Prop :=
  ∀ m m', HasSchema env t m → HasSchema env' t m' → SubModel reg reg' m m'

theorem typeName_narrows (N : env.Narrows env') : ∀ t : Ty, typeName env t = typeName env' t
  | .wrap _ t => by simp only [typeName]; exact typeName_narrows N t
  | .option t => by simp only [typeName]; exact typeName_narrows N t
  | .named i => by simp only [typeName, Container.typeName, (N i).inline, (N i).ident]
  | .prim _ => rfl
  | .tuple _ => rfl
  | .seq _ _ => rfl
  | .dict _ _ => rfl
  | .unit => rfl
  | .uuid => rfl
  | .naiveDateTime => rfl
  | .dateTime => rfl
  | .naiveDate => rfl

theorem mention_sub (T : Tidy env roots reg) (T' : Tidy env' roots' reg') (N : env.Narrows env') {t i p p' r r'}
    (hv : p.variants = none) (hv' : p'.variants = none) (hn : p.nullable = p'.nullable)
    (hm : Mentions env t i p r) (hm' : Mentions env' t i p' r') (hs : Seen env roots (t, !i))
    (hs' : Seen env' roots' (t, !i)) (hb : Below env env' reg reg' t) : Sub reg reg' r r' := by
  obtain ⟨cx, cx', hm⟩ := hm
  obtain ⟨cy, cy', hm'⟩ := hm'
  have hl : linkName env t i = linkName env' t i := by simp only [linkName, typeName_narrows N t]
  rcases mentionReturns_iff.1 hm with ⟨l, hln, rfl, _⟩ | ⟨hln, m, hsr, rfl⟩ <;>
    rcases mentionReturns_iff.1 hm' with ⟨l', hln', rfl, _⟩ | ⟨hln', m', hsr', rfl⟩
  · obtain ⟨rfl, hn⟩ := linkName_some hln
    obtain ⟨-, hn'⟩ := linkName_some hln'
    obtain ⟨m, cx1, hsr⟩ := expands_returns (T.expands t hs.1) cx
    obtain ⟨m', cy1, hsr'⟩ := expands_returns (T'.expands t hs'.1) cy
    exact .model (.link (T.registered t l m (hs.2 rfl) hn ⟨_, _, hsr⟩))
      (.link (T'.registered t l' m' (hs'.2 rfl) hn' ⟨_, _, hsr'⟩)) (hb m m' ⟨_, _, hsr⟩ ⟨_, _, hsr'⟩)
  · rw [hl, hln'] at hln; cases hln
  · rw [hl, hln'] at hln; cases hln
  · exact .model .inline .inline (sub_applyParams hv hv' hn (hb m m' ⟨_, _, hsr⟩ ⟨_, _, hsr'⟩))

theorem explicitModel_sub {t n p p'} : SubModel reg reg' (explicitModel t n p) (explicitModel t n p') := by
  refine .single (fun h => h) ?_
  cases t
  · exact .free
  · exact .integer
  · exact .number
  · exact .boolean
  · exact .boolean

/-- What is known about a type asked for in both programs. -/
structure Both (env env' : Env) (roots roots' : List (Ty × Bool)) (reg reg' : List (String × Model)) (t : Ty) (b : Bool) :
    Prop where
  seen : Seen env roots (t, b)
  seen' : Seen env' roots' (t, b)
  below : Below env env' reg reg' t

theorem fieldRef_sub (T : Tidy env roots reg) (T' : Tidy env' roots' reg') (N : env.Narrows env') {f g : Field Ty}
    (h : f.Narrows g) {doc doc' i r r'} (hv : doc.variants = none) (hv' : doc'.variants = none)
    (hn : doc.nullable = doc'.nullable) (hr : FieldRef env doc i f r) (hr' : FieldRef env' doc' i g r')
    (hb : f.attrs.explicitModelType = none → Both env env' roots roots' reg reg' f.ty !i) : Sub reg reg' r r' := by
  unfold FieldRef at hr hr'
  rw [← h.explicit, ← h.nullable, ← h.ty] at hr'
  cases he : f.attrs.explicitModelType with
  | some t =>
    rw [he] at hr hr'
    cases t
    case any => subst hr hr'; exact .any
    all_goals subst hr hr'; exact .model .inline .inline explicitModel_sub
  | none =>
    rw [he] at hr hr'
    have := hb he
    exact mention_sub T T' N hv hv' hn hr hr' this.seen this.seen' this.below

/-- A type asked for by the code of both programs. -/
abbrev BothAsked (env env' : Env) (roots roots' : List (Ty × Bool)) (reg reg' : List (String × Model))
    (as as' : List (Ty × Bool)) : Prop :=
  ∀ t b, (t, b) ∈ as → (t, b) ∈ as' → Both env env' roots roots' reg reg' t b

theorem doc_nullable {f g : Field Ty} (h : f.Narrows g) : (f.doc env).nullable = (g.doc env').nullable := by
  simp only [Field.doc, h.nullable]

theorem object_sub (T : Tidy env roots reg) (T' : Tidy env' roots' reg') (N : env.Narrows env') {fs gs : List (Field Ty)}
    (h : FieldsNarrow fs gs) {inl o o'} (ho : ObjectOf env inl fs o) (ho' : ObjectOf env' inl gs o')
    (hb : BothAsked env env' roots roots' reg reg' (objectTypeDescription fs fun f => inl || f.attrs.inline).asked
      (objectTypeDescription gs fun f => inl || f.attrs.inline).asked) :
    SubDesc reg reg' (.object o) (.object o') := by
  obtain ⟨hnd, hfs⟩ := h
  refine .object ?_ ?_ ?_ (by simp [ho'.additional]) (by simp [ho'.additional])
  · intro k hk
    rw [ho'.required] at hk
    rw [ho.required]
    obtain ⟨g, hg, rfl⟩ := List.mem_map.1 hk
    obtain ⟨hg1, hg2⟩ := List.mem_filter.1 hg
    obtain ⟨f, hf, hn⟩ := hfs g hg1
    exact List.mem_map.2 ⟨f, List.mem_filter.2 ⟨hf, by simp [hn.required (by simpa using hg2)]⟩, hn.key⟩
  · intro k hk
    rw [BMap.get_eq_none_iff, ho.names] at hk
    rw [BMap.get_eq_none_iff, ho'.names]
    rintro ⟨g, hg, rfl⟩
    obtain ⟨f, hf, hn⟩ := hfs g hg
    exact hk ⟨f, hf, hn.key⟩
  · intro k r r' hr hr'
    obtain ⟨pre, f, post, hsp, rfl, -, hfr⟩ := ho.refs k r hr
    obtain ⟨pre', g, post', hsp', hgk, -, hgr⟩ := ho'.refs _ r' hr'
    have hf : f ∈ serialFields fs := by rw [hsp]; simp
    have hg : g ∈ serialFields gs := by rw [hsp']; simp
    obtain ⟨f', hf', hn⟩ := hfs g hg
    obtain rfl := key_inj hnd hf hf' (by rw [hn.key, hgk])
    rw [← hn.inline] at hgr
    refine fieldRef_sub T T' N hn rfl rfl (doc_nullable hn) hfr hgr ?_
    intro he
    refine hb _ _ (asked_object hf he) ?_
    have := asked_object (pred := fun f => inl || f.attrs.inline) hg (by rw [← hn.explicit]; exact he)
    simp only [← hn.inline, ← hn.ty] at this
    exact this

theorem tuple_sub (T : Tidy env roots reg) (T' : Tidy env' roots' reg') (N : env.Narrows env') {fs gs : List (Field Ty)}
    (h : Pointwise Field.Narrows fs gs) {inl rs rs'} (ho : RefsOf env inl fs rs) (ho' : RefsOf env' inl gs rs')
    (hb : BothAsked env env' roots roots' reg reg' (tupleTypeDescription fs fun f => inl || f.attrs.inline).asked
      (tupleTypeDescription gs fun f => inl || f.attrs.inline).asked) :
    SubDesc reg reg' (.array (.inline ⟨none, .oneOf rs⟩)) (.array (.inline ⟨none, .oneOf rs'⟩)) := by
  refine .array (.model .inline .inline (sub_oneOf ?_))
  intro r hr
  obtain ⟨f, hf, hfr⟩ := Pointwise.mem_rightP ho hr
  obtain ⟨g, hg, hn⟩ := h.mem_left hf
  obtain ⟨r', hr', hgr⟩ := ho'.mem_left hg
  rw [← hn.inline] at hgr
  refine ⟨r', hr', fieldRef_sub T T' N hn rfl rfl (doc_nullable hn) hfr hgr ?_⟩
  intro he
  refine hb _ _ (asked_tuple hf he) ?_
  have := asked_tuple (pred := fun f => inl || f.attrs.inline) hg (by rw [← hn.explicit]; exact he)
  simp only [← hn.inline, ← hn.ty] at this
  exact this

/-! ## Variants -/

theorem newtypeVariant_sub (T : Tidy env roots reg) (T' : Tidy env' roots' reg') (N : env.Narrows env') {v w : Variant Ty}
    (h : Pointwise Field.Narrows v.fields w.fields) (hi : v.attrs.inline = w.attrs.inline) {e e' r r'}
    (he : newtypeVariantReference v = .ok e) (he' : newtypeVariantReference w = .ok e')
    (hy : e.Yields env r) (hy' : e'.Yields env' r')
    (hb : BothAsked env env' roots roots' reg reg' e.asked e'.asked) : Sub reg reg' r r' := by
  unfold newtypeVariantReference at he he'
  generalize v.fields = fs at h he
  generalize w.fields = gs at h he'
  cases h with
  | nil => cases he
  | cons h t =>
    cases he; cases he'
    have hr := yields_fieldRef hy
    have hr' := yields_fieldRef hy'
    rw [← hi] at hr'
    refine fieldRef_sub T T' N h rfl rfl ?_ hr hr' ?_
    · simp only [ParamsExpr.eval, ParamsExpr.or, FieldAttrs.params, h.nullable]
    · intro hx
      refine hb _ _ (asked_field hx) ?_
      rw [← hi, h.ty]
      exact asked_field (by rw [← h.explicit]; exact hx)

variable {tag : TagType}

theorem external_sub (T : Tidy env roots reg) (T' : Tidy env' roots' reg') (N : env.Narrows env') {v w : Variant Ty}
    (h : v.Narrows env .external w) {e e' r r'} (he : externalAlternative v = .ok e) (he' : externalAlternative w = .ok e')
    (hy : e.Yields env r) (hy' : e'.Yields env' r')
    (hb : BothAsked env env' roots roots' reg reg' e.asked e'.asked) : Sub reg reg' r r' := by
  unfold externalAlternative at he he'
  rw [← h.style] at he'
  cases hs : v.style <;> simp only [hs] at he he'
  · cases he; cases he'
    obtain ⟨m, hm, rfl⟩ := yields_inline hy
    obtain ⟨m', hm', rfl⟩ := yields_inline hy'
    rw [← h.inline] at hm' hb
    obtain ⟨o, ho, rfl⟩ := yields_objectModel (inl := v.attrs.inline) (fun _ => rfl) hm
    obtain ⟨o', ho', rfl⟩ := yields_objectModel (inl := v.attrs.inline) (fun _ => rfl) hm'
    exact .model .inline .inline (.single (fun h => h) (object_sub T T' N (h.struct hs (by simp)) ho ho' hb))
  · cases he; cases he'
    obtain ⟨m, hm, rfl⟩ := yields_inline hy
    obtain ⟨m', hm', rfl⟩ := yields_inline hy'
    rw [← h.inline] at hm' hb
    obtain ⟨o, ho, rfl⟩ := yields_tupleModel (inl := v.attrs.inline) (fun _ => rfl) hm
    obtain ⟨o', ho', rfl⟩ := yields_tupleModel (inl := v.attrs.inline) (fun _ => rfl) hm'
    exact .model .inline .inline (.single (fun h => h) (tuple_sub T T' N (h.others (.inl (by simp [hs]))) ho ho' hb))
  · exact newtypeVariant_sub T T' N (h.others (.inl (by simp [hs]))) h.inline he he' hy hy' hb
  · cases he; cases he'
    obtain ⟨m, hm, rfl⟩ := yields_inline hy
    obtain ⟨m', hm', rfl⟩ := yields_inline hy'
    obtain ⟨td, htd, rfl⟩ := yields_single hm
    obtain ⟨td', htd', rfl⟩ := yields_single hm'
    rw [yields_string htd, yields_string htd']
    refine .model .inline .inline (.single (fun h => h) (.string ?_))
    intro t ht
    have := h.key
    simp only [Variant.key] at this
    rw [← this]
    exact ht

theorem untagged_sub (T : Tidy env roots reg) (T' : Tidy env' roots' reg') (N : env.Narrows env') {v w : Variant Ty}
    (h : v.Narrows env .none w) {e e' r r'} (he : untaggedAlternative v = .ok e) (he' : untaggedAlternative w = .ok e')
    (hy : e.Yields env r) (hy' : e'.Yields env' r')
    (hb : BothAsked env env' roots roots' reg reg' e.asked e'.asked) : Sub reg reg' r r' := by
  unfold untaggedAlternative at he he'
  rw [← h.style] at he'
  cases hs : v.style <;> simp only [hs] at he he'
  · cases he; cases he'
    obtain ⟨m, hm, rfl⟩ := yields_inline hy
    obtain ⟨m', hm', rfl⟩ := yields_inline hy'
    rw [← h.inline] at hm' hb
    obtain ⟨o, ho, rfl⟩ := yields_objectModel (inl := v.attrs.inline) (fun _ => rfl) hm
    obtain ⟨o', ho', rfl⟩ := yields_objectModel (inl := v.attrs.inline) (fun _ => rfl) hm'
    exact .model .inline .inline (.single (fun h => h) (object_sub T T' N (h.struct hs (by simp)) ho ho' hb))
  · cases he
  · exact newtypeVariant_sub T T' N (h.others (.inl (by simp [hs]))) h.inline he he' hy hy' hb
  · cases he

theorem adjacent_sub (T : Tidy env roots reg) (T' : Tidy env' roots' reg') (N : env.Narrows env') {v w : Variant Ty} {t c}
    (h : v.Narrows env (.adjacent t c) w) {e e' r r'} (he : adjacentAlternative v = .ok e)
    (he' : adjacentAlternative w = .ok e') (hy : e.Yields env r) (hy' : e'.Yields env' r')
    (hb : BothAsked env env' roots roots' reg reg' e.asked e'.asked) : Sub reg reg' r r' := by
  have hp := h.others (.inr ⟨_, _, rfl⟩)
  unfold adjacentAlternative at he he'
  rw [← h.style] at he'
  have key : ∀ {d d' : Option String} {pred pred' : Field Ty → Bool} {r r'},
      (∀ f, pred f = (v.attrs.inline || f.attrs.inline)) → (∀ f, pred' f = (v.attrs.inline || f.attrs.inline)) →
      (RefExpr.inline (tupleModel false d v.fields pred)).Yields env r →
      (RefExpr.inline (tupleModel false d' w.fields pred')).Yields env' r' →
      BothAsked env env' roots roots' reg reg' (RefExpr.inline (tupleModel false d v.fields pred)).asked
        (RefExpr.inline (tupleModel false d' w.fields pred')).asked → Sub reg reg' r r' := by
    intro d d' pred pred' r r' hq hq' hy hy' hb
    obtain rfl : pred = fun f => v.attrs.inline || f.attrs.inline := funext hq
    obtain rfl : pred' = fun f => v.attrs.inline || f.attrs.inline := funext hq'
    obtain ⟨m, hm, rfl⟩ := yields_inline hy
    obtain ⟨m', hm', rfl⟩ := yields_inline hy'
    obtain ⟨o, ho, rfl⟩ := yields_tupleModel (inl := v.attrs.inline) (fun _ => rfl) hm
    obtain ⟨o', ho', rfl⟩ := yields_tupleModel (inl := v.attrs.inline) (fun _ => rfl) hm'
    exact .model .inline .inline (.single (fun h => h) (tuple_sub T T' N hp ho ho' hb))
  cases hs : v.style <;> simp only [hs] at he he'
  · cases he; cases he'
    exact key (fun f => Bool.or_comm _ _) (fun f => by rw [h.inline, Bool.or_comm]) hy hy' hb
  · cases he; cases he'; exact key (fun _ => rfl) (fun _ => by rw [h.inline]) hy hy' hb
  · exact newtypeVariant_sub T T' N hp h.inline he he' hy hy' hb
  · cases he

theorem internal_sub (T : Tidy env roots reg) (T' : Tidy env' roots' reg') (N : env.Narrows env') {v w : Variant Ty} {t}
    {c c' : Container Ty} (h : v.Narrows env (.internal t) w) {e e' r r'} (he : internalAlternative c t v = .ok e)
    (he' : internalAlternative c' t w = .ok e') (hy : e.Yields env r) (hy' : e'.Yields env' r')
    (hb : BothAsked env env' roots roots' reg reg' e.asked e'.asked) : Sub reg reg' r r' := by
  unfold internalAlternative at he he'
  cases hin : internalInner v with
  | error => rw [hin] at he; cases he
  | ok x =>
  cases hin' : internalInner w with
  | error => rw [hin'] at he'; cases he'
  | ok x' =>
  rw [hin] at he; rw [hin'] at he'
  cases he; cases he'
  obtain ⟨m, hm, rfl⟩ := yields_inline hy
  obtain ⟨m', hm', rfl⟩ := yields_inline hy'
  obtain ⟨m₀, hm₀, rfl⟩ := yields_tagged hm
  obtain ⟨m₀', hm₀', rfl⟩ := yields_tagged hm'
  have htag := tagged_tryMerge m₀ c.ident t v.key c.attrs.nullable
  have htag' := tagged_tryMerge m₀' c'.ident t w.key c'.attrs.nullable
  have hk := h.key
  obtain ⟨ht1, ht2⟩ := h.tagged t rfl
  refine .model .inline .inline ?_
  unfold internalInner at hin hin'
  rw [← h.style] at hin'
  rw [show w.attrs.name.serialized = v.key from hk.symm]
  rw [show w.key = v.key from hk.symm] at htag'
  refine tagged_sub ?_ htag htag' ?_
  · cases hs : v.style <;> simp only [hs] at hin hin'
    · cases hin; cases hin'
      rw [← h.inline] at hm₀' hb
      obtain ⟨o, ho, rfl⟩ := yields_objectModel (inl := v.attrs.inline) (fun _ => rfl) hm₀
      obtain ⟨o', ho', rfl⟩ := yields_objectModel (inl := v.attrs.inline) (fun _ => rfl) hm₀'
      exact .single (fun h => h) (object_sub T T' N (h.struct hs (by simp)) ho ho' hb)
    · cases hin
    · have hp := h.others (.inl (by simp [hs]))
      generalize v.fields = fs at hp hin
      generalize w.fields = gs at hp hin'
      cases hp with
      | nil => cases hin
      | cons h t =>
        cases hin; cases hin'
        obtain ⟨m₁, hm₁, rfl⟩ := yields_getSchemaWithParams hm₀
        obtain ⟨m₁', hm₁', rfl⟩ := yields_getSchemaWithParams hm₀'
        rw [← h.ty] at hm₁' hb
        refine sub_applyParams (by rfl) (by rfl) ?_ ((hb _ false ?_ ?_).below _ _ hm₁ hm₁')
        · simp only [ParamsExpr.eval, ParamsExpr.or, FieldAttrs.params, h.nullable]
        · simp [RefExpr.asked, ModelExpr.asked]
        · simp [RefExpr.asked, ModelExpr.asked]
    · cases hin; cases hin'
      obtain ⟨o, ho, rfl⟩ := yields_objectModel (inl := v.attrs.inline) (fs := []) (pred := fun f => v.attrs.inline || f.attrs.inline) (fun _ => rfl) hm₀
      obtain ⟨o', ho', rfl⟩ := yields_objectModel (inl := v.attrs.inline) (fs := []) (pred := fun f => v.attrs.inline || f.attrs.inline) (fun _ => rfl) hm₀'
      exact .single (fun h => h) (object_sub T T' N ⟨by simp [serialFields], by simp [serialFields]⟩ ho ho'
        (by intro _ _ h; simp [objectTypeDescription, TypeExpr.asked, PropExpr.askedList] at h))
  · rintro d n o rfl
    cases hs : v.style <;> simp only [hs] at hin
    · cases hin
      obtain ⟨o', ho, he⟩ := yields_objectModel (inl := v.attrs.inline) (fun _ => rfl) hm₀
      cases he
      exact fun h => ht1 hs (objectOf_keys ho h)
    · cases hin
    · cases hf : v.fields with
      | nil => rw [hf] at hin; cases hin
      | cons f fs =>
        rw [hf] at hin
        cases hin
        obtain ⟨m₁, hm₁, he⟩ := yields_getSchemaWithParams hm₀
        obtain ⟨d', n', rfl⟩ : ∃ d' n', m₁ = objectSchema d' n' o := by
          obtain ⟨d₁, data⟩ := m₁
          cases data with
          | single ty =>
            obtain ⟨n₁, td⟩ := ty
            cases td <;> simp [objectSchema, Model.applyParams, ModelData.applyParams, ModelType.applyParams,
              TypeDesc.applyParams] at he ⊢
            exact he.2.2.symm
          | _ => simp [objectSchema, Model.applyParams, ModelData.applyParams] at he
        exact ht2 hs f (by rw [hf]; simp) d' n' o hm₁
    · cases hin
      obtain ⟨o', ho, he⟩ := yields_objectModel (inl := v.attrs.inline) (fs := []) (pred := fun f => v.attrs.inline || f.attrs.inline) (fun _ => rfl) hm₀
      cases he
      intro h
      simpa [serialFields] using objectOf_keys ho h

/-! ## Types -/

theorem alternatives_sub {alt alt' : Variant Ty → Except MacroPanic (RefExpr Ty)} {vs ws : List (Variant Ty)} {es es' rs rs' d d'}
    (hv : ∀ v ∈ writtenVariants vs, ∃ w ∈ writtenVariants ws, v.Narrows env tag w)
    (ha : mapExcept alt (serialVariants vs) = .ok es) (ha' : mapExcept alt' (serialVariants ws) = .ok es')
    (hy : Pointwise (RefExpr.Yields env) es rs) (hy' : Pointwise (RefExpr.Yields env') es' rs')
    (hb : BothAsked env env' roots roots' reg reg' (RefExpr.askedList es) (RefExpr.askedList es'))
    (key : ∀ v w e e' r r', v.Narrows env tag w → alt v = .ok e → alt' w = .ok e' → e.Yields env r → e'.Yields env' r' →
      BothAsked env env' roots roots' reg reg' e.asked e'.asked → Sub reg reg' r r') :
    SubModel reg reg' ⟨d, .oneOf rs⟩ ⟨d', .oneOf rs'⟩ := by
  refine sub_oneOf ?_
  intro r hr
  obtain ⟨e, v, hv1, hav, hyr, has⟩ := alternative_back ha hy hr
  obtain ⟨w, hw, hn⟩ := hv v hv1
  obtain ⟨e', he', hwe⟩ := (mapExcept_ok ha').mem_left (show w ∈ serialVariants ws from hw)
  obtain ⟨r', hr', her⟩ := hy'.mem_left he'
  exact ⟨r', hr', key v w e e' r r' hn hav hwe hyr her fun t b h h' => hb t b (has _ h) (mem_askedTypes he' h')⟩

theorem names_sub {vs ws : List (Variant Ty)} (hv : ∀ v ∈ writtenVariants vs, ∃ w ∈ writtenVariants ws, v.Narrows env tag w) :
    ∀ k ∈ (serialVariants vs).map (fun v => v.attrs.name.serialized),
      k ∈ (serialVariants ws).map fun v => v.attrs.name.serialized := by
  intro k hk
  obtain ⟨v, hv1, rfl⟩ := List.mem_map.1 hk
  obtain ⟨w, hw, hn⟩ := hv v hv1
  exact List.mem_map.2 ⟨w, hw, hn.key.symm⟩

theorem newtypeEnum_sub {c c' : Container Ty} {vs ws : List (Variant Ty)} (hc : c.attrs.hasRepr = c'.attrs.hasRepr)
    (hv : ∀ v ∈ writtenVariants vs, ∃ w ∈ writtenVariants ws, v.Narrows env tag w) {m m'}
    (hy : (serializeNewtypeEnum c vs).Yields env m) (hy' : (serializeNewtypeEnum c' ws).Yields env' m') :
    SubModel reg reg' m m' := by
  unfold serializeNewtypeEnum at hy hy'
  rw [← hc] at hy'
  cases hr : c.attrs.hasRepr <;> simp only [hr, if_true, Bool.false_eq_true, if_false] at hy hy'
  · obtain ⟨td, htd, rfl⟩ := yields_single hy
    obtain ⟨td', htd', rfl⟩ := yields_single hy'
    rw [yields_string htd, yields_string htd']
    exact .single (fun h => h) (.string (names_sub hv))
  · obtain ⟨rs, hrs, rfl⟩ := yields_oneOf hy
    obtain ⟨rs', hrs', rfl⟩ := yields_oneOf hy'
    refine sub_oneOf ?_
    intro r hr
    obtain ⟨e, he, her⟩ := Pointwise.mem_rightP hrs hr
    obtain ⟨v, hv1, hve⟩ := List.mem_filterMap.1 he
    obtain ⟨w, hw, hn⟩ := hv v hv1
    unfold reprAlternative at hve
    obtain ⟨dv, hdv, rfl⟩ := Option.map_eq_some_iff.1 hve
    obtain ⟨dw, hdw⟩ := Option.isSome_iff_exists.1 (hn.discriminant (by rw [hdv]; rfl))
    obtain ⟨r', hr', her'⟩ := hrs'.mem_left (List.mem_filterMap.2 ⟨w, hw, by rw [reprAlternative, hdw]; rfl⟩)
    obtain ⟨m, hm, rfl⟩ := yields_inline her
    obtain ⟨m', hm', rfl⟩ := yields_inline her'
    obtain ⟨td, htd, rfl⟩ := yields_single hm
    obtain ⟨td', htd', rfl⟩ := yields_single hm'
    rw [yields_integer htd, yields_integer htd'] at *
    exact ⟨_, hr', .model .inline .inline (.single (fun h => h) .integer)⟩

theorem adjacentEnum_sub (T : Tidy env roots reg) (T' : Tidy env' roots' reg') (N : env.Narrows env') {c c' : Container Ty}
    {vs ws : List (Variant Ty)} {t k : String} (hnull : c.attrs.nullable = true → c'.attrs.nullable = true)
    (hv : ∀ v ∈ writtenVariants vs, ∃ w ∈ writtenVariants ws, v.Narrows env (.adjacent t k) w) {e e' m m'}
    (he : serializeAdjacentEnum c vs t k = .ok e) (he' : serializeAdjacentEnum c' ws t k = .ok e')
    (hy : e.Yields env m) (hy' : e'.Yields env' m')
    (hb : BothAsked env env' roots roots' reg reg' e.asked e'.asked) : SubModel reg reg' m m' := by
  unfold serializeAdjacentEnum at he he'
  split at he
  · cases he
  split at he'
  · cases he'
  rename_i _ es hes _ es' hes'
  cases he; cases he'
  obtain ⟨td, htd, rfl⟩ := yields_single hy
  obtain ⟨td', htd', rfl⟩ := yields_single hy'
  obtain ⟨rs, hrs, rfl⟩ := yields_object htd
  obtain ⟨rs', hrs', rfl⟩ := yields_object htd'
  cases hrs with
  | cons h1 hrs => cases hrs with
    | cons h2 hrs =>
  cases hrs with
  | nil =>
  cases hrs' with
  | cons h1' hrs' => cases hrs' with
    | cons h2' hrs' =>
  cases hrs' with
  | nil =>
  rename_i r1 r2 r1' r2'
  have hsub1 : Sub reg reg' r1 r1' := by
    obtain ⟨m, hm, rfl⟩ := yields_inline h1
    obtain ⟨m', hm', rfl⟩ := yields_inline h1'
    obtain ⟨sd, hsd, rfl⟩ := yields_single hm
    obtain ⟨sd', hsd', rfl⟩ := yields_single hm'
    rw [yields_string hsd, yields_string hsd']
    exact .model .inline .inline (.single (fun h => h) (.string (names_sub hv)))
  have hsub2 : Sub reg reg' r2 r2' := by
    obtain ⟨m, hm, rfl⟩ := yields_inline h2
    obtain ⟨m', hm', rfl⟩ := yields_inline h2'
    obtain ⟨rs, hrs, rfl⟩ := yields_oneOf hm
    obtain ⟨rs', hrs', rfl⟩ := yields_oneOf hm'
    refine .model .inline .inline (alternatives_sub (roots := roots) (roots' := roots') hv hes hes' hrs hrs' ?_ ?_)
    · intro x b h h'
      refine hb x b ?_ ?_
      · simpa [ModelExpr.asked, TypeExpr.asked, PropExpr.askedList, RefExpr.asked] using h
      · simpa [ModelExpr.asked, TypeExpr.asked, PropExpr.askedList, RefExpr.asked] using h'
    · exact fun v w e e' r r' hn ha ha' hr hr' hb => adjacent_sub T T' N hn ha ha' hr hr' hb
  refine .single hnull (.object ?_ ?_ ?_ (by simp) (by simp))
  · intro x hx
    simpa [PropExpr.rq, PropExpr.nm, List.filter_cons] using hx
  · intro x hx
    simp only [List.map_cons, List.map_nil, List.zip_cons_cons, List.zip_nil_right, BMap.insertAll, List.foldl_cons,
      List.foldl_nil, PropExpr.nm, BMap.get_insert] at hx ⊢
    split at hx
    · cases hx
    · split at hx
      · cases hx
      · rename_i h1 h2
        rw [if_neg h1, if_neg h2]
        rfl
  · intro x r r' hr hr'
    simp only [List.map_cons, List.map_nil, List.zip_cons_cons, List.zip_nil_right, BMap.insertAll, List.foldl_cons,
      List.foldl_nil, PropExpr.nm, BMap.get_insert] at hr hr'
    split at hr
    · rw [if_pos (by assumption)] at hr'
      cases hr; cases hr'; exact hsub2
    · rw [if_neg (by assumption)] at hr'
      split at hr
      · rw [if_pos (by assumption)] at hr'
        cases hr; cases hr'; exact hsub1
      · cases hr

/-- What is derived for an enum depends on its representation and on whether variants have data. -/
structure EnumShape (c : Container Ty) (vs : List (Variant Ty)) : Prop where
  unit : (∀ v ∈ vs, v.style = .unit) → c.attrs.modelType = .newType
  data : (∃ v ∈ vs, v.style ≠ .unit) → c.attrs.modelType =
        match c.attrs.tagType with
        | .none => .oneOf
        | .internal _ => .oneOf
        | .external => .dictionary
        | .adjacent _ _ => .object

theorem enum_sub (T : Tidy env roots reg) (T' : Tidy env' roots' reg') (N : env.Narrows env') {c c' : Container Ty}
    {vs ws : List (Variant Ty)} (hc : c.Narrows env c')
    (hv : ∀ v ∈ writtenVariants vs, ∃ w ∈ writtenVariants ws, v.Narrows env c.attrs.tagType w)
    (hu : (∀ v ∈ vs, v.style = .unit) ↔ ∀ w ∈ ws, w.style = .unit) (S : EnumShape c vs) (S' : EnumShape c' ws) {e e' m m'}
    (he : serializeEnum c vs = .ok e) (he' : serializeEnum c' ws = .ok e') (hy : e.Yields env m) (hy' : e'.Yields env' m')
    (hb : BothAsked env env' roots roots' reg reg' e.asked e'.asked) : SubModel reg reg' m m' := by
  unfold serializeEnum at he he'
  by_cases hall : ∀ v ∈ vs, v.style = .unit
  · rw [S.unit hall] at he
    rw [S'.unit (hu.1 hall)] at he'
    cases he; cases he'
    exact newtypeEnum_sub hc.repr hv hy hy'
  · have hd : ∃ v ∈ vs, v.style ≠ .unit := by
      simpa only [Classical.not_forall, exists_prop] using hall
    have hd' : ∃ v ∈ ws, v.style ≠ .unit := by
      have := mt hu.2 hall
      simpa only [Classical.not_forall, exists_prop] using this
    rw [S.data hd] at he
    rw [S'.data hd', ← hc.tag] at he'
    cases ht : c.attrs.tagType with
    | none =>
      rw [ht] at he he' hv
      simp only [serializeUntaggedEnum] at he he'
      split at he
      · cases he
      split at he'
      · cases he'
      cases he; cases he'
      obtain ⟨rs, hrs, rfl⟩ := yields_oneOf hy
      obtain ⟨rs', hrs', rfl⟩ := yields_oneOf hy'
      exact alternatives_sub hv (by assumption) (by assumption) hrs hrs' hb
        fun v w e e' r r' hn ha ha' hr hr' hb => untagged_sub T T' N hn ha ha' hr hr' hb
    | internal t =>
      rw [ht] at he he' hv
      simp only [serializeInternalEnum] at he he'
      split at he
      · cases he
      split at he'
      · cases he'
      cases he; cases he'
      obtain ⟨rs, hrs, rfl⟩ := yields_oneOf hy
      obtain ⟨rs', hrs', rfl⟩ := yields_oneOf hy'
      exact alternatives_sub hv (by assumption) (by assumption) hrs hrs' hb
        fun v w e e' r r' hn ha ha' hr hr' hb => internal_sub T T' N hn ha ha' hr hr' hb
    | external =>
      rw [ht] at he he' hv
      simp only [serializeExternalEnum] at he he'
      split at he
      · cases he
      split at he'
      · cases he'
      cases he; cases he'
      obtain ⟨td, htd, rfl⟩ := yields_single hy
      obtain ⟨td', htd', rfl⟩ := yields_single hy'
      obtain ⟨r, hr, rfl⟩ := yields_dictionary htd
      obtain ⟨r', hr', rfl⟩ := yields_dictionary htd'
      obtain ⟨m, hm, rfl⟩ := yields_inline hr
      obtain ⟨m', hm', rfl⟩ := yields_inline hr'
      obtain ⟨rs, hrs, rfl⟩ := yields_oneOf hm
      obtain ⟨rs', hrs', rfl⟩ := yields_oneOf hm'
      refine .single hc.nullable (.object ?_ ?_ ?_ ?_ ?_)
      · exact fun k h => h
      · exact fun k h => h
      · intro k r r' h; cases h
      · simp
      · intro r r' h h'
        cases h; cases h'
        refine .model .inline .inline ?_
        exact alternatives_sub hv (by assumption) (by assumption) hrs hrs' hb
          fun v w e e' r r' hn ha ha' hr hr' hb => external_sub T T' N hn ha ha' hr hr' hb
    | adjacent t k =>
      rw [ht] at he he' hv
      exact adjacentEnum_sub T T' N hc.nullable hv he he' hy hy' hb

theorem body_sub (T : Tidy env roots reg) (T' : Tidy env' roots' reg') (N : env.Narrows env') {c c' : Container Ty}
    (hc : c.Narrows env c') (S : ∀ vs, c.data = .enum vs → EnumShape c vs) (S' : ∀ vs, c'.data = .enum vs → EnumShape c' vs)
    {e e' m m'} (he : serializeBody c = .ok e) (he' : serializeBody c' = .ok e') (hy : e.Yields env m)
    (hy' : e'.Yields env' m') (hb : BothAsked env env' roots roots' reg reg' e.asked e'.asked) : SubModel reg reg' m m' := by
  unfold serializeBody at he he'
  have hd := hc.data
  generalize hx : c.data = x at hd he S
  generalize hx' : c'.data = x' at hd he' S'
  cases hd with
  | enum hv hu => exact enum_sub T T' N hc hv hu (S _ rfl) (S' _ rfl) he he' hy hy' hb
  | struct h =>
    cases he; cases he'
    obtain ⟨o, ho, rfl⟩ := yields_objectModel (inl := false) (fun _ => by simp) hy
    obtain ⟨o', ho', rfl⟩ := yields_objectModel (inl := false) (fun _ => by simp) hy'
    exact .single hc.nullable (object_sub T T' N h ho ho' (by simpa [serializeStruct, ModelExpr.asked] using hb))
  | @fixed style fs gs hs h =>
    cases style
    · exact absurd rfl hs
    · cases he; cases he'
      obtain ⟨o, ho, rfl⟩ := yields_tupleModel (inl := false) (fun _ => by simp) hy
      obtain ⟨o', ho', rfl⟩ := yields_tupleModel (inl := false) (fun _ => by simp) hy'
      exact .single hc.nullable (tuple_sub T T' N h ho ho' (by simpa [serializeTupleStruct, ModelExpr.asked] using hb))
    · cases h with
      | nil => cases he
      | cons h t =>
        simp only [serializeNewtypeStruct] at he he'
        rw [← hc.explicit] at he'
        cases hex : c.attrs.explicitModelType with
        | none =>
          rw [hex] at he he'
          cases he; cases he'
          obtain ⟨m₁, hm₁, rfl⟩ := yields_getSchemaWithParams hy
          obtain ⟨m₁', hm₁', rfl⟩ := yields_getSchemaWithParams hy'
          rw [← h.ty] at hm₁' hb
          refine sub_applyParams (by rfl) (by rfl) ?_ ((hb _ false ?_ ?_).below _ _ hm₁ hm₁')
          · simp only [ParamsExpr.eval, ParamsExpr.or, FieldAttrs.params, h.nullable]
          · simp [ModelExpr.asked]
          · simp [ModelExpr.asked]
        | some t =>
          rw [hex] at he he'
          have key : ∀ {p p'}, (newtypeModel c.attrs.nullable p t : ModelExpr Ty).Yields env m →
              (newtypeModel c'.attrs.nullable p' t : ModelExpr Ty).Yields env' m' → SubModel reg reg' m m' := by
            intro p p' hy hy'
            rw [yields_newtypeModel hy, yields_newtypeModel hy']
            refine .single hc.nullable ?_
            cases t
            · exact .free
            · exact .integer
            · exact .number
            · exact .boolean
            · exact .boolean
          cases t
          case any => cases he
          all_goals cases he; cases he'; exact key hy hy'
    · cases he

theorem schemaExpr_sub (T : Tidy env roots reg) (T' : Tidy env' roots' reg') (N : env.Narrows env')
    {t e e' m m'} (S : ∀ i vs, t = .named i → (env.decl i).data = .enum vs → EnumShape (env.decl i) vs)
    (S' : ∀ i vs, t = .named i → (env'.decl i).data = .enum vs → EnumShape (env'.decl i) vs)
    (he : schemaExpr env t = some e) (he' : schemaExpr env' t = some e') (hy : e.Yields env m) (hy' : e'.Yields env' m')
    (hb : BothAsked env env' roots roots' reg reg' e.asked e'.asked) : SubModel reg reg' m m' := by
  have mention : ∀ {t r r'}, (RefExpr.mention t false {} : RefExpr Ty).Yields env r →
      (RefExpr.mention t false {} : RefExpr Ty).Yields env' r' → Both env env' roots roots' reg reg' t true →
      Sub reg reg' r r' := by
    intro t r r' h h' hb
    exact mention_sub T T' N rfl rfl rfl (yields_mention h) (yields_mention h') hb.seen hb.seen' hb.below
  cases t with
  | prim p =>
    cases he; cases he'
    obtain ⟨td, htd, rfl⟩ := yields_single hy
    obtain ⟨td', htd', rfl⟩ := yields_single hy'
    refine .single (fun h => h) ?_
    revert htd htd'
    cases p.schema.1 <;> intro htd htd' <;> simp only [simpleExpr] at htd htd'
    · rw [yields_string htd, yields_string htd']; exact .free
    · rw [yields_number htd, yields_number htd']; exact .number
    · rw [yields_integer htd, yields_integer htd']; exact .integer
    · rw [yields_boolean htd, yields_boolean htd']; exact .boolean
  | wrap w t =>
    cases he; cases he'
    exact (hb t false (by simp [ModelExpr.asked]) (by simp [ModelExpr.asked])).below _ _ (yields_getSchema hy) (yields_getSchema hy')
  | option t =>
    cases he; cases he'
    obtain ⟨m₁, hm₁, rfl⟩ := yields_getSchemaWithParams hy
    obtain ⟨m₁', hm₁', rfl⟩ := yields_getSchemaWithParams hy'
    exact sub_applyParams (by rfl) (by rfl) (by rfl)
      ((hb t false (by simp [ModelExpr.asked]) (by simp [ModelExpr.asked])).below _ _ hm₁ hm₁')
  | tuple ts =>
    cases he; cases he'
    obtain ⟨td, htd, rfl⟩ := yields_single hy
    obtain ⟨td', htd', rfl⟩ := yields_single hy'
    obtain ⟨r, hr, rfl⟩ := yields_array htd
    obtain ⟨r', hr', rfl⟩ := yields_array htd'
    obtain ⟨m, hm, rfl⟩ := yields_inline hr
    obtain ⟨m', hm', rfl⟩ := yields_inline hr'
    obtain ⟨rs, hrs, rfl⟩ := yields_oneOf hm
    obtain ⟨rs', hrs', rfl⟩ := yields_oneOf hm'
    refine .single (fun h => h) (.array (.model .inline .inline (sub_oneOf ?_)))
    intro r hr
    obtain ⟨e, he, her⟩ := Pointwise.mem_rightP hrs hr
    obtain ⟨t, ht, rfl⟩ := List.mem_map.1 he
    obtain ⟨r', hr', her'⟩ := hrs'.mem_left he
    have hin : (t, true) ∈ RefExpr.askedList (ts.map fun t => (RefExpr.mention t false {} : RefExpr Ty)) :=
      mem_askedTypes he (by simp [RefExpr.asked])
    exact ⟨r', hr', mention her her' (hb t true hin hin)⟩
  | seq k t =>
    cases he; cases he'
    obtain ⟨td, htd, rfl⟩ := yields_single hy
    obtain ⟨td', htd', rfl⟩ := yields_single hy'
    obtain ⟨r, hr, rfl⟩ := yields_array htd
    obtain ⟨r', hr', rfl⟩ := yields_array htd'
    exact .single (fun h => h) (.array (mention hr hr' (hb t true (by simp [ModelExpr.asked, TypeExpr.asked, RefExpr.asked])
      (by simp [ModelExpr.asked, TypeExpr.asked, RefExpr.asked]))))
  | dict k t =>
    cases he; cases he'
    obtain ⟨td, htd, rfl⟩ := yields_single hy
    obtain ⟨td', htd', rfl⟩ := yields_single hy'
    obtain ⟨r, hr, rfl⟩ := yields_dictionary htd
    obtain ⟨r', hr', rfl⟩ := yields_dictionary htd'
    refine .single (fun h => h) (.object (fun _ h => h) (fun _ h => h) (fun _ _ _ h => by cases h) (by simp) ?_)
    intro r₁ r₂ h h'
    cases h; cases h'
    exact mention hr hr' (hb t true (by simp [ModelExpr.asked, TypeExpr.asked, RefExpr.asked])
      (by simp [ModelExpr.asked, TypeExpr.asked, RefExpr.asked]))
  | named i =>
    simp only [schemaExpr] at he he'
    split at he
    · split at he'
      · cases he; cases he'
        exact body_sub T T' N (N i) (fun vs => S i vs rfl) (fun vs => S' i vs rfl) (by assumption) (by assumption) hy hy' hb
      · cases he'
    · cases he
  | _ =>
    cases he; cases he'
    obtain ⟨td, htd, rfl⟩ := yields_single hy
    obtain ⟨td', htd', rfl⟩ := yields_single hy'
    rw [yields_string htd, yields_string htd']
    exact .single (fun h => h) .free

/-- What the schema of a type accepts in the first program, it accepts in the second. -/
theorem below (T : Tidy env roots reg) (T' : Tidy env' roots' reg') (N : env.Narrows env')
    (D : ∀ i, Reached env roots (.named i) → ∃ o input, Derived o env i input)
    (D' : ∀ i, Reached env' roots' (.named i) → ∃ o input, Derived o env' i input) {t} (hx : Expands env t) :
    Reached env roots t → Reached env' roots' t → Below env env' reg reg' t := by
  induction hx with
  | @intro t e he h ih =>
    intro hr hr' m m' hm hm'
    cases T'.expands t hr' with
    | @intro _ e' he' h' =>
      refine schemaExpr_sub T T' N (fun i vs ht => ?_) (fun i vs ht => ?_) he he' (hasSchema_yields hm he) (hasSchema_yields hm' he') ?_
      · obtain ⟨o, input, hd⟩ := D i (ht ▸ hr)
        exact fun hv => ⟨(derived_enum hd hv).1, (derived_enum hd hv).2⟩
      · obtain ⟨o, input, hd⟩ := D' i (ht ▸ hr')
        exact fun hv => ⟨(derived_enum hd hv).1, (derived_enum hd hv).2⟩
      intro x b hx hx'
      have hs := seen_of_asked hr he hx
      have hs' := seen_of_asked hr' he' hx'
      exact ⟨hs, hs', ih x b hx hs.1 hs'.1⟩

end Verif
