import Verif.Spec.Shuffle
import Verif.Proof.Neutral
import Verif.Proof.Grow
import Verif.Proof.ApiLocal
/-!
# Declaring fields and variants in another order
-/

namespace Verif

variable {env env' : Env}

/-! ## Lists up to order -/

section
variable {α β : Type} {R : α → β → Prop}

theorem UpToOrder.insert {a b as pre post} (h : R a b) (t : UpToOrder R as (pre ++ post)) :
    UpToOrder R (a :: as) (pre ++ b :: post) := .cons h rfl t

theorem upToOrder_perm {S : α → α → Prop} (hS : ∀ a, S a a) {l l' : List α} (h : l.Perm l') : UpToOrder S l l' := by
  induction l generalizing l' with
  | nil => rw [List.nil_perm.1 h]; exact .nil
  | cons a l ih =>
    obtain ⟨pre, post, rfl⟩ := List.append_of_mem (h.subset List.mem_cons_self)
    exact .cons (hS a) rfl (ih (List.Perm.cons_inv (h.trans List.perm_middle)))

theorem UpToOrder.imp {S : α → β → Prop} {as bs} (h : UpToOrder R as bs) (hi : ∀ a ∈ as, ∀ b ∈ bs, R a b → S a b) :
    UpToOrder S as bs := by
  induction h with
  | nil => exact .nil
  | @cons a b as bs pre post h e t ih =>
    subst e
    refine .cons (hi a List.mem_cons_self b (by simp) h) rfl (ih fun x hx y hy => hi x (List.mem_cons_of_mem _ hx) y ?_)
    simp only [List.mem_append, List.mem_cons] at hy ⊢
    rcases hy with h | h
    · exact .inl h
    · exact .inr (.inr h)

theorem UpToOrder.map {γ δ : Type} {S : γ → δ → Prop} {f : α → γ} {g : β → δ} {as bs} (h : UpToOrder R as bs)
    (hi : ∀ a b, R a b → S (f a) (g b)) : UpToOrder S (as.map f) (bs.map g) := by
  induction h with
  | nil => exact .nil
  | cons h e t ih =>
    subst e
    rw [List.map_cons, List.map_append, List.map_cons]
    rw [List.map_append] at ih
    exact .cons (hi _ _ h) rfl ih

theorem UpToOrder.filter {p : α → Bool} {q : β → Bool} {as bs} (h : UpToOrder R as bs) (hi : ∀ a b, R a b → p a = q b) :
    UpToOrder R (as.filter p) (bs.filter q) := by
  induction h with
  | nil => exact .nil
  | @cons a b as bs pre post h e t ih =>
    subst e
    rw [List.filter_append] at ih
    rw [List.filter_cons, List.filter_append, List.filter_cons, hi _ _ h]
    split
    · exact .cons h rfl ih
    · exact ih

theorem UpToOrder.filterMap {γ δ : Type} {S : γ → δ → Prop} {f : α → Option γ} {g : β → Option δ} {as bs}
    (h : UpToOrder R as bs) (hi : ∀ a b, R a b → (f a = none ∧ g b = none) ∨ ∃ c d, f a = some c ∧ g b = some d ∧ S c d) :
    UpToOrder S (as.filterMap f) (bs.filterMap g) := by
  induction h with
  | nil => exact .nil
  | @cons a b as bs pre post h e t ih =>
    subst e
    rw [List.filterMap_append] at ih
    rcases hi a b h with ⟨h1, h2⟩ | ⟨c, d, h1, h2, hs⟩
    · rw [List.filterMap_cons_none h1, List.filterMap_append, List.filterMap_cons_none h2]
      exact ih
    · rw [List.filterMap_cons_some h1, List.filterMap_append, List.filterMap_cons_some h2]
      exact .cons hs rfl ih

theorem UpToOrder.perm {as bs : List α} (h : UpToOrder Eq as bs) : as.Perm bs := by
  induction h with
  | nil => exact .refl _
  | cons h e t ih =>
    subst e h
    exact (ih.cons _).trans List.perm_middle.symm

theorem UpToOrder.mem_left {as bs} (h : UpToOrder R as bs) {a} (ha : a ∈ as) : ∃ b ∈ bs, R a b := by
  induction h with
  | nil => cases ha
  | cons h e t ih =>
    subst e
    rcases List.mem_cons.1 ha with rfl | ha
    · exact ⟨_, by simp, h⟩
    · obtain ⟨b, hb, hr⟩ := ih ha
      refine ⟨b, ?_, hr⟩
      simp only [List.mem_append, List.mem_cons] at hb ⊢
      rcases hb with h | h
      · exact .inl h
      · exact .inr (.inr h)

theorem UpToOrder.mem_right {as bs} (h : UpToOrder R as bs) {b} (hb : b ∈ bs) : ∃ a ∈ as, R a b := by
  induction h with
  | nil => cases hb
  | cons h e t ih =>
    subst e
    simp only [List.mem_append, List.mem_cons] at hb
    rcases hb with h' | rfl | h'
    · obtain ⟨a, ha, hr⟩ := ih (List.mem_append_left _ h')
      exact ⟨a, List.mem_cons_of_mem _ ha, hr⟩
    · exact ⟨_, List.mem_cons_self, h⟩
    · obtain ⟨a, ha, hr⟩ := ih (List.mem_append_right _ h')
      exact ⟨a, List.mem_cons_of_mem _ ha, hr⟩

end

/-! ## Code that lists things in another order -/

mutual
/-- The code is the same up to the order of properties, alternatives and allowed values. -/
inductive RefTurn : RefExpr Ty → RefExpr Ty → Prop
  | mention {t i p} : RefTurn (.mention t i p) (.mention t i p)
  | inline {m m'} (h : ModelTurn m m') : RefTurn (.inline m) (.inline m')
  | any : RefTurn .any .any
inductive ModelTurn : ModelExpr Ty → ModelExpr Ty → Prop
  | getSchema {t} : ModelTurn (.getSchema t) (.getSchema t)
  | getSchemaWithParams {t p} : ModelTurn (.getSchemaWithParams t p) (.getSchemaWithParams t p)
  | single {d n td td'} (h : TypeTurn td td') : ModelTurn (.single d n td) (.single d n td')
  | oneOf {d rs rs'} (h : RefsTurn rs rs') : ModelTurn (.oneOf d rs) (.oneOf d rs')
  | tagged {m m' ident tag name n} (h : ModelTurn m m') : ModelTurn (.tagged m ident tag name n) (.tagged m' ident tag name n)
inductive TypeTurn : TypeExpr Ty → TypeExpr Ty → Prop
  | string {v f e} : TypeTurn (.string v f e) (.string v f e)
  | values {vs vs' : List String} {f} (h : vs.Perm vs') :
      TypeTurn (.string (some vs) f (vs.head?.map .lit)) (.string (some vs') f (vs'.head?.map .lit))
  | number {f e} : TypeTurn (.number f e) (.number f e)
  | integer {f e} : TypeTurn (.integer f e) (.integer f e)
  | boolean : TypeTurn .boolean .boolean
  | array {r r'} (h : RefTurn r r') : TypeTurn (.array r) (.array r')
  | object {es es'} (h : PropsTurn es es') (hn : (es.map PropExpr.nm).Nodup) : TypeTurn (.object es) (.object es')
  | dictionary {r r'} (h : RefTurn r r') : TypeTurn (.dictionary r) (.dictionary r')
inductive RefsTurn : List (RefExpr Ty) → List (RefExpr Ty) → Prop
  | nil : RefsTurn [] []
  | cons {r r' rs rs' pre post} (h : RefTurn r r') (e : rs' = pre ++ r' :: post) (t : RefsTurn rs (pre ++ post)) :
      RefsTurn (r :: rs) rs'
inductive PropsTurn : List (PropExpr Ty) → List (PropExpr Ty) → Prop
  | nil : PropsTurn [] []
  | cons {n r r' b es es' pre post} (h : RefTurn r r') (e : es' = pre ++ .mk n r' b :: post) (t : PropsTurn es (pre ++ post)) :
      PropsTurn (.mk n r b :: es) es'
end

theorem refsTurn_of {rs rs'} (h : UpToOrder RefTurn rs rs') : RefsTurn rs rs' := by
  induction h with
  | nil => exact .nil
  | cons h e t ih => exact .cons h e ih

/-- Two properties of one name. -/
def PropTurn (e e' : PropExpr Ty) : Prop := PropExpr.nm e = PropExpr.nm e' ∧ PropExpr.rq e = PropExpr.rq e' ∧
  RefTurn (PropExpr.rf e) (PropExpr.rf e')

theorem propsTurn_of {es es'} (h : UpToOrder PropTurn es es') : PropsTurn es es' := by
  induction h with
  | nil => exact .nil
  | @cons a b as bs pre post h e t ih =>
    obtain ⟨n, r, q⟩ := a
    obtain ⟨n', r', q'⟩ := b
    obtain ⟨h1, h2, h3⟩ := h
    cases h1
    cases h2
    exact .cons h3 e ih

theorem PropsTurn.upToOrder {es es'} (h : PropsTurn es es') : UpToOrder PropTurn es es' := by
  induction es generalizing es' with
  | nil => cases h; exact .nil
  | cons a as ih =>
    cases h with
    | cons h e t =>
      refine .cons ?_ e (ih t)
      exact ⟨rfl, rfl, h⟩

/-! ## What the code returns -/

theorem sameDesc_applyParams {td td' p} (hv : p.variants = none) (h : SameDesc td td') :
    SameDesc (td.applyParams p) (td'.applyParams p) := by
  cases h with
  | string => exact .string
  | number => exact .number
  | integer => exact .integer
  | boolean => exact .boolean
  | array h => exact .array h
  | object hr hk hp ha hs => exact .object hr hk hp ha hs
  | values h he =>
    simp only [TypeDesc.applyParams, hv, overrideOpt]
    refine .values h ?_
    cases p.ex with
    | none => exact he
    | some x => exact .inl rfl

theorem sameModel_applyParams {m m' p} (hv : p.variants = none) (h : SameModel m m') :
    SameModel (m.applyParams p) (m'.applyParams p) := by
  cases h with
  | single h => exact .single (sameDesc_applyParams hv h)
  | oneOf h => exact .oneOf h
  | anyOf h => exact .anyOf h
  | allOf h => exact .allOf h

theorem same_string {d vs n f e} : SameModel ⟨d, .single ⟨n, .string vs f e⟩⟩ ⟨d, .single ⟨n, .string vs f e⟩⟩ :=
  .single .string

theorem tagged_turn {tag de value m₀ m₀' m m'} (h : SameModel m₀ m₀') (ht : Tagged tag de value m₀ m)
    (ht' : Tagged tag de value m₀' m') : SameModel m m' := by
  have hobj : (∃ d n o, m₀ = objectSchema d n o) ↔ (∃ d n o, m₀' = objectSchema d n o) := by
    cases h with
    | single hd => cases hd <;> simp [objectSchema]
    | oneOf => simp [objectSchema]
    | anyOf => simp [objectSchema]
    | allOf => simp [objectSchema]
  have hkey : ∀ {d n o d' n' o'}, m₀ = objectSchema d n o → m₀' = objectSchema d' n' o' →
      (tag ∈ BMap.keys o.properties ↔ tag ∈ BMap.keys o'.properties) := by
    rintro d n o d' n' o' rfl rfl
    cases h with
    | single hd => cases hd with | object hr hk hp ha hs => exact hk tag
  cases ht with
  | added d n o e hn hm =>
    cases ht' with
    | added d' n' o' e' hn' hm' =>
      subst e e' hm hm'
      cases h with
      | single hd =>
        cases hd with
        | object hr hk hp ha hs =>
          refine .single (.object (hr.append_right _) ?_ ?_ ha hs)
          · intro k
            simp only [BMap.mem_keys_insert, hk]
          · intro k r r'
            simp only [BMap.get_insert]
            split
            · rintro ⟨⟩ ⟨⟩; exact .inline same_string
            · exact hp k r r'
    | clash d' n' o' e' hn' hm' => exact absurd ((hkey e e').2 hn') hn
    | notObject hh => 
      obtain ⟨d', n', o', e'⟩ := hobj.1 ⟨d, n, o, e⟩
      exact absurd e' (hh _ _ _)
  | clash d n o e hn hm =>
    cases ht' with
    | added d' n' o' e' hn' hm' => exact absurd ((hkey e e').1 hn) hn'
    | clash d' n' o' e' hn' hm' => subst hm hm'; exact h
    | notObject hh =>
      obtain ⟨d', n', o', e'⟩ := hobj.1 ⟨d, n, o, e⟩
      exact absurd e' (hh _ _ _)
  | notObject hh hm =>
    cases ht' with
    | added d' n' o' e' hn' hm' =>
      obtain ⟨d, n, o, e⟩ := hobj.2 ⟨d', n', o', e'⟩
      exact absurd e (hh _ _ _)
    | clash d' n' o' e' hn' hm' =>
      obtain ⟨d, n, o, e⟩ := hobj.2 ⟨d', n', o', e'⟩
      exact absurd e (hh _ _ _)
    | notObject hh' hm' => subst hm hm'; exact h

theorem Env.Shuffled.typeName (h : env.Shuffled env') : ∀ t : Ty, typeName env' t = typeName env t := by
  intro t
  refine typeName_same (P := fun _ => True) (fun _ _ _ => trivial) (fun _ _ => trivial) (fun i _ => ?_) t trivial
  have := h.decl i
  simp only [Verif.typeName]
  generalize env'.decl i = c' at this
  cases this
  rfl

theorem Env.Shuffled.alwaysInline (h : env.Shuffled env') : ∀ t : Ty, alwaysInline env' t = alwaysInline env t := by
  intro t
  cases t <;> try rfl
  rename_i i
  have := h.decl i
  simp only [Verif.alwaysInline]
  generalize env'.decl i = c' at this
  cases this
  rfl

/-- Schemas of `t` are the same up to order. -/
abbrev SameAt (env env' : Env) (t : Ty) : Prop := ∀ m m', HasSchema env t m → HasSchema env' t m' → SameModel m m'

theorem mention_turn (h : env.Shuffled env') {t i p r r'} (hv : p.variants = none) (ha : SameAt env env' t)
    (hm : Mentions env t i p r) (hm' : Mentions env' t i p r') : SameRef r r' := by
  obtain ⟨cx, cx1, hm⟩ := hm
  obtain ⟨cx', cx1', hm'⟩ := hm'
  rw [mentionReturns_iff] at hm hm'
  have hl : linkName env' t i = linkName env t i := by
    unfold linkName
    rw [h.typeName]
  rw [hl] at hm'
  rcases hm with ⟨l, hl, rfl, -⟩ | ⟨hl, m, hm, rfl⟩
  · rcases hm' with ⟨l', hl', rfl, -⟩ | ⟨hl', -⟩
    · rw [hl] at hl'; cases hl'; exact .link
    · rw [hl] at hl'; cases hl'
  · rcases hm' with ⟨l', hl', -⟩ | ⟨-, m', hm', rfl⟩
    · rw [hl] at hl'; cases hl'
    · exact .inline (sameModel_applyParams hv (ha _ _ ⟨_, _, hm⟩ ⟨_, _, hm'⟩))

theorem SameRefs.of {rs rs'} (h : UpToOrder SameRef rs rs') : SameRefs rs rs' := by
  induction h with
  | nil => exact .nil
  | cons h e t ih => exact .cons h e ih

theorem pointwise_split {α β : Type} {R : α → β → Prop} {pre : List α} {a post bs}
    (h : Pointwise R (pre ++ a :: post) bs) : ∃ pre' b post', bs = pre' ++ b :: post' ∧ Pointwise R pre pre' ∧ R a b ∧
      Pointwise R post post' := by
  induction pre generalizing bs with
  | nil => cases h with | cons h t => exact ⟨[], _, _, rfl, .nil, h, t⟩
  | cons x pre ih =>
    cases h with
    | cons h t =>
      obtain ⟨pre', b, post', rfl, h1, h2, h3⟩ := ih t
      exact ⟨_ :: pre', b, post', rfl, .cons h h1, h2, h3⟩

/-- Values of the two lists of properties. -/
def EntryTurn (e e' : PropExpr Ty × Ref) : Prop := PropTurn e.1 e'.1 ∧ SameRef e.2 e'.2

theorem upToOrder_get {S : Ref → Ref → Prop} {l l' : List (String × Ref)}
    (h : UpToOrder (fun a b => a.1 = b.1 ∧ S a.2 b.2) l l') (hn : (l.map Prod.fst).Nodup) :
    (∀ k, k ∈ BMap.keys (BMap.insertAll l []) ↔ k ∈ BMap.keys (BMap.insertAll l' [])) ∧
    ∀ k r r', BMap.get k (BMap.insertAll l []) = some r → BMap.get k (BMap.insertAll l' []) = some r' → S r r' := by
  have hp : (l.map Prod.fst).Perm (l'.map Prod.fst) := (h.map fun a b h => h.1).perm
  have hn' := hp.nodup_iff.1 hn
  have hg : ∀ {l : List (String × Ref)}, (l.map Prod.fst).Nodup → ∀ k r,
      BMap.get k (BMap.insertAll l []) = some r ↔ (k, r) ∈ l := by
    intro l hn k r
    rw [BMap.get_insertAll, ← BMap.get_perm (List.reverse_perm l).symm hn]
    show (BMap.get k l).or none = some r ↔ _
    rw [Option.or_none]
    exact ⟨BMap.mem_of_get, BMap.get_of_mem_nodup hn⟩
  have hk : ∀ {l : List (String × Ref)}, (l.map Prod.fst).Nodup → ∀ k,
      k ∈ BMap.keys (BMap.insertAll l []) ↔ k ∈ l.map Prod.fst := by
    intro l hn k
    rw [← BMap.get_isSome_iff, Option.isSome_iff_exists]
    simp only [hg hn, List.mem_map, Prod.exists, exists_and_right, exists_eq_right]
  refine ⟨fun k => by rw [hk hn, hk hn', hp.mem_iff], fun k r r' h1 h2 => ?_⟩
  rw [hg hn] at h1
  rw [hg hn'] at h2
  obtain ⟨⟨k', r₁⟩, hb, rfl, hs⟩ := h.mem_left h1
  have := BMap.get_of_mem_nodup hn' hb
  rw [BMap.get_of_mem_nodup hn' h2] at this
  cases this
  exact hs

mutual
theorem refTurn_same (hs : env.Shuffled env') {e e'} :
    RefTurn e e' → (∀ x ∈ e.asked, SameAt env env' x.1) → ∀ {r r'}, e.Yields env r → e'.Yields env' r' → SameRef r r'
  | .mention, R, r, r', hy, hy' => by
    have hy' := yields_mention hy'
    rw [ParamsExpr.eval_same hs.evalExpr] at hy'
    exact mention_turn hs rfl (R (_, _) List.mem_cons_self) (yields_mention hy) hy'
  | .inline h, R, r, r', hy, hy' => by
    obtain ⟨m, hm, rfl⟩ := yields_inline hy
    obtain ⟨m', hm', rfl⟩ := yields_inline hy'
    exact .inline (modelTurn_same hs h R hm hm')
  | .any, R, r, r', hy, hy' => by
    rw [yields_any hy, yields_any hy']; exact .any
theorem modelTurn_same (hs : env.Shuffled env') {e e'} :
    ModelTurn e e' → (∀ x ∈ e.asked, SameAt env env' x.1) → ∀ {m m'}, e.Yields env m → e'.Yields env' m' → SameModel m m'
  | .getSchema, R, m, m', hy, hy' => R (_, false) List.mem_cons_self m m' (yields_getSchema hy) (yields_getSchema hy')
  | .getSchemaWithParams, R, m, m', hy, hy' => by
    obtain ⟨m₀, hm, rfl⟩ := yields_getSchemaWithParams hy
    obtain ⟨m₀', hm', rfl⟩ := yields_getSchemaWithParams hy'
    rw [ParamsExpr.eval_same hs.evalExpr]
    exact sameModel_applyParams rfl (R (_, false) List.mem_cons_self _ _ hm hm')
  | .single h, R, m, m', hy, hy' => by
    obtain ⟨td, ht, rfl⟩ := yields_single hy
    obtain ⟨td', ht', rfl⟩ := yields_single hy'
    exact .single (typeTurn_same hs h R ht ht')
  | .oneOf h, R, m, m', hy, hy' => by
    obtain ⟨rs, hr, rfl⟩ := yields_oneOf hy
    obtain ⟨rs', hr', rfl⟩ := yields_oneOf hy'
    exact .oneOf (refsTurn_same hs h R hr hr')
  | .tagged h, R, m, m', hy, hy' => by
    obtain ⟨m₀, hm, rfl⟩ := yields_tagged hy
    obtain ⟨m₀', hm', rfl⟩ := yields_tagged hy'
    exact tagged_turn (modelTurn_same hs h R hm hm') (tagged_tryMerge ..) (tagged_tryMerge ..)
theorem typeTurn_same (hs : env.Shuffled env') {e e'} :
    TypeTurn e e' → (∀ x ∈ e.asked, SameAt env env' x.1) → ∀ {m m'}, e.Yields env m → e'.Yields env' m' → SameDesc m m'
  | .string, R, m, m', hy, hy' => by
    rw [yields_string hy, yields_string hy', optExample_same hs.evalExpr]; exact .string
  | .values h, R, m, m', hy, hy' => by
    rw [yields_string hy, yields_string hy']
    refine .values h (.inr ⟨?_, ?_⟩) <;> rw [Option.map_map] <;> exact Option.map_id' ..
  | .number, R, m, m', hy, hy' => by
    rw [yields_number hy, yields_number hy', optExample_same hs.evalExpr]; exact .number
  | .integer, R, m, m', hy, hy' => by
    rw [yields_integer hy, yields_integer hy', optExample_same hs.evalExpr]; exact .integer
  | .boolean, R, m, m', hy, hy' => by rw [yields_boolean hy, yields_boolean hy']; exact .boolean
  | .array h, R, m, m', hy, hy' => by
    obtain ⟨r, hr, rfl⟩ := yields_array hy
    obtain ⟨r', hr', rfl⟩ := yields_array hy'
    exact .array (refTurn_same hs h R hr hr')
  | .object (es := es) (es' := es') h hn, R, m, m', hy, hy' => by
    obtain ⟨rs, hr, rfl⟩ := yields_object hy
    obtain ⟨rs', hr', rfl⟩ := yields_object hy'
    have hp := propsTurn_same hs h R hr hr'
    have hz : ∀ (es : List (PropExpr Ty)) (rs : List Ref), (es.map PropExpr.nm).zip rs =
        (es.zip rs).map fun e => (PropExpr.nm e.1, e.2) := fun es rs => by
      rw [List.zip_map_left]
      exact List.map_congr_left fun _ _ => rfl
    have hm : UpToOrder (fun a b : String × Ref => a.1 = b.1 ∧ SameRef a.2 b.2) ((es.map PropExpr.nm).zip rs)
        ((es'.map PropExpr.nm).zip rs') := by
      rw [hz, hz]
      exact hp.map fun a b h => ⟨h.1.1, h.2⟩
    obtain ⟨hk, hg⟩ := upToOrder_get hm (by
      rw [List.map_fst_zip (by rw [List.length_map, hr.length_eq]; exact Nat.le_refl _)]
      exact hn)
    refine .object ?_ hk hg (by simp) (by simp)
    exact ((h.upToOrder.filter fun a b h => h.2.1).map fun a b h => h.1).perm
  | .dictionary h, R, m, m', hy, hy' => by
    obtain ⟨r, hr, rfl⟩ := yields_dictionary hy
    obtain ⟨r', hr', rfl⟩ := yields_dictionary hy'
    refine .object .rfl (fun _ => Iff.rfl) (by simp) (by simp) ?_
    rintro q q' ⟨⟩ ⟨⟩
    exact refTurn_same hs h R hr hr'
theorem refsTurn_same (hs : env.Shuffled env') {es es'} :
    RefsTurn es es' → (∀ x ∈ RefExpr.askedList es, SameAt env env' x.1) →
    ∀ {rs rs'}, Pointwise (RefExpr.Yields env) es rs → Pointwise (RefExpr.Yields env') es' rs' → SameRefs rs rs'
  | .nil, R, _, _, .nil, .nil => .nil
  | .cons h e t, R, _, rs', .cons hy hys, hy' => by
    subst e
    simp only [RefExpr.askedList, List.mem_append] at R
    obtain ⟨pre, r', post, rfl, h1, h2, h3⟩ := pointwise_split hy'
    exact .cons (refTurn_same hs h (fun x hx => R x (.inl hx)) hy h2) rfl
      (refsTurn_same hs t (fun x hx => R x (.inr hx)) hys (h1.append h3))
theorem propsTurn_same (hs : env.Shuffled env') {es es'} :
    PropsTurn es es' → (∀ x ∈ PropExpr.askedList es, SameAt env env' x.1) →
    ∀ {rs rs'}, Pointwise (fun e r => (PropExpr.rf e).Yields env r) es rs →
      Pointwise (fun e r => (PropExpr.rf e).Yields env' r) es' rs' → UpToOrder EntryTurn (es.zip rs) (es'.zip rs')
  | .nil, R, _, _, .nil, .nil => .nil
  | .cons h e t, R, _, rs', .cons hy hys, hy' => by
    subst e
    simp only [PropExpr.askedList, List.mem_append] at R
    obtain ⟨pre, r', post, rfl, h1, h2, h3⟩ := pointwise_split hy'
    have hr := refTurn_same hs h (fun x hx => R x (.inl hx)) hy h2
    have ht := propsTurn_same hs t (fun x hx => R x (.inr hx)) hys (h1.append h3)
    rw [List.zip_append h1.length_eq.symm] at ht ⊢
    rw [List.zip_cons_cons, List.zip_cons_cons]
    refine .cons ?_ rfl ht
    exact ⟨⟨rfl, rfl, h⟩, hr⟩
end

end Verif
