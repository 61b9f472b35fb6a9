import Verif.Spec.Neutral
import Verif.Proof.Conform
import Verif.Proof.DeriveRel
/-!
# Attributes that only document: proofs
-/

namespace Verif

/-! ## Schemas that accept the same values -/

/-- What a reference stands for. -/
inductive Resolved (reg : List (String × Model)) : Ref → Model → Prop
  | link {n m} (h : BMap.get n reg = some m) : Resolved reg (.link n) m
  | inline {m} : Resolved reg (.inline m) m

mutual
/-- The same schema up to documentation and links. -/
inductive Sim (reg reg' : List (String × Model)) : Ref → Ref → Prop
  | any : Sim reg reg' .any .any
  | model {r r' m m'} (h : Resolved reg r m) (h' : Resolved reg' r' m') (hs : SimModel reg reg' m m') : Sim reg reg' r r'
inductive SimModel (reg reg' : List (String × Model)) : Model → Model → Prop
  | single {d d' n td td'} (h : SimDesc reg reg' td td') :
      SimModel reg reg' ⟨d, .single ⟨n, td⟩⟩ ⟨d', .single ⟨n, td'⟩⟩
  | oneOf {d d' rs rs'} (hl : rs.length = rs'.length)
      (h : ∀ (k : Nat) r r', rs[k]? = some r → rs'[k]? = some r' → Sim reg reg' r r') :
      SimModel reg reg' ⟨d, .oneOf rs⟩ ⟨d', .oneOf rs'⟩
inductive SimDesc (reg reg' : List (String × Model)) : TypeDesc → TypeDesc → Prop
  | string {v f e f' e'} : SimDesc reg reg' (.string v f e) (.string v f' e')
  | number {f e f' e'} : SimDesc reg reg' (.number f e) (.number f' e')
  | integer {f e f' e'} : SimDesc reg reg' (.integer f e) (.integer f' e')
  | boolean : SimDesc reg reg' .boolean .boolean
  | array {r r'} (h : Sim reg reg' r r') : SimDesc reg reg' (.array r) (.array r')
  | object {o o' : ModelObject} (hr : o.required = o'.required)
      (hp : ∀ k, BMap.get k o.properties = none ↔ BMap.get k o'.properties = none)
      (hs : ∀ k r r', BMap.get k o.properties = some r → BMap.get k o'.properties = some r' → Sim reg reg' r r')
      (ha : o.additional = none ↔ o'.additional = none)
      (has : ∀ r r', o.additional = some r → o'.additional = some r' → Sim reg reg' r r') :
      SimDesc reg reg' (.object o) (.object o')
end

variable {x : Bool} {reg reg' : List (String × Model)}

theorem SimDesc.ofType {td td' j} (h : SimDesc reg reg' td td') : OfType td' j ↔ OfType td j := by
  cases h <;> cases j <;> simp [OfType]

theorem get_partner {k : String} {p p' : List (String × Ref)} (h : BMap.get k p = none ↔ BMap.get k p' = none) {r}
    (hr : BMap.get k p' = some r) : ∃ r', BMap.get k p = some r' := by
  cases hg : BMap.get k p with
  | none => rw [h.1 hg] at hr; cases hr
  | some r' => exact ⟨r', rfl⟩

theorem opt_partner {a b : Option Ref} (h : a = none ↔ b = none) {r} (hr : b = some r) : ∃ r', a = some r' := by
  cases a with
  | none => rw [h.1 rfl] at hr; cases hr
  | some r' => exact ⟨r', rfl⟩

/-- The elements before and after a position correspond too. -/
theorem sim_split {rs rs' pre : List Ref} {r post} (hl : rs.length = rs'.length)
    (h : ∀ (k : Nat) r r', rs[k]? = some r → rs'[k]? = some r' → Sim reg reg' r r') (he : rs = pre ++ r :: post) :
    ∃ pre' r' post', rs' = pre' ++ r' :: post' ∧ Sim reg reg' r r' ∧ ∀ q' ∈ pre' ++ post', ∃ q ∈ pre ++ post, Sim reg reg' q q' := by
  have hk : pre.length < rs'.length := by rw [← hl, he]; simp
  refine ⟨rs'.take pre.length, rs'[pre.length], rs'.drop (pre.length + 1), ?_, ?_, ?_⟩
  · rw [List.getElem_cons_drop, List.take_append_drop]
  · exact h pre.length _ _ (by rw [he]; simp) (List.getElem?_eq_getElem hk)
  · intro q' hq
    rcases List.mem_append.1 hq with hq | hq
    · obtain ⟨k, hk', rfl⟩ := List.getElem_of_mem hq
      simp only [List.length_take] at hk'
      have hp : k < pre.length := by omega
      refine ⟨pre[k], List.mem_append_left _ (List.getElem_mem _), h k _ _ ?_ ?_⟩
      · rw [he, List.getElem?_append_left (by omega), List.getElem?_eq_getElem]
      · simp
    · obtain ⟨k, hk', rfl⟩ := List.getElem_of_mem hq
      simp only [List.length_drop] at hk'
      have hl' : rs.length = pre.length + (post.length + 1) := by rw [he]; simp
      have hp : k < post.length := by omega
      refine ⟨post[k], List.mem_append_right _ (List.getElem_mem _), h (pre.length + 1 + k) _ _ ?_ ?_⟩
      · rw [he, List.getElem?_append_right (by omega)]
        rw [show pre.length + 1 + k - pre.length = k + 1 by omega, List.getElem?_cons_succ, List.getElem?_eq_getElem]
      · simp

theorem sim_mem {rs rs' : List Ref} (hl : rs.length = rs'.length)
    (h : ∀ (k : Nat) r r', rs[k]? = some r → rs'[k]? = some r' → Sim reg reg' r r') {r'} (hr : r' ∈ rs') :
    ∃ r ∈ rs, Sim reg reg' r r' := by
  obtain ⟨k, hk, rfl⟩ := List.getElem_of_mem hr
  exact ⟨rs[k]'(by omega), List.getElem_mem _, h k _ _ (List.getElem?_eq_getElem _) (List.getElem?_eq_getElem _)⟩

theorem Resolved.valid {r m j} (h : Resolved reg r m) (hv : ValidModel x reg m j) : Valid x reg r j := by
  cases h with
  | link h => exact .link h hv
  | inline => exact .inline hv

theorem Resolved.invalid {r m j} (h : Resolved reg r m) (hv : InvalidModel x reg m j) : Invalid x reg r j := by
  cases h with
  | link h => exact .link h hv
  | inline => exact .inline hv

mutual
theorem sim_valid {r j} : Valid x reg r j → ∀ {r'}, Sim reg reg' r r' → Valid x reg' r' j
  | .any, r', hs => by
    cases hs with
    | any => exact .any
    | model h => cases h
  | .link hg hv, r', hs => by
    cases hs with
    | model h h' hs =>
      cases h with
      | link h =>
        rw [hg] at h; cases h
        exact h'.valid (sim_validModel hv hs)
  | .inline hv, r', hs => by
    cases hs with
    | model h h' hs =>
      cases h with
      | inline => exact h'.valid (sim_validModel hv hs)
theorem sim_validModel {m j} : ValidModel x reg m j → ∀ {m'}, SimModel reg reg' m m' → ValidModel x reg' m' j
  | .null, m', hs => by cases hs; exact .null
  | .string h, m', hs => by cases hs with | single hd => cases hd; exact .string h
  | .number, m', hs => by cases hs with | single hd => cases hd; exact .number
  | .numberInt, m', hs => by cases hs with | single hd => cases hd; exact .numberInt
  | .integer, m', hs => by cases hs with | single hd => cases hd; exact .integer
  | .boolean, m', hs => by cases hs with | single hd => cases hd; exact .boolean
  | .array h, m', hs => by
    cases hs with
    | single hd =>
      cases hd with
      | array hd => exact .array fun y hy => sim_valid (h y hy) hd
  | .object hr hp ha, m', hs => by
    cases hs with
    | single hd =>
      cases hd with
      | object er ep es ea eas =>
        refine .object (er ▸ hr) ?_ ?_
        · intro k v r' hm hg
          obtain ⟨r, hr'⟩ := get_partner (ep k) hg
          exact sim_valid (hp k v r hm hr') (es k r r' hr' hg)
        · intro k v r' hm hg hh
          obtain ⟨r, hr'⟩ := opt_partner ea hh
          exact sim_valid (ha k v r hm ((ep k).2 hg) hr') (eas r r' hr' hh)
  | .oneOf he hv hx, m', hs => by
    cases hs with
    | oneOf hl h =>
      obtain ⟨pre', r', post', he', hs, hq⟩ := sim_split hl h he
      refine .oneOf he' (sim_valid hv hs) ?_
      intro hx' q' hq'
      obtain ⟨q, hm, hs'⟩ := hq q' hq'
      exact sim_invalid (hx hx' q hm) hs'
  | .anyOf .., m', hs => by cases hs
  | .allOf .., m', hs => by cases hs
theorem sim_invalid {r j} : Invalid x reg r j → ∀ {r'}, Sim reg reg' r r' → Invalid x reg' r' j
  | .link hg hv, r', hs => by
    cases hs with
    | model h h' hs =>
      cases h with
      | link h =>
        rw [hg] at h; cases h
        exact h'.invalid (sim_invalidModel hv hs)
  | .inline hv, r', hs => by
    cases hs with
    | model h h' hs =>
      cases h with
      | inline => exact h'.invalid (sim_invalidModel hv hs)
theorem sim_invalidModel {m j} : InvalidModel x reg m j → ∀ {m'}, SimModel reg reg' m m' → InvalidModel x reg' m' j
  | .type hn h, m', hs => by
    cases hs with
    | single hd => exact .type hn (fun hc => h (hd.ofType.1 hc))
  | .string h, m', hs => by cases hs with | single hd => cases hd; exact .string h
  | .item hm hv, m', hs => by
    cases hs with
    | single hd =>
      cases hd with
      | array hd => exact .item hm (sim_invalid hv hd)
  | .required h hk, m', hs => by
    cases hs with
    | single hd =>
      cases hd with
      | object er => exact .required (er ▸ h) hk
  | .property h hg hv, m', hs => by
    cases hs with
    | single hd =>
      cases hd with
      | object er ep es =>
        obtain ⟨r', hr'⟩ := get_partner (ep _).symm hg
        exact .property h hr' (sim_invalid hv (es _ _ _ hg hr'))
  | .additional h hg ha hv, m', hs => by
    cases hs with
    | single hd =>
      cases hd with
      | object er ep es ea eas =>
        obtain ⟨r', hr'⟩ := opt_partner ea.symm ha
        exact .additional h ((ep _).1 hg) hr' (sim_invalid hv (eas _ _ ha hr'))
  | .oneOfNone h, m', hs => by
    cases hs with
    | oneOf hl hh =>
      refine .oneOfNone ?_
      intro r' hr'
      obtain ⟨r, hr, hs⟩ := sim_mem hl hh hr'
      exact sim_invalid (h r hr) hs
  | .oneOfTwo (pre := pre) (r := r) (mid := mid) (r' := r2) (post := post) he e hv hv', m', hs => by
    cases hs with
    | oneOf hl hh =>
      rename_i rs'
      rw [List.append_assoc, List.cons_append] at e
      subst e
      have h1 : pre.length < rs'.length := by rw [← hl]; simp
      have h2 : pre.length + 1 + mid.length < rs'.length := by rw [← hl]; simp; omega
      have s1 := hh pre.length r rs'[pre.length] (by simp) (List.getElem?_eq_getElem h1)
      have s2 := hh (pre.length + 1 + mid.length) r2 rs'[pre.length + 1 + mid.length]
        (by rw [List.getElem?_append_right (by omega), show pre.length + 1 + mid.length - pre.length = mid.length + 1 by omega,
          List.getElem?_cons_succ]; simp) (List.getElem?_eq_getElem h2)
      refine .oneOfTwo (pre := rs'.take pre.length) (mid := (rs'.drop (pre.length + 1)).take mid.length)
        (post := rs'.drop (pre.length + 1 + mid.length + 1)) he ?_ (sim_valid hv s1) (sim_valid hv' s2)
      rw [List.append_assoc, List.cons_append]
      have : List.take mid.length (List.drop (pre.length + 1) rs') ++ rs'[pre.length + 1 + mid.length] :: List.drop (pre.length + 1 + mid.length + 1) rs' = List.drop (pre.length + 1) rs' := by
        rw [List.getElem_cons_drop, ← List.drop_drop (i := mid.length), List.take_append_drop]
      rw [this, List.getElem_cons_drop, List.take_append_drop]
  | .anyOf .., m', hs => by cases hs
  | .allOf .., m', hs => by cases hs
end

/-! ## Metadata and tags -/

theorem simDesc_applyParams {td td' p p'} (hv : p.variants = none) (hv' : p'.variants = none)
    (h : SimDesc reg reg' td td') : SimDesc reg reg' (td.applyParams p) (td'.applyParams p') := by
  cases h with
  | string => simp only [TypeDesc.applyParams, hv, hv', overrideOpt]; exact .string
  | number => exact .number
  | integer => exact .integer
  | boolean => exact .boolean
  | array h => exact .array h
  | object hr hp hs ha has => exact .object hr hp hs ha has

theorem sim_applyParams {m m' p p'} (hv : p.variants = none) (hv' : p'.variants = none) (hn : p.nullable = p'.nullable)
    (h : SimModel reg reg' m m') : SimModel reg reg' (m.applyParams p) (m'.applyParams p') := by
  cases h with
  | single h =>
    simp only [Model.applyParams, ModelData.applyParams, ModelType.applyParams, hn]
    exact .single (simDesc_applyParams hv hv' h)
  | oneOf hl h => exact .oneOf hl h

theorem stringEnum_sim {d d' vs} : SimModel reg reg' (stringEnum d vs) (stringEnum d' vs) := .single .string

theorem tagged_sim {tag de value m₀ m₀' m m'} (h : SimModel reg reg' m₀ m₀') (ht : Tagged tag de value m₀ m)
    (ht' : Tagged tag de value m₀' m') : SimModel reg reg' m m' := by
  have hobj : (∃ d n o, m₀ = objectSchema d n o) ↔ (∃ d n o, m₀' = objectSchema d n o) := by
    cases h with
    | single hd => cases hd <;> simp [objectSchema]
    | oneOf => simp [objectSchema]
  have hkey : ∀ {d n o d' n' o'}, m₀ = objectSchema d n o → m₀' = objectSchema d' n' o' →
      (tag ∈ BMap.keys o.properties ↔ tag ∈ BMap.keys o'.properties) := by
    rintro d n o d' n' o' rfl rfl
    cases h with
    | single hd =>
      cases hd with
      | object hr hp hs ha has =>
        rw [← BMap.get_isSome_iff, ← BMap.get_isSome_iff, ← Option.not_isNone, ← Option.not_isNone]
        simp only [Option.isNone_iff_eq_none, Bool.not_eq_true', ← Bool.not_eq_true]
        rw [not_congr (hp tag)]
  cases ht with
  | added d n o e hn hm =>
    cases ht' with
    | added d' n' o' e' hn' hm' =>
      subst e e' hm hm'
      cases h with
      | single hd =>
        cases hd with
        | object hr hp hs ha has =>
          refine .single (.object (by simp only [hr]) ?_ ?_ ha has)
          · intro k
            simp only [BMap.get_insert]
            split
            · simp
            · exact hp k
          · intro k r r'
            simp only [BMap.get_insert]
            split
            · rintro ⟨⟩ ⟨⟩; exact .model .inline .inline stringEnum_sim
            · exact hs k r r'
    | clash d' n' o' e' hn' hm' => exact absurd ((hkey e e').2 hn') hn
    | notObject hh => 
      obtain ⟨d', n', o', e'⟩ := hobj.1 ⟨d, n, o, e⟩
      exact absurd e' (hh _ _ _)
  | clash d n o e hn hm =>
    cases ht' with
    | added d' n' o' e' hn' hm' => exact absurd ((hkey e e').1 hn) hn'
    | clash d' n' o' e' hn' hm' => subst hm hm'; exact h
    | notObject hh =>
      obtain ⟨d', n', o', e'⟩ := hobj.1 ⟨d, n, o, e⟩
      exact absurd e' (hh _ _ _)
  | notObject hh hm =>
    cases ht' with
    | added d' n' o' e' hn' hm' =>
      obtain ⟨d, n, o, e⟩ := hobj.2 ⟨d', n', o', e'⟩
      exact absurd e (hh _ _ _)
    | clash d' n' o' e' hn' hm' =>
      obtain ⟨d, n, o, e⟩ := hobj.2 ⟨d', n', o', e'⟩
      exact absurd e (hh _ _ _)
    | notObject hh' hm' => subst hm hm'; exact h

/-! ## Code that differs in documentation only -/

mutual
/-- The code is the same up to documentation and inlining, with types that correspond. -/
inductive RefLike (R : Ty → Ty → Prop) (env env' : Env) : RefExpr Ty → RefExpr Ty → Prop
  | mention {t t' i i' p p'} (ht : R t t') (hn : p.nullable = p'.nullable)
      (h : p.nullable = none ∨ (InPlace env t i ↔ InPlace env' t' i')) :
      RefLike R env env' (.mention t i p) (.mention t' i' p')
  | inline {m m'} (h : ModelLike R env env' m m') : RefLike R env env' (.inline m) (.inline m')
  | any : RefLike R env env' .any .any
inductive ModelLike (R : Ty → Ty → Prop) (env env' : Env) : ModelExpr Ty → ModelExpr Ty → Prop
  | getSchema {t t'} (ht : R t t') : ModelLike R env env' (.getSchema t) (.getSchema t')
  | getSchemaWithParams {t t' p p'} (ht : R t t') (hn : p.nullable = p'.nullable) :
      ModelLike R env env' (.getSchemaWithParams t p) (.getSchemaWithParams t' p')
  | single {d d' n td td'} (h : TypeLike R env env' td td') : ModelLike R env env' (.single d n td) (.single d' n td')
  | oneOf {d d' rs rs'} (h : RefsLike R env env' rs rs') : ModelLike R env env' (.oneOf d rs) (.oneOf d' rs')
  | tagged {m m' ident tag name n} (h : ModelLike R env env' m m') :
      ModelLike R env env' (.tagged m ident tag name n) (.tagged m' ident tag name n)
inductive TypeLike (R : Ty → Ty → Prop) (env env' : Env) : TypeExpr Ty → TypeExpr Ty → Prop
  | string {v f e f' e'} : TypeLike R env env' (.string v f e) (.string v f' e')
  | number {f e f' e'} : TypeLike R env env' (.number f e) (.number f' e')
  | integer {f e f' e'} : TypeLike R env env' (.integer f e) (.integer f' e')
  | boolean : TypeLike R env env' .boolean .boolean
  | array {r r'} (h : RefLike R env env' r r') : TypeLike R env env' (.array r) (.array r')
  | object {es es'} (h : PropsLike R env env' es es') : TypeLike R env env' (.object es) (.object es')
  | dictionary {r r'} (h : RefLike R env env' r r') : TypeLike R env env' (.dictionary r) (.dictionary r')
inductive RefsLike (R : Ty → Ty → Prop) (env env' : Env) : List (RefExpr Ty) → List (RefExpr Ty) → Prop
  | nil : RefsLike R env env' [] []
  | cons {r r' rs rs'} (h : RefLike R env env' r r') (t : RefsLike R env env' rs rs') : RefsLike R env env' (r :: rs) (r' :: rs')
inductive PropsLike (R : Ty → Ty → Prop) (env env' : Env) : List (PropExpr Ty) → List (PropExpr Ty) → Prop
  | nil : PropsLike R env env' [] []
  | cons {n r r' b es es'} (h : RefLike R env env' r r') (t : PropsLike R env env' es es') :
      PropsLike R env env' (.mk n r b :: es) (.mk n r' b :: es')
end

variable {R : Ty → Ty → Prop} {env env' : Env} {roots roots' : List (Ty × Bool)}

/-- What is needed about a program and its registry. -/
structure Tidy (env : Env) (roots : List (Ty × Bool)) (reg : List (String × Model)) : Prop where
  registered : ∀ t name m, Linked env roots t → typeName env t = some name → HasSchema env t m →
    BMap.get name reg = some m
  expands : ∀ t, Reached env roots t → Expands env t

/-- Schemas of `t` and `t'` accept the same values. -/
abbrev Alike (env env' : Env) (reg reg' : List (String × Model)) (t t' : Ty) : Prop :=
  ∀ m m', HasSchema env t m → HasSchema env' t' m' → SimModel reg reg' m m'

theorem mention_resolved (T : Tidy env roots reg) {t i p r} (hm : Mentions env t i p r) (hs : Seen env roots (t, !i)) :
    ∃ m₀, HasSchema env t m₀ ∧
      ((¬ InPlace env t i ∧ Resolved reg r m₀) ∨ (InPlace env t i ∧ Resolved reg r (m₀.applyParams p))) := by
  obtain ⟨hr, hl⟩ := hs
  obtain ⟨cx, cx', hm⟩ := hm
  rcases mentionReturns_iff.1 hm with ⟨l, hln, rfl, _⟩ | ⟨hln, m, hsr, rfl⟩
  · obtain ⟨rfl, hn⟩ := linkName_some hln
    obtain ⟨m, cx1, hsr⟩ := expands_returns (T.expands t hr) cx
    have hh : HasSchema env t m := ⟨_, _, hsr⟩
    exact ⟨m, hh, .inl ⟨by simp [InPlace, hn], .link (T.registered t l m (hl rfl) hn hh)⟩⟩
  · exact ⟨m, ⟨_, _, hsr⟩, .inr ⟨linkName_none hln, .inline⟩⟩

theorem applyParams_default (m : Model) : m.applyParams {} = m := by
  obtain ⟨d, data⟩ := m
  cases data with
  | single t =>
    obtain ⟨n, td⟩ := t
    cases td <;> rfl
  | _ => rfl

theorem mention_sim (T : Tidy env roots reg) (T' : Tidy env' roots' reg') {t t' i i' p p' r r'}
    (hv : p.variants = none) (hv' : p'.variants = none) (hn : p.nullable = p'.nullable)
    (h : p.nullable = none ∨ (InPlace env t i ↔ InPlace env' t' i'))
    (hm : Mentions env t i p r) (hm' : Mentions env' t' i' p' r') (hs : Seen env roots (t, !i))
    (hs' : Seen env' roots' (t', !i')) (ha : Alike env env' reg reg' t t') : Sim reg reg' r r' := by
  obtain ⟨m, h1, h2⟩ := mention_resolved T hm hs
  obtain ⟨m', h1', h2'⟩ := mention_resolved T' hm' hs'
  have hsim := ha m m' h1 h1'
  rcases h with h | h
  · have key : ∃ q : Params, q.variants = none ∧ q.nullable = none ∧ Resolved reg r (m.applyParams q) := by
      rcases h2 with ⟨_, h2⟩ | ⟨_, h2⟩
      · exact ⟨{}, rfl, rfl, by rw [applyParams_default]; exact h2⟩
      · exact ⟨p, hv, h, h2⟩
    have key' : ∃ q : Params, q.variants = none ∧ q.nullable = none ∧ Resolved reg' r' (m'.applyParams q) := by
      rcases h2' with ⟨_, h2⟩ | ⟨_, h2⟩
      · exact ⟨{}, rfl, rfl, by rw [applyParams_default]; exact h2⟩
      · exact ⟨p', hv', by rw [← hn, h], h2⟩
    obtain ⟨q, a, b, c⟩ := key
    obtain ⟨q', a', b', c'⟩ := key'
    exact .model c c' (sim_applyParams a a' (by rw [b, b']) hsim)
  · rcases h2 with ⟨h2, h3⟩ | ⟨h2, h3⟩ <;> rcases h2' with ⟨h2', h3'⟩ | ⟨h2', h3'⟩
    · exact .model h3 h3' hsim
    · exact absurd (h.2 h2') h2
    · exact absurd (h.1 h2) h2'
    · exact .model h3 h3' (sim_applyParams hv hv' hn hsim)

/-- Properties correspond. -/
structure PropsSim (reg reg' : List (String × Model)) (ps ps' : List (String × Ref)) : Prop where
  none : ∀ k, BMap.get k ps = none ↔ BMap.get k ps' = none
  some : ∀ k r r', BMap.get k ps = some r → BMap.get k ps' = some r' → Sim reg reg' r r'

theorem PropsSim.insert {ps ps' k r r'} (h : PropsSim reg reg' ps ps') (hs : Sim reg reg' r r') :
    PropsSim reg reg' (BMap.insert k r ps) (BMap.insert k r' ps') where
  none k' := by
    simp only [BMap.get_insert]
    split
    · simp
    · exact h.none k'
  some k' q q' := by
    simp only [BMap.get_insert]
    split
    · rintro ⟨⟩ ⟨⟩; exact hs
    · exact h.some k' q q'

/-- What the code of a piece may assume about the types it asks for. -/
structure Ready (R : Ty → Ty → Prop) (env env' : Env) (roots roots' : List (Ty × Bool)) (reg reg' : List (String × Model))
    (as as' : List (Ty × Bool)) : Prop where
  alike : ∀ x ∈ as, ∀ x' ∈ as', R x.1 x'.1 → Alike env env' reg reg' x.1 x'.1
  seen : ∀ x ∈ as, Seen env roots x
  seen' : ∀ x ∈ as', Seen env' roots' x

theorem Ready.mono {as as' bs bs'} (h : Ready R env env' roots roots' reg reg' as as') (hs : ∀ x ∈ bs, x ∈ as)
    (hs' : ∀ x ∈ bs', x ∈ as') : Ready R env env' roots roots' reg reg' bs bs' :=
  ⟨fun x hx x' hx' => h.alike x (hs x hx) x' (hs' x' hx'), fun x hx => h.seen x (hs x hx), fun x hx => h.seen' x (hs' x hx)⟩

mutual
theorem refLike_sim (T : Tidy env roots reg) (T' : Tidy env' roots' reg') {e e'} :
    RefLike R env env' e e' → Ready R env env' roots roots' reg reg' e.asked e'.asked →
    ∀ {r r'}, e.Yields env r → e'.Yields env' r' → Sim reg reg' r r'
  | .mention ht hn h, R, r, r', hy, hy' =>
    mention_sim T T' rfl rfl hn h (yields_mention hy) (yields_mention hy') (R.seen _ (by simp [RefExpr.asked]))
      (R.seen' _ (by simp [RefExpr.asked])) (R.alike _ List.mem_cons_self _ List.mem_cons_self ht)
  | .inline h, R, r, r', hy, hy' => by
    obtain ⟨m, hm, rfl⟩ := yields_inline hy
    obtain ⟨m', hm', rfl⟩ := yields_inline hy'
    exact .model .inline .inline (modelLike_sim T T' h R hm hm')
  | .any, R, r, r', hy, hy' => by
    rw [yields_any hy, yields_any hy']; exact .any
theorem modelLike_sim (T : Tidy env roots reg) (T' : Tidy env' roots' reg') {e e'} :
    ModelLike R env env' e e' → Ready R env env' roots roots' reg reg' e.asked e'.asked →
    ∀ {m m'}, e.Yields env m → e'.Yields env' m' → SimModel reg reg' m m'
  | .getSchema ht, R, m, m', hy, hy' =>
    R.alike (_, false) List.mem_cons_self (_, false) List.mem_cons_self ht m m' (yields_getSchema hy) (yields_getSchema hy')
  | .getSchemaWithParams ht hn, R, m, m', hy, hy' => by
    obtain ⟨m₀, hm, rfl⟩ := yields_getSchemaWithParams hy
    obtain ⟨m₀', hm', rfl⟩ := yields_getSchemaWithParams hy'
    exact sim_applyParams rfl rfl hn (R.alike (_, false) List.mem_cons_self (_, false) List.mem_cons_self ht _ _ hm hm')
  | .single h, R, m, m', hy, hy' => by
    obtain ⟨td, ht, rfl⟩ := yields_single hy
    obtain ⟨td', ht', rfl⟩ := yields_single hy'
    exact .single (typeLike_sim T T' h R ht ht')
  | .oneOf h, R, m, m', hy, hy' => by
    obtain ⟨rs, hr, rfl⟩ := yields_oneOf hy
    obtain ⟨rs', hr', rfl⟩ := yields_oneOf hy'
    obtain ⟨a, b⟩ := refsLike_sim T T' h R hr hr'
    exact .oneOf a b
  | .tagged h, R, m, m', hy, hy' => by
    obtain ⟨m₀, hm, rfl⟩ := yields_tagged hy
    obtain ⟨m₀', hm', rfl⟩ := yields_tagged hy'
    exact tagged_sim (modelLike_sim T T' h R hm hm') (tagged_tryMerge ..) (tagged_tryMerge ..)
theorem typeLike_sim (T : Tidy env roots reg) (T' : Tidy env' roots' reg') {e e'} :
    TypeLike R env env' e e' → Ready R env env' roots roots' reg reg' e.asked e'.asked →
    ∀ {m m'}, e.Yields env m → e'.Yields env' m' → SimDesc reg reg' m m'
  | .string, R, m, m', hy, hy' => by rw [yields_string hy, yields_string hy']; exact .string
  | .number, R, m, m', hy, hy' => by rw [yields_number hy, yields_number hy']; exact .number
  | .integer, R, m, m', hy, hy' => by rw [yields_integer hy, yields_integer hy']; exact .integer
  | .boolean, R, m, m', hy, hy' => by rw [yields_boolean hy, yields_boolean hy']; exact .boolean
  | .array h, R, m, m', hy, hy' => by
    obtain ⟨r, hr, rfl⟩ := yields_array hy
    obtain ⟨r', hr', rfl⟩ := yields_array hy'
    exact .array (refLike_sim T T' h R hr hr')
  | .object h, R, m, m', hy, hy' => by
    obtain ⟨rs, hr, rfl⟩ := yields_object hy
    obtain ⟨rs', hr', rfl⟩ := yields_object hy'
    obtain ⟨a, b⟩ := propsLike_sim T T' h R hr hr' (ps := []) (ps' := []) ⟨fun _ => Iff.rfl, by simp⟩
    exact .object b a.none a.some Iff.rfl (by simp)
  | .dictionary h, R, m, m', hy, hy' => by
    obtain ⟨r, hr, rfl⟩ := yields_dictionary hy
    obtain ⟨r', hr', rfl⟩ := yields_dictionary hy'
    refine .object rfl (fun _ => Iff.rfl) (by simp) (by simp) ?_
    rintro q q' ⟨⟩ ⟨⟩
    exact refLike_sim T T' h R hr hr'
theorem refsLike_sim (T : Tidy env roots reg) (T' : Tidy env' roots' reg') {es es'} :
    RefsLike R env env' es es' →
    Ready R env env' roots roots' reg reg' (RefExpr.askedList es) (RefExpr.askedList es') →
    ∀ {rs rs'}, Pointwise (RefExpr.Yields env) es rs → Pointwise (RefExpr.Yields env') es' rs' →
      rs.length = rs'.length ∧ ∀ (k : Nat) r r', rs[k]? = some r → rs'[k]? = some r' → Sim reg reg' r r'
  | .nil, R, _, _, .nil, .nil => ⟨rfl, by simp⟩
  | .cons h t, R, _, _, .cons hy hys, .cons hy' hys' => by
    obtain ⟨a, b⟩ := refsLike_sim T T' t
      (R.mono (fun x hx => by simp only [RefExpr.askedList, List.mem_append]; exact .inr hx)
        (fun x hx => by simp only [RefExpr.askedList, List.mem_append]; exact .inr hx)) hys hys'
    have hd := refLike_sim T T' h
      (R.mono (fun x hx => by simp only [RefExpr.askedList, List.mem_append]; exact .inl hx)
        (fun x hx => by simp only [RefExpr.askedList, List.mem_append]; exact .inl hx)) hy hy'
    refine ⟨by simp [a], ?_⟩
    intro k r r'
    cases k with
    | zero => simp only [List.getElem?_cons_zero, Option.some.injEq]; rintro rfl rfl; exact hd
    | succ k => simpa only [List.getElem?_cons_succ] using b k r r'
theorem propsLike_sim (T : Tidy env roots reg) (T' : Tidy env' roots' reg') {es es'} :
    PropsLike R env env' es es' →
    Ready R env env' roots roots' reg reg' (PropExpr.askedList es) (PropExpr.askedList es') →
    ∀ {rs rs'}, Pointwise (fun e r => (PropExpr.rf e).Yields env r) es rs →
      Pointwise (fun e r => (PropExpr.rf e).Yields env' r) es' rs' → ∀ {ps ps'}, PropsSim reg reg' ps ps' →
      PropsSim reg reg' (BMap.insertAll ((es.map PropExpr.nm).zip rs) ps)
        (BMap.insertAll ((es'.map PropExpr.nm).zip rs') ps') ∧
      (es.filter PropExpr.rq).map PropExpr.nm = (es'.filter PropExpr.rq).map PropExpr.nm
  | .nil, R, _, _, .nil, .nil, ps, ps', hp => ⟨hp, rfl⟩
  | .cons h t, R, _, _, .cons hy hys, .cons hy' hys', ps, ps', hp => by
    have hd := refLike_sim T T' h
      (R.mono (fun x hx => by simp only [PropExpr.askedList, List.mem_append]; exact .inl hx)
        (fun x hx => by simp only [PropExpr.askedList, List.mem_append]; exact .inl hx)) hy hy'
    rename_i n r r' b es es' q q' rs rs'
    obtain ⟨a, b'⟩ := propsLike_sim T T' t
      (R.mono (fun x hx => by simp only [PropExpr.askedList, List.mem_append]; exact .inr hx)
        (fun x hx => by simp only [PropExpr.askedList, List.mem_append]; exact .inr hx)) hys hys' (hp.insert (k := n) hd)
    refine ⟨a, ?_⟩
    simp only [List.filter_cons, PropExpr.rq]
    cases b
    · exact b'
    · simp only [if_true, List.map_cons, PropExpr.nm, b']
end


/-! ## The generated code -/

/-- A nullable field is documented in place in both programs or in none. -/
def Placed (env env' : Env) (f f' : Field Ty) (i i' : Bool) : Prop :=
  f.attrs.explicitModelType = none → f.attrs.nullable = true → (InPlace env f.ty i ↔ InPlace env' f'.ty i')

theorem bare_field {f f' : Field Ty} (h : f.Like R f') :
    R f.ty f'.ty ∧ f.attrs.name = f'.attrs.name ∧ f.attrs.skipSerializing = f'.attrs.skipSerializing ∧
    f.attrs.optional = f'.attrs.optional ∧ f.attrs.nullable = f'.attrs.nullable ∧
    f.attrs.explicitModelType = f'.attrs.explicitModelType := by
  obtain ⟨h, h7⟩ := h
  obtain ⟨a, t⟩ := f
  obtain ⟨a', t'⟩ := f'
  simp only [Field.bare, FieldAttrs.mk.injEq] at h
  obtain ⟨h1, h2, h3, h4, -, -, -, -, h5, h6⟩ := h
  exact ⟨h7, h1, h2, h4, h5, h6⟩

theorem newtypeModel_like {n p p' t} : ModelLike R env env' (newtypeModel n p t) (newtypeModel n p' t) := by
  refine .single ?_
  cases t
  · exact .string
  · exact .integer
  · exact .number
  · exact .boolean
  · exact .boolean

theorem fieldRef_like {f f' : Field Ty} {p p' i i'} (h : f.Like R f') (hp : Placed env env' f f' i i')
    (hn : p.nullable = f.attrs.params.nullable) (hn' : p'.nullable = f'.attrs.params.nullable) :
    RefLike R env env' (fieldModelReference p f i) (fieldModelReference p' f' i') := by
  obtain ⟨h1, h2, h3, h4, h5, h6⟩ := bare_field h
  unfold fieldModelReference
  rw [← h6, ← h5]
  cases he : f.attrs.explicitModelType with
  | none =>
    refine .mention h1 ?_ ?_
    · rw [hn, hn']; simp only [FieldAttrs.params, h5]
    · cases hb : f.attrs.nullable with
      | false => rw [hn]; simp [FieldAttrs.params, hb]
      | true =>
        exact .inr (hp he hb)
  | some t =>
    cases t with
    | any => exact .any
    | _ => exact .inline newtypeModel_like

/-- Corresponding fields, of which those in `i` and `i'` are inlined. -/
abbrev FieldsLike (R : Ty → Ty → Prop) (env env' : Env) (i i' : Field Ty → Bool) (fs fs' : List (Field Ty)) : Prop :=
  Pointwise (fun f f' => f.Like R f' ∧ Placed env env' f f' (i f) (i' f')) fs fs'

theorem object_like {fs fs' : List (Field Ty)} {i i' : Field Ty → Bool} (h : FieldsLike R env env' i i' fs fs') :
    TypeLike R env env' (objectTypeDescription fs i) (objectTypeDescription fs' i') := by
  refine .object ?_
  induction h with
  | nil => exact .nil
  | @cons f f' fs fs' hh t ih =>
    obtain ⟨h1, h2, h3, h4, h5, h6⟩ := bare_field hh.1
    simp only [List.filter_cons, ← h3]
    split
    · simp only [List.map_cons, ← h2, ← h4]
      exact .cons (fieldRef_like hh.1 hh.2 rfl rfl) ih
    · exact ih

theorem tuple_like {fs fs' : List (Field Ty)} {i i' : Field Ty → Bool} (h : FieldsLike R env env' i i' fs fs') :
    TypeLike R env env' (tupleTypeDescription fs i) (tupleTypeDescription fs' i') := by
  refine .array (.inline (.oneOf ?_))
  induction h with
  | nil => exact .nil
  | @cons f f' fs fs' hh t ih => exact .cons (fieldRef_like hh.1 hh.2 rfl rfl) ih

/-- Corresponding variants. -/
structure VariantLike (R : Ty → Ty → Prop) (env env' : Env) (v v' : Variant Ty) : Prop where
  key : v.attrs.name = v'.attrs.name
  skip : v.attrs.skipSerializing = v'.attrs.skipSerializing
  style : v.style = v'.style
  discriminant : v.discriminant = v'.discriminant
  fields : FieldsLike R env env' v.inlines v'.inlines v.fields v'.fields

theorem VariantLike.others {v v' : Variant Ty} (h : VariantLike R env env' v v') (hs : v.style ≠ .newType) :
    FieldsLike R env env' (fun f => v.attrs.inline || f.attrs.inline) (fun f => v'.attrs.inline || f.attrs.inline)
      v.fields v'.fields := by
  have hf := h.fields
  have e : v.inlines = fun f => v.attrs.inline || f.attrs.inline := by funext f; simp [Variant.inlines, hs]
  have e' : v'.inlines = fun f => v'.attrs.inline || f.attrs.inline := by funext f; simp [Variant.inlines, ← h.style, hs]
  rw [e, e'] at hf
  exact hf

theorem newtypeVariant_like {v v' : Variant Ty} (h : VariantLike R env env' v v') (hs : v.style = .newType) {e e'}
    (he : newtypeVariantReference v = .ok e) (he' : newtypeVariantReference v' = .ok e') : RefLike R env env' e e' := by
  unfold newtypeVariantReference at he he'
  have hf := h.fields
  cases hf' : v.fields with
  | nil => rw [hf'] at he; cases he
  | cons f fs =>
    rw [hf'] at he hf
    cases hg' : v'.fields with
    | nil => rw [hg'] at he'; cases he'
    | cons g gs =>
      rw [hg'] at he' hf
      cases hf with
      | cons hh t =>
        cases he; cases he'
        have hp := hh.2
        simp only [Variant.inlines, hs, ← h.style, if_true] at hp
        exact fieldRef_like hh.1 hp rfl rfl

theorem external_like {v v' : Variant Ty} (h : VariantLike R env env' v v') {e e'}
    (he : externalAlternative v = .ok e) (he' : externalAlternative v' = .ok e') : RefLike R env env' e e' := by
  unfold externalAlternative at he he'
  rw [← h.style, ← h.key] at he'
  cases hs : v.style <;> simp only [hs] at he he'
  · cases he; cases he'; exact .inline (.single (object_like (h.others (by rw [hs]; simp))))
  · cases he; cases he'; exact .inline (.single (tuple_like (h.others (by rw [hs]; simp))))
  · exact newtypeVariant_like h hs he he'
  · cases he; cases he'; exact .inline (.single .string)

theorem untagged_like {v v' : Variant Ty} (h : VariantLike R env env' v v') {e e'}
    (he : untaggedAlternative v = .ok e) (he' : untaggedAlternative v' = .ok e') : RefLike R env env' e e' := by
  unfold untaggedAlternative at he he'
  rw [← h.style] at he'
  cases hs : v.style <;> simp only [hs] at he he'
  · cases he; cases he'; exact .inline (.single (object_like (h.others (by rw [hs]; simp))))
  · cases he
  · exact newtypeVariant_like h hs he he'
  · cases he

theorem adjacent_like {v v' : Variant Ty} (h : VariantLike R env env' v v') {e e'}
    (he : adjacentAlternative v = .ok e) (he' : adjacentAlternative v' = .ok e') : RefLike R env env' e e' := by
  unfold adjacentAlternative at he he'
  rw [← h.style] at he'
  cases hs : v.style <;> simp only [hs] at he he'
  · cases he; cases he'
    simp only [Bool.or_comm _ v.attrs.inline, Bool.or_comm _ v'.attrs.inline]
    exact .inline (.single (tuple_like (h.others (by rw [hs]; simp))))
  · cases he; cases he'; exact .inline (.single (tuple_like (h.others (by rw [hs]; simp))))
  · exact newtypeVariant_like h hs he he'
  · cases he

theorem internal_like {c c' : Container Ty} {tag} (hi : c.ident = c'.ident) (hn : c.attrs.nullable = c'.attrs.nullable)
    {v v' : Variant Ty} (h : VariantLike R env env' v v') {e e'}
    (he : internalAlternative c tag v = .ok e) (he' : internalAlternative c' tag v' = .ok e') : RefLike R env env' e e' := by
  have key : ∀ m m', internalInner v = .ok m → internalInner v' = .ok m' → ModelLike R env env' m m' := by
    intro m m' hm hm'
    unfold internalInner at hm hm'
    rw [← h.style] at hm'
    cases hs : v.style <;> simp only [hs] at hm hm'
    · cases hm; cases hm'; exact .single (object_like (h.others (by rw [hs]; simp)))
    · cases hm
    · have hf := h.fields
      cases hf' : v.fields with
      | nil => rw [hf'] at hm; cases hm
      | cons f fs =>
        rw [hf'] at hm hf
        cases hg' : v'.fields with
        | nil => rw [hg'] at hm'; cases hm'
        | cons g gs =>
          rw [hg'] at hm' hf
          cases hf with
          | cons hh t =>
            cases hm; cases hm'
            obtain ⟨h1, h2, h3, h4, h5, h6⟩ := bare_field hh.1
            exact .getSchemaWithParams h1 (by simp only [ParamsExpr.or, FieldAttrs.params, h5])
    · cases hm; cases hm'; exact .single (object_like .nil)
  unfold internalAlternative at he he'
  cases hm : internalInner v with
  | error => rw [hm] at he; cases he
  | ok m =>
    cases hm' : internalInner v' with
    | error => rw [hm'] at he'; cases he'
    | ok m' =>
      rw [hm] at he; rw [hm'] at he'
      cases he; cases he'
      rw [← hi, ← hn, ← h.key]
      exact .inline (.tagged (key m m' hm hm'))

theorem mapExcept_like {f f' : Variant Ty → Except MacroPanic (RefExpr Ty)} {vs vs'}
    (h : Pointwise (VariantLike R env env') vs vs')
    (hf : ∀ v v', VariantLike R env env' v v' → ∀ e e', f v = .ok e → f' v' = .ok e' → RefLike R env env' e e') {es es'}
    (he : mapExcept f vs = .ok es) (he' : mapExcept f' vs' = .ok es') : RefsLike R env env' es es' := by
  induction h generalizing es es' with
  | nil => cases he; cases he'; exact .nil
  | @cons v v' vs vs' h t ih =>
    simp only [mapExcept] at he he'
    split at he
    · cases he
    split at he
    · cases he
    split at he'
    · cases he'
    split at he'
    · cases he'
    cases he; cases he'
    exact .cons (hf _ _ h _ _ (by assumption) (by assumption)) (ih (by assumption) (by assumption))

theorem serialVariants_like {vs vs'} (h : Pointwise (VariantLike R env env') vs vs') :
    Pointwise (VariantLike R env env') (serialVariants vs) (serialVariants vs') := by
  induction h with
  | nil => exact .nil
  | cons h t ih =>
    simp only [serialVariants, List.filter_cons, ← h.skip]
    split
    · exact .cons h ih
    · exact ih

theorem names_like {vs vs'} (h : Pointwise (VariantLike R env env') vs vs') :
    vs.map (fun v => v.attrs.name.serialized) = vs'.map fun v => v.attrs.name.serialized := by
  induction h with
  | nil => rfl
  | cons h t ih => simp only [List.map_cons, h.key, ih]

theorem repr_like {vs vs'} (h : Pointwise (VariantLike R env env') vs vs') :
    RefsLike R env env' (vs.filterMap reprAlternative) (vs'.filterMap reprAlternative) := by
  induction h with
  | nil => exact .nil
  | @cons v v' vs vs' h t ih =>
    have hd := h.discriminant
    cases hv : v.discriminant with
    | none =>
      rw [hv] at hd
      rw [List.filterMap_cons_none (by simp [reprAlternative, hv]),
        List.filterMap_cons_none (by simp [reprAlternative, ← hd])]
      exact ih
    | some d =>
      rw [hv] at hd
      rw [List.filterMap_cons_some (by simp only [reprAlternative, hv]; rfl),
        List.filterMap_cons_some (by simp only [reprAlternative, ← hd]; rfl)]
      exact .cons (.inline (.single .integer)) ih

/-- Corresponding containers. -/
structure ContainerLike (R : Ty → Ty → Prop) (env env' : Env) (c c' : Container Ty) : Prop where
  ident : c.ident = c'.ident
  tagType : c.attrs.tagType = c'.attrs.tagType
  hasRepr : c.attrs.hasRepr = c'.attrs.hasRepr
  nullable : c.attrs.nullable = c'.attrs.nullable
  explicit : c.attrs.explicitModelType = c'.attrs.explicitModelType
  modelType : c.attrs.modelType = c'.attrs.modelType
  data : match c.data, c'.data with
    | .enum vs, .enum vs' => Pointwise (VariantLike R env env') vs vs'
    | .struct .newType (f :: _), .struct .newType (f' :: _) => f.Like R f'
    | .struct .newType [], .struct .newType [] => True
    | .struct s fs, .struct s' fs' => s = s' ∧ FieldsLike R env env' (fun f => f.attrs.inline) (fun f => f.attrs.inline) fs fs'
    | _, _ => False

theorem enum_like {c c' : Container Ty} (h : ContainerLike R env env' c c') {vs vs'}
    (hv : Pointwise (VariantLike R env env') vs vs') {e e'} (he : serializeEnum c vs = .ok e)
    (he' : serializeEnum c' vs' = .ok e') : ModelLike R env env' e e' := by
  have hsv := serialVariants_like hv
  unfold serializeEnum at he he'
  rw [← h.modelType, ← h.tagType] at he'
  generalize c.attrs.modelType = mt at he he'
  generalize c.attrs.tagType = tt at he he'
  split at he <;> simp only at he'
  · cases he; cases he'
    unfold serializeNewtypeEnum
    rw [← h.hasRepr]
    split
    · exact .oneOf (repr_like hsv)
    · simp only [names_like hsv]
      exact .single .string
  · unfold serializeAdjacentEnum at he he'
    split at he
    · cases he
    split at he'
    · cases he'
    cases he; cases he'
    simp only [names_like hsv, h.nullable, h.ident]
    exact .single (.object (.cons (.inline (.single .string)) (.cons (.inline (.oneOf (mapExcept_like hsv
      (fun _ _ => adjacent_like) (by assumption) (by assumption)))) .nil)))
  · unfold serializeExternalEnum at he he'
    split at he
    · cases he
    split at he'
    · cases he'
    cases he; cases he'
    rw [h.nullable]
    exact .single (.dictionary (.inline (.oneOf (mapExcept_like hsv
      (fun _ _ h _ _ => external_like h) (by assumption) (by assumption)))))
  · unfold serializeUntaggedEnum at he he'
    split at he
    · cases he
    split at he'
    · cases he'
    cases he; cases he'
    exact .oneOf (mapExcept_like hsv (fun _ _ h _ _ => untagged_like h) (by assumption) (by assumption))
  · unfold serializeInternalEnum at he he'
    split at he
    · cases he
    split at he'
    · cases he'
    cases he; cases he'
    exact .oneOf (mapExcept_like hsv (fun _ _ hh _ _ => internal_like h.ident h.nullable hh) (by assumption) (by assumption))
  · cases he

theorem body_like {c c' : Container Ty} (h : ContainerLike R env env' c c') {e e'} (he : serializeBody c = .ok e)
    (he' : serializeBody c' = .ok e') : ModelLike R env env' e e' := by
  have hd := h.data
  unfold serializeBody at he he'
  split at he
  · rename_i vs hc
    rw [hc] at hd
    split at he' <;> rename_i hc' <;> rw [hc'] at hd
    · exact enum_like h hd he he'
    all_goals exact absurd hd (by simp)
  · rename_i fs hc
    rw [hc] at hd
    split at he' <;> rename_i hc' <;> rw [hc'] at hd
    · exact absurd hd (by simp)
    · cases he; cases he'
      rw [serializeStruct, serializeStruct, h.nullable]
      exact .single (object_like hd.2)
    all_goals exact absurd hd.1 (by simp)
  · rename_i fs hc
    rw [hc] at hd
    split at he' <;> rename_i hc' <;> rw [hc'] at hd
    · exact absurd hd (by simp)
    · exact absurd hd.1 (by simp)
    · cases he; cases he'
      rw [serializeTupleStruct, serializeTupleStruct, h.nullable]
      exact .single (tuple_like hd.2)
    all_goals exact absurd hd.1 (by simp)
  · rename_i fs hc
    rw [hc] at hd
    split at he
    · cases he
    split at he' <;> rename_i hc' <;> rw [hc'] at hd
    · exact absurd hd (by simp)
    · exact absurd hd.1 (by simp)
    · exact absurd hd.1 (by simp)
    · split at he'
      · cases he'
      · unfold serializeNewtypeStruct at he he'
        simp only at he he' hd
        obtain ⟨h1, h2, h3, h4, h5, h6⟩ := bare_field hd
        rw [← h.explicit] at he'
        cases hx : c.attrs.explicitModelType with
        | none =>
          rw [hx] at he he'
          cases he; cases he'
          exact .getSchemaWithParams h1 (by simp only [ParamsExpr.or, FieldAttrs.params, h5])
        | some t =>
          rw [hx] at he he'
          cases t <;> simp only at he he' <;> cases he <;> cases he' <;> rw [h.nullable] <;> exact newtypeModel_like
    · exact absurd hd.1 (by simp)
  · cases he

theorem fieldsLike_of {fs fs' : List (Field Ty)} {i i' : Field Ty → Bool} (h : Pointwise (Field.Like R) fs fs')
    (hp : Pointwise (fun (x x' : Field Ty × Bool) => x.1.attrs.explicitModelType = none → x'.1.attrs.explicitModelType = none →
      x.1.attrs.nullable = true → x'.1.attrs.nullable = true → (InPlace env x.1.ty x.2 ↔ InPlace env' x'.1.ty x'.2)) (fs.map fun f => (f, i f)) (fs'.map fun f => (f, i' f))) :
    FieldsLike R env env' i i' fs fs' := by
  induction h with
  | nil => exact .nil
  | cons h t ih =>
    simp only [List.map_cons] at hp
    cases hp with
    | cons h1 h2 =>
      obtain ⟨-, -, -, -, e5, e6⟩ := bare_field h
      exact .cons ⟨h, fun he hn => h1 he (e6 ▸ he) hn (e5 ▸ hn)⟩ (ih h2)

theorem pointwise_append {α β : Type} {R : α → β → Prop} : ∀ {as : List α} {as' : List β} {bs : List α} {bs' : List β},
    as.length = as'.length → Pointwise R (as ++ bs) (as' ++ bs') → Pointwise R as as' ∧ Pointwise R bs bs'
  | [], [], _, _, _, h => ⟨.nil, h⟩
  | _ :: _, _ :: _, _, _, hl, h => by
    cases h with
    | cons h t =>
      obtain ⟨h1, h2⟩ := pointwise_append (by simpa using hl) t
      exact ⟨.cons h h1, h2⟩

theorem variantsLike_of {vs vs' : List (Variant Ty)} (h : Pointwise (Variant.Like R) vs vs')
    (hp : Pointwise (fun (x x' : Field Ty × Bool) => x.1.attrs.explicitModelType = none → x'.1.attrs.explicitModelType = none →
      x.1.attrs.nullable = true → x'.1.attrs.nullable = true → (InPlace env x.1.ty x.2 ↔ InPlace env' x'.1.ty x'.2)) (vs.flatMap fun v => v.fields.map fun f => (f, v.inlines f))
      (vs'.flatMap fun v => v.fields.map fun f => (f, v.inlines f))) :
    Pointwise (VariantLike R env env') vs vs' := by
  induction h with
  | nil => exact .nil
  | @cons v v' vs vs' h t ih =>
    rw [List.flatMap_cons, List.flatMap_cons] at hp
    obtain ⟨h1, h2⟩ := pointwise_append (by simpa using h.fields.length_eq.symm) hp
    exact .cons ⟨(congrArg VariantAttrs.name h.attrs :), (congrArg VariantAttrs.skipSerializing h.attrs :),
      h.style, h.discriminant, fieldsLike_of h.fields h1⟩ (ih h2)

theorem NullableAlike.symm {i} (h : NullableAlike env env' i) : NullableAlike env' env i := by
  unfold NullableAlike at h ⊢
  generalize (env.decl i).mentioned = l at h
  generalize (env'.decl i).mentioned = l' at h
  induction h with
  | nil => exact .nil
  | cons h _ ih => exact .cons (fun a b c d => (h b a d c).symm) ih

theorem containerLike_of {i} (h : (env.decl i).Like R (env'.decl i)) (hp : NullableAlike env env' i) :
    ContainerLike R env env' (env.decl i) (env'.decl i) := by
  have ha := h.attrs
  refine ⟨h.ident, (congrArg ContainerAttrs.tagType ha :), (congrArg ContainerAttrs.hasRepr ha :),
    (congrArg ContainerAttrs.nullable ha :), (congrArg ContainerAttrs.explicitModelType ha :),
    (congrArg ContainerAttrs.modelType ha :), ?_⟩
  have hd := h.data
  simp only [NullableAlike, Container.mentioned] at hp
  revert hp hd
  generalize (env.decl i).data = d
  generalize (env'.decl i).data = d'
  intro hp hd
  cases hd with
  | enum h => exact variantsLike_of h hp
  | @struct s fs fs' h =>
    cases s with
    | newType =>
      cases h with
      | nil => trivial
      | cons h t => exact h
    | _ => exact ⟨rfl, fieldsLike_of h hp⟩

theorem fields_like_of {fs fs' : List (Field Ty)} (h : fs.map Field.bare = fs'.map Field.bare) : Pointwise (Field.Like Eq) fs fs' := by
  induction fs generalizing fs' with
  | nil =>
    cases fs' with
    | nil => exact .nil
    | cons => simp at h
  | cons f fs ih =>
    cases fs' with
    | nil => simp at h
    | cons f' fs' =>
      simp only [List.map_cons, List.cons.injEq] at h
      exact .cons ⟨congrArg Field.attrs h.1, (congrArg Field.ty h.1 :)⟩ (ih h.2)

theorem variants_like_of {vs vs' : List (Variant Ty)} (h : vs.map Variant.bare = vs'.map Variant.bare) :
    Pointwise (Variant.Like Eq) vs vs' := by
  induction vs generalizing vs' with
  | nil =>
    cases vs' with
    | nil => exact .nil
    | cons => simp at h
  | cons v vs ih =>
    cases vs' with
    | nil => simp at h
    | cons v' vs' =>
      simp only [List.map_cons, List.cons.injEq] at h
      exact .cons ⟨congrArg Variant.attrs h.1, (congrArg Variant.style h.1 :), (congrArg Variant.discriminant h.1 :),
        fields_like_of (congrArg Variant.fields h.1)⟩ (ih h.2)

/-- Declarations that differ in documentation only correspond. -/
theorem container_like_of {c c' : Container Ty} (h : c.bare = c'.bare) : c.Like Eq c' := by
  refine ⟨(congrArg Container.ident h :), congrArg Container.attrs h, ?_⟩
  have hd : c.data.bare = c'.data.bare := congrArg Container.data h
  revert hd
  generalize c.data = d
  generalize c'.data = d'
  intro hd
  cases d with
  | enum vs =>
    cases d' with
    | struct => simp [Data.bare] at hd
    | enum vs' =>
      simp only [Data.bare, Data.enum.injEq] at hd
      exact .enum (variants_like_of hd)
  | struct s fs =>
    cases d' with
    | enum => simp [Data.bare] at hd
    | struct s' fs' =>
      simp only [Data.bare, Data.struct.injEq] at hd
      obtain ⟨rfl, hd⟩ := hd
      exact .struct (fields_like_of hd)

/-- What holds of corresponding pieces of code holds of the types they are for. -/
theorem alike_of_code (T : Tidy env roots reg) (T' : Tidy env' roots' reg') {t t' e e'} (he : schemaExpr env t = some e)
    (he' : schemaExpr env' t' = some e') (like : ModelLike R env env' e e') (hr : Reached env roots t) (hr' : Reached env' roots' t')
    (ih : ∀ u b, (u, b) ∈ e.asked → ∀ u', R u u' → Reached env roots u → Reached env' roots' u' → Alike env env' reg reg' u u') :
    Alike env env' reg reg' t t' := by
  intro m m' hm hm'
  have hs : ∀ x ∈ e.asked, Seen env roots x := fun x hx => seen_of_asked hr he hx
  have hs' : ∀ x ∈ e'.asked, Seen env' roots' x := fun x hx => seen_of_asked hr' he' hx
  exact modelLike_sim T T' like ⟨fun x hx x' hx' h => ih x.1 x.2 hx x'.1 h (hs x hx).1 (hs' x' hx').1, hs, hs'⟩
    (hasSchema_yields hm he) (hasSchema_yields hm' he')

theorem mentions_like (ts : List Ty) :
    RefsLike Eq env env' (ts.map fun t => .mention t false {}) (ts.map fun t => .mention t false {}) := by
  induction ts with
  | nil => exact .nil
  | cons t ts ih => exact .cons (.mention rfl rfl (.inl rfl)) ih

theorem schemaExpr_like (same : SameBarDocs env env') {t e e'} (hp : ∀ i, t = .named i → NullableAlike env env' i)
    (he : schemaExpr env t = some e) (he' : schemaExpr env' t = some e') : ModelLike Eq env env' e e' := by
  cases t with
  | prim p =>
    cases he; cases he'
    refine .single ?_
    cases p.schema.1
    · exact .string
    · exact .number
    · exact .integer
    · exact .boolean
  | wrap w t => cases he; cases he'; exact .getSchema rfl
  | option t => cases he; cases he'; exact .getSchemaWithParams rfl rfl
  | tuple ts => cases he; cases he'; exact .single (.array (.inline (.oneOf (mentions_like ts))))
  | seq k t => cases he; cases he'; exact .single (.array (.mention rfl rfl (.inl rfl)))
  | dict k t => cases he; cases he'; exact .single (.dictionary (.mention rfl rfl (.inl rfl)))
  | named i =>
    simp only [schemaExpr] at he he'
    split at he
    · split at he'
      · cases he; cases he'
        exact body_like (containerLike_of (container_like_of (same i)) (hp i rfl)) (by assumption) (by assumption)
      · cases he'
    · cases he
  | _ => cases he; cases he'; exact .single .string

/-- The schemas of a type in the two programs accept the same values. -/
theorem alike (T : Tidy env roots reg) (T' : Tidy env' roots' reg') (same : SameBarDocs env env')
    (hp : ∀ i, Reached env roots (.named i) → Reached env' roots' (.named i) → NullableAlike env env' i)
    {t} (hx : Expands env t) :
    Reached env roots t → Reached env' roots' t → Alike env env' reg reg' t t := by
  induction hx with
  | @intro t e he h ih =>
    intro hr hr'
    cases T'.expands t hr' with
    | @intro _ e' he' h' =>
      exact alike_of_code T T' he he' (schemaExpr_like same (fun i e => hp i (e ▸ hr) (e ▸ hr')) he he') hr hr'
        (fun u b hx u' e => by subst e; exact ih u b hx)

theorem tidy_of_run {calls rs cx'} (unique : NamesUnique env (rootsOf calls)) (mentions : ∀ c ∈ calls, c.isMention = true)
    (run : CallsReturn env Components.empty calls rs cx')
    (ext : ∀ n m, BMap.get n cx'.schemas = some m → BMap.get n reg = some m) : Tidy env (rootsOf calls) reg where
  registered t name m hl hn hm := ext _ _ ((registry_spec unique.consistent mentions run name m).2 ⟨t, hl, hn, hm⟩)
  expands t hr := by
    have hx := grounded_calls unique.agree run mentions (fun _ h => h) grounded_empty
    induction hr with
    | root h => exact hx _ h
    | step _ ha ih =>
      obtain ⟨e, he, hm⟩ := ha
      exact (expands_iff he).1 ih _ _ hm

end Verif
