import Verif.Spec.Used
import Verif.Proof.Conform
import Verif.Proof.Order
import Verif.Props.Params
import Verif.Proof.OpenApiApi
import Verif.Props.Size
/-!
# Links are not lost
-/

namespace Verif

/-! ## Code in which nothing is overwritten -/

def PropExpr.key {τ : Type} : PropExpr τ → String
  | .mk n _ _ => n

mutual
/-- No property that asks for a type is overwritten by a later one. -/
def RefExpr.KeepsAsked {τ : Type} : RefExpr τ → Prop
  | .mention .. => True
  | .inline m => m.KeepsAsked
  | .any => True
def ModelExpr.KeepsAsked {τ : Type} : ModelExpr τ → Prop
  | .getSchema _ => True
  | .getSchemaWithParams .. => True
  | .single _ _ td => td.KeepsAsked
  | .oneOf _ rs => RefExpr.KeepsAskedList rs
  | .tagged m .. => m.KeepsAsked
def TypeExpr.KeepsAsked {τ : Type} : TypeExpr τ → Prop
  | .string .. => True
  | .number .. => True
  | .integer .. => True
  | .boolean => True
  | .array items => items.KeepsAsked
  | .object entries => PropExpr.KeepsAskedList entries
  | .dictionary r => r.KeepsAsked
def RefExpr.KeepsAskedList {τ : Type} : List (RefExpr τ) → Prop
  | [] => True
  | r :: rs => r.KeepsAsked ∧ RefExpr.KeepsAskedList rs
def PropExpr.KeepsAskedList {τ : Type} : List (PropExpr τ) → Prop
  | [] => True
  | .mk n r _ :: rest => r.KeepsAsked ∧ (r.asked ≠ [] → n ∉ rest.map PropExpr.key) ∧ PropExpr.KeepsAskedList rest
end

section
variable {env : Env} {rec : Ty → M Model}

/-- The answer to an ask is in the links: as a name, or with all its own links. -/
def Answered (env : Env) (rec : Ty → M Model) (q : Ty × Bool) (links : List String) : Prop :=
  (q.2 = true ∧ ∃ name, typeName env q.1 = some name ∧ name ∈ links) ∨
  ((q.2 = false ∨ typeName env q.1 = none) ∧
    ∃ cx m cx', rec q.1 cx = some (m, cx') ∧ ∀ l ∈ m.links, l ∈ links)

theorem Answered.mono {q ls ls'} (h : Answered env rec q ls) (hs : ∀ l ∈ ls, l ∈ ls') : Answered env rec q ls' := by
  rcases h with ⟨hb, n, hn, hl⟩ | ⟨hb, cx, m, cx', hm, hl⟩
  · exact .inl ⟨hb, n, hn, hs _ hl⟩
  · exact .inr ⟨hb, cx, m, cx', hm, fun l h => hs _ (hl l h)⟩

theorem mention_answered {t i p cx r cx'} (h : mentionWith env rec t i p cx = some (r, cx')) :
    Answered env rec (t, !i) r.links := by
  rcases mentionWith_some h with ⟨l, hl, rfl, -⟩ | ⟨hl, m, hm, rfl⟩
  · obtain ⟨rfl, hn⟩ := linkName_some hl
    exact .inl ⟨rfl, l, hn, by simp [Ref.links]⟩
  · refine .inr ⟨?_, cx, m, cx', hm, fun l hl => ?_⟩
    · rcases linkName_none hl with h | h
      · exact .inl (by simp [h])
      · exact .inr h
    · simp only [Ref.links, c15_apply_params_links]; exact hl

theorem mem_propsLinks {ps : List (String × Ref)} {l : String} : l ∈ propsLinks ps ↔ ∃ p ∈ ps, l ∈ p.2.links := by
  rw [propsLinks_eq]
  simp only [List.mem_flatMap, List.mem_map]
  constructor
  · rintro ⟨r, ⟨p, hp, rfl⟩, hl⟩; exact ⟨p, hp, hl⟩
  · rintro ⟨p, hp, hl⟩; exact ⟨_, ⟨p, hp, rfl⟩, hl⟩

theorem tag_keeps_links (m : Model) (ident tag name : String) (n : Bool) :
    ∀ l ∈ m.links, l ∈ (m.tryMerge (internalTagModel ident tag name n)).2.links := by
  obtain ⟨d, data⟩ := m
  intro l hl
  cases data with
  | single t =>
    obtain ⟨nl, td⟩ := t
    cases td with
    | object o =>
      obtain ⟨ps, add, req⟩ := o
      simp only [Model.links, ModelData.links, ModelType.links, TypeDesc.links, ModelObject.links, List.mem_append] at hl
      simp only [Model.tryMerge, internalTagModel, ModelObject.merge, BMap.insert, mergeProps]
      split
      all_goals
        rename_i heq
        split at heq <;> cases heq
        simp only [Model.links, ModelData.links, ModelType.links, TypeDesc.links, ModelObject.links, List.mem_append]
        refine hl.imp_left fun h => ?_
        first | exact h | skip
      rename_i hc
      obtain ⟨⟨k, r⟩, hp, hl⟩ := mem_propsLinks.1 h
      refine mem_propsLinks.2 ⟨(k, r), BMap.mem_insert_of_ne hp ?_, hl⟩
      rintro rfl
      exact hc (BMap.containsKey_iff.2 (List.mem_map.2 ⟨_, hp, rfl⟩))
    | _ => exact hl
  | _ => exact hl

mutual
theorem RefExpr.answered : ∀ (e : RefExpr Ty) {cx r cx'}, e.KeepsAsked → e.eval env rec cx = some (r, cx') →
    ∀ q ∈ e.asked, Answered env rec q r.links
  | .mention t i p, cx, r, cx', _, h, q, hq => by
    unfold RefExpr.eval at h
    simp only [RefExpr.asked, List.mem_singleton] at hq
    subst hq
    exact mention_answered h
  | .inline m, cx, r, cx', hk, h, q, hq => by
    unfold RefExpr.eval at h
    cases he : m.eval env rec cx with
    | none => rw [he] at h; cases h
    | some x =>
      rw [he] at h
      cases h
      exact ModelExpr.answered m hk he q hq
  | .any, _, _, _, _, _, q, hq => by simp [RefExpr.asked] at hq
theorem ModelExpr.answered : ∀ (e : ModelExpr Ty) {cx m cx'}, e.KeepsAsked → e.eval env rec cx = some (m, cx') →
    ∀ q ∈ e.asked, Answered env rec q m.links
  | .getSchema t, cx, m, cx', _, h, q, hq => by
    unfold ModelExpr.eval at h
    simp only [ModelExpr.asked, List.mem_singleton] at hq
    subst hq
    exact .inr ⟨.inl rfl, cx, m, cx', h, fun _ h => h⟩
  | .getSchemaWithParams t p, cx, m, cx', _, h, q, hq => by
    unfold ModelExpr.eval at h
    simp only [ModelExpr.asked, List.mem_singleton] at hq
    subst hq
    cases he : rec t cx with
    | none => rw [he] at h; cases h
    | some x =>
      rw [he] at h
      cases h
      exact .inr ⟨.inl rfl, cx, x.1, x.2, he, fun l hl => by rw [c15_apply_params_links]; exact hl⟩
  | .single d n td, cx, m, cx', hk, h, q, hq => by
    unfold ModelExpr.eval at h
    cases he : td.eval env rec cx with
    | none => rw [he] at h; cases h
    | some x =>
      rw [he] at h
      cases h
      exact TypeExpr.answered td hk he q hq
  | .oneOf d rs, cx, m, cx', hk, h, q, hq => by
    unfold ModelExpr.eval at h
    cases he : RefExpr.evalList env rec rs cx with
    | none => rw [he] at h; cases h
    | some x =>
      rw [he] at h
      cases h
      exact RefExpr.answeredList rs hk he q hq
  | .tagged m' ident tag name n, cx, m, cx', hk, h, q, hq => by
    unfold ModelExpr.eval at h
    cases he : m'.eval env rec cx with
    | none => rw [he] at h; cases h
    | some x =>
      rw [he] at h
      cases h
      exact (ModelExpr.answered m' hk he q hq).mono (tag_keeps_links _ _ _ _ _)
theorem TypeExpr.answered : ∀ (e : TypeExpr Ty) {cx td cx'}, e.KeepsAsked → e.eval env rec cx = some (td, cx') →
    ∀ q ∈ e.asked, Answered env rec q td.links
  | .string .., _, _, _, _, _, q, hq => by simp [TypeExpr.asked] at hq
  | .number .., _, _, _, _, _, q, hq => by simp [TypeExpr.asked] at hq
  | .integer .., _, _, _, _, _, q, hq => by simp [TypeExpr.asked] at hq
  | .boolean, _, _, _, _, _, q, hq => by simp [TypeExpr.asked] at hq
  | .array items, cx, td, cx', hk, h, q, hq => by
    unfold TypeExpr.eval at h
    cases he : items.eval env rec cx with
    | none => rw [he] at h; cases h
    | some x =>
      rw [he] at h
      cases h
      exact RefExpr.answered items hk he q hq
  | .object entries, cx, td, cx', hk, h, q, hq => by
    unfold TypeExpr.eval at h
    cases he : PropExpr.evalList env rec entries [] [] cx with
    | none => rw [he] at h; cases h
    | some x =>
      obtain ⟨⟨props, req⟩, c⟩ := x
      rw [he] at h
      cases h
      refine ((PropExpr.answeredList entries hk he).2 q hq).mono fun l hl => ?_
      simp only [TypeDesc.links, ModelObject.links]
      exact List.mem_append_left _ hl
  | .dictionary r, cx, td, cx', hk, h, q, hq => by
    unfold TypeExpr.eval at h
    cases he : r.eval env rec cx with
    | none => rw [he] at h; cases h
    | some x =>
      rw [he] at h
      cases h
      refine (RefExpr.answered r hk he q hq).mono fun l hl => ?_
      simp only [TypeDesc.links, ModelObject.links, optLinks]
      exact List.mem_append_right _ hl
theorem RefExpr.answeredList : ∀ (es : List (RefExpr Ty)) {cx rs cx'}, RefExpr.KeepsAskedList es →
    RefExpr.evalList env rec es cx = some (rs, cx') → ∀ q ∈ RefExpr.askedList es, Answered env rec q (refsLinks rs)
  | [], _, _, _, _, _, q, hq => by simp [RefExpr.askedList] at hq
  | e :: es, cx, rs, cx', hk, h, q, hq => by
    unfold RefExpr.evalList at h
    cases he : e.eval env rec cx with
    | none => rw [he] at h; cases h
    | some x =>
      obtain ⟨r, cx1⟩ := x
      rw [he] at h
      simp only at h
      cases hes : RefExpr.evalList env rec es cx1 with
      | none => rw [hes] at h; cases h
      | some y =>
        rw [hes] at h
        cases h
        simp only [RefExpr.askedList, List.mem_append] at hq
        rcases hq with hq | hq
        · exact (RefExpr.answered e hk.1 he q hq).mono fun l hl => by simp [refsLinks, hl]
        · exact (RefExpr.answeredList es hk.2 hes q hq).mono fun l hl => by simp [refsLinks, hl]
theorem PropExpr.answeredList : ∀ (es : List (PropExpr Ty)) {props req cx props' req' cx'}, PropExpr.KeepsAskedList es →
    PropExpr.evalList env rec es props req cx = some ((props', req'), cx') →
    (∀ p ∈ props, p.1 ∉ es.map PropExpr.key → p ∈ props') ∧
    ∀ q ∈ PropExpr.askedList es, Answered env rec q (propsLinks props')
  | [], props, req, cx, props', req', cx', _, h => by
    simp only [PropExpr.evalList, Option.some.injEq, Prod.mk.injEq] at h
    rw [h.1.1]
    exact ⟨fun p hp _ => hp, fun q hq => by simp [PropExpr.askedList] at hq⟩
  | .mk n e b :: es, props, req, cx, props', req', cx', hk, h => by
    unfold PropExpr.evalList at h
    cases he : e.eval env rec cx with
    | none => rw [he] at h; cases h
    | some x =>
      obtain ⟨r, cx1⟩ := x
      rw [he] at h
      obtain ⟨h1, h2⟩ := PropExpr.answeredList es hk.2.2 h
      constructor
      · rintro ⟨k, v⟩ hp hn
        simp only [List.map_cons, List.mem_cons, PropExpr.key, not_or] at hn
        exact h1 _ (BMap.mem_insert_of_ne hp hn.1) hn.2
      · intro q hq
        simp only [PropExpr.askedList, List.mem_append] at hq
        rcases hq with hq | hq
        · have hn := hk.2.1 (List.ne_nil_of_mem hq)
          have hr := h1 (n, r) (BMap.mem_of_get (BMap.get_insert_self n r props)) hn
          exact (RefExpr.answered e hk.1 he q hq).mono fun l hl => mem_propsLinks.2 ⟨_, hr, hl⟩
        · exact h2 q hq
end

/-! ## The code of declarations -/

theorem keeps_field (p : ParamsExpr) (f : Field Ty) (i : Bool) : (fieldModelReference p f i).KeepsAsked := by
  unfold fieldModelReference
  cases f.attrs.explicitModelType with
  | none => trivial
  | some w => cases w <;> trivial

theorem keepsList_of {rs : List (RefExpr Ty)} (h : ∀ r ∈ rs, r.KeepsAsked) : RefExpr.KeepsAskedList rs := by
  induction rs with
  | nil => trivial
  | cons r rs ih => exact ⟨h r List.mem_cons_self, ih fun r hr => h r (List.mem_cons_of_mem _ hr)⟩

theorem keeps_object {fs : List (Field Ty)} (hd : DistinctFields fs) (pred : Field Ty → Bool) :
    (objectTypeDescription fs pred).KeepsAsked := by
  unfold objectTypeDescription DistinctFields serialFields at *
  simp only [TypeExpr.KeepsAsked]
  generalize fs.filter (fun f => !f.attrs.skipSerializing) = gs at *
  induction gs with
  | nil => trivial
  | cons f gs ih =>
    rw [List.map_cons, List.nodup_cons] at hd
    refine ⟨keeps_field _ _ _, fun _ h => hd.1 ?_, ih hd.2⟩
    rw [List.map_map] at h
    exact h

theorem keeps_tuple (fs : List (Field Ty)) (pred : Field Ty → Bool) : (tupleTypeDescription fs pred).KeepsAsked := by
  unfold tupleTypeDescription
  simp only [TypeExpr.KeepsAsked, RefExpr.KeepsAsked, ModelExpr.KeepsAsked]
  refine keepsList_of fun r hr => ?_
  obtain ⟨f, -, rfl⟩ := List.mem_map.1 hr
  exact keeps_field _ _ _

theorem keeps_newtype {v : Variant Ty} {r : RefExpr Ty} (h : newtypeVariantReference v = .ok r) : r.KeepsAsked := by
  unfold newtypeVariantReference at h
  split at h
  · cases h
  · cases h; exact keeps_field _ _ _

theorem keeps_untagged {v : Variant Ty} {r : RefExpr Ty} (hv : v.style = .struct → DistinctFields v.fields)
    (h : untaggedAlternative v = .ok r) : r.KeepsAsked := by
  unfold untaggedAlternative at h
  split at h
  · exact keeps_newtype h
  · rename_i hs
    cases h
    exact keeps_object (hv hs) _
  · cases h

theorem keeps_adjacent {v : Variant Ty} {r : RefExpr Ty} (h : adjacentAlternative v = .ok r) : r.KeepsAsked := by
  unfold adjacentAlternative at h
  split at h
  · exact keeps_newtype h
  · cases h; exact keeps_tuple _ _
  · cases h; exact keeps_tuple _ _
  · cases h

theorem keeps_external {v : Variant Ty} {r : RefExpr Ty} (hv : v.style = .struct → DistinctFields v.fields)
    (h : externalAlternative v = .ok r) : r.KeepsAsked := by
  unfold externalAlternative at h
  split at h
  · cases h; trivial
  · exact keeps_newtype h
  · cases h; exact keeps_tuple _ _
  · rename_i hs
    cases h
    exact keeps_object (hv hs) _

theorem keeps_internal {c : Container Ty} {tag : String} {v : Variant Ty} {r : RefExpr Ty}
    (hv : v.style = .struct → DistinctFields v.fields) (h : internalAlternative c tag v = .ok r) : r.KeepsAsked := by
  unfold internalAlternative at h
  cases hi : internalInner v with
  | error e => rw [hi] at h; cases h
  | ok m =>
    rw [hi] at h
    cases h
    unfold internalInner at hi
    split at hi
    · cases hi; trivial
    · split at hi
      · cases hi
      · cases hi; trivial
    · rename_i hs
      cases hi
      exact keeps_object (hv hs) _
    · cases hi

theorem keeps_alternatives {f : Variant Ty → Except MacroPanic (RefExpr Ty)} {vs : List (Variant Ty)}
    (hf : ∀ v ∈ vs, ∀ r, f v = .ok r → r.KeepsAsked) {rs : List (RefExpr Ty)}
    (h : mapExcept f (serialVariants vs) = .ok rs) : RefExpr.KeepsAskedList rs := by
  have key : ∀ (us : List (Variant Ty)) (rs : List (RefExpr Ty)), (∀ v ∈ us, ∀ r, f v = .ok r → r.KeepsAsked) →
      mapExcept f us = .ok rs → RefExpr.KeepsAskedList rs := by
    intro us
    induction us with
    | nil => intro rs _ h; cases h; trivial
    | cons v us ih =>
      intro rs hf h
      unfold mapExcept at h
      cases hv : f v with
      | error e => rw [hv] at h; cases h
      | ok r =>
        rw [hv] at h
        simp only at h
        cases hr : mapExcept f us with
        | error e => rw [hr] at h; cases h
        | ok rs' =>
          rw [hr] at h
          cases h
          exact ⟨hf v List.mem_cons_self r hv, ih rs' (fun v hv => hf v (List.mem_cons_of_mem _ hv)) hr⟩
  exact key _ rs (fun v hv => hf v (List.mem_filter.1 hv).1) h

theorem keeps_repr (vs : List (Variant Ty)) : RefExpr.KeepsAskedList (vs.filterMap reprAlternative) := by
  refine keepsList_of fun r hr => ?_
  obtain ⟨v, -, hv⟩ := List.mem_filterMap.1 hr
  unfold reprAlternative at hv
  cases hd : v.discriminant with
  | none => rw [hd] at hv; cases hv
  | some d => rw [hd] at hv; cases hv; trivial

theorem keeps_body {c : Container Ty} {e : ModelExpr Ty} (hc : c.DistinctKeys) (h : serializeBody c = .ok e) :
    e.KeepsAsked := by
  unfold serializeBody at h
  unfold Container.DistinctKeys at hc
  split at h
  · rename_i vs hd
    rw [hd] at hc
    unfold serializeEnum at h
    split at h
    · cases h
      unfold serializeNewtypeEnum
      split
      · exact keeps_repr _
      · trivial
    · unfold serializeAdjacentEnum at h
      split at h
      · cases h
      · rename_i rs hr
        cases h
        exact ⟨trivial, fun h => absurd rfl h, keeps_alternatives (fun v _ r h => keeps_adjacent h) hr, fun _ h => by simp at h, trivial⟩
    · unfold serializeExternalEnum at h
      split at h
      · cases h
      · rename_i rs hr
        cases h
        exact keeps_alternatives (fun v hv r h => keeps_external (hc v hv) h) hr
    · unfold serializeUntaggedEnum at h
      split at h
      · cases h
      · rename_i rs hr
        cases h
        exact keeps_alternatives (fun v hv r h => keeps_untagged (hc v hv) h) hr
    · unfold serializeInternalEnum at h
      split at h
      · cases h
      · rename_i rs hr
        cases h
        exact keeps_alternatives (fun v hv r h => keeps_internal (hc v hv) h) hr
    · cases h
  · rename_i fs hd
    rw [hd] at hc
    cases h
    exact keeps_object hc _
  · cases h
    exact keeps_tuple _ _
  · rename_i fs hd
    cases fs with
    | nil => cases h
    | cons f fs =>
      simp only at h
      unfold serializeNewtypeStruct at h
      simp only at h
      cases he : c.attrs.explicitModelType with
      | none => rw [he] at h; cases h; trivial
      | some w =>
        rw [he] at h
        cases w <;> first | cases h | skip
        all_goals trivial
  · cases h

theorem keepsAsked_type {t : Ty} {e : ModelExpr Ty} (hc : ∀ i, t = .named i → (env.decl i).DistinctKeys)
    (h : schemaExpr env t = some e) : e.KeepsAsked := by
  cases t with
  | named i =>
    simp only [schemaExpr] at h
    cases hb : serializeBody (env.decl i) with
    | error x => rw [hb] at h; cases h
    | ok b => rw [hb] at h; cases h; exact keeps_body (hc i rfl) hb
  | prim p => cases h; cases p <;> trivial
  | tuple ts =>
    cases h
    refine keepsList_of fun r hr => ?_
    obtain ⟨t, -, rfl⟩ := List.mem_map.1 hr
    trivial
  | _ => cases h; trivial

/-- What a type asks for is in the links of its schema. -/
theorem schema_answers {t t' : Ty} {b : Bool} {m : Model} (hc : ∀ i, t = .named i → (env.decl i).DistinctKeys)
    (hm : HasSchema env t m) (ha : Asks env t t' b) :
    (b = true ∧ ∃ name, typeName env t' = some name ∧ name ∈ m.links) ∨
    ((b = false ∨ typeName env t' = none) ∧ ∃ m', HasSchema env t' m' ∧ ∀ l ∈ m'.links, l ∈ m.links) := by
  obtain ⟨cx, cx', n, h⟩ := hm
  obtain ⟨e, he, hq⟩ := ha
  cases n with
  | zero => cases h
  | succ n =>
    unfold getSchema at h
    rw [he] at h
    rcases ModelExpr.answered e (keepsAsked_type hc he) h (t', b) hq with h | ⟨hb, cx, m', cx', h, hl⟩
    · exact .inl h
    · exact .inr ⟨hb, m', ⟨cx, cx', n, h⟩, hl⟩

/-! ## All components are used -/

theorem UsedFrom.registered {schemas : List (String × Model)} {from_ : List String} {name : String}
    (hs : ∀ n m, BMap.get n schemas = some m → ∀ l ∈ m.links, l ∈ BMap.keys schemas) (hf : ∀ l ∈ from_, l ∈ BMap.keys schemas)
    (h : UsedFrom schemas from_ name) : name ∈ BMap.keys schemas := by
  cases h with
  | here h => exact hf _ h
  | through _ hm hl => exact hs _ _ hm _ hl

theorem HasSchema.unique {t : Ty} {m m' : Model} (h : HasSchema env t m) (h' : HasSchema env t m') : m = m' := by
  obtain ⟨cx, cx', h⟩ := h
  obtain ⟨cx2, cx2', h'⟩ := h'
  exact (c05_context_independent env t cx cx2 cx' cx2').1 _ _ h h'

/-- The links of the schema of a type with a name are those of the derived type of that name. -/
theorem named_links {roots : List (Ty × Bool)} {t : Ty} {name : String} {m : Model} (hn : typeName env t = some name)
    (hm : HasSchema env t m) (hr : Reached env roots t) :
    ∃ i m₀, name = (env.decl i).ident ∧ Reached env roots (.named i) ∧ HasSchema env (.named i) m₀ ∧ m.links = m₀.links := by
  obtain ⟨i, m₀, h1, h2, h3, h4⟩ := linked_core hn hm hr
  refine ⟨i, m₀, h1, h2, h3, ?_⟩
  rcases h4 with rfl | rfl
  · rfl
  · rw [c15_apply_params_links]

theorem used_all {roots : List (Ty × Bool)} {cx : Components} {ls : List String} (reg : Named env roots cx)
    (closed : cx.NoDangling) (finite : ∀ q ∈ roots, Expands env q.1)
    (idents : ∀ i j, Reached env roots (.named i) → Reached env roots (.named j) → (env.decl i).ident = (env.decl j).ident → i = j)
    (keys : ∀ i, Reached env roots (.named i) → (env.decl i).DistinctKeys) (hls : ∀ l ∈ ls, l ∈ BMap.keys cx.schemas)
    (start : ∀ q ∈ roots, (q.2 = true ∧ ∃ name, typeName env q.1 = some name ∧ name ∈ ls) ∨
      ((q.2 = false ∨ typeName env q.1 = none) ∧ ∃ m, HasSchema env q.1 m ∧ ∀ l ∈ m.links, l ∈ ls)) :
    ∀ name ∈ BMap.keys cx.schemas, UsedFrom cx.schemas ls name := by
  have hexp : ∀ t, Reached env roots t → Expands env t := by
    intro t ht
    induction ht with
    | root h => exact finite _ h
    | step _ ha ih =>
      obtain ⟨e, he, hm⟩ := ha
      exact (expands_iff he).1 ih _ _ hm
  have hsch : ∀ t, Reached env roots t → ∃ m, HasSchema env t m := by
    intro t ht
    obtain ⟨m, cx', h⟩ := expands_returns (hexp t ht) Components.empty
    exact ⟨m, _, _, h⟩
  have hcl : ∀ n m, BMap.get n cx.schemas = some m → ∀ l ∈ m.links, l ∈ BMap.keys cx.schemas :=
    fun n m h => closed n m (BMap.mem_of_get h)
  -- the links of the component of a used name
  have comp : ∀ t name m, Reached env roots t → typeName env t = some name → HasSchema env t m →
      UsedFrom cx.schemas ls name → ∀ l ∈ m.links, UsedFrom cx.schemas ls l := by
    intro t name m hr hn hm hu l hl
    have hk := hu.registered hcl hls
    rw [← BMap.get_isSome_iff] at hk
    cases hg : BMap.get name cx.schemas with
    | none => rw [hg] at hk; cases hk
    | some mc =>
      obtain ⟨t', hl', hn', hm'⟩ := reg _ (BMap.mem_of_get hg)
      obtain ⟨i, m₀, h1, h2, h3, h4⟩ := named_links hn hm hr
      obtain ⟨j, m₁, h1', h2', h3', h4'⟩ := named_links hn' hm' (linked_reached hl')
      have : i = j := idents i j h2 h2' (by rw [← h1, ← h1'])
      subst this
      refine .through hu hg ?_
      simp only at h4'
      rw [h4', ← h3.unique h3', ← h4]
      exact hl
  have all : ∀ t, Reached env roots t → ∀ m, HasSchema env t m → ∀ l ∈ m.links, UsedFrom cx.schemas ls l := by
    intro t ht
    induction ht with
    | @root t b h =>
      intro m hm l hl
      rcases start _ h with ⟨-, name, hn, hl'⟩ | ⟨-, m', hm', hl'⟩
      · exact comp t name m (.root h) hn hm (.here hl') l hl
      · rw [hm.unique hm'] at hl
        exact .here (hl' l hl)
    | @step t t' b h ha ih =>
      intro m hm l hl
      obtain ⟨m₀, hm₀⟩ := hsch t h
      rcases schema_answers (fun i e => keys i (e ▸ h)) hm₀ ha with ⟨-, name, hn, hl'⟩ | ⟨-, m', hm', hl'⟩
      · exact comp t' name m (.step h ha) hn hm (ih m₀ hm₀ _ hl') l hl
      · rw [hm.unique hm'] at hl
        exact ih m₀ hm₀ l (hl' l hl)
  intro name hk
  rw [← BMap.get_isSome_iff] at hk
  cases hg : BMap.get name cx.schemas with
  | none => rw [hg] at hk; cases hk
  | some mc =>
    obtain ⟨t, hl, hn, hm⟩ := reg _ (BMap.mem_of_get hg)
    simp only at hn
    rcases hl with hl | ⟨u, hu, ha⟩
    · rcases start _ hl with ⟨-, name', hn', hl'⟩ | ⟨hb, -⟩
      · rw [hn] at hn'; cases hn'; exact .here hl'
      · rw [hn] at hb; simp at hb
    · obtain ⟨m, hm⟩ := hsch u hu
      rcases schema_answers (fun i e => keys i (e ▸ hu)) hm ha with ⟨-, name', hn', hl'⟩ | ⟨hb, -⟩
      · rw [hn] at hn'; cases hn'; exact all u hu m hm _ hl'
      · rw [hn] at hb; simp at hb

end
end Verif
