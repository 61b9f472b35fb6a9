import Verif.Proof.Runs
import Verif.Spec.Objects
/-!
# Deep invariants of generated models
-/

namespace Verif

/-- All links satisfy `L` and, if `W`, all object schemas are well formed. -/
def Ref.All (W : Prop) (L : String → Prop) (r : Ref) : Prop :=
  (∀ l ∈ r.links, L l) ∧ (∀ o ∈ r.objects, W → o.WellFormed)
def Model.All (W : Prop) (L : String → Prop) (m : Model) : Prop :=
  (∀ l ∈ m.links, L l) ∧ (∀ o ∈ m.objects, W → o.WellFormed)
def TypeDesc.All (W : Prop) (L : String → Prop) (d : TypeDesc) : Prop :=
  (∀ l ∈ d.links, L l) ∧ (∀ o ∈ d.objects, W → o.WellFormed)

variable {W : Prop} {L : String → Prop}

theorem Ref.all_link {l : String} : (Ref.link l).All W L ↔ L l := by simp [Ref.All, Ref.links, Ref.objects]
theorem Ref.all_inline {m : Model} : (Ref.inline m).All W L ↔ m.All W L := by
  simp [Ref.All, Model.All, Ref.links, Ref.objects]
theorem Ref.all_any : Ref.any.All W L := by simp [Ref.All, Ref.links, Ref.objects]

theorem Model.all_single {d n td} : (⟨d, .single ⟨n, td⟩⟩ : Model).All W L ↔ td.All W L := by
  simp [Model.All, TypeDesc.All, Model.links, ModelData.links, ModelType.links, Model.objects,
    ModelData.objects, ModelType.objects]

theorem Model.all_oneOf {d rs} : (⟨d, .oneOf rs⟩ : Model).All W L ↔ ∀ r ∈ rs, r.All W L := by
  simp only [Model.All, Model.links, ModelData.links, Model.objects, ModelData.objects, refsLinks_eq,
    refsObjects_eq, List.mem_flatMap, Ref.All]
  constructor
  · intro h r hr
    exact ⟨fun l hl => h.1 l ⟨r, hr, hl⟩, fun o ho => h.2 o ⟨r, hr, ho⟩⟩
  · intro h
    exact ⟨fun l ⟨r, hr, hl⟩ => (h r hr).1 l hl, fun o ⟨r, hr, ho⟩ => (h r hr).2 o ho⟩

theorem TypeDesc.all_array {r : Ref} : (TypeDesc.array r).All W L ↔ r.All W L := by
  simp [Ref.All, TypeDesc.All, TypeDesc.links, TypeDesc.objects]

theorem TypeDesc.all_object {props add req} : (TypeDesc.object ⟨props, add, req⟩).All W L ↔
    (∀ r ∈ props.map Prod.snd, r.All W L) ∧ (∀ r, add = some r → r.All W L) ∧
    (W → (⟨props, add, req⟩ : ModelObject).WellFormed) := by
  simp only [TypeDesc.All, TypeDesc.links, TypeDesc.objects, ModelObject.links, propsLinks_eq,
    propsObjects_eq, List.mem_append, List.mem_flatMap, List.mem_cons, Ref.All]
  constructor
  · intro h
    refine ⟨fun r hr => ⟨fun l hl => h.1 l (.inl ⟨r, hr, hl⟩),
      fun o ho => h.2 o (.inr (.inl ⟨r, hr, ho⟩))⟩, ?_, h.2 _ (.inl rfl)⟩
    intro r hr
    subst hr
    exact ⟨fun l hl => h.1 l (.inr hl), fun o ho => h.2 o (.inr (.inr ho))⟩
  · rintro ⟨h1, h2, h3⟩
    constructor
    · rintro l (⟨r, hr, hl⟩ | hl)
      · exact (h1 r hr).1 l hl
      · cases add with
        | none => simp [optLinks] at hl
        | some r => exact (h2 r rfl).1 l hl
    · rintro o (rfl | ⟨r, hr, ho⟩ | ho)
      · exact h3
      · exact (h1 r hr).2 o ho
      · cases add with
        | none => simp [optObjects] at ho
        | some r => exact (h2 r rfl).2 o ho

theorem Model.all_applyParams {m : Model} (p : Params) (h : m.All W L) : (m.applyParams p).All W L := by
  obtain ⟨d, data⟩ := m
  cases data with
  | single t =>
    obtain ⟨n, td⟩ := t
    simp only [Model.applyParams, ModelData.applyParams, ModelType.applyParams, Model.all_single] at h ⊢
    cases td with
    | string => simp [TypeDesc.applyParams, TypeDesc.All, TypeDesc.links, TypeDesc.objects]
    | number => simp [TypeDesc.applyParams, TypeDesc.All, TypeDesc.links, TypeDesc.objects]
    | integer => simp [TypeDesc.applyParams, TypeDesc.All, TypeDesc.links, TypeDesc.objects]
    | boolean => exact h
    | array r => exact h
    | object o => exact h
  | oneOf rs => simpa only [Model.applyParams, ModelData.applyParams, Model.all_oneOf] using h
  | allOf rs =>
    simpa [Model.applyParams, ModelData.applyParams, Model.All, Model.links, ModelData.links, Model.objects,
      ModelData.objects] using h
  | anyOf rs =>
    simpa [Model.applyParams, ModelData.applyParams, Model.All, Model.links, ModelData.links, Model.objects,
      ModelData.objects] using h

theorem Model.all_tagged {m : Model} (ident tag name : String) (n : Bool) (h : m.All W L) :
    ((m.tryMerge (internalTagModel ident tag name n)).2).All W L := by
  obtain ⟨d, data⟩ := m
  cases data with
  | single t =>
    obtain ⟨n', td⟩ := t
    cases td with
    | object o =>
      obtain ⟨props, add, req⟩ := o
      rw [Model.all_single, TypeDesc.all_object] at h
      obtain ⟨h1, h2, h34⟩ := h
      simp only [Model.tryMerge, internalTagModel, BMap.insert, ModelObject.merge, mergeProps]
      split
      · rename_i heq
        split at heq
        · cases heq
          rw [Model.all_single, TypeDesc.all_object]
          exact ⟨h1, h2, h34⟩
        · cases heq
      · rename_i heq
        split at heq
        · cases heq
        · cases heq
          rename_i hc
          rw [Model.all_single, TypeDesc.all_object]
          refine ⟨?_, h2, fun w => ⟨BMap.sorted_insert (h34 w).1, ?_⟩⟩
          · intro r hr
            obtain ⟨⟨k, v⟩, hb, rfl⟩ := List.mem_map.1 hr
            rcases BMap.mem_insert_sub hb with e | hb'
            · cases e
              rw [Ref.all_inline, Model.all_single]
              simp [TypeDesc.All, TypeDesc.links, TypeDesc.objects]
            · exact h1 _ (List.mem_map_of_mem hb')
          · intro x hx
            simp only [List.mem_append, List.mem_singleton] at hx
            rw [BMap.mem_keys_insert]
            rcases hx with hx | hx
            · exact .inr ((h34 w).2 x hx)
            · exact .inl hx
    | _ => exact h
  | _ => exact h

/-- Answers satisfying the invariant. -/
def Ans.All (W : Prop) (L : String → Prop) : Ans → Prop
  | .ref r => r.All W L
  | .model m => m.All W L

theorem popRef_all {as : List Ans} (h : ∀ a ∈ as, a.All W L) :
    (popRef as).1.All W L ∧ ∀ a ∈ (popRef as).2, a ∈ as := by
  match as, h with
  | [], _ => simp [popRef, Ref.all_any]
  | .ref r :: as, h =>
    simp only [List.mem_cons, forall_eq_or_imp] at h
    refine ⟨h.1, fun a ha => List.mem_cons_of_mem _ ha⟩
  | .model r :: as, h => exact ⟨Ref.all_any, fun a ha => List.mem_cons_of_mem _ ha⟩

theorem popModel_all {as : List Ans} (h : ∀ a ∈ as, a.All W L) :
    (popModel as).1.All W L ∧ ∀ a ∈ (popModel as).2, a ∈ as := by
  have h0 : (⟨none, .oneOf []⟩ : Model).All W L := by rw [Model.all_oneOf]; simp
  match as, h with
  | [], _ => exact ⟨h0, by simp [popModel]⟩
  | .model r :: as, h =>
    simp only [List.mem_cons, forall_eq_or_imp] at h
    refine ⟨h.1, fun a ha => List.mem_cons_of_mem _ ha⟩
  | .ref r :: as, h => exact ⟨h0, fun a ha => List.mem_cons_of_mem _ ha⟩

variable {env : Env}

mutual
theorem RefExpr.fill_all (e : RefExpr Ty) (as : List Ans) (h : ∀ a ∈ as, a.All W L) :
    (e.fill env as).1.All W L ∧ ∀ a ∈ (e.fill env as).2, a ∈ as := by
  match e with
  | .mention .. => exact popRef_all h
  | .inline m =>
    have := ModelExpr.fill_all m as h
    exact ⟨Ref.all_inline.2 this.1, this.2⟩
  | .any => exact ⟨Ref.all_any, fun a ha => ha⟩
theorem ModelExpr.fill_all (e : ModelExpr Ty) (as : List Ans) (h : ∀ a ∈ as, a.All W L) :
    (e.fill env as).1.All W L ∧ ∀ a ∈ (e.fill env as).2, a ∈ as := by
  match e with
  | .getSchema t => exact popModel_all h
  | .getSchemaWithParams t p => exact ⟨Model.all_applyParams _ (popModel_all h).1, (popModel_all h).2⟩
  | .single d n td =>
    have := TypeExpr.fill_all td as h
    exact ⟨Model.all_single.2 this.1, this.2⟩
  | .oneOf d rs =>
    have := RefExpr.fillList_all rs as h
    exact ⟨Model.all_oneOf.2 this.1, this.2⟩
  | .tagged m i t n b =>
    have := ModelExpr.fill_all m as h
    exact ⟨Model.all_tagged i t n b this.1, this.2⟩
theorem TypeExpr.fill_all (e : TypeExpr Ty) (as : List Ans) (h : ∀ a ∈ as, a.All W L) :
    (e.fill env as).1.All W L ∧ ∀ a ∈ (e.fill env as).2, a ∈ as := by
  match e with
  | .string .. => exact ⟨by simp [TypeExpr.fill, TypeDesc.All, TypeDesc.links, TypeDesc.objects], fun a ha => ha⟩
  | .number .. => exact ⟨by simp [TypeExpr.fill, TypeDesc.All, TypeDesc.links, TypeDesc.objects], fun a ha => ha⟩
  | .integer .. => exact ⟨by simp [TypeExpr.fill, TypeDesc.All, TypeDesc.links, TypeDesc.objects], fun a ha => ha⟩
  | .boolean => exact ⟨by simp [TypeExpr.fill, TypeDesc.All, TypeDesc.links, TypeDesc.objects], fun a ha => ha⟩
  | .array r =>
    have := RefExpr.fill_all r as h
    exact ⟨TypeDesc.all_array.2 this.1, this.2⟩
  | .object es =>
    have := PropExpr.fillList_all es [] [] as h BMap.sorted_nil (by simp) (by simp)
    refine ⟨TypeDesc.all_object.2 ⟨this.1, by simp, fun _ => ⟨this.2.1, this.2.2.1⟩⟩, this.2.2.2⟩
  | .dictionary r =>
    have := RefExpr.fill_all r as h
    refine ⟨TypeDesc.all_object.2 ⟨by simp, ?_, fun _ => ⟨BMap.sorted_nil, by simp⟩⟩, this.2⟩
    intro r' e
    cases e
    exact this.1
theorem RefExpr.fillList_all (rs : List (RefExpr Ty)) (as : List Ans) (h : ∀ a ∈ as, a.All W L) :
    (∀ r ∈ (RefExpr.fillList env rs as).1, r.All W L) ∧ ∀ a ∈ (RefExpr.fillList env rs as).2, a ∈ as := by
  match rs with
  | [] => exact ⟨by simp [RefExpr.fillList], fun a ha => ha⟩
  | r :: rs =>
    have h1 := RefExpr.fill_all r as h
    have h2 := RefExpr.fillList_all rs (r.fill env as).2 (fun a ha => h a (h1.2 a ha))
    refine ⟨?_, fun a ha => h1.2 a (h2.2 a ha)⟩
    intro x hx
    simp only [RefExpr.fillList, List.mem_cons] at hx
    rcases hx with rfl | hx
    · exact h1.1
    · exact h2.1 x hx
theorem PropExpr.fillList_all (rs : List (PropExpr Ty)) (props : List (String × Ref)) (req : List String)
    (as : List Ans) (h : ∀ a ∈ as, a.All W L) (hs : BMap.Sorted props)
    (hp : ∀ r ∈ props.map Prod.snd, r.All W L) (hr : ∀ x ∈ req, x ∈ BMap.keys props) :
    (∀ r ∈ (PropExpr.fillList env rs props req as).1.1.map Prod.snd, r.All W L) ∧
    BMap.Sorted (PropExpr.fillList env rs props req as).1.1 ∧
    (∀ x ∈ (PropExpr.fillList env rs props req as).1.2,
      x ∈ BMap.keys (PropExpr.fillList env rs props req as).1.1) ∧
    ∀ a ∈ (PropExpr.fillList env rs props req as).2, a ∈ as := by
  match rs with
  | [] => exact ⟨hp, hs, hr, fun a ha => ha⟩
  | .mk n r q :: rs =>
    have h1 := RefExpr.fill_all r as h
    have h2 := PropExpr.fillList_all rs (BMap.insert n (r.fill env as).1 props)
      (if q then req ++ [n] else req) (r.fill env as).2 (fun a ha => h a (h1.2 a ha))
      (BMap.sorted_insert hs)
      (by
        intro x hx
        obtain ⟨⟨k, v⟩, hb, rfl⟩ := List.mem_map.1 hx
        rcases BMap.mem_insert_sub hb with e | hb'
        · cases e; exact h1.1
        · exact hp _ (List.mem_map_of_mem hb'))
      (by
        intro x hx
        rw [BMap.mem_keys_insert]
        cases q with
        | true =>
          simp only [if_true, List.mem_append, List.mem_singleton] at hx
          rcases hx with hx | hx
          · exact .inr (hr x hx)
          · exact .inl hx
        | false => exact .inr (hr x hx))
    exact ⟨h2.1, h2.2.1, h2.2.2.1, fun a ha => h1.2 a (h2.2.2.2 a ha)⟩
end

theorem Ref.All.imp {L L' : String → Prop} (hi : ∀ l, L l → L' l) {r : Ref} (h : r.All W L) : r.All W L' :=
  ⟨fun l hl => hi l (h.1 l hl), h.2⟩
theorem Model.All.imp {L L' : String → Prop} (hi : ∀ l, L l → L' l) {r : Model} (h : r.All W L) : r.All W L' :=
  ⟨fun l hl => hi l (h.1 l hl), h.2⟩
theorem Ans.All.imp {L L' : String → Prop} (hi : ∀ l, L l → L' l) {a : Ans} (h : a.All W L) : a.All W L' := by
  cases a with
  | ref r => exact Ref.All.imp hi h
  | model m => exact Model.All.imp hi h

/-! ## Registries all of whose schemas satisfy the invariant -/

/-- Every registered schema has only registered links and, if `W`, well-formed objects. -/
def Components.Good (W : Prop) (cx : Components) : Prop :=
  ∀ b ∈ cx.schemas, b.2.All W (· ∈ BMap.keys cx.schemas)

theorem Components.good_empty : Components.empty.Good W := by intro b hb; cases hb

theorem Components.Good.insert {cx : Components} (h : cx.Good W) {l : String} {m : Model}
    (hm : m.All W (· ∈ BMap.keys cx.schemas)) :
    ({ cx with schemas := BMap.insert l m cx.schemas } : Components).Good W := by
  intro b hb
  have hi : ∀ x, x ∈ BMap.keys cx.schemas → x ∈ BMap.keys (BMap.insert l m cx.schemas) :=
    fun x hx => BMap.mem_keys_insert.2 (.inr hx)
  rcases BMap.mem_insert_sub hb with e | hb'
  · subst e; exact hm.imp hi
  · exact (h b hb').imp hi

/-- `rec` preserves `Good` and returns models with registered links. -/
def RecGood (W : Prop) (rec : Ty → M Model) : Prop :=
  ∀ t cx m cx', rec t cx = some (m, cx') → cx.Good W → cx'.Good W ∧ m.All W (· ∈ BMap.keys cx'.schemas)

theorem mentionWith_good {rec : Ty → M Model} (hrec : RecGood W rec) {t i p cx r cx'}
    (h : mentionWith env rec t i p cx = some (r, cx')) (hg : cx.Good W) :
    cx'.Good W ∧ r.All W (· ∈ BMap.keys cx'.schemas) := by
  rcases mentionWith_some h with ⟨l, hl, hr, ⟨hc, he⟩ | ⟨hc, m, cx2, h2, he⟩⟩ | ⟨hl, m, h2, hr⟩
  · subst hr he
    exact ⟨hg, Ref.all_link.2 (BMap.containsKey_iff.1 hc)⟩
  · subst hr he
    have := hrec _ _ _ _ h2 hg
    exact ⟨this.1.insert this.2, Ref.all_link.2 (BMap.mem_keys_insert.2 (.inl rfl))⟩
  · subst hr
    have := hrec _ _ _ _ h2 hg
    exact ⟨this.1, Ref.all_inline.2 (Model.all_applyParams _ this.2)⟩

theorem runReqs_good {rec : Ty → M Model} (hrec : RecGood W rec)
    (hkeep : ∀ t cx m cx', rec t cx = some (m, cx') → cx.Keeps cx') {qs cx as cx'}
    (h : runReqs env rec qs cx = some (as, cx')) (hg : cx.Good W) :
    cx'.Good W ∧ ∀ a ∈ as, a.All W (· ∈ BMap.keys cx'.schemas) := by
  induction qs generalizing cx as with
  | nil => simp [runReqs] at h; obtain ⟨rfl, rfl⟩ := h; exact ⟨hg, by simp⟩
  | cons q qs ih =>
    obtain ⟨a, as', cx1, h1, h2, e⟩ := runReqs_cons_some h
    have h3 : cx1.Good W ∧ a.All W (· ∈ BMap.keys cx1.schemas) := by
      rcases Req.run_some h1 with ⟨t, i, p, r, eq, h3, ea⟩ | ⟨t, m, eq, h3, ea⟩
      · subst eq ea; exact mentionWith_good hrec h3 hg
      · subst eq ea; exact hrec _ _ _ _ h3 hg
    have h4 := ih h2 h3.1
    have hk := (runReqs_rel (R := Components.Keeps) .refl .trans .insert (hkeep _ _ _ _)).2 h2
    refine ⟨h4.1, ?_⟩
    subst e
    intro b hb
    rcases List.mem_cons.1 hb with rfl | hb
    · exact h3.2.imp fun l hl => hk.keys hl
    · exact h4.2 b hb

theorem getSchema_good (n : Nat) : RecGood W (getSchema env n) := by
  induction n with
  | zero => intro t cx m cx' h; simp [getSchema] at h
  | succ n ih =>
    intro t cx m cx' h hg
    obtain ⟨n', e, as, hn, he, hr, hm⟩ := getSchema_some h
    cases hn
    have := runReqs_good ih (fun _ _ _ _ => getSchema_keeps) hr hg
    subst hm
    exact ⟨this.1, (ModelExpr.fill_all e as this.2).1⟩

theorem mentionSchema_good {n t i p cx r cx'} (h : mentionSchema env n t i p cx = some (r, cx'))
    (hg : cx.Good W) : cx'.Good W ∧ r.All W (· ∈ BMap.keys cx'.schemas) :=
  mentionWith_good (getSchema_good n) h hg

/-! ## Well-formed objects from any registry -/

/-- The result of any run has well-formed objects, whatever the registry. -/
theorem getSchema_objects (n : Nat) : ∀ {t cx m cx'}, getSchema env n t cx = some (m, cx') →
    m.All True (fun _ => True) := by
  induction n with
  | zero => intro t cx m cx' h; simp [getSchema] at h
  | succ n ih =>
    intro t cx m cx' h
    obtain ⟨n', e, as, hn, he, hr, hm⟩ := getSchema_some h
    cases hn
    subst hm
    refine (ModelExpr.fill_all e as ?_).1
    clear h he
    generalize e.reqs = qs at hr
    induction qs generalizing cx as with
    | nil => simp [runReqs] at hr; simp [hr.1]
    | cons q qs ih2 =>
      obtain ⟨a, as', cx1, h1, h2, e⟩ := runReqs_cons_some hr
      subst e
      intro b hb
      rcases List.mem_cons.1 hb with rfl | hb
      · rcases Req.run_some h1 with ⟨t, i, p, r, eq, h3, ea⟩ | ⟨t, m, eq, h3, ea⟩
        · subst ea
          rcases mentionWith_some h3 with ⟨l, hl, hr, _⟩ | ⟨hl, m, h2, hr⟩
          · subst hr; exact Ref.all_link.2 trivial
          · subst hr; exact Ref.all_inline.2 (Model.all_applyParams _ (ih h2))
        · subst ea; exact ih h3
      · exact ih2 _ h2 b hb

theorem mentionSchema_objects {n t i p cx r cx'} (h : mentionSchema env n t i p cx = some (r, cx')) :
    r.All True (fun _ => True) := by
  rcases mentionWith_some h with ⟨l, hl, hr, _⟩ | ⟨hl, m, h2, hr⟩
  · subst hr; exact Ref.all_link.2 trivial
  · subst hr; exact Ref.all_inline.2 (Model.all_applyParams _ (getSchema_objects n h2))

end Verif
