import Verif.Spec.Read
import Verif.Props.Docs
/-!
# Written documents are read back
-/

namespace Verif
namespace Read

/-! ## Generic parts -/

theorem all_map {α β γ : Type} {f : β → Option γ} {g : α → β} {h : α → γ} {l : List α}
    (H : ∀ x ∈ l, f (g x) = some (h x)) : all f (l.map g) = some (l.map h) := by
  induction l with
  | nil => rfl
  | cons x l ih =>
    simp [all, H x (by simp), ih fun y hy => H y (by simp [hy])]

theorem all_self {α β : Type} {f : β → Option α} {g : α → β} {l : List α} (H : ∀ x ∈ l, f (g x) = some x) :
    all f (l.map g) = some l := by
  simpa using all_map (h := id) H

theorem list_seq {α : Type} {f : Value → Option α} {vs : List Value} {xs : List α} (h : all f vs = some xs) :
    list f (nonEmptySeq vs) = some xs := by
  cases vs with
  | nil => cases h; rfl
  | cons v vs => exact h

theorem dict_map {α : Type} {f : Value → Option α} {es : List (Key × Value)} {xs} (h : all (binding f) es = some xs) :
    dict f (nonEmptyMap es) = some xs := by
  cases es with
  | nil => cases h; rfl
  | cons v vs => exact h

theorem all_bindings {α β : Type} {f : Value → Option β} {g : α → Value} {h : α → β} {l : List (String × α)}
    (H : ∀ x ∈ l, f (g x.2) = some (h x.2)) :
    all (binding f) (l.map fun x => (.str x.1, g x.2)) = some (l.map fun x => (x.1, h x.2)) :=
  all_map fun x hx => by simp [binding, H x hx]

theorem all_bindings_self {α : Type} {f : Value → Option α} {g : α → Value} {l : List (String × α)}
    (H : ∀ x ∈ l, f (g x.2) = some x.2) : all (binding f) (l.map fun x => (.str x.1, g x.2)) = some l := by
  simpa using all_bindings (h := id) H

theorem all_strs (ss : List String) : all text (strs ss) = some ss := all_self fun _ _ => rfl

@[simp] theorem text_optStr (s : Option String) : optional text (optStr s) = some s := by
  cases s <;> rfl

@[simp] theorem flag_flag (b : Bool) : flag (Verif.flag b) = some b := by
  cases b <;> rfl

theorem optional_map {α : Type} {f : Value → Option α} {g : α → Value} {o : Option α} (h : ∀ x, o = some x → f (g x) = some x) :
    optional f (o.map g) = some o := by
  cases o with
  | none => rfl
  | some x => simp [optional, h x rfl]

/-- All keys are among the given ones. -/
def Keys (ks : List String) (es : List (Key × Value)) : Prop := ∀ e ∈ es, ∃ k ∈ ks, e.1 = .str k

theorem only_of_keys {ks es} (h : Keys ks es) : only ks (.map es) = some () := by
  rw [only, if_pos]
  rw [List.all_eq_true]
  intro e he
  obtain ⟨k, hk, hke⟩ := h e he
  simp only [hke]
  simpa using hk

theorem Keys.append {ks es es'} (h : Keys ks es) (h' : Keys ks es') : Keys ks (es ++ es') := by
  intro e he
  rcases List.mem_append.1 he with he | he
  · exact h e he
  · exact h' e he

theorem Keys.cons {ks k v es} (hk : k ∈ ks) (h : Keys ks es) : Keys ks ((.str k, v) :: es) := by
  intro e he
  rcases List.mem_cons.1 he with rfl | he
  · exact ⟨k, hk, rfl⟩
  · exact h e he

theorem Keys.nil {ks} : Keys ks [] := fun _ h => nomatch h

theorem Keys.entriesOf {ks} {fs : List (String × Option Value)} (h : ∀ f ∈ fs, f.1 ∈ ks) : Keys ks (entriesOf fs) := by
  induction fs with
  | nil => exact Keys.nil
  | cons f fs ih =>
    obtain ⟨k, _ | v⟩ := f
    · exact ih fun g hg => h g (by simp [hg])
    · exact Keys.cons (h (k, some v) (by simp)) (ih fun g hg => h g (by simp [hg]))

/-! ## Heights -/

theorem height_mem_seq {v : Value} {vs : List Value} (h : v ∈ vs) : v.height ≤ heightSeq vs := by
  induction vs with
  | nil => cases h
  | cons w vs ih =>
    rw [heightSeq]
    rcases List.mem_cons.1 h with rfl | h
    · exact Nat.le_max_left ..
    · exact Nat.le_trans (ih h) (Nat.le_max_right ..)

theorem height_mem_map {k : Key} {v : Value} {es : List (Key × Value)} (h : (k, v) ∈ es) : v.height ≤ heightMap es := by
  induction es with
  | nil => cases h
  | cons w vs ih =>
    obtain ⟨k', w⟩ := w
    rw [heightMap]
    rcases List.mem_cons.1 h with h | h
    · cases h; exact Nat.le_max_left ..
    · exact Nat.le_trans (ih h) (Nat.le_max_right ..)

theorem height_lk {k : String} {v : Value} {es : List (Key × Value)} (h : lk k es = some v) : v.height ≤ heightMap es :=
  height_mem_map (BMap.mem_of_get h)

theorem heightSeq_of_nonEmpty {vs : List Value} {k : String} {es : List (Key × Value)} (h : lk k es = nonEmptySeq vs) :
    heightSeq vs ≤ heightMap es := by
  cases vs with
  | nil => simp [heightSeq]
  | cons v vs =>
    have := height_lk h
    rw [Value.height] at this
    exact Nat.le_trans (Nat.le_succ _) this

theorem heightMap_of_nonEmpty {vs : List (Key × Value)} {k : String} {es : List (Key × Value)} (h : lk k es = nonEmptyMap vs) :
    heightMap vs ≤ heightMap es := by
  cases vs with
  | nil => simp [heightMap]
  | cons v vs =>
    have := height_lk h
    rw [Value.height] at this
    exact Nat.le_trans (Nat.le_succ _) this

/-! ## Schemas -/

/-- The references directly in a schema. -/
def children (m : Model) : List Ref :=
  match m.data with
  | .single ⟨_, .array r⟩ => [r]
  | .single ⟨_, .object o⟩ => o.properties.map Prod.snd ++ o.additional.toList
  | .single _ => []
  | .oneOf rs => rs
  | .allOf rs => rs
  | .anyOf rs => rs

theorem serRefs_eq (rs : List Ref) : serRefs rs = rs.map Ref.ser := by
  induction rs with
  | nil => rw [serRefs]; rfl
  | cons r rs ih => rw [serRefs, ih]; rfl

theorem serProps_eq (ps : List (String × Ref)) : serProps ps = ps.map fun p => (.str p.1, p.2.ser) := by
  induction ps with
  | nil => rw [serProps]; rfl
  | cons p ps ih => obtain ⟨k, r⟩ := p; rw [serProps, ih]; rfl

theorem serOptRef_eq (o : Option Ref) : serOptRef o = o.map Ref.ser := by
  cases o <;> simp [serOptRef]

theorem children_height {m : Model} {r : Ref} (h : r ∈ children m) : r.ser.height ≤ heightMap m.entries := by
  obtain ⟨d, t | rs | rs | rs⟩ := m
  · obtain ⟨n, t⟩ := t
    cases t with
    | array items =>
      simp only [children, List.mem_singleton] at h
      subst h
      exact height_lk (k := "items") (by simp [Model.entries, ModelData.entries, ModelType.entries, TypeDesc.entries, lk_append])
    | object o =>
      obtain ⟨ps, ad, req⟩ := o
      simp only [children, List.mem_append, List.mem_map, Option.mem_toList] at h
      rcases h with ⟨⟨k, r⟩, hp, rfl⟩ | h
      · refine Nat.le_trans ?_ (heightMap_of_nonEmpty (k := "properties") (vs := serProps ps) (by
          simp [Model.entries, ModelData.entries, ModelType.entries, TypeDesc.entries, ModelObject.entries, lk_append]))
        rw [serProps_eq]
        exact height_mem_map (k := .str k) (List.mem_map.2 ⟨_, hp, rfl⟩)
      · refine height_lk (k := "additionalProperties") ?_
        simp [Model.entries, ModelData.entries, ModelType.entries, TypeDesc.entries, ModelObject.entries, lk_append,
          serOptRef_eq, h]
    | _ => simp [children] at h
  all_goals
    simp only [children] at h
    have key : ∀ k es, lk k es = some (.seq (serRefs rs)) → r.ser.height ≤ heightMap es := by
      intro k es hk
      have := height_lk hk
      rw [Value.height] at this
      refine Nat.le_trans ?_ (Nat.le_trans (Nat.le_succ _) this)
      rw [serRefs_eq]
      exact height_mem_seq (List.mem_map.2 ⟨_, h, rfl⟩)
  · exact key "oneOf" _ (by simp [Model.entries, ModelData.entries, lk_append])
  · exact key "allOf" _ (by simp [Model.entries, ModelData.entries, lk_append])
  · exact key "anyOf" _ (by simp [Model.entries, ModelData.entries, lk_append])

theorem model_of_children {f : Value → Option Ref} {m : Model} (H : ∀ r ∈ children m, f r.ser = some r) :
    modelWith f (.map m.entries) = some m := by
  obtain ⟨d, t | rs | rs | rs⟩ := m
  · obtain ⟨n, t⟩ := t
    have ks : ∀ ks, "description" ∈ ks → "nullable" ∈ ks → Keys ks t.entries →
        only ks (.map (Model.entries ⟨d, .single ⟨n, t⟩⟩)) = some () := by
      intro ks h1 h2 h3
      rw [Model.entries, ModelData.entries, ModelType.entries]
      exact only_of_keys ((Keys.entriesOf (by simp [h1])).append ((Keys.entriesOf (by simp [h2])).append h3))
    cases t with
    | string vs fmt ex =>
      have := ks ["description", "nullable", "type", "enum", "format", "example"] (by simp) (by simp) (by
        rw [TypeDesc.entries]; exact .cons (by simp) (.entriesOf (by simp)))
      have he : optional (fun w => list text (some w)) (vs.map fun vs => .seq (strs vs)) = some vs :=
        optional_map fun vs _ => all_strs vs
      simp [modelWith, data, single, description, this]
      simp [Value.at_map, Model.entries, ModelData.entries, ModelType.entries, TypeDesc.entries, lk_append, text, he]
    | number fmt ex =>
      have := ks ["description", "nullable", "type", "format", "example"] (by simp) (by simp) (by
        rw [TypeDesc.entries]; exact .cons (by simp) (.entriesOf (by simp)))
      simp [modelWith, data, single, description, this]
      simp [Value.at_map, Model.entries, ModelData.entries, ModelType.entries, TypeDesc.entries, lk_append, text]
    | integer fmt ex =>
      have := ks ["description", "nullable", "type", "format", "example"] (by simp) (by simp) (by
        rw [TypeDesc.entries]; exact .cons (by simp) (.entriesOf (by simp)))
      simp [modelWith, data, single, description, this]
      simp [Value.at_map, Model.entries, ModelData.entries, ModelType.entries, TypeDesc.entries, lk_append, text]
    | boolean =>
      have := ks ["description", "nullable", "type"] (by simp) (by simp) (by
        rw [TypeDesc.entries]; exact .cons (by simp) .nil)
      simp [modelWith, data, single, description, this]
      simp [Value.at_map, Model.entries, ModelData.entries, ModelType.entries, TypeDesc.entries, lk_append, text]
    | array items =>
      have := ks ["description", "nullable", "type", "items"] (by simp) (by simp) (by
        rw [TypeDesc.entries]; exact .cons (by simp) (.cons (by simp) .nil))
      have hi := H items (by simp [children])
      simp [modelWith, data, single, description, this]
      simp [Value.at_map, Model.entries, ModelData.entries, ModelType.entries, TypeDesc.entries, lk_append, text, hi]
    | object o =>
      obtain ⟨ps, ad, req⟩ := o
      have := ks ["description", "nullable", "type", "properties", "additionalProperties", "required"] (by simp) (by simp) (by
        rw [TypeDesc.entries, ModelObject.entries]; exact .cons (by simp) (.entriesOf (by simp)))
      have hp : dict f (nonEmptyMap (serProps ps)) = some ps := by
        refine dict_map ?_
        rw [serProps_eq]
        exact all_bindings_self fun p hp => H p.2 (by simp only [children, List.mem_append, List.mem_map]; exact .inl ⟨p, hp, rfl⟩)
      have ha : optional f (serOptRef ad) = some ad := by
        rw [serOptRef_eq]
        exact optional_map fun r hr => H r (by simp [children, hr])
      have hr : list text (nonEmptySeq (strs req)) = some req := list_seq (all_strs req)
      simp [modelWith, data, single, description, object, this]
      simp [Value.at_map, Model.entries, ModelData.entries, ModelType.entries, TypeDesc.entries, ModelObject.entries, lk_append,
        text, hp, ha, hr]
  all_goals
    have hrs : all f (serRefs rs) = some rs := by
      rw [serRefs_eq]
      exact all_self fun r hr => H r (by simpa [children] using hr)
  · have := only_of_keys (ks := ["description", "oneOf"]) (es := Model.entries ⟨d, .oneOf rs⟩) (by
      rw [Model.entries, ModelData.entries]; exact (Keys.entriesOf (by simp)).append (.cons (by simp) .nil))
    simp [modelWith, data, this]
    simp [Value.at_map, Model.entries, ModelData.entries, lk_append, list, hrs]
  · have := only_of_keys (ks := ["description", "allOf"]) (es := Model.entries ⟨d, .allOf rs⟩) (by
      rw [Model.entries, ModelData.entries]; exact (Keys.entriesOf (by simp)).append (.cons (by simp) .nil))
    simp [modelWith, data, this]
    simp [Value.at_map, Model.entries, ModelData.entries, lk_append, list, hrs]
  · have := only_of_keys (ks := ["description", "anyOf"]) (es := Model.entries ⟨d, .anyOf rs⟩) (by
      rw [Model.entries, ModelData.entries]; exact (Keys.entriesOf (by simp)).append (.cons (by simp) .nil))
    simp [modelWith, data, this]
    simp [Value.at_map, Model.entries, ModelData.entries, lk_append, list, hrs]

theorem component_link (name : String) : component (referencePrefix ++ name) = some name := by
  have h : (referencePrefix ++ name).toList = "#/components/schemas/".toList ++ name.toList := by
    rw [String.toList_append]; rfl
  unfold component
  simp only [h]
  rw [if_pos (by simp), List.drop_left]
  simp

theorem entries_ne_nil (m : Model) : m.entries ≠ [] := by
  obtain ⟨d, t | rs | rs | rs⟩ := m
  · obtain ⟨n, t⟩ := t
    cases t <;> simp [Model.entries, ModelData.entries, ModelType.entries, TypeDesc.entries]
  all_goals simp [Model.entries, ModelData.entries]

theorem refTo_ser : ∀ (n : Nat) (r : Ref), r.ser.height ≤ n → refTo n r.ser = some r
  | 0, r, h => by
    cases r <;> simp [Ref.ser, Value.height] at h
  | n + 1, .link name, _ => by
    rw [Ref.ser, refTo]
    · have := only_of_keys (ks := ["$ref"]) (es := [(.str "$ref", .str (referencePrefix ++ name))]) (.cons (by simp) .nil)
      simp [Value.at_map, this, text, component_link]
    · intro h; cases h
  | n + 1, .any, _ => by simp [Ref.ser, refTo]
  | n + 1, .inline m, h => by
    rw [Ref.ser] at h ⊢
    rw [Value.height] at h
    rw [refTo]
    · have hm := model_of_children (f := refTo n) (m := m) fun r hr =>
        refTo_ser n r (Nat.le_trans (children_height hr) (Nat.le_of_succ_le_succ h))
      rw [Value.at_map, lk_ref, hm]
      rfl
    · intro hm
      injection hm with hm
      exact entries_ne_nil m hm

theorem ref_ser (r : Ref) : ref r.ser = some r := refTo_ser _ r (Nat.le_refl _)

theorem model_ser (m : Model) : model m.ser = some m := by
  refine model_of_children fun r hr => refTo_ser _ r ?_
  rw [Model.ser, Value.height]
  exact Nat.le_succ_of_le (children_height hr)

/-! ## Operations -/

theorem content_contentOf (r : Ref) : content (contentOf r) = some r := by
  have h1 : ∀ v, only ["application/json"] (.map [(.str "application/json", v)]) = some () :=
    fun v => only_of_keys (.cons (by simp) .nil)
  have h2 : ∀ v, only ["schema"] (.map [(.str "schema", v)]) = some () := fun v => only_of_keys (.cons (by simp) .nil)
  simp [content, contentOf, h1, h2, Value.at_map, ref_ser]

theorem requestBody_ser (b : RequestBody) : requestBody b.ser = some b := by
  obtain ⟨d, r, s⟩ := b
  have h1 : only ["required", "description", "content"] (RequestBody.ser ⟨d, r, s⟩) = some () :=
    only_of_keys (.entriesOf (by simp))
  simp only [requestBody, h1]
  cases d <;> simp [RequestBody.ser, Value.at_map, content_contentOf, optional, text]

theorem response_ser (r : Response) : response r.ser = some r := by
  obtain ⟨d, s⟩ := r
  have h1 : only ["description", "content"] (Response.ser ⟨d, s⟩) = some () := only_of_keys (.entriesOf (by simp))
  have h2 : optional content (s.map contentOf) = some s := optional_map fun r _ => content_contentOf r
  simp only [response, h1]
  simp [Response.ser, Value.at_map, text, h2]

theorem responses_ser (rs : List (Nat × Response)) : responses (.map (serResponses rs)) = some rs :=
  all_self fun r _ => by simp [response_ser]

theorem place_asStr (p : ParameterIn) : place (.str p.asStr) = some p := by cases p <;> rfl

theorem parameter_ser (name : String) (p : OperationParameter) : parameter (p.ser name) = some (name, p) := by
  obtain ⟨d, i, r, dep, s⟩ := p
  have h1 : only ["name", "description", "in", "required", "deprecated", "schema"]
    (OperationParameter.ser name ⟨d, i, r, dep, s⟩) = some () := only_of_keys (.entriesOf (by simp))
  have h2 : optional ref (s.map Ref.ser) = some s := optional_map fun r _ => ref_ser r
  simp only [parameter, h1]
  simp [OperationParameter.ser, Value.at_map, text, h2, place_asStr]

theorem parameters_ser (ps : List (String × OperationParameter)) : list parameter (nonEmptySeq (serParameters ps)) = some ps :=
  list_seq (all_self fun p _ => parameter_ser p.1 p.2)

theorem security_ser (s : List (String × List String)) :
    dict (fun x => list text (some x)) (some (serSecurity s)) = some s :=
  all_bindings_self (g := fun ss => .seq (strs ss)) fun b _ => all_strs b.2

theorem serCallbacks_eq (cs : List (String × CallbackObject)) : serCallbacks cs = cs.map fun c => (.str c.1, c.2.ser) := by
  induction cs with
  | nil => simp [serCallbacks]
  | cons c cs ih => obtain ⟨k, c⟩ := c; simp [serCallbacks, ih]

theorem repathCallbacks_eq (f : UrlPath → UrlPath) (cs : List (String × CallbackObject)) :
    repathCallbacks f cs = cs.map fun c => (c.1, c.2.repath f) := by
  induction cs with
  | nil => simp [repathCallbacks]
  | cons c cs ih => obtain ⟨k, c⟩ := c; simp [repathCallbacks, ih]

theorem repathPaths_eq (f : UrlPath → UrlPath) (ps : List (UrlPath × PathValue)) :
    repathPaths f ps = ps.map fun p => (f p.1, p.2.repath f) := by
  induction ps with
  | nil => simp [repathPaths]
  | cons c cs ih => obtain ⟨k, c⟩ := c; simp [repathPaths, ih]

theorem repathOperations_eq (f : UrlPath → UrlPath) (os : List (HttpMethod × Operation)) :
    repathOperations f os = os.map fun p => (p.1, p.2.repath f) := by
  induction os with
  | nil => simp [repathOperations]
  | cons c cs ih => obtain ⟨k, c⟩ := c; simp [repathOperations, ih]

variable (path : String → UrlPath)

/-- The path read for a path. -/
abbrev reread (p : UrlPath) : UrlPath := path (UrlPath.render p)

theorem paths_all {f : Value → Option PathValue} {ps : List (UrlPath × PathValue)}
    (H : ∀ p ∈ ps, f p.2.ser = some (p.2.repath (reread path))) :
    all (binding f) (serPaths ps) = some (ps.map fun p => (UrlPath.render p.1, p.2.repath (reread path))) := by
  rw [serPaths_map]
  exact all_map fun p hp => by simp [binding, H p hp]

theorem paths_ser {f : Value → Option PathValue} {ps : List (UrlPath × PathValue)}
    (H : ∀ p ∈ ps, f p.2.ser = some (p.2.repath (reread path))) :
    paths path f (nonEmptyMap (serPaths ps)) = some (repathPaths (reread path) ps) := by
  rw [paths, dict_map (paths_all path H), repathPaths_eq]
  simp

theorem paths_ser' {f : Value → Option PathValue} {ps : List (UrlPath × PathValue)}
    (H : ∀ p ∈ ps, f p.2.ser = some (p.2.repath (reread path))) :
    paths path f (some (.map (serPaths ps))) = some (repathPaths (reread path) ps) := by
  rw [paths, dict, paths_all path H, repathPaths_eq]
  simp

/-- The path items directly in an operation. -/
def itemsOf (o : Operation) : List PathValue := o.callbacks.flatMap fun c => c.2.paths.map Prod.snd

theorem operation_ser {f : Value → Option PathValue} {o : Operation}
    (H : ∀ v ∈ itemsOf o, f v.ser = some (v.repath (reread path))) :
    operation path f o.ser = some (o.repath (reread path)) := by
  obtain ⟨tags, summary, id, desc, depr, sec, body, resp, params, callbacks⟩ := o
  have h1 : only ["tags", "summary", "operationId", "description", "deprecated", "security", "requestBody", "responses",
    "parameters", "callbacks"] (Operation.ser ⟨tags, summary, id, desc, depr, sec, body, resp, params, callbacks⟩) = some () := by
    rw [Operation.ser]; exact only_of_keys (.entriesOf (by simp))
  have h2 : list text (nonEmptySeq (strs tags)) = some tags := list_seq (all_strs _)
  have h3 : list (fun w => dict (fun x => list text (some x)) (some w)) (nonEmptySeq (sec.map serSecurity)) = some sec :=
    list_seq (all_self fun s _ => security_ser s)
  have h4 : optional requestBody (body.map RequestBody.ser) = some body := optional_map fun b _ => requestBody_ser b
  have h5 := responses_ser resp
  have h6 := parameters_ser params
  have h7 : dict (fun w => (paths path f (some w)).map CallbackObject.mk) (nonEmptyMap (serCallbacks callbacks)) =
      some (repathCallbacks (reread path) callbacks) := by
    refine dict_map ?_
    rw [serCallbacks_eq, repathCallbacks_eq]
    refine all_bindings (g := CallbackObject.ser) (h := CallbackObject.repath (reread path)) ?_
    rintro ⟨k, ⟨ps⟩⟩ hc
    have := paths_ser' (f := f) path (ps := ps) fun p hp => H p.2 (by
      simp only [itemsOf, List.mem_flatMap]
      exact ⟨_, hc, List.mem_map.2 ⟨p, hp, rfl⟩⟩)
    rw [CallbackObject.ser, this, CallbackObject.repath]
    rfl
  simp only [operation, h1]
  simp [Operation.ser, Operation.repath, Value.at_map, h2, h3, h4, h5, h6, h7]

theorem method_asStr (m : HttpMethod) : method m.asStr = some m := by cases m <;> rfl

theorem filterMap_entriesOf {fs : List (String × Option Value)} (h : ∀ f ∈ fs, method f.1 = none) :
    (entriesOf fs).filterMap methodEntry = [] := by
  induction fs with
  | nil => rfl
  | cons f fs ih =>
    obtain ⟨k, _ | v⟩ := f
    · exact ih fun g hg => h g (by simp [hg])
    · have := h (k, some v) (by simp)
      simp only at this
      simp [entriesOf, methodEntry, this, ih fun g hg => h g (by simp [hg])]

theorem operations_ser {f : Value → Option Operation} {v : PathValue}
    (H : ∀ o ∈ v.operations, f o.2.ser = some (o.2.repath (reread path))) :
    operations f v.ser = some (repathOperations (reread path) v.operations) := by
  obtain ⟨s, d, os, ps⟩ := v
  rw [PathValue.ser, operations, List.filterMap_append, List.filterMap_append, filterMap_entriesOf (by simp [method]),
    filterMap_entriesOf (by simp [method]), List.nil_append, List.append_nil]
  have h : (serOperations os).filterMap methodEntry = os.map fun b => (b.1, b.2.ser) := by
    rw [serOperations_map, List.filterMap_map]
    induction os with
    | nil => rfl
    | cons o os ih =>
      have : (method o.1.asStr) = some o.1 := method_asStr o.1
      simp [methodEntry, this]
      exact ih fun o ho => H o (by simp [ho])
  rw [h, repathOperations_eq]
  exact all_map fun o ho => by simp [H o ho]

theorem itemsOf_height {v w : PathValue} {o : HttpMethod × Operation} (ho : o ∈ v.operations) (hw : w ∈ itemsOf o.2) :
    w.ser.height < v.ser.height := by
  obtain ⟨s, d, os, ps⟩ := v
  obtain ⟨m, o⟩ := o
  simp only [itemsOf, List.mem_flatMap, List.mem_map] at hw
  obtain ⟨⟨k, ⟨qs⟩⟩, hc, ⟨q, w⟩, hq, rfl⟩ := hw
  have h1 : w.ser.height ≤ heightMap (serPaths qs) :=
    height_mem_map (k := .str (UrlPath.render q)) (by rw [serPaths_map]; exact List.mem_map.2 ⟨_, hq, rfl⟩)
  have h2 : (CallbackObject.ser ⟨qs⟩).height ≤ heightMap (serCallbacks o.callbacks) :=
    height_mem_map (k := .str k) (by rw [serCallbacks_eq]; exact List.mem_map.2 ⟨_, hc, rfl⟩)
  have h3 : heightMap (serCallbacks o.callbacks) ≤ o.ser.height := by
    obtain ⟨tags, summary, id, desc, depr, sec, body, resp, params, callbacks⟩ := o
    rw [Operation.ser, Value.height]
    exact Nat.le_succ_of_le (heightMap_of_nonEmpty (k := "callbacks") (by simp))
  have h4 : o.ser.height ≤ heightMap (serOperations os) :=
    height_mem_map (k := .str m.asStr) (by rw [serOperations_map]; exact List.mem_map.2 ⟨_, ho, rfl⟩)
  have h5 : o.ser.height < (PathValue.ser ⟨s, d, os, ps⟩).height := by
    rw [PathValue.ser, Value.height]
    refine Nat.lt_succ_of_le (height_mem_map (k := .str m.asStr) ?_)
    rw [serOperations_map]
    simp only [List.mem_append]
    exact .inr (.inl (List.mem_map.2 ⟨_, ho, rfl⟩))
  rw [CallbackObject.ser, Value.height] at h2
  exact Nat.lt_of_le_of_lt (Nat.le_trans h1 (Nat.le_trans (Nat.le_of_succ_le h2) h3)) h5

theorem itemTo_ser : ∀ (n : Nat) (v : PathValue), v.ser.height ≤ n → itemTo path n v.ser = some (v.repath (reread path))
  | 0, ⟨s, d, os, ps⟩, h => by rw [PathValue.ser, Value.height] at h; exact nomatch h
  | n + 1, v, h => by
    have hk : only ["summary", "description", "parameters", "get", "put", "post", "delete", "options", "head", "patch",
        "trace"] v.ser = some () := by
      obtain ⟨s, d, os, ps⟩ := v
      rw [PathValue.ser]
      refine only_of_keys ((Keys.entriesOf (by simp)).append (.append ?_ (.entriesOf (by simp))))
      rw [serOperations_map]
      intro e he
      obtain ⟨⟨m, o⟩, _, rfl⟩ := List.mem_map.1 he
      exact ⟨m.asStr, by cases m <;> simp [HttpMethod.asStr], rfl⟩
    have ho : operations (operation path (itemTo path n)) v.ser = some (repathOperations (reread path) v.operations) :=
      operations_ser path fun o ho => operation_ser path fun w hw =>
        itemTo_ser n w (Nat.le_of_lt_succ (Nat.lt_of_lt_of_le (itemsOf_height ho hw) h))
    obtain ⟨s, d, os, ps⟩ := v
    have hl : ∀ k, (∀ m : HttpMethod, m.asStr ≠ k) → (PathValue.ser ⟨s, d, os, ps⟩).at k =
        (lk k (entriesOf [("summary", optStr s), ("description", optStr d)])).or
          (lk k (entriesOf [("parameters", nonEmptySeq (serParameters ps))])) := by
      intro k hk
      rw [PathValue.ser, Value.at_map, lk_append, lk_append, lk_serOperations_none _ hk]
      rfl
    rw [itemTo, hk, ho, hl "summary" (by intro m; cases m <;> decide), hl "description" (by intro m; cases m <;> decide),
      hl "parameters" (by intro m; cases m <;> decide)]
    simp [parameters_ser, PathValue.repath]

theorem item_ser (v : PathValue) : item path v.ser = some (v.repath (reread path)) := itemTo_ser path _ v (Nat.le_refl _)

/-! ## Documents -/

theorem scheme_ser (s : SecurityScheme) : scheme s.ser = some s := by
  cases s with
  | http s =>
    cases s with
    | basic d =>
      have := only_of_keys (ks := ["type", "scheme", "description"]) (es := (.str "type", .str "http") ::
        (.str "scheme", .str "basic") :: entriesOf [("description", optStr d)])
        (.cons (by simp) (.cons (by simp) (.entriesOf (by simp))))
      simp [scheme, SecurityScheme.ser, Value.at_map, text, this]
    | bearer f d =>
      have := only_of_keys (ks := ["type", "scheme", "bearerFormat", "description"]) (es := (.str "type", .str "http") ::
        (.str "scheme", .str "bearer") :: entriesOf [("bearerFormat", optStr f), ("description", optStr d)])
        (.cons (by simp) (.cons (by simp) (.entriesOf (by simp))))
      simp [scheme, SecurityScheme.ser, Value.at_map, text, this]
  | apiKey a =>
    obtain ⟨i, n, d⟩ := a
    have := only_of_keys (ks := ["type", "in", "name", "description"]) (es := (.str "type", .str "apiKey") ::
      entriesOf [("in", some (.str i.asStr)), ("name", some (.str n)), ("description", optStr d)])
      (.cons (by simp) (.entriesOf (by simp)))
    simp [scheme, SecurityScheme.ser, Value.at_map, text, this, place_asStr]

theorem components_ser (c : Components) : components c.ser = some c := by
  obtain ⟨s, t⟩ := c
  have h1 : only ["schemas", "securitySchemes"] (Components.ser ⟨s, t⟩) = some () := only_of_keys (.entriesOf (by simp))
  have h2 : dict model (nonEmptyMap (s.map fun b => (.str b.1, b.2.ser))) = some s :=
    dict_map (all_bindings_self fun b _ => model_ser b.2)
  have h3 : dict scheme (nonEmptyMap (t.map fun b => (.str b.1, b.2.ser))) = some t :=
    dict_map (all_bindings_self fun b _ => scheme_ser b.2)
  simp only [components, h1]
  simp [Components.ser, Value.at_map, h2, h3]

theorem info_ser (i : Info) : info i.ser = some i := by
  have h1 : only ["title", "description", "version"] i.ser = some () := only_of_keys (.entriesOf (by simp))
  simp only [info, h1]
  simp [Info.ser, Value.at_map, text]

theorem tag_ser (name : String) (t : Tag) : tag (t.ser name) = some (name, t) := by
  have h1 : only ["name", "description"] (t.ser name) = some () := only_of_keys (.entriesOf (by simp))
  simp only [tag, h1]
  simp [Tag.ser, Value.at_map, text]

theorem server_ser (s : Server) : server s.ser = some s := by
  have h1 : only ["url", "description"] s.ser = some () := only_of_keys (.entriesOf (by simp))
  simp only [server, h1]
  simp [Server.ser, Value.at_map, text]

theorem document_ser (d : Opg) : document path d.ser = some (d.repath (reread path)) := by
  obtain ⟨v, i, ts, ss, ps, c⟩ := d
  have h1 : only ["openapi", "info", "tags", "servers", "paths", "components"] (Opg.ser ⟨v, i, ts, ss, ps, c⟩) = some () :=
    only_of_keys (.entriesOf (by simp))
  have h2 : list tag (nonEmptySeq (ts.map fun t => t.2.ser t.1)) = some ts := list_seq (all_self fun t _ => tag_ser t.1 t.2)
  have h3 : list server (nonEmptySeq (ss.map Server.ser)) = some ss := list_seq (all_self fun t _ => server_ser t)
  have h4 := paths_ser path (f := item path) (ps := ps) fun p _ => item_ser path p.2
  simp only [document, h1]
  simp [Opg.ser, Value.at_map, text, info_ser, components_ser, h2, h3, h4, Opg.repath]

/-! ## Paths -/

theorem splitSlash_append {cs rest : List Char} (h : '/' ∉ cs) :
    splitSlash (cs ++ '/' :: rest) = cs :: splitSlash rest := by
  induction cs with
  | nil => simp [splitSlash]
  | cons c cs ih =>
    simp only [List.mem_cons, not_or] at h
    rw [List.cons_append, splitSlash, if_neg (fun e => h.1 e.symm), ih h.2]

theorem splitSlash_plain {cs : List Char} (h : '/' ∉ cs) : splitSlash cs = [cs] := by
  induction cs with
  | nil => rfl
  | cons c cs ih =>
    simp only [List.mem_cons, not_or] at h
    rw [splitSlash, if_neg (fun e => h.1 e.symm), ih h.2]

theorem segment_segment {e : PathElement} (h : e.Plain) : segment e.segment = e := by
  cases e with
  | parameter s => simp [PathElement.segment, segment]
  | path s =>
    unfold PathElement.segment segment
    dsimp only
    split
    · next rest hs =>
      rw [if_neg, String.ofList_toList]
      intro hl
      obtain ⟨p, hp⟩ := List.getLast?_eq_some_iff.1 hl
      exact h.2 p (by rw [hs, hp])
    · rw [String.ofList_toList]

theorem template_render {p : UrlPath} (h : ∀ e ∈ p, e.Plain) : template (UrlPath.render p) = p := by
  cases p with
  | nil => rfl
  | cons e p =>
    have key : ∀ (e : PathElement) (p : UrlPath), (∀ x ∈ e :: p, x.Plain) →
        (splitSlash (e.segment ++ p.flatMap fun e => '/' :: e.segment)).map segment = e :: p := by
      intro e p
      induction p generalizing e with
      | nil =>
        intro h
        have he := h e (by simp)
        simp [splitSlash_plain he.noSlash, segment_segment he]
      | cons e' p ih =>
        intro h
        have he := h e (by simp)
        rw [List.flatMap_cons, List.cons_append, splitSlash_append he.noSlash, List.map_cons, segment_segment he,
          ih e' fun x hx => h x (List.mem_cons_of_mem _ hx)]
    have := UrlPath.render_toList (e :: p)
    rw [List.flatMap_cons, List.cons_append] at this
    rw [template, this]
    exact key e p h

end Read

/-! ## Documents with other paths -/

mutual
theorem Operation.repath_id {P : DocPred} {f : UrlPath → UrlPath} (hP : ∀ ps, P.paths ps → ∀ p ∈ ps, f p.1 = p.1) :
    ∀ (o : Operation), o.Forall P → o.repath f = o
  | ⟨_, _, _, _, _, _, _, _, _, cs⟩, h => by
    rw [Operation.Forall] at h
    rw [Operation.repath, repathCallbacks_id hP cs h.2]
termination_by structural x => x
theorem CallbackObject.repath_id {P : DocPred} {f : UrlPath → UrlPath} (hP : ∀ ps, P.paths ps → ∀ p ∈ ps, f p.1 = p.1) :
    ∀ (c : CallbackObject), c.Forall P → c.repath f = c
  | ⟨ps⟩, h => by
    rw [CallbackObject.Forall] at h
    rw [CallbackObject.repath, repathPaths_id hP ps (hP ps h.1) h.2]
termination_by structural x => x
theorem PathValue.repath_id {P : DocPred} {f : UrlPath → UrlPath} (hP : ∀ ps, P.paths ps → ∀ p ∈ ps, f p.1 = p.1) :
    ∀ (v : PathValue), v.Forall P → v.repath f = v
  | ⟨_, _, os, _⟩, h => by
    rw [PathValue.Forall] at h
    rw [PathValue.repath, repathOperations_id hP os h.2]
termination_by structural x => x
theorem repathCallbacks_id {P : DocPred} {f : UrlPath → UrlPath} (hP : ∀ ps, P.paths ps → ∀ p ∈ ps, f p.1 = p.1) :
    ∀ (cs : List (String × CallbackObject)), forallCallbacks P cs → repathCallbacks f cs = cs
  | [], _ => by rw [repathCallbacks]
  | (k, c) :: cs, h => by
    rw [forallCallbacks] at h
    rw [repathCallbacks, CallbackObject.repath_id hP c h.1, repathCallbacks_id hP cs h.2]
termination_by structural x => x
theorem repathPaths_id {P : DocPred} {f : UrlPath → UrlPath} (hP : ∀ ps, P.paths ps → ∀ p ∈ ps, f p.1 = p.1) :
    ∀ (ps : List (UrlPath × PathValue)), (∀ p ∈ ps, f p.1 = p.1) → forallPaths P ps → repathPaths f ps = ps
  | [], _, _ => by rw [repathPaths]
  | (p, v) :: ps, hf, h => by
    rw [forallPaths] at h
    have := hf (p, v) (List.mem_cons_self ..)
    simp only at this
    rw [repathPaths, this, PathValue.repath_id hP v h.1, repathPaths_id hP ps (fun q hq => hf q (List.mem_cons_of_mem _ hq)) h.2]
termination_by structural x => x
theorem repathOperations_id {P : DocPred} {f : UrlPath → UrlPath} (hP : ∀ ps, P.paths ps → ∀ p ∈ ps, f p.1 = p.1) :
    ∀ (os : List (HttpMethod × Operation)), forallOps P os → repathOperations f os = os
  | [], _ => by rw [repathOperations]
  | (m, o) :: os, h => by
    rw [forallOps] at h
    rw [repathOperations, Operation.repath_id hP o h.1, repathOperations_id hP os h.2]
termination_by structural x => x
end

theorem Opg.repath_id {P : DocPred} {f : UrlPath → UrlPath} (hP : ∀ ps, P.paths ps → ∀ p ∈ ps, f p.1 = p.1) (d : Opg)
    (h : d.Forall P) : d.repath f = d := by
  obtain ⟨v, i, ts, ss, ps, c⟩ := d
  rw [Opg.repath, repathPaths_id hP ps (hP ps h.1) h.2]

end Verif
