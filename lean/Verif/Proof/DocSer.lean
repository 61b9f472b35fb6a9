import Verif.Proof.JsonInj
import Verif.Spec.Docs
/-!
# Properties of all serialized documents
-/

namespace Verif

/-! ## Entries of structs -/

theorem mem_entriesOf {fs : List (String × Option Value)} {e : Key × Value} :
    e ∈ entriesOf fs ↔ ∃ k, e.1 = .str k ∧ (k, some e.2) ∈ fs := by
  induction fs with
  | nil => simp
  | cons f fs ih =>
    obtain ⟨k, v⟩ := f
    obtain ⟨ek, ev⟩ := e
    cases v with
    | none => simp only [entriesOf]; rw [ih]; simp
    | some v =>
      simp only [entriesOf, List.mem_cons, Prod.mk.injEq, ih]
      constructor
      · rintro (⟨rfl, rfl⟩ | ⟨k', rfl, h⟩)
        · exact ⟨k, rfl, .inl ⟨rfl, rfl⟩⟩
        · exact ⟨k', rfl, .inr h⟩
      · rintro ⟨k', rfl, ⟨rfl, h⟩ | h⟩
        · exact .inl ⟨rfl, by injection h⟩
        · exact .inr ⟨k', rfl, h⟩

theorem nodup_map {α β : Type} {f : α → β} (hf : ∀ a b, f a = f b → a = b) {l : List α} (h : l.Nodup) :
    (l.map f).Nodup := by
  unfold List.Nodup at h ⊢
  rw [List.pairwise_map]
  exact h.imp fun hne e => hne (hf _ _ e)

theorem nodup_entriesOf (fs : List (String × Option Value)) (h : (fs.map Prod.fst).Nodup) :
    (BMap.keys (entriesOf fs)).Nodup := by
  refine (keysWithin fs _ rfl _ (List.Sublist.refl _)).nodup ?_
  exact (nodup_map (fun a b h => by injection h)) h

/-- A property of all field values that are present. -/
def AllFields (P : Value → Prop) (fs : List (String × Option Value)) : Prop := ∀ k v, (k, some v) ∈ fs → P v

theorem allFields_nil {P} : AllFields P [] := by intro k v h; cases h

theorem allFields_cons {P} {k v fs} : AllFields P ((k, v) :: fs) ↔ (∀ x, v = some x → P x) ∧ AllFields P fs := by
  constructor
  · intro h
    exact ⟨fun x hx => h k x (by simp [hx]), fun k' x hx => h k' x (by simp [hx])⟩
  · rintro ⟨h1, h2⟩ k' x hx
    rcases List.mem_cons.1 hx with hx | hx
    · injection hx with _ hx
      exact h1 x hx.symm
    · exact h2 k' x hx

theorem allFields_entries {P : Value → Prop} {fs} (h : AllFields P fs) : ∀ e ∈ entriesOf fs, P e.2 := by
  intro e he
  obtain ⟨k, _, hk⟩ := mem_entriesOf.1 he
  exact h k _ hk

/-! ## Predicates on serialized documents -/

/-- A predicate on values that is inherited from the parts of a value.  `N`: keys may be assumed distinct. -/
structure Good (N : Prop) (L : String → Prop) (P : Value → Prop) : Prop where
  str : ∀ s, P (.str s)
  tt : P (.bool true)
  seq : ∀ vs, (∀ v ∈ vs, P v) → P (.seq vs)
  map : ∀ es, (N → (BMap.keys es).Nodup) → (∀ s, (.str "$ref", .str s) ∉ es) → (∀ e ∈ es, P e.2) → P (.map es)
  link : ∀ l, L l → P (Ref.link l).ser
  body : ∀ required v, P v → P (.map (entriesOf [("required", flag required), ("description", some .null),
    ("content", some v)]))

variable {N : Prop} {L : String → Prop} {P : Value → Prop}

theorem Good.struct (g : Good N L P) (fs : List (String × Option Value)) (names : List String)
    (hf : fs.map Prod.fst = names) (hn : names.Nodup) (hr : "$ref" ∉ names) (h : AllFields P fs) :
    P (.map (entriesOf fs)) := by
  refine g.map _ (fun _ => nodup_entriesOf fs (by rw [hf]; exact hn)) ?_ (allFields_entries h)
  intro s hs
  obtain ⟨k, hk, hm⟩ := mem_entriesOf.1 hs
  injection hk with hk
  subst hk
  exact hr (hf ▸ List.mem_map_of_mem (f := Prod.fst) hm)

theorem Good.strs (g : Good N L P) (ss : List String) : P (.seq (strs ss)) :=
  g.seq _ (by intro v hv; obtain ⟨s, _, rfl⟩ := List.mem_map.1 hv; exact g.str s)

/-- Sorted properties (if `N`) and links in `L`. -/
def Ref.Ok (N : Prop) (L : String → Prop) (r : Ref) : Prop := (N → r.PropsSorted) ∧ ∀ l ∈ r.links, L l
def Model.Ok (N : Prop) (L : String → Prop) (m : Model) : Prop := (N → m.PropsSorted) ∧ ∀ l ∈ m.links, L l
def TypeDesc.Ok (N : Prop) (L : String → Prop) (d : TypeDesc) : Prop := (N → d.PropsSorted) ∧ ∀ l ∈ d.links, L l

theorem ok_inline {m : Model} (h : (Ref.inline m).Ok N L) : m.Ok N L :=
  ⟨fun n => propsSorted_inline.1 (h.1 n), by simpa [Ref.links] using h.2⟩

theorem ok_refs {d : Option String} {rs : List Ref} :
    ((⟨d, .oneOf rs⟩ : Model).Ok N L → ∀ r ∈ rs, r.Ok N L) ∧
    ((⟨d, .allOf rs⟩ : Model).Ok N L → ∀ r ∈ rs, r.Ok N L) ∧
    ((⟨d, .anyOf rs⟩ : Model).Ok N L → ∀ r ∈ rs, r.Ok N L) := by
  refine ⟨fun h r hr => ⟨fun n => propsSorted_refs.1.1 (h.1 n) r hr, fun l hl => h.2 l ?_⟩,
    fun h r hr => ⟨fun n => propsSorted_refs.2.1.1 (h.1 n) r hr, fun l hl => h.2 l ?_⟩,
    fun h r hr => ⟨fun n => propsSorted_refs.2.2.1 (h.1 n) r hr, fun l hl => h.2 l ?_⟩⟩ <;>
  · simp only [Model.links, ModelData.links, refsLinks_eq]
    exact List.mem_flatMap.2 ⟨r, hr, hl⟩

theorem ok_single {d n td} (h : (⟨d, .single ⟨n, td⟩⟩ : Model).Ok N L) : td.Ok N L :=
  ⟨fun n => propsSorted_single.1 (h.1 n), by simpa [Model.links, ModelData.links, ModelType.links] using h.2⟩

theorem ok_array {r : Ref} (h : (TypeDesc.array r).Ok N L) : r.Ok N L :=
  ⟨fun n => propsSorted_array.1 (h.1 n), by simpa [TypeDesc.links] using h.2⟩

theorem ok_object {ps a req} (h : (TypeDesc.object ⟨ps, a, req⟩).Ok N L) :
    (N → BMap.Sorted ps) ∧ (∀ p ∈ ps, p.2.Ok N L) ∧ (∀ r, a = some r → r.Ok N L) := by
  refine ⟨fun n => (propsSorted_object.1 (h.1 n)).1, fun p hp => ⟨fun n => (propsSorted_object.1 (h.1 n)).2.1 p hp, ?_⟩,
    fun r hr => ⟨fun n => (propsSorted_object.1 (h.1 n)).2.2 r hr, ?_⟩⟩
  · intro l hl
    refine h.2 l ?_
    simp only [TypeDesc.links, ModelObject.links, propsLinks_eq]
    exact List.mem_append_left _ (List.mem_flatMap.2 ⟨p.2, List.mem_map_of_mem hp, hl⟩)
  · intro l hl
    refine h.2 l ?_
    subst hr
    simp only [TypeDesc.links, ModelObject.links]
    exact List.mem_append_right _ hl

theorem Ref.ser_is_map (r : Ref) : ∃ es, r.ser = .map es := by
  cases r <;> simp [Ref.ser]

/-- Optional strings, flags, and non-empty collections. -/
theorem opt_str_all {P : Value → Prop} (hP : ∀ s, P (.str s)) (o : Option String) : ∀ x, optStr o = some x → P x := by
  cases o <;> simp [optStr, hP]

theorem flag_all {P : Value → Prop} (hP : P (.bool true)) (b : Bool) : ∀ x, flag b = some x → P x := by
  cases b <;> simp [flag, hP]

theorem nonEmptySeq_all {P : Value → Prop} {vs} (hP : P (.seq vs)) : ∀ x, nonEmptySeq vs = some x → P x := by
  intro x hx
  unfold nonEmptySeq at hx
  split at hx
  · cases hx
  · injection hx with hx; exact hx ▸ hP

theorem nonEmptyMap_all {P : Value → Prop} {es} (hP : P (.map es)) : ∀ x, nonEmptyMap es = some x → P x := by
  intro x hx
  unfold nonEmptyMap at hx
  split at hx
  · cases hx
  · injection hx with hx; exact hx ▸ hP

theorem map_all {α : Type} {P : Value → Prop} {f : α → Value} {o : Option α} (h : ∀ a, o = some a → P (f a)) :
    ∀ x, o.map f = some x → P x := by
  intro x hx
  cases o with
  | none => cases hx
  | some a => injection hx with hx; exact hx ▸ h a rfl

theorem some_all {P : Value → Prop} {v : Value} (h : P v) : ∀ x, some v = some x → P x := by
  intro x hx; injection hx with hx; exact hx ▸ h

theorem nodup_str {V W : Type} (f : V → W) {ps : List (String × V)} (h : BMap.Sorted ps) :
    (BMap.keys (ps.map fun p => (Key.str p.1, f p.2))).Nodup := BMap.nodup_keys (sorted_str f h)

mutual
theorem Ref.good (g : Good N L P) : ∀ (r : Ref), r.Ok N L → P r.ser
  | .link l, h => g.link l (h.2 l (by simp [Ref.links]))
  | .inline m, s => by
    rw [Ref.ser]
    refine g.map _ (fun _ => nodup_model m) ?_ (Model.good g m (ok_inline s))
    intro s hs
    have := (keys_model m).subset (List.mem_map_of_mem (f := Prod.fst) hs)
    exact absurd (show Key.str "$ref" ∈ schemaKeys from this) (by decide)
  | .any, _ => g.map _ (fun _ => List.nodup_nil) (by simp) (by simp)
termination_by structural x => x

theorem Model.good (g : Good N L P) : ∀ (m : Model), m.Ok N L → ∀ e ∈ m.entries, P e.2
  | ⟨d, data⟩, s => by
    intro e he
    rw [Model.entries] at he
    rcases List.mem_append.1 he with he | he
    · exact allFields_entries (allFields_cons.2 ⟨opt_str_all g.str d, allFields_nil⟩) e he
    · exact ModelData.good g d data s e he
termination_by structural x => x

theorem ModelData.good (g : Good N L P) : ∀ (d : Option String) (data : ModelData), (⟨d, data⟩ : Model).Ok N L →
    ∀ e ∈ data.entries, P e.2
  | d, .single ⟨n, td⟩, s => by
    intro e he
    rw [ModelData.entries, ModelType.entries] at he
    rcases List.mem_append.1 he with he | he
    · exact allFields_entries (allFields_cons.2 ⟨flag_all g.tt n, allFields_nil⟩) e he
    · exact TypeDesc.good g td (ok_single s) e he
  | d, .oneOf rs, s => by
    intro e he
    simp only [ModelData.entries, List.mem_singleton] at he
    rw [he]
    exact g.seq _ (refs_good g rs (ok_refs.1 s))
  | d, .allOf rs, s => by
    intro e he
    simp only [ModelData.entries, List.mem_singleton] at he
    rw [he]
    exact g.seq _ (refs_good g rs (ok_refs.2.1 s))
  | d, .anyOf rs, s => by
    intro e he
    simp only [ModelData.entries, List.mem_singleton] at he
    rw [he]
    exact g.seq _ (refs_good g rs (ok_refs.2.2 s))
termination_by structural _ x => x

theorem TypeDesc.good (g : Good N L P) : ∀ (td : TypeDesc), td.Ok N L → ∀ e ∈ td.entries, P e.2
  | .string v f ex, _ => allFields_entries (fs := [("type", some _), ("enum", _), ("format", _), ("example", _)])
      (allFields_cons.2 ⟨some_all (g.str _), allFields_cons.2 ⟨map_all fun vs _ => g.strs vs,
        allFields_cons.2 ⟨opt_str_all g.str f, allFields_cons.2 ⟨opt_str_all g.str ex, allFields_nil⟩⟩⟩⟩)
  | .number f ex, _ => allFields_entries (fs := [("type", some _), ("format", _), ("example", _)])
      (allFields_cons.2 ⟨some_all (g.str _),
        allFields_cons.2 ⟨opt_str_all g.str f, allFields_cons.2 ⟨opt_str_all g.str ex, allFields_nil⟩⟩⟩)
  | .integer f ex, _ => allFields_entries (fs := [("type", some _), ("format", _), ("example", _)])
      (allFields_cons.2 ⟨some_all (g.str _),
        allFields_cons.2 ⟨opt_str_all g.str f, allFields_cons.2 ⟨opt_str_all g.str ex, allFields_nil⟩⟩⟩)
  | .boolean, _ => allFields_entries (fs := [("type", some _)])
      (allFields_cons.2 ⟨some_all (g.str _), allFields_nil⟩)
  | .array r, s => allFields_entries (fs := [("type", some _), ("items", some _)])
      (allFields_cons.2 ⟨some_all (g.str _), allFields_cons.2
        ⟨some_all (Ref.good g r (ok_array s)), allFields_nil⟩⟩)
  | .object ⟨ps, a, req⟩, s => by
    have s := ok_object s
    have hp : N → (BMap.keys (serProps ps)).Nodup := by
      intro n; rw [serProps_eq]; exact nodup_str Ref.ser (s.1 n)
    have hr : ∀ s, (Key.str "$ref", Value.str s) ∉ serProps ps := by
      intro s hs
      rw [serProps_eq] at hs
      obtain ⟨p, _, he⟩ := List.mem_map.1 hs
      injection he with _ he
      obtain ⟨es, hes⟩ := p.2.ser_is_map
      rw [hes] at he
      cases he
    exact allFields_entries
      (fs := [("type", some _), ("properties", _), ("additionalProperties", _), ("required", _)])
      (allFields_cons.2 ⟨some_all (g.str _), allFields_cons.2
        ⟨nonEmptyMap_all (g.map _ hp hr (props_good g ps s.2.1)), allFields_cons.2
        ⟨optRef_good g a s.2.2, allFields_cons.2 ⟨nonEmptySeq_all (g.strs req), allFields_nil⟩⟩⟩⟩)
termination_by structural x => x

theorem refs_good (g : Good N L P) : ∀ (rs : List Ref), (∀ r ∈ rs, r.Ok N L) → ∀ v ∈ serRefs rs, P v
  | [], _ => by simp [serRefs]
  | r :: rs, s => by
    intro v hv
    rw [serRefs] at hv
    rcases List.mem_cons.1 hv with rfl | hv
    · exact Ref.good g r (s r (by simp))
    · exact refs_good g rs (fun x hx => s x (by simp [hx])) v hv
termination_by structural x => x

theorem props_good (g : Good N L P) : ∀ (ps : List (String × Ref)), (∀ p ∈ ps, p.2.Ok N L) →
    ∀ e ∈ serProps ps, P e.2
  | [], _ => by simp [serProps]
  | (k, r) :: ps, s => by
    intro e he
    rw [serProps] at he
    rcases List.mem_cons.1 he with rfl | he
    · exact Ref.good g r (s (k, r) (by simp))
    · exact props_good g ps (fun x hx => s x (by simp [hx])) e he
termination_by structural x => x

theorem optRef_good (g : Good N L P) : ∀ (a : Option Ref), (∀ r, a = some r → r.Ok N L) →
    ∀ v, serOptRef a = some v → P v
  | none, _ => by simp [serOptRef]
  | some r, s => some_all (Ref.good g r (s r rfl))
termination_by structural x => x
end

theorem Model.ser_good (g : Good N L P) (m : Model) (s : m.Ok N L) : P m.ser := by
  refine Ref.good g (.inline m) ⟨fun n => propsSorted_inline.2 (s.1 n), ?_⟩
  simpa [Ref.links] using s.2

theorem content_good (g : Good N L P) {r : Ref} (s : r.Ok N L) : P (contentOf r) := by
  refine g.struct [("application/json", some _)] ["application/json"] rfl (by decide) (by decide) ?_
  refine allFields_cons.2 ⟨some_all ?_, allFields_nil⟩
  refine g.struct [("schema", some _)] ["schema"] rfl (by decide) (by decide) ?_
  exact allFields_cons.2 ⟨some_all (r.good g s), allFields_nil⟩

theorem parameters_good (g : Good N L P) {ps : List (String × OperationParameter)}
    (h : ∀ r ∈ ps.flatMap (fun p => p.2.schema.toList), r.Ok N L) : P (Value.seq (serParameters ps)) := by
  refine g.seq _ ?_
  intro v hv
  obtain ⟨p, hp, rfl⟩ := List.mem_map.1 hv
  refine g.struct _ ["name", "description", "in", "required", "deprecated", "schema"] rfl (by decide) (by decide) ?_
  simp only [allFields_cons]
  refine ⟨some_all (g.str _), opt_str_all g.str _, some_all (g.str _),
    flag_all g.tt _, flag_all g.tt _,
    map_all fun r hr => r.good g ?_, allFields_nil⟩
  exact h r (List.mem_flatMap.2 ⟨p, hp, by simp [hr]⟩)

theorem body_good (g : Good N L P) {b : RequestBody} (s : b.schema.Ok N L) : P b.ser := by
  obtain ⟨d, r, sc⟩ := b
  cases d with
  | none => exact g.body r _ (content_good g s)
  | some d =>
    refine g.struct _ ["required", "description", "content"] rfl (by decide) (by decide) ?_
    simp only [allFields_cons]
    exact ⟨flag_all g.tt _, some_all (g.str _), some_all (content_good g s), allFields_nil⟩

theorem response_good (g : Good N L P) {r : Response} (s : ∀ x, r.schema = some x → x.Ok N L) : P r.ser := by
  refine g.struct _ ["description", "content"] rfl (by decide) (by decide) ?_
  simp only [allFields_cons]
  exact ⟨some_all (g.str _), map_all fun x hx => content_good g (s x hx), allFields_nil⟩

theorem responses_good (g : Good N L P) {rs : List (Nat × Response)} (hs : N → BMap.Sorted rs)
    (h : ∀ r ∈ rs.flatMap (fun r => r.2.schema.toList), r.Ok N L) : P (Value.map (serResponses rs)) := by
  refine g.map _ ?_ ?_ ?_
  · intro n
    have := BMap.nodup_keys (hs n)
    simp only [serResponses, BMap.keys, List.map_map]
    have he : (Prod.fst ∘ fun b : Nat × Response => (Key.num b.1, b.2.ser)) = Key.num ∘ Prod.fst := rfl
    rw [he, ← List.map_map]
    exact nodup_map (fun a b h => by injection h) this
  · intro s hs
    obtain ⟨r, _, he⟩ := List.mem_map.1 hs
    cases he
  · intro e he
    obtain ⟨r, hr, rfl⟩ := List.mem_map.1 he
    exact response_good g fun x hx => h x (List.mem_flatMap.2 ⟨r, hr, by simp [hx]⟩)

theorem security_good (g : Good N L P) {s : List (String × List String)} (h : N → BMap.Sorted s) :
    P (serSecurity s) := by
  refine g.map _ (fun n => nodup_str (fun ss => Value.seq (strs ss)) (h n)) ?_ ?_
  · intro s hs
    obtain ⟨r, _, he⟩ := List.mem_map.1 hs
    injection he with _ he
    cases he
  · intro e he
    obtain ⟨r, hr, rfl⟩ := List.mem_map.1 he
    exact g.strs _

theorem serPaths_keys (ps : List (UrlPath × PathValue)) :
    BMap.keys (serPaths ps) = (ps.map fun p => UrlPath.render p.1).map Key.str := by
  induction ps with
  | nil => rfl
  | cons p ps ih => obtain ⟨p, v⟩ := p; simp [serPaths, BMap.keys] at ih ⊢; exact ih

theorem serOperations_keys (os : List (HttpMethod × Operation)) :
    BMap.keys (serOperations os) = (os.map fun o => Key.str o.1.asStr) := by
  induction os with
  | nil => rfl
  | cons p ps ih => obtain ⟨p, v⟩ := p; simp [serOperations, BMap.keys] at ih ⊢; exact ih

theorem serCallbacks_eq (cs : List (String × CallbackObject)) :
    serCallbacks cs = cs.map fun c => (Key.str c.1, c.2.ser) := by
  induction cs with
  | nil => rfl
  | cons p ps ih => obtain ⟨p, v⟩ := p; simp [serCallbacks, ih]

theorem HttpMethod.asStr_inj {a b : HttpMethod} (h : a.asStr = b.asStr) : a = b := by
  cases a <;> cases b <;> simp [HttpMethod.asStr] at h <;> rfl

theorem HttpMethod.asStr_mem (a : HttpMethod) :
    a.asStr ∈ ["get", "put", "post", "delete", "options", "head", "patch", "trace"] := by
  cases a <;> simp [HttpMethod.asStr]

theorem nodup_pathValue {s d : Option String} {ops : List (HttpMethod × Operation)} (h : BMap.Sorted ops)
    (p : Option Value) :
    (BMap.keys (entriesOf [("summary", optStr s), ("description", optStr d)] ++
      (serOperations ops ++ entriesOf [("parameters", p)]))).Nodup := by
  have hops : (BMap.keys (serOperations ops)).Nodup := by
    rw [serOperations_keys]
    have := BMap.nodup_keys h
    unfold BMap.keys at this
    have he : (fun o : HttpMethod × Operation => Key.str o.1.asStr) = (fun m => Key.str m.asStr) ∘ Prod.fst := rfl
    rw [he, ← List.map_map]
    exact (nodup_map (fun a b h => by injection h with h; exact HttpMethod.asStr_inj h)) this
  have hmem : ∀ k ∈ BMap.keys (serOperations ops), ∃ m : HttpMethod, k = .str m.asStr := by
    rw [serOperations_keys]
    intro k hk
    obtain ⟨o, _, rfl⟩ := List.mem_map.1 hk
    exact ⟨_, rfl⟩
  have h1 := keysWithin [("summary", optStr s), ("description", optStr d)] ["summary", "description"] rfl
    ["summary", "description"] (by decide)
  have h2 := keysWithin [("parameters", p)] ["parameters"] rfl ["parameters"] (by decide)
  simp only [keys_append]
  refine List.nodup_append.2 ⟨h1.nodup (by decide), List.nodup_append.2 ⟨hops, h2.nodup (by decide), ?_⟩, ?_⟩
  · intro a ha b hb e
    subst e
    obtain ⟨m, rfl⟩ := hmem a ha
    have := h2.subset hb
    cases m <;> simp [HttpMethod.asStr] at this
  · intro a ha b hb e
    subst e
    have ha := h1.subset ha
    rcases List.mem_append.1 hb with hb | hb
    · obtain ⟨m, rfl⟩ := hmem a hb
      cases m <;> simp [HttpMethod.asStr] at ha
    · have hb := h2.subset hb
      simp at ha hb
      rcases ha with rfl | rfl <;> simp at hb

theorem PathValue.ser_is_map (v : PathValue) : ∃ es, v.ser = .map es := by
  obtain ⟨_, _, _, _⟩ := v; exact ⟨_, by rw [PathValue.ser]⟩
theorem Operation.ser_is_map (v : Operation) : ∃ es, v.ser = .map es := by
  obtain ⟨_, _, _, _, _, _, _, _, _, _⟩ := v; exact ⟨_, by rw [Operation.ser]⟩
theorem CallbackObject.ser_is_map (v : CallbackObject) : ∃ es, v.ser = .map es := by
  obtain ⟨_⟩ := v; exact ⟨_, by rw [CallbackObject.ser]⟩

theorem serPaths_eq (ps : List (UrlPath × PathValue)) :
    serPaths ps = ps.map fun p => (Key.str (UrlPath.render p.1), p.2.ser) := by
  induction ps with
  | nil => rfl
  | cons p ps ih => obtain ⟨p, v⟩ := p; simp [serPaths, ih]

theorem serOperations_eq (ps : List (HttpMethod × Operation)) :
    serOperations ps = ps.map fun p => (Key.str p.1.asStr, p.2.ser) := by
  induction ps with
  | nil => rfl
  | cons p ps ih => obtain ⟨p, v⟩ := p; simp [serOperations, ih]

/-- What `doc_good` assumes of the parts of a document. -/
def docOk (N : Prop) (L : String → Prop) : DocPred where
  op o := (N → BMap.Sorted o.responses ∧ BMap.Sorted o.callbacks ∧ ∀ s ∈ o.security, BMap.Sorted s) ∧
    ∀ r ∈ o.refs, r.Ok N L
  item v := (N → BMap.Sorted v.operations) ∧ ∀ r ∈ v.refs, r.Ok N L
  paths ps := N → (ps.map fun p => UrlPath.render p.1).Nodup

theorem noRef_of_maps {es : List (Key × Value)} (h : ∀ e ∈ es, ∃ x, e.2 = .map x) :
    ∀ s, (Key.str "$ref", Value.str s) ∉ es := by
  intro s hs
  obtain ⟨x, hx⟩ := h _ hs
  cases hx

theorem serPaths_maps (ps : List (UrlPath × PathValue)) : ∀ e ∈ serPaths ps, ∃ x, e.2 = .map x := by
  rw [serPaths_eq]
  intro e he
  obtain ⟨p, _, rfl⟩ := List.mem_map.1 he
  exact p.2.ser_is_map

mutual
theorem PathValue.good (g : Good N L P) : ∀ (v : PathValue), v.Forall (docOk N L) → P v.ser
  | ⟨s, d, ops, ps⟩, h => by
    rw [PathValue.Forall] at h
    rw [PathValue.ser]
    refine g.map _ (fun n => nodup_pathValue (h.1.1 n) _) ?_ ?_
    · intro x hx
      rcases List.mem_append.1 hx with hx | hx
      · obtain ⟨k, hk, hm⟩ := mem_entriesOf.1 hx
        injection hk with hk
        subst hk
        simp at hm
      · rcases List.mem_append.1 hx with hx | hx
        · rw [serOperations_eq] at hx
          obtain ⟨o, _, he⟩ := List.mem_map.1 hx
          obtain ⟨es, hes⟩ := o.2.ser_is_map
          rw [hes] at he
          injection he with _ he
          cases he
        · obtain ⟨k, hk, hm⟩ := mem_entriesOf.1 hx
          injection hk with hk
          subst hk
          simp at hm
    · intro e he
      rcases List.mem_append.1 he with he | he
      · refine allFields_entries ?_ e he
        simp only [allFields_cons]
        exact ⟨opt_str_all g.str _, opt_str_all g.str _, allFields_nil⟩
      · rcases List.mem_append.1 he with he | he
        · exact ops_good g ops h.2 e he
        · refine allFields_entries ?_ e he
          simp only [allFields_cons]
          exact ⟨nonEmptySeq_all (parameters_good g h.1.2), allFields_nil⟩
termination_by structural x => x

theorem Operation.good (g : Good N L P) : ∀ (o : Operation), o.Forall (docOk N L) → P o.ser
  | ⟨tags, summary, id, desc, depr, sec, body, resp, params, callbacks⟩, h => by
    rw [Operation.Forall] at h
    obtain ⟨⟨hs, href⟩, hcb⟩ := h
    rw [Operation.ser]
    refine g.struct _ ["tags", "summary", "operationId", "description", "deprecated", "security", "requestBody",
      "responses", "parameters", "callbacks"] rfl (by decide) (by decide) ?_
    simp only [allFields_cons]
    refine ⟨nonEmptySeq_all (g.strs _), opt_str_all g.str _, opt_str_all g.str _,
      opt_str_all g.str _, flag_all g.tt _, nonEmptySeq_all (g.seq _ ?_),
      map_all fun b hb => body_good g ?_, some_all (responses_good g (fun n => (hs n).1) ?_),
      nonEmptySeq_all (parameters_good g ?_), nonEmptyMap_all (g.map _ ?_ ?_ (callbacks_good g callbacks hcb)),
      allFields_nil⟩
    · intro v hv
      obtain ⟨x, hx, rfl⟩ := List.mem_map.1 hv
      exact security_good g fun n => (hs n).2.2 x hx
    · exact href _ (by simp [Operation.refs, hb])
    · intro r hr'
      exact href r (List.mem_append_left _ (List.mem_append_right _ hr'))
    · intro r hr'
      exact href r (List.mem_append_right _ hr')
    · intro n
      rw [serCallbacks_eq]
      exact nodup_str _ (hs n).2.1
    · refine noRef_of_maps ?_
      rw [serCallbacks_eq]
      intro e he
      obtain ⟨c, _, rfl⟩ := List.mem_map.1 he
      exact c.2.ser_is_map
termination_by structural x => x

theorem CallbackObject.good (g : Good N L P) : ∀ (c : CallbackObject), c.Forall (docOk N L) → P c.ser
  | ⟨ps⟩, h => by
    rw [CallbackObject.Forall] at h
    rw [CallbackObject.ser]
    refine g.map _ ?_ (noRef_of_maps (serPaths_maps ps)) (paths_good g ps h.2)
    intro n
    rw [serPaths_keys]
    exact nodup_map (fun a b h => by injection h) (h.1 n)
termination_by structural x => x

theorem paths_good (g : Good N L P) : ∀ (ps : List (UrlPath × PathValue)), forallPaths (docOk N L) ps →
    ∀ e ∈ serPaths ps, P e.2
  | [], _ => by simp [serPaths]
  | (p, v) :: ps, h => by
    intro e he
    rw [forallPaths] at h
    rw [serPaths] at he
    rcases List.mem_cons.1 he with rfl | he
    · exact PathValue.good g v h.1
    · exact paths_good g ps h.2 e he
termination_by structural x => x

theorem ops_good (g : Good N L P) : ∀ (os : List (HttpMethod × Operation)), forallOps (docOk N L) os →
    ∀ e ∈ serOperations os, P e.2
  | [], _ => by simp [serOperations]
  | (m, o) :: os, h => by
    intro e he
    rw [forallOps] at h
    rw [serOperations] at he
    rcases List.mem_cons.1 he with rfl | he
    · exact Operation.good g o h.1
    · exact ops_good g os h.2 e he
termination_by structural x => x

theorem callbacks_good (g : Good N L P) : ∀ (cs : List (String × CallbackObject)), forallCallbacks (docOk N L) cs →
    ∀ e ∈ serCallbacks cs, P e.2
  | [], _ => by simp [serCallbacks]
  | (k, c) :: cs, h => by
    intro e he
    rw [forallCallbacks] at h
    rw [serCallbacks] at he
    rcases List.mem_cons.1 he with rfl | he
    · exact CallbackObject.good g c h.1
    · exact callbacks_good g cs h.2 e he
termination_by structural x => x
end

theorem securityScheme_good (g : Good N L P) (s : SecurityScheme) : P s.ser := by
  rcases s with (d | ⟨f, d⟩) | ⟨l, n, d⟩
  · refine g.struct [("type", some _), ("scheme", some _), ("description", _)]
      ["type", "scheme", "description"] rfl (by decide) (by decide) ?_
    simp only [allFields_cons]
    exact ⟨some_all (g.str _), some_all (g.str _), opt_str_all g.str _, allFields_nil⟩
  · refine g.struct [("type", some _), ("scheme", some _), ("bearerFormat", _), ("description", _)]
      ["type", "scheme", "bearerFormat", "description"] rfl (by decide) (by decide) ?_
    simp only [allFields_cons]
    exact ⟨some_all (g.str _), some_all (g.str _), opt_str_all g.str _,
      opt_str_all g.str _, allFields_nil⟩
  · refine g.struct [("type", some _), ("in", some _), ("name", some _), ("description", _)]
      ["type", "in", "name", "description"] rfl (by decide) (by decide) ?_
    simp only [allFields_cons]
    exact ⟨some_all (g.str _), some_all (g.str _), some_all (g.str _),
      opt_str_all g.str _, allFields_nil⟩

theorem SecurityScheme.ser_is_map (s : SecurityScheme) : ∃ es, s.ser = .map es := by
  rcases s with (d | ⟨f, d⟩) | ⟨l, n, d⟩ <;> exact ⟨_, rfl⟩

theorem components_good (g : Good N L P) {c : Components} (hs : N → BMap.Sorted c.schemas)
    (hs' : N → BMap.Sorted c.securitySchemes) (h : ∀ b ∈ c.schemas, b.2.Ok N L) : P c.ser := by
  refine g.struct _ ["schemas", "securitySchemes"] rfl (by decide) (by decide) ?_
  simp only [allFields_cons]
  refine ⟨nonEmptyMap_all (g.map _ (fun n => nodup_str Model.ser (hs n)) (noRef_of_maps ?_) ?_),
    nonEmptyMap_all (g.map _ (fun n => nodup_str SecurityScheme.ser (hs' n)) (noRef_of_maps ?_) ?_), allFields_nil⟩
  · intro e he
    obtain ⟨b, hb, rfl⟩ := List.mem_map.1 he
    exact ⟨_, rfl⟩
  · intro e he
    obtain ⟨b, hb, rfl⟩ := List.mem_map.1 he
    exact b.2.ser_good g (h b hb)
  · intro e he
    obtain ⟨b, hb, rfl⟩ := List.mem_map.1 he
    exact b.2.ser_is_map
  · intro e he
    obtain ⟨b, hb, rfl⟩ := List.mem_map.1 he
    exact securityScheme_good g _

theorem doc_good (g : Good N L P) {d : Opg} (h : d.Forall (docOk N L)) (hs : N → BMap.Sorted d.components.schemas)
    (hs' : N → BMap.Sorted d.components.securitySchemes) (hm : ∀ b ∈ d.components.schemas, b.2.Ok N L) : P d.ser := by
  refine g.struct _ ["openapi", "info", "tags", "servers", "paths", "components"] rfl (by decide) (by decide) ?_
  simp only [allFields_cons]
  refine ⟨some_all (g.str _), some_all ?_, nonEmptySeq_all (g.seq _ ?_), nonEmptySeq_all (g.seq _ ?_),
    nonEmptyMap_all (g.map _ ?_ (noRef_of_maps (serPaths_maps _)) (paths_good g d.paths h.2)),
    some_all (components_good g hs hs' hm), allFields_nil⟩
  · refine g.struct _ ["title", "description", "version"] rfl (by decide) (by decide) ?_
    simp only [allFields_cons]
    exact ⟨some_all (g.str _), opt_str_all g.str _, some_all (g.str _), allFields_nil⟩
  · intro v hv
    obtain ⟨t, _, rfl⟩ := List.mem_map.1 hv
    refine g.struct _ ["name", "description"] rfl (by decide) (by decide) ?_
    simp only [allFields_cons]
    exact ⟨some_all (g.str _), opt_str_all g.str _, allFields_nil⟩
  · intro v hv
    obtain ⟨t, _, rfl⟩ := List.mem_map.1 hv
    refine g.struct _ ["url", "description"] rfl (by decide) (by decide) ?_
    simp only [allFields_cons]
    exact ⟨some_all (g.str _), opt_str_all g.str _, allFields_nil⟩
  · intro n
    rw [serPaths_keys]
    exact nodup_map (fun a b h => by injection h) (h.1 n)

/-! ## The three instances -/

theorem distinctSeq_iff (vs : List Value) : distinctSeq vs ↔ ∀ v ∈ vs, v.DistinctKeys := by
  induction vs with
  | nil => simp [distinctSeq]
  | cons v vs ih => simp [distinctSeq, ih]

theorem distinctMap_iff (es : List (Key × Value)) : distinctMap es ↔ ∀ e ∈ es, e.2.DistinctKeys := by
  induction es with
  | nil => simp [distinctMap]
  | cons e es ih => obtain ⟨k, v⟩ := e; simp [distinctMap, ih]

theorem good_distinct : Good True (fun _ => True) Value.DistinctKeys where
  str := by simp [Value.DistinctKeys]
  tt := by simp [Value.DistinctKeys]
  seq vs h := by rw [Value.DistinctKeys]; exact (distinctSeq_iff vs).2 h
  map es hn _ h := by rw [Value.DistinctKeys]; exact ⟨hn trivial, (distinctMap_iff es).2 h⟩
  link l _ := by simp [Ref.ser, Value.DistinctKeys, distinctMap, BMap.keys]
  body r v h := by
    rw [Value.DistinctKeys]
    refine ⟨nodup_entriesOf _ (by simp), (distinctMap_iff _).2 (allFields_entries ?_)⟩
    simp only [allFields_cons]
    exact ⟨flag_all (by simp [Value.DistinctKeys]) _, some_all (by simp [Value.DistinctKeys]), some_all h, allFields_nil⟩

theorem prunedSeq_iff (vs : List Value) : prunedSeq vs ↔ ∀ v ∈ vs, v.Pruned := by
  induction vs with
  | nil => simp [prunedSeq]
  | cons v vs ih => simp [prunedSeq, ih]

theorem prunedMap_of {content : Prop} (es : List (Key × Value))
    (h : ∀ e ∈ es, e.2.Pruned ∨ (e.1 = .str "description" ∧ e.2 = .null ∧ content)) : prunedMap content es := by
  induction es with
  | nil => simp [prunedMap]
  | cons e es ih =>
    have ih := ih fun e he => h e (List.mem_cons_of_mem _ he)
    have h := h e List.mem_cons_self
    obtain ⟨k, v⟩ := e
    unfold prunedMap
    split
    · rename_i hk
      cases hk
    · rename_i hk
      injection hk with h1 h2
      injection h1 with h1 h3
      subst h1 h2 h3
      refine ⟨?_, ih⟩
      rcases h with h | h
      · simp [Value.Pruned] at h
      · exact h.2.2
    · rename_i hne hk
      injection hk with h1 h2
      injection h1 with h1 h3
      subst h1 h2 h3
      refine ⟨?_, ih⟩
      rcases h with h | ⟨h1, h2, _⟩
      · exact h
      · exact absurd h2 (hne h1)

theorem good_pruned : Good False (fun _ => True) Value.Pruned where
  str := by simp [Value.Pruned]
  tt := by simp [Value.Pruned]
  seq vs h := by rw [Value.Pruned]; exact (prunedSeq_iff vs).2 h
  map es _ _ h := by rw [Value.Pruned]; exact prunedMap_of es fun e he => .inl (h e he)
  link l _ := by
    rw [Ref.ser, Value.Pruned]
    exact prunedMap_of _ (by simp [Value.Pruned])
  body r v h := by
    rw [Value.Pruned]
    refine prunedMap_of _ ?_
    cases r <;> simp [entriesOf, flag, BMap.keys, Value.Pruned, h]

theorem mem_refStringsSeq {s : String} (vs : List Value) : s ∈ refStringsSeq vs ↔ ∃ v ∈ vs, s ∈ v.refStrings := by
  induction vs with
  | nil => simp [refStringsSeq]
  | cons v vs ih => simp [refStringsSeq, ih]

theorem mem_refStringsMap {s : String} (es : List (Key × Value)) (h : s ∈ refStringsMap es) :
    (.str "$ref", .str s) ∈ es ∨ ∃ e ∈ es, s ∈ e.2.refStrings := by
  induction es with
  | nil => simp [refStringsMap] at h
  | cons e es ih =>
    obtain ⟨k, v⟩ := e
    rw [refStringsMap] at h
    rcases List.mem_append.1 h with h | h
    · rcases List.mem_append.1 h with h | h
      · unfold refString at h
        split at h
        · split at h
          · rename_i hk
            subst hk
            rw [List.mem_singleton.1 h]
            exact .inl List.mem_cons_self
          · cases h
        · cases h
      · exact .inr ⟨_, List.mem_cons_self, h⟩
    · rcases ih h with h | ⟨e, he, h⟩
      · exact .inl (List.mem_cons_of_mem _ h)
      · exact .inr ⟨e, List.mem_cons_of_mem _ he, h⟩

theorem good_refs (L : String → Prop) :
    Good False L fun v => ∀ s ∈ v.refStrings, ∃ name, s = referencePrefix ++ name ∧ L name where
  str := by simp [Value.refStrings]
  tt := by simp [Value.refStrings]
  seq vs h s hs := by
    rw [Value.refStrings] at hs
    obtain ⟨v, hv, hs⟩ := (mem_refStringsSeq vs).1 hs
    exact h v hv s hs
  map es _ hr h s hs := by
    rw [Value.refStrings] at hs
    rcases mem_refStringsMap es hs with hs | ⟨e, he, hs⟩
    · exact absurd hs (hr s)
    · exact h e he s hs
  link l hl s hs := by
    simp [Ref.ser, Value.refStrings, refStringsMap, refString] at hs
    exact ⟨l, hs, hl⟩
  body r v h s hs := by
    rw [Value.refStrings] at hs
    rcases mem_refStringsMap _ hs with hs | ⟨e, he, hs⟩
    · cases r <;> simp [entriesOf, flag] at hs
    · cases r <;> simp [entriesOf, flag] at he
      · rcases he with rfl | rfl
        · simp [Value.refStrings] at hs
        · exact h s hs
      · rcases he with rfl | rfl | rfl
        · simp [Value.refStrings] at hs
        · simp [Value.refStrings] at hs
        · exact h s hs

end Verif
