import Verif.Spec.Spots
import Verif.Props.Exchange
import Verif.Props.ExactMore
/-!
# Places of operations

C116: the operations of a document stand where they are described, with unique ids exactly if those of the description are.
-/

namespace Verif

open Sample

theorem Pointwise.none_right {α β : Type} {R : α → β → Prop} {as : List α} {bs : List β} (h : Pointwise R as bs) {i : Nat}
    (ha : as[i]? = none) : bs[i]? = none := by
  induction h generalizing i with
  | nil => simp
  | cons _ _ ih =>
    cases i with
    | zero => simp at ha
    | succ i => simpa using ih (by simpa using ha)

theorem entry_paths (ps : List (UrlPath × PathValue)) (i : Nat) :
    (Value.map (serPaths ps)).entry i = ps[i]?.map fun pv => (.str (UrlPath.render pv.1), pv.2.ser) := by
  rw [serPaths_map]
  show (List.map _ ps)[i]? = _
  rw [List.getElem?_map]

theorem opAt_top (d : Opg) (i : Nat) (m : HttpMethod) :
    d.ser.opAt (.top i m) = (d.paths[i]?).bind fun pv => pv.2.ser.at m.asStr := by
  show (d.ser.at "paths").bind _ = _
  rw [at_paths]
  cases hd : d.paths with
  | nil => rfl
  | cons a l =>
    show ((Value.map (serPaths (a :: l))).entry i).bind _ = _
    rw [entry_paths]
    cases (a :: l)[i]? <;> rfl

theorem opAt_callback (o : Operation) (name : String) (i : Nat) (m : HttpMethod) :
    ((o.ser.at "callbacks").bind fun cs => (cs.at name).bind fun c => (c.entry i).bind fun item => item.2.at m.asStr) =
      (BMap.get name o.callbacks).bind fun c => (c.paths[i]?).bind fun pv => pv.2.ser.at m.asStr := by
  rw [at_callbacks]
  cases hc : o.callbacks with
  | nil => rfl
  | cons a l =>
    show ((Value.map (serCallbacks (a :: l))).at name).bind _ = _
    rw [at_callback]
    cases BMap.get name (a :: l) with
    | none => rfl
    | some c =>
      obtain ⟨paths⟩ := c
      show ((Value.map (serPaths paths)).entry i).bind _ = (paths[i]?).bind _
      rw [entry_paths]
      cases paths[i]? <;> rfl

section
variable {env : Env} {reason : Nat → Option String} {api : Api} {d : Opg}

theorem op_item (h : Describes env reason api d) {decl : PathDecl} {p : UrlPath} {v : PathValue} (hi : ItemIn api d decl (p, v)) (m : HttpMethod) :
    (∃ ps o, lastOf (ItemProp.operation? m) decl.props = some ps ∧ OpIn api d ps o ∧ v.ser.at m.asStr = some o.ser) ∨
    lastOf (ItemProp.operation? m) decl.props = none ∧ v.ser.at m.asStr = none := by
  obtain ⟨h1, h2⟩ := c58_operations env reason api d h decl p v hi m
  rw [at_method]
  cases hl : lastOf (ItemProp.operation? m) decl.props with
  | some ps =>
    obtain ⟨o, ho, hin, -⟩ := h1 ps hl
    exact .inl ⟨ps, o, rfl, hin, by rw [ho]; rfl⟩
  | none => exact .inr ⟨rfl, by rw [h2 hl]; rfl⟩

theorem opAt_written (h : Describes env reason api d) : ∀ pos,
    (∃ ps o, api.opAt pos = some ps ∧ OpIn api d ps o ∧ d.ser.opAt pos = some o.ser) ∨ api.opAt pos = none ∧ d.ser.opAt pos = none
  | .top i m => by
    have hpw := (c57_order env reason api d h).1
    rw [opAt_top]
    show (∃ ps o, (api.pathList[i]?).bind _ = some ps ∧ _) ∨ (api.pathList[i]?).bind _ = none ∧ _
    cases ha : api.pathList[i]? with
    | none =>
      rw [hpw.none_right ha]
      exact .inr ⟨rfl, rfl⟩
    | some decl =>
      obtain ⟨⟨p, v⟩, hpv, -, hin⟩ := hpw.get ha
      rw [hpv]
      exact op_item h hin m
  | .callback p name i m => by
    show (∃ ps o, (api.opAt p).bind _ = some ps ∧ _ ∧ (d.ser.opAt p).bind _ = _) ∨ (api.opAt p).bind _ = none ∧ (d.ser.opAt p).bind _ = none
    rcases opAt_written h p with ⟨ps, o, e1, hin, e2⟩ | ⟨e1, e2⟩
    · rw [e1, e2]
      show (∃ ps' o', (lastOf (CallbackDecl.named? name) (ps.flatMap OpProp.callbackList)).bind _ = some ps' ∧ _ ∧ (o.ser.at "callbacks").bind _ = _) ∨
        (lastOf (CallbackDecl.named? name) (ps.flatMap OpProp.callbackList)).bind _ = none ∧ (o.ser.at "callbacks").bind _ = none
      have e := opAt_callback o name i m
      cases hl : lastOf (CallbackDecl.named? name) (ps.flatMap OpProp.callbackList) with
      | none =>
        refine .inr ⟨rfl, e.trans ?_⟩
        rw [((c58_operation env reason api d h ps o hin).callbacks name).2 hl]
        rfl
      | some c =>
        cases c with
        | literal n ds =>
          refine .inr ⟨rfl, e.trans ?_⟩
          rw [c61_literal env reason api d h ps o hin name _ hl (fun h => h)]
          rfl
        | ident n ds =>
          obtain ⟨c, hg, hpw⟩ := c61_callbacks_partial env reason api d h ps o hin name _ hl trivial
          have e' := e.trans (by rw [hg]; rfl : _ = (c.paths[i]?).bind fun pv => pv.2.ser.at m.asStr)
          show (∃ ps' o', (ds[i]?).bind _ = some ps' ∧ _ ∧ _) ∨ (ds[i]?).bind _ = none ∧ _
          cases ha : ds[i]? with
          | none => exact .inr ⟨rfl, e'.trans (by rw [hpw.none_right ha]; rfl)⟩
          | some decl =>
            obtain ⟨⟨q, v⟩, hpv, hi, -⟩ := hpw.get ha
            have e'' := e'.trans (by rw [hpv]; rfl : _ = v.ser.at m.asStr)
            rcases op_item h hi m with ⟨ps', o', k1, k2, k3⟩ | ⟨k1, k2⟩
            · exact .inl ⟨ps', o', k1, k2, e''.trans k3⟩
            · exact .inr ⟨k1, e''.trans k2⟩
    · rw [e1, e2]
      exact .inr ⟨rfl, rfl⟩

/-- What C116 says about a place. -/
def SpotSays (doc : Value) (api : Api) (p : Spot) : Prop :=
  ((doc.opAt p).isSome = (api.opAt p).isSome) ∧
  ∀ op ps, doc.opAt p = some op → api.opAt p = some ps →
    op.at "operationId" = (lastOf OpProp.operationId? ps).map .str ∧ op.at "summary" = (lastOf OpProp.summary? ps).map .str ∧
    op.at "description" = (lastOf OpProp.description? ps).map .str ∧
    op.at "tags" = (match ps.flatMap OpProp.tagList with | [] => none | t :: ts => some (.seq ((t :: ts).map .str)))

theorem SpotSays.ids {doc : Value} {api : Api} (says : ∀ p, SpotSays doc api p) : doc.UniqueIds ↔ api.UniqueIds := by
  constructor
  · intro u p p' ps ps' id e e' i i'
    have k := says p
    unfold SpotSays at k
    have k' := says p'
    unfold SpotSays at k'
    rw [e] at k
    rw [e'] at k'
    obtain ⟨op, ho⟩ := Option.isSome_iff_exists.1 k.1
    obtain ⟨op', ho'⟩ := Option.isSome_iff_exists.1 k'.1
    exact u p p' op op' (.str id) ho ho' (by rw [(k.2 op ps ho rfl).1, i]; rfl) (by rw [(k'.2 op' ps' ho' rfl).1, i']; rfl)
  · intro u p p' op op' id e e' i i'
    have k := says p
    unfold SpotSays at k
    have k' := says p'
    unfold SpotSays at k'
    rw [e] at k
    rw [e'] at k'
    obtain ⟨ps, ho⟩ := Option.isSome_iff_exists.1 k.1.symm
    obtain ⟨ps', ho'⟩ := Option.isSome_iff_exists.1 k'.1.symm
    rw [(k.2 op ps rfl ho).1] at i
    rw [(k'.2 op' ps' rfl ho').1] at i'
    cases hi : lastOf OpProp.operationId? ps with
    | none => rw [hi] at i; cases i
    | some a =>
      cases hi' : lastOf OpProp.operationId? ps' with
      | none => rw [hi'] at i'; cases i'
      | some a' =>
        rw [hi] at i
        rw [hi'] at i'
        cases i
        cases i'
        exact u p p' ps ps' a ho ho' hi hi'

/-- **C116**.  An operation stands in the document exactly where one is described, below paths and callbacks of any depth, with the
id, summary, description and tags that are given there. -/
theorem c116_operations (env : Env) (reason : Nat → Option String) (api : Api) (d : Opg) (h : Describes env reason api d) (p : Spot) :
    ((d.ser.opAt p).isSome = (api.opAt p).isSome) ∧
    ∀ op ps, d.ser.opAt p = some op → api.opAt p = some ps →
      op.at "operationId" = (lastOf OpProp.operationId? ps).map .str ∧ op.at "summary" = (lastOf OpProp.summary? ps).map .str ∧
      op.at "description" = (lastOf OpProp.description? ps).map .str ∧
      op.at "tags" = (match ps.flatMap OpProp.tagList with | [] => none | t :: ts => some (.seq ((t :: ts).map .str))) := by
  rcases opAt_written h p with ⟨ps, o, e1, hin, e2⟩ | ⟨e1, e2⟩
  · rw [e1, e2]
    refine ⟨rfl, ?_⟩
    rintro _ _ ⟨⟩ ⟨⟩
    have ho := c58_operation env reason api d h ps o hin
    rw [← ho.operationId, ← ho.summary, ← ho.description, ← ho.tags]
    obtain ⟨tags, summary, id, desc, depr, sec, body, resp, params, callbacks⟩ := o
    refine ⟨?_, ?_, ?_, ?_⟩
    · simp [Operation.ser, Value.at_map, optStr]
    · simp [Operation.ser, Value.at_map, optStr]
    · simp [Operation.ser, Value.at_map, optStr]
    · cases tags <;> simp [Operation.ser, Value.at_map, nonEmptySeq, strs]
  · rw [e1, e2]
    exact ⟨rfl, fun _ _ e => nomatch e⟩

/-- **C116**.  The ids of the document are unique exactly if those of the description are. -/
theorem c116_ids (env : Env) (reason : Nat → Option String) (api : Api) (d : Opg) (h : Describes env reason api d) :
    d.ser.UniqueIds ↔ api.UniqueIds :=
  SpotSays.ids (c116_operations env reason api d h)

theorem hollow_literal {l rest : List Char} (hl : '{' ∉ l) : hollow false (l ++ rest) = l ++ hollow false rest := by
  induction l with
  | nil => rfl
  | cons c l ih =>
    simp only [List.mem_cons, not_or] at hl
    have hc : (c == '{') = false := by simpa using fun e => hl.1 e.symm
    show c :: hollow (c == '{') (l ++ rest) = _
    rw [hc, ih hl.2]
    rfl

theorem hollow_name {n rest : List Char} (hn : '}' ∉ n) : hollow true (n ++ '}' :: rest) = '}' :: hollow false rest := by
  induction n with
  | nil => simp [hollow]
  | cons c n ih =>
    simp only [List.mem_cons, not_or] at hn
    show (if c = '}' then _ else _) = _
    rw [if_neg fun e => hn.1 e.symm]
    exact ih hn.2

theorem hollow_render {ss : List PathSeg} {p : UrlPath} (h : Pointwise SegOf ss p) (hc : ∀ s ∈ ss, s.NoBraces) :
    hollow false (UrlPath.render p).toList = ss.flatMap PathSeg.shape := by
  rw [UrlPath.render_toList]
  induction h with
  | nil => rfl
  | @cons s e ss p hs hp ih =>
    have ih := ih fun s hs => hc s (List.mem_cons_of_mem _ hs)
    have hs' := hc s List.mem_cons_self
    rw [List.flatMap_cons, List.flatMap_cons]
    cases e with
    | path l =>
      cases hs
      have hl : '{' ∉ '/' :: l.toList := by
        simp only [List.mem_cons, not_or]
        exact ⟨by decide, hs'⟩
      rw [show ('/' :: PathElement.segment (.path l)) = '/' :: l.toList from rfl, hollow_literal hl, ih]
      rfl
    | parameter n =>
      obtain ⟨t, ht⟩ := hs.param
      have e : s.shape = "/{}".toList := by
        cases s with
        | literal => cases ht
        | named => rfl
        | bare => rfl
      have hn : '}' ∉ n.toList := by
        cases s with
        | literal => cases ht
        | named => exact hs' _ _ ht
        | bare => exact hs' _ _ ht
      rw [e, show ('/' :: PathElement.segment (.parameter n)) = '/' :: '{' :: (n.toList ++ ['}']) from rfl]
      show '/' :: '{' :: hollow true ((n.toList ++ ['}']) ++ _) = _
      rw [List.append_assoc, show ['}'] ++ (p.flatMap fun e => '/' :: e.segment) = '}' :: (p.flatMap fun e => '/' :: e.segment) from rfl,
        hollow_name hn, ih]
      rfl

theorem templates_of {api : Api} {d : Opg} (hpw : Pointwise (fun decl pv => Pointwise SegOf decl.segments pv.1) api.pathList d.paths)
    (braces : ∀ decl ∈ api.pathList, ∀ s ∈ decl.segments, s.NoBraces) : d.ser.UniqueTemplates ↔ api.UniqueTemplates := by
  have at_entry : ∀ {i : Nat} {pv : UrlPath × PathValue}, d.paths[i]? = some pv → ∃ paths, d.ser.at "paths" = some paths ∧
      ∀ j, paths.entry j = d.paths[j]?.map fun pv => (.str (UrlPath.render pv.1), pv.2.ser) := by
    intro i pv hi
    cases hd : d.paths with
    | nil => rw [hd] at hi; simp at hi
    | cons a l => exact ⟨.map (serPaths (a :: l)), by rw [at_paths, hd]; rfl, entry_paths _⟩
  have shape : ∀ {i : Nat} {decl pv}, api.pathList[i]? = some decl → d.paths[i]? = some pv →
      hollow false (UrlPath.render pv.1).toList = decl.segments.flatMap PathSeg.shape := by
    intro i decl pv ha hp
    exact hollow_render (hpw.at ha hp) (braces decl (List.mem_of_getElem? ha))
  constructor
  · intro u i i' decl decl' ha ha' e
    obtain ⟨pv, hp, -⟩ := hpw.get ha
    obtain ⟨pv', hp', -⟩ := hpw.get ha'
    obtain ⟨paths, h1, h2⟩ := at_entry hp
    exact u paths i i' _ _ _ _ h1 (by rw [h2, hp]; rfl) (by rw [h2, hp']; rfl) (by rw [shape ha hp, shape ha' hp', e])
  · intro u paths i i' key key' v v' h1 e1 e2 e
    have he : ∀ j, paths.entry j = d.paths[j]?.map fun pv => (.str (UrlPath.render pv.1), pv.2.ser) := by
      cases hd : d.paths with
      | nil => rw [at_paths, hd] at h1; cases h1
      | cons a l =>
        rw [at_paths, hd] at h1
        cases h1
        exact entry_paths _
    have key_of : ∀ {j k w}, paths.entry j = some (.str k, w) → ∃ pv decl, d.paths[j]? = some pv ∧ api.pathList[j]? = some decl ∧
        k = UrlPath.render pv.1 := by
      intro j k w ej
      rw [he] at ej
      cases hp : d.paths[j]? with
      | none => rw [hp] at ej; cases ej
      | some pv =>
        rw [hp] at ej
        cases ej
        cases ha : api.pathList[j]? with
        | none => rw [hpw.none_right ha] at hp; cases hp
        | some decl => exact ⟨pv, decl, rfl, rfl, rfl⟩
    obtain ⟨pv, decl, hp, ha, rfl⟩ := key_of e1
    obtain ⟨pv', decl', hp', ha', rfl⟩ := key_of e2
    rw [shape ha hp, shape ha' hp'] at e
    exact u i i' decl decl' ha ha' e

/-- C116 for paths.  If literals contain no `{` and names no `}`, the paths of the document are unique up to the names in them exactly if
those of the description are. -/
theorem c116_templates_partial (env : Env) (reason : Nat → Option String) (api : Api) (d : Opg) (h : Describes env reason api d)
    (braces : ∀ decl ∈ api.pathList, ∀ s ∈ decl.segments, s.NoBraces) : d.ser.UniqueTemplates ↔ api.UniqueTemplates :=
  templates_of ((c57_order env reason api d h).1.imp fun _ _ h => h.1) braces

end

namespace Sample
/-- An operation with an id, and one with an id below a callback of it. -/
def spotsApi (inner : String) : Api := [.paths [
  .mk [.literal "jobs", .named "id" (.prim .string)] [.operation .post [.operationId "start",
    .callbacks [.ident "onDone" [.mk [.literal "done"] [.operation .put [.operationId inner]]]]]],
  .mk [.literal "jobs"] [.operation .get []]]]
def spotsDoc (inner : String) : Opg := (describeApi (⟨env, 10, reason⟩ : Ctx) (spotsApi inner)).getD .empty
/-- A literal that looks like a parameter. -/
def bracedApi : Api := [.paths [.mk [.literal "{a}"] [], .mk [.named "b" (.prim .string)] []]]
def bracedDoc : Opg := (describeApi (⟨env, 10, reason⟩ : Ctx) bracedApi).getD .empty
theorem spots_described (inner : String) : Describes env reason (spotsApi inner) (spotsDoc inner) := ⟨10, rfl⟩
theorem braced_described : Describes env reason bracedApi bracedDoc := ⟨10, rfl⟩
end Sample

theorem spots_list (inner : String) : (spotsApi inner).pathList = [
    .mk [.literal "jobs", .named "id" (.prim .string)] [.operation .post [.operationId "start",
      .callbacks [.ident "onDone" [.mk [.literal "done"] [.operation .put [.operationId inner]]]]]],
    .mk [.literal "jobs"] [.operation .get []]] := by
  simp [spotsApi, Api.pathList, Section.pathList]

/-- All operations of the sample. -/
theorem spots_all (inner : String) : ∀ p ps, (spotsApi inner).opAt p = some ps →
    (p = .top 0 .post ∧ ps = [.operationId "start",
      .callbacks [.ident "onDone" [.mk [.literal "done"] [.operation .put [.operationId inner]]]]]) ∨
    (p = .top 1 .get ∧ ps = []) ∨ (p = .callback (.top 0 .post) "onDone" 0 .put ∧ ps = [.operationId inner])
  | .top i m, ps, h => by
    have h : ((spotsApi inner).pathList[i]?).bind (fun decl => lastOf (ItemProp.operation? m) decl.props) = some ps := h
    rw [spots_list] at h
    match i with
    | 0 => cases m <;> first | (cases h; exact .inl ⟨rfl, rfl⟩) | cases h
    | 1 => cases m <;> first | (cases h; exact .inr (.inl ⟨rfl, rfl⟩)) | cases h
    | _ + 2 => simp at h
  | .callback p name i m, ps, h => by
    cases hp : (spotsApi inner).opAt p with
    | none =>
      have h : ((spotsApi inner).opAt p).bind _ = some ps := h
      rw [hp] at h
      cases h
    | some qs =>
      have h : ((spotsApi inner).opAt p).bind (fun qs => (lastOf (CallbackDecl.named? name) (qs.flatMap OpProp.callbackList)).bind fun c =>
        (c.kept[i]?).bind fun decl => lastOf (ItemProp.operation? m) decl.props) = some ps := h
      rw [hp] at h
      rcases spots_all inner p qs hp with ⟨rfl, rfl⟩ | ⟨rfl, rfl⟩ | ⟨rfl, rfl⟩
      · by_cases hn : name = "onDone"
        · subst hn
          match i with
          | 0 => cases m <;> first | (cases h; exact .inr (.inr ⟨rfl, rfl⟩)) | cases h
          | _ + 1 => cases h
        · simp [lastOf, CallbackDecl.named?, OpProp.callbackList, CallbackDecl.name, Ne.symm hn] at h
      · cases h
      · cases h

/-- With another id below the callback, the ids and the paths are unique in both. -/
example : (spotsApi "finish").UniqueIds ∧ (spotsDoc "finish").ser.UniqueIds ∧ (spotsDoc "finish").ser.UniqueTemplates := by
  have h : (spotsApi "finish").UniqueIds := by
    intro p p' ps ps' id h h' i i'
    rcases spots_all _ p ps h with ⟨rfl, rfl⟩ | ⟨rfl, rfl⟩ | ⟨rfl, rfl⟩ <;>
      rcases spots_all _ p' ps' h' with ⟨rfl, rfl⟩ | ⟨rfl, rfl⟩ | ⟨rfl, rfl⟩ <;> first
        | rfl
        | exact absurd i (show ¬ (none = some _) by simp)
        | exact absurd i' (show ¬ (none = some _) by simp)
        | exact absurd (i.trans i'.symm) (show ¬ (some _ = some _) by decide)
  refine ⟨h, (c116_ids _ _ _ _ (spots_described _)).2 h, (c116_templates_partial _ _ _ _ (spots_described _) ?_).2 ?_⟩
  · rw [spots_list]
    simp [PathDecl.segments, PathSeg.NoBraces, PathSeg.param?]
  · intro i i' decl decl' h h' e
    rw [spots_list] at h h'
    match i, i' with
    | 0, 0 => rfl
    | 1, 1 => rfl
    | 0, 1 => cases h; cases h'; exact absurd e (by decide)
    | 1, 0 => cases h; cases h'; exact absurd e (by decide)
    | _ + 2, _ => simp at h
    | 0, _ + 2 => simp at h'
    | 1, _ + 2 => simp at h'

/-- The operation of the callback is found, with its id. -/
example : ((spotsDoc "finish").ser.opAt (.callback (.top 0 .post) "onDone" 0 .put)).bind (·.at "operationId") = some (.str "finish") := rfl

/-- The same id at an operation and at one below a callback: neither is unique. -/
example : ¬ (spotsApi "start").UniqueIds ∧ ¬ (spotsDoc "start").ser.UniqueIds := by
  have h : ¬ (spotsApi "start").UniqueIds := fun u =>
    nomatch u (.top 0 .post) (.callback (.top 0 .post) "onDone" 0 .put) _ _ "start" rfl rfl rfl rfl
  exact ⟨h, fun u => h ((c116_ids _ _ _ _ (spots_described _)).1 u)⟩

/-- **C116**, negated: literals with braces are taken for parameters, and templates are repeated that the description does not repeat. -/
theorem c116_is_false : ∃ env reason api d, Describes env reason api d ∧ api.UniqueTemplates ∧ ¬ d.ser.UniqueTemplates := by
  refine ⟨_, _, _, _, braced_described, ?_, ?_⟩
  · intro i i' decl decl' h h' e
    have hl : bracedApi.pathList = [.mk [.literal "{a}"] [], .mk [.named "b" (.prim .string)] []] := by
      simp [bracedApi, Api.pathList, Section.pathList]
    rw [hl] at h h'
    match i, i' with
    | 0, 0 => rfl
    | 1, 1 => rfl
    | 0, 1 => cases h; cases h'; exact absurd e (by decide)
    | 1, 0 => cases h; cases h'; exact absurd e (by decide)
    | _ + 2, _ => simp at h
    | 0, _ + 2 => simp at h'
    | 1, _ + 2 => simp at h'
  · intro u
    exact nomatch u _ 0 1 "/{a}" "/{b}" _ _ rfl rfl rfl (by decide)

end Verif
