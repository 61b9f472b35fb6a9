import Verif.Proof.Published
/-!
# Exact conditions on documents (proofs)
-/

namespace Verif

/-! ## Paths -/

namespace Read

theorem splitSlash_ne_nil (cs : List Char) : splitSlash cs ≠ [] := by
  cases cs with
  | nil => simp [splitSlash]
  | cons c cs =>
    rw [splitSlash]
    split
    · simp
    · split <;> simp

theorem splitSlash_noSlash (cs : List Char) : ∀ s ∈ splitSlash cs, '/' ∉ s := by
  induction cs with
  | nil => simp [splitSlash]
  | cons c cs ih =>
    rw [splitSlash]
    split
    · intro s hs
      rcases List.mem_cons.1 hs with rfl | hs
      · simp
      · exact ih s hs
    · next hc =>
      split
      · next s ss he =>
        rw [he] at ih
        intro s' hs
        rcases List.mem_cons.1 hs with rfl | hs
        · simp only [List.mem_cons, not_or]
          exact ⟨fun e => hc e.symm, ih s (List.mem_cons_self ..)⟩
        · exact ih s' (List.mem_cons_of_mem _ hs)
      · next he => exact absurd he (splitSlash_ne_nil cs)

theorem splitSlash_join (cs : List Char) : (splitSlash cs).flatMap (fun s => '/' :: s) = '/' :: cs := by
  induction cs with
  | nil => simp [splitSlash]
  | cons c cs ih =>
    rw [splitSlash]
    split
    · next hc => rw [List.flatMap_cons, ih, hc]; rfl
    · split
      · next s ss he =>
        rw [he, List.flatMap_cons] at ih
        rw [List.flatMap_cons]
        simp only [List.cons_append, List.cons.injEq, true_and] at ih ⊢
        exact ih
      · next he => exact absurd he (splitSlash_ne_nil cs)

theorem segment_toList (cs : List Char) : (segment cs).segment = cs := by
  unfold segment
  split
  · next rest =>
    split
    · next hl =>
      obtain ⟨p, hp⟩ := List.getLast?_eq_some_iff.1 hl
      subst hp
      simp [PathElement.segment]
    · simp [PathElement.segment]
  · simp [PathElement.segment]

theorem segment_plain {cs : List Char} (h : '/' ∉ cs) : (segment cs).Plain := by
  unfold segment
  split
  · next rest =>
    split
    · next hl =>
      obtain ⟨p, hp⟩ := List.getLast?_eq_some_iff.1 hl
      subst hp
      simp only [List.mem_cons, List.mem_append, not_or] at h
      simpa [PathElement.Plain] using h.2.1
    · next hl =>
      refine ⟨by simpa using h, ?_⟩
      intro p hp
      simp only [String.toList_ofList, List.cons.injEq, true_and] at hp
      rw [hp] at hl
      simp at hl
  · next hn =>
    refine ⟨by simpa using h, ?_⟩
    intro p hp
    simp only [String.toList_ofList] at hp
    exact hn _ hp

theorem template_plain (s : String) : ∀ e ∈ template s, e.Plain := by
  unfold template
  split
  · intro e he
    obtain ⟨cs, hcs, rfl⟩ := List.mem_map.1 he
    exact segment_plain (splitSlash_noSlash _ cs hcs)
  · simp

theorem render_template (p : UrlPath) : UrlPath.render (template (UrlPath.render p)) = UrlPath.render p := by
  apply String.toList_inj.1
  rw [UrlPath.render_toList]
  cases p with
  | nil => rfl
  | cons e p =>
    have := UrlPath.render_toList (e :: p)
    rw [List.flatMap_cons, List.cons_append] at this
    rw [template, this]
    simp only [List.flatMap_map]
    have h : (fun a => '/' :: (segment a).segment) = fun s : List Char => '/' :: s := by
      funext s; rw [segment_toList]
    rw [h, splitSlash_join]

end Read

/-! ## Documents with other paths -/

mutual
theorem Operation.repath_ser {f : UrlPath → UrlPath} (hf : ∀ p, UrlPath.render (f p) = UrlPath.render p) :
    ∀ (o : Operation), (o.repath f).ser = o.ser
  | ⟨_, _, _, _, _, _, _, _, _, cs⟩ => by
    rw [Operation.repath, Operation.ser, Operation.ser, repathCallbacks_ser hf cs]
termination_by structural x => x
theorem CallbackObject.repath_ser {f : UrlPath → UrlPath} (hf : ∀ p, UrlPath.render (f p) = UrlPath.render p) :
    ∀ (c : CallbackObject), (c.repath f).ser = c.ser
  | ⟨ps⟩ => by
    rw [CallbackObject.repath, CallbackObject.ser, CallbackObject.ser, repathPaths_ser hf ps]
termination_by structural x => x
theorem PathValue.repath_ser {f : UrlPath → UrlPath} (hf : ∀ p, UrlPath.render (f p) = UrlPath.render p) :
    ∀ (v : PathValue), (v.repath f).ser = v.ser
  | ⟨_, _, os, _⟩ => by
    rw [PathValue.repath, PathValue.ser, PathValue.ser, repathOperations_ser hf os]
termination_by structural x => x
theorem repathCallbacks_ser {f : UrlPath → UrlPath} (hf : ∀ p, UrlPath.render (f p) = UrlPath.render p) :
    ∀ (cs : List (String × CallbackObject)), serCallbacks (repathCallbacks f cs) = serCallbacks cs
  | [] => by rw [repathCallbacks]
  | (k, c) :: cs => by
    rw [repathCallbacks, serCallbacks, serCallbacks, CallbackObject.repath_ser hf c, repathCallbacks_ser hf cs]
termination_by structural x => x
theorem repathPaths_ser {f : UrlPath → UrlPath} (hf : ∀ p, UrlPath.render (f p) = UrlPath.render p) :
    ∀ (ps : List (List PathElement × PathValue)), serPaths (repathPaths f ps) = serPaths ps
  | [] => by rw [repathPaths]
  | (p, v) :: ps => by
    rw [repathPaths, serPaths, serPaths, hf p, PathValue.repath_ser hf v, repathPaths_ser hf ps]
termination_by structural x => x
theorem repathOperations_ser {f : UrlPath → UrlPath} (hf : ∀ p, UrlPath.render (f p) = UrlPath.render p) :
    ∀ (os : List (HttpMethod × Operation)), serOperations (repathOperations f os) = serOperations os
  | [] => by rw [repathOperations]
  | (m, o) :: os => by
    rw [repathOperations, serOperations, serOperations, Operation.repath_ser hf o, repathOperations_ser hf os]
termination_by structural x => x
end

theorem Opg.repath_ser {f : UrlPath → UrlPath} (hf : ∀ p, UrlPath.render (f p) = UrlPath.render p) (d : Opg) :
    (d.repath f).ser = d.ser := by
  obtain ⟨v, i, ts, ss, ps, c⟩ := d
  simp only [Opg.repath, Opg.ser, repathPaths_ser hf ps]

/-- All paths are left as they are. -/
def docPathsFixed (f : UrlPath → UrlPath) : DocPred where
  paths ps := ∀ p ∈ ps, f p.1 = p.1

theorem repathPaths_heads {f : UrlPath → UrlPath} {ps : List (UrlPath × PathValue)} (h : repathPaths f ps = ps) :
    ∀ p ∈ ps, f p.1 = p.1 := by
  rw [Read.repathPaths_eq] at h
  intro p hp
  obtain ⟨i, hi⟩ := List.getElem?_of_mem hp
  have := congrArg (fun l => l[i]?) h
  simp only [List.getElem?_map, hi, Option.map_some, Option.some.injEq] at this
  exact congrArg Prod.fst this

mutual
theorem Operation.of_repath {f : UrlPath → UrlPath} : ∀ (o : Operation), o.repath f = o → o.Forall (docPathsFixed f)
  | ⟨_, _, _, _, _, _, _, _, _, cs⟩, h => by
    rw [Operation.repath] at h
    injection h with _ _ _ _ _ _ _ _ _ h
    rw [Operation.Forall]
    exact ⟨trivial, callbacks_of_repath cs h⟩
termination_by structural x => x
theorem CallbackObject.of_repath {f : UrlPath → UrlPath} :
    ∀ (c : CallbackObject), c.repath f = c → c.Forall (docPathsFixed f)
  | ⟨ps⟩, h => by
    rw [CallbackObject.repath] at h
    injection h with h
    rw [CallbackObject.Forall]
    exact ⟨repathPaths_heads h, paths_of_repath ps h⟩
termination_by structural x => x
theorem PathValue.of_repath {f : UrlPath → UrlPath} : ∀ (v : PathValue), v.repath f = v → v.Forall (docPathsFixed f)
  | ⟨_, _, os, _⟩, h => by
    rw [PathValue.repath] at h
    injection h with _ _ h _
    rw [PathValue.Forall]
    exact ⟨trivial, operations_of_repath os h⟩
termination_by structural x => x
theorem callbacks_of_repath {f : UrlPath → UrlPath} :
    ∀ (cs : List (String × CallbackObject)), repathCallbacks f cs = cs → forallCallbacks (docPathsFixed f) cs
  | [], _ => by rw [forallCallbacks]; trivial
  | (k, c) :: cs, h => by
    rw [repathCallbacks] at h
    injection h with h1 h2
    injection h1 with _ h1
    rw [forallCallbacks]
    exact ⟨CallbackObject.of_repath c h1, callbacks_of_repath cs h2⟩
termination_by structural x => x
theorem paths_of_repath {f : UrlPath → UrlPath} :
    ∀ (ps : List (List PathElement × PathValue)), repathPaths f ps = ps → forallPaths (docPathsFixed f) ps
  | [], _ => by rw [forallPaths]; trivial
  | (p, v) :: ps, h => by
    rw [repathPaths] at h
    injection h with h1 h2
    injection h1 with _ h1
    rw [forallPaths]
    exact ⟨PathValue.of_repath v h1, paths_of_repath ps h2⟩
termination_by structural x => x
theorem operations_of_repath {f : UrlPath → UrlPath} :
    ∀ (os : List (HttpMethod × Operation)), repathOperations f os = os → forallOps (docPathsFixed f) os
  | [], _ => by rw [forallOps]; trivial
  | (m, o) :: os, h => by
    rw [repathOperations] at h
    injection h with h1 h2
    injection h1 with _ h1
    rw [forallOps]
    exact ⟨Operation.of_repath o h1, operations_of_repath os h2⟩
termination_by structural x => x
end

/-! ## Distinct keys -/

theorem distinct_paths {ps : List (UrlPath × PathValue)} (h : (Value.map (serPaths ps)).DistinctKeys) :
    docPathsDistinct.paths ps := by
  rw [Value.DistinctKeys, serPaths_map] at h
  have := h.1
  simp only [BMap.keys, List.map_map] at this
  unfold List.Nodup at this
  show List.Pairwise _ _
  rw [List.pairwise_map] at this ⊢
  exact this.imp fun hn e => hn (congrArg Key.str e)

mutual
theorem Operation.of_distinct : ∀ (o : Operation), o.ser.DistinctKeys → o.Forall docPathsDistinct
  | ⟨tags, summary, id, desc, depr, sec, body, resp, params, cs⟩, h => by
    rw [Operation.Forall]
    refine ⟨trivial, callbacks_of_distinct cs ?_⟩
    have hc := at_callbacks ⟨tags, summary, id, desc, depr, sec, body, resp, params, cs⟩
    cases he : nonEmptyMap (serCallbacks cs) with
    | none => rw [nonEmptyMap_none.1 he, Value.DistinctKeys]; simp [BMap.keys, distinctMap]
    | some v =>
      have := nonEmptyMap_some he
      subst this
      rw [he] at hc
      exact h.at hc
termination_by structural x => x
theorem CallbackObject.of_distinct : ∀ (c : CallbackObject), c.ser.DistinctKeys → c.Forall docPathsDistinct
  | ⟨ps⟩, h => by
    rw [CallbackObject.ser] at h
    rw [CallbackObject.Forall]
    exact ⟨distinct_paths h, paths_of_distinct ps h⟩
termination_by structural x => x
theorem PathValue.of_distinct : ∀ (v : PathValue), v.ser.DistinctKeys → v.Forall docPathsDistinct
  | ⟨s, d, os, ps⟩, h => by
    rw [PathValue.Forall]
    refine ⟨trivial, operations_of_distinct os fun e he => ?_⟩
    rw [PathValue.ser, Value.DistinctKeys, distinctMap_iff] at h
    exact h.2 e (List.mem_append_right _ (List.mem_append_left _ he))
termination_by structural x => x
theorem callbacks_of_distinct :
    ∀ (cs : List (String × CallbackObject)), (Value.map (serCallbacks cs)).DistinctKeys → forallCallbacks docPathsDistinct cs
  | [], _ => by rw [forallCallbacks]; trivial
  | (k, c) :: cs, h => by
    rw [serCallbacks, Value.DistinctKeys, distinctMap] at h
    rw [forallCallbacks]
    refine ⟨CallbackObject.of_distinct c h.2.1, callbacks_of_distinct cs ?_⟩
    rw [Value.DistinctKeys]
    exact ⟨(List.nodup_cons.1 h.1).2, h.2.2⟩
termination_by structural x => x
theorem paths_of_distinct :
    ∀ (ps : List (List PathElement × PathValue)), (Value.map (serPaths ps)).DistinctKeys → forallPaths docPathsDistinct ps
  | [], _ => by rw [forallPaths]; trivial
  | (p, v) :: ps, h => by
    rw [serPaths, Value.DistinctKeys, distinctMap] at h
    rw [forallPaths]
    refine ⟨PathValue.of_distinct v h.2.1, paths_of_distinct ps ?_⟩
    rw [Value.DistinctKeys]
    exact ⟨(List.nodup_cons.1 h.1).2, h.2.2⟩
termination_by structural x => x
theorem operations_of_distinct :
    ∀ (os : List (HttpMethod × Operation)), (∀ e ∈ serOperations os, e.2.DistinctKeys) → forallOps docPathsDistinct os
  | [], _ => by rw [forallOps]; trivial
  | (m, o) :: os, h => by
    rw [serOperations] at h
    rw [forallOps]
    exact ⟨Operation.of_distinct o (h _ (List.mem_cons_self ..)),
      operations_of_distinct os fun e he => h e (List.mem_cons_of_mem _ he)⟩
termination_by structural x => x
end

theorem Opg.of_distinct (d : Opg) (h : d.ser.DistinctKeys) : d.Forall docPathsDistinct := by
  have hc := at_paths d
  have : (Value.map (serPaths d.paths)).DistinctKeys := by
    cases he : nonEmptyMap (serPaths d.paths) with
    | none => rw [nonEmptyMap_none.1 he, Value.DistinctKeys]; simp [BMap.keys, distinctMap]
    | some v =>
      have e := nonEmptyMap_some he
      subst e
      rw [he] at hc
      exact h.at hc
  exact ⟨distinct_paths this, paths_of_distinct _ this⟩

end Verif
