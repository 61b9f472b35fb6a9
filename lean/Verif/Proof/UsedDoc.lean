import Verif.Proof.Used
import Verif.Proof.Published
import Verif.Props.Grow
/-!
# Links in written documents
-/

namespace Verif

/-! ## The links of a schema are written -/

theorem mem_refStringsMap_of {s : String} : ∀ {es : List (Key × Value)} {e : Key × Value}, e ∈ es → s ∈ e.2.refStrings →
    s ∈ refStringsMap es
  | (k, v) :: es, e, h, hs => by
    rw [refStringsMap]
    rcases List.mem_cons.1 h with rfl | h
    · exact List.mem_append_left _ (List.mem_append_right _ hs)
    · exact List.mem_append_right _ (mem_refStringsMap_of h hs)

theorem refStringsMap_append (es es' : List (Key × Value)) : refStringsMap (es ++ es') = refStringsMap es ++ refStringsMap es' := by
  induction es with
  | nil => simp [refStringsMap]
  | cons e es ih => obtain ⟨k, v⟩ := e; simp [refStringsMap, ih]

mutual
theorem Ref.links_written {l : String} : ∀ (r : Ref), l ∈ r.links → referencePrefix ++ l ∈ r.ser.refStrings
  | .link name, h => by
    simp only [Ref.links, List.mem_singleton] at h
    subst h
    simp [Ref.ser, Value.refStrings, refStringsMap, refString]
  | .inline m, h => by
    rw [Ref.ser, Value.refStrings]
    exact Model.links_written m h
  | .any, h => by simp [Ref.links] at h
theorem Model.links_written {l : String} : ∀ (m : Model), l ∈ m.links → referencePrefix ++ l ∈ refStringsMap m.entries
  | ⟨description, data⟩, h => by
    rw [Model.entries, refStringsMap_append]
    exact List.mem_append_right _ (ModelData.links_written data h)
theorem ModelData.links_written {l : String} : ∀ (d : ModelData), l ∈ d.links → referencePrefix ++ l ∈ refStringsMap d.entries
  | .single t, h => by rw [ModelData.entries]; exact ModelType.links_written t h
  | .oneOf rs, h => by
    rw [ModelData.entries]
    exact mem_refStringsMap_of List.mem_cons_self (by rw [Value.refStrings]; exact refs_links_written rs h)
  | .allOf rs, h => by
    rw [ModelData.entries]
    exact mem_refStringsMap_of List.mem_cons_self (by rw [Value.refStrings]; exact refs_links_written rs h)
  | .anyOf rs, h => by
    rw [ModelData.entries]
    exact mem_refStringsMap_of List.mem_cons_self (by rw [Value.refStrings]; exact refs_links_written rs h)
theorem ModelType.links_written {l : String} : ∀ (t : ModelType), l ∈ t.links → referencePrefix ++ l ∈ refStringsMap t.entries
  | ⟨nullable, desc⟩, h => by
    rw [ModelType.entries, refStringsMap_append]
    exact List.mem_append_right _ (TypeDesc.links_written desc h)
theorem TypeDesc.links_written {l : String} : ∀ (d : TypeDesc), l ∈ d.links → referencePrefix ++ l ∈ refStringsMap d.entries
  | .array items, h => by
    rw [TypeDesc.entries]
    exact mem_refStringsMap_of (List.mem_cons_of_mem _ List.mem_cons_self) (Ref.links_written items h)
  | .object o, h => by
    rw [TypeDesc.entries, refStringsMap]
    exact List.mem_append_right _ (ModelObject.links_written o h)
  | .string .., h => by simp [TypeDesc.links] at h
  | .number .., h => by simp [TypeDesc.links] at h
  | .integer .., h => by simp [TypeDesc.links] at h
  | .boolean, h => by simp [TypeDesc.links] at h
theorem ModelObject.links_written {l : String} : ∀ (o : ModelObject), l ∈ o.links → referencePrefix ++ l ∈ refStringsMap o.entries
  | ⟨properties, additional, required⟩, h => by
    rw [ModelObject.links, List.mem_append] at h
    rw [ModelObject.entries]
    rcases h with h | h
    · have := props_links_written properties h
      have hne : (serProps properties).isEmpty = false := by
        cases properties with
        | nil => simp [propsLinks] at h
        | cons p ps => obtain ⟨k, r⟩ := p; simp [serProps]
      refine mem_refStringsMap_of (e := (.str "properties", .map (serProps properties)))
        (mem_entriesOf.2 ⟨_, rfl, ?_⟩) (by rw [Value.refStrings]; exact this)
      simp [nonEmptyMap, hne]
    · cases additional with
      | none => simp [optLinks] at h
      | some r =>
        refine mem_refStringsMap_of (e := (.str "additionalProperties", r.ser))
          (mem_entriesOf.2 ⟨_, rfl, ?_⟩) (Ref.links_written r h)
        simp [serOptRef]
theorem refs_links_written {l : String} : ∀ (rs : List Ref), l ∈ refsLinks rs → referencePrefix ++ l ∈ refStringsSeq (serRefs rs)
  | [], h => by simp [refsLinks] at h
  | r :: rs, h => by
    rw [refsLinks, List.mem_append] at h
    rw [serRefs, refStringsSeq, List.mem_append]
    exact h.elim (fun h => .inl (Ref.links_written r h)) (fun h => .inr (refs_links_written rs h))
theorem props_links_written {l : String} : ∀ (ps : List (String × Ref)), l ∈ propsLinks ps →
    referencePrefix ++ l ∈ refStringsMap (serProps ps)
  | [], h => by simp [propsLinks] at h
  | (k, r) :: ps, h => by
    rw [propsLinks, List.mem_append] at h
    rw [serProps, refStringsMap, List.mem_append, List.mem_append]
    exact h.elim (fun h => .inl (.inr (Ref.links_written r h))) (fun h => .inr (props_links_written ps h))
end

/-! ## Parts of a value -/

theorem refStrings_at {v w : Value} {k s : String} (h : v.at k = some w) (hs : s ∈ w.refStrings) : s ∈ v.refStrings := by
  unfold Value.at at h
  cases v with
  | map es => rw [Value.refStrings]; exact mem_refStringsMap_of (BMap.mem_of_get h) hs
  | _ => cases h

theorem refStrings_atCode {v w : Value} {k : Nat} {s : String} (h : v.atCode k = some w) (hs : s ∈ w.refStrings) :
    s ∈ v.refStrings := by
  unfold Value.atCode at h
  cases v with
  | map es => rw [Value.refStrings]; exact mem_refStringsMap_of (BMap.mem_of_get h) hs
  | _ => cases h

theorem refStrings_json {v w : Value} {s : String} (h : v.jsonSchema = some w) (hs : s ∈ w.refStrings) : s ∈ v.refStrings := by
  simp only [Value.jsonSchema, Option.bind_eq_bind, Option.bind_eq_some_iff] at h
  obtain ⟨a, ha, b, hb, hc⟩ := h
  exact refStrings_at ha (refStrings_at hb (refStrings_at hc hs))

theorem refStrings_parameter {v w : Value} {name s : String} (h : v.parameterSchema name = some w) (hs : s ∈ w.refStrings) :
    s ∈ v.refStrings := by
  simp only [Value.parameterSchema, Option.bind_eq_bind, Option.bind_eq_some_iff] at h
  obtain ⟨ps, hps, h⟩ := h
  cases ps with
  | seq ps =>
    simp only [Option.bind_eq_some_iff] at h
    obtain ⟨p, hp, h⟩ := h
    refine refStrings_at hps ?_
    rw [Value.refStrings]
    exact (mem_refStringsSeq ps).2 ⟨p, List.mem_of_find?_eq_some hp, refStrings_at h hs⟩
  | _ => simp at h

mutual
theorem ItemWritten.refStrings {api : Api} {doc : Value} {decl : PathDecl} {v : Value} {s : String} : ItemWritten api doc decl v →
    s ∈ v.refStrings → ∃ paths, doc.at "paths" = some paths ∧ s ∈ paths.refStrings
  | .top _ _ hd hv, hs => ⟨_, hd, refStrings_at hv hs⟩
  | .callback h _ _ _ hcs hd hv, hs => OpWritten.refStrings h (refStrings_at hcs (refStrings_at hd (refStrings_at hv hs)))
theorem OpWritten.refStrings {api : Api} {doc : Value} {ps : List OpProp} {v : Value} {s : String} : OpWritten api doc ps v →
    s ∈ v.refStrings → ∃ paths, doc.at "paths" = some paths ∧ s ∈ paths.refStrings
  | .mk h _ ho, hs => ItemWritten.refStrings h (refStrings_at ho hs)
end

theorem PlacedAt.refStrings {api : Api} {doc : Value} {t : Ty} {v : Value} {s : String} (h : PlacedAt api doc t v)
    (hs : s ∈ v.refStrings) : ∃ paths, doc.at "paths" = some paths ∧ s ∈ paths.refStrings := by
  cases h with
  | response h _ hv =>
    simp only [Value.responseSchema, Option.bind_eq_bind, Option.bind_eq_some_iff] at hv
    obtain ⟨a, ha, b, hb, hc⟩ := hv
    exact h.refStrings (refStrings_at ha (refStrings_atCode hb (refStrings_json hc hs)))
  | body h _ _ hv =>
    simp only [Value.bodySchema, Option.bind_eq_bind, Option.bind_eq_some_iff] at hv
    obtain ⟨a, ha, hc⟩ := hv
    exact h.refStrings (refStrings_at ha (refStrings_json hc hs))
  | parameter h _ hv => exact h.refStrings (refStrings_parameter hv hs)
  | common h _ hv => exact h.refStrings (refStrings_parameter hv hs)
  | template h _ _ hv => exact h.refStrings (refStrings_parameter hv hs)

/-! ## Components -/

theorem get_serSchemas {name : String} {m : Model} : ∀ {l : List (String × Model)}, BMap.get name l = some m →
    BMap.get (Key.str name) (l.map fun b => (Key.str b.1, b.2.ser)) = some m.ser
  | [], h => by cases h
  | b :: l, h => by
    rw [List.map_cons, BMap.get_cons]
    rw [BMap.get_cons] at h
    by_cases e : name = b.1
    · simp [e] at h ⊢; rw [h]
    · simp [e] at h ⊢; exact get_serSchemas h

theorem component_ser {d : Opg} {name : String} {m : Model} (h : BMap.get name d.components.schemas = some m) :
    d.ser.component name = some m.ser := by
  have hne : d.components.schemas ≠ [] := by intro e; rw [e] at h; cases h
  have hs : d.components.ser.at "schemas" = some (.map (d.components.schemas.map fun b => (.str b.1, b.2.ser))) := by
    simp [Components.ser, Value.at_map, nonEmptyMap, hne]
  simp only [Value.component, at_components, Option.bind_eq_bind, Option.bind_some, hs]
  exact get_serSchemas h

theorem UsedFrom.uses {d : Opg} {ls : List String} {name : String}
    (hls : ∀ l ∈ ls, ∃ paths, d.ser.at "paths" = some paths ∧ referencePrefix ++ l ∈ paths.refStrings)
    (h : UsedFrom d.components.schemas ls name) : d.ser.Uses name := by
  induction h with
  | here h =>
    obtain ⟨paths, hp, hl⟩ := hls _ h
    exact .path hp hl
  | through _ hm hl ih =>
    refine .component ih (component_ser hm) ?_
    rw [Model.ser, Value.refStrings]
    exact Model.links_written _ hl

/-! ## Runs -/

theorem calls_mention {env : Env} {cx cx' : Components} {calls : List Call} {rs : List Ref} (h : CallsReturn env cx calls rs cx')
    {t : Ty} {i : Bool} {p : Params} (hc : Call.mention t i p ∈ calls) : ∃ r ∈ rs, Mentions env t i p r := by
  induction h with
  | nil => cases hc
  | mention h _ ih =>
    rcases List.mem_cons.1 hc with e | hc
    · cases e; exact ⟨_, List.mem_cons_self, _, _, h⟩
    · obtain ⟨r, hr, hm⟩ := ih hc
      exact ⟨r, List.mem_cons_of_mem _ hr, hm⟩
  | addModel _ ih =>
    rcases List.mem_cons.1 hc with e | hc
    · cases e
    · exact ih hc
  | security _ ih =>
    rcases List.mem_cons.1 hc with e | hc
    · cases e
    · exact ih hc

theorem root_call {calls : List Call} {q : Ty × Bool} (h : q ∈ rootsOf calls) : ∃ p, Call.mention q.1 (!q.2) p ∈ calls := by
  induction calls with
  | nil => cases h
  | cons c calls ih =>
    cases c with
    | mention t i p =>
      simp only [rootsOf, List.mem_cons] at h
      rcases h with rfl | h
      · exact ⟨p, by simp⟩
      · obtain ⟨p', h⟩ := ih h; exact ⟨p', List.mem_cons_of_mem _ h⟩
    | addModel => obtain ⟨p', h⟩ := ih h; exact ⟨p', List.mem_cons_of_mem _ h⟩
    | security => obtain ⟨p', h⟩ := ih h; exact ⟨p', List.mem_cons_of_mem _ h⟩

theorem Mentions.answers {env : Env} {t : Ty} {i : Bool} {p : Params} {r : Ref} (h : Mentions env t i p r) :
    ((!i) = true ∧ ∃ name, typeName env t = some name ∧ name ∈ r.links) ∨
    (((!i) = false ∨ typeName env t = none) ∧ ∃ m, HasSchema env t m ∧ ∀ l ∈ m.links, l ∈ r.links) := by
  obtain ⟨cx, cx', n, h⟩ := h
  rcases mention_answered h with h | ⟨hb, cx2, m, cx2', hm, hl⟩
  · exact .inl h
  · exact .inr ⟨hb, m, ⟨cx2, cx2', n, hm⟩, hl⟩

theorem named_expands {env : Env} {roots : List (Ty × Bool)} : ∀ {t : Ty} {name : String}, typeName env t = some name →
    Reached env roots t → ∃ i, name = (env.decl i).ident ∧ Reached env roots (.named i) ∧ (Expands env t ↔ Expands env (.named i))
  | .wrap w t, name, hn, hr => by
    obtain ⟨i, h1, h2, h3⟩ := named_expands (t := t) hn (.step hr ⟨_, rfl, by simp [ModelExpr.asked]; rfl⟩)
    refine ⟨i, h1, h2, ?_⟩
    rw [expands_iff (t := .wrap w t) (e := .getSchema t) rfl, ← h3]
    simp [ModelExpr.asked]
  | .option t, name, hn, hr => by
    obtain ⟨i, h1, h2, h3⟩ := named_expands (t := t) hn (.step hr ⟨_, rfl, by simp [ModelExpr.asked]; rfl⟩)
    refine ⟨i, h1, h2, ?_⟩
    rw [expands_iff (t := .option t) rfl, ← h3]
    simp [ModelExpr.asked]
  | .named i, name, hn, hr => by
    refine ⟨i, ?_, hr, Iff.rfl⟩
    simp only [typeName, Container.typeName] at hn
    split at hn
    · cases hn
    · cases hn; rfl

theorem idents_agree {env : Env} {roots : List (Ty × Bool)}
    (idents : ∀ i j, Reached env roots (.named i) → Reached env roots (.named j) → (env.decl i).ident = (env.decl j).ident → i = j) :
    NamesAgree env roots := by
  intro t t' name hl hl' hn hn' hx
  obtain ⟨i, h1, h2, h3⟩ := named_expands hn (linked_reached hl)
  obtain ⟨j, h1', h2', h3'⟩ := named_expands hn' (linked_reached hl')
  have : i = j := idents i j h2 h2' (by rw [← h1, ← h1'])
  subst this
  exact h3.2 (h3'.1 hx)

end Verif
