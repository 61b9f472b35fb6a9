import Verif.Spec.OpenApi
import Verif.Proof.DocSer
/-!
# Legal serialized documents
-/

namespace Verif

/-- The fields that are written are allowed. -/
def OkFields (F : Key → Value → Prop) (fs : List (String × Option Value)) : Prop :=
  ∀ p ∈ fs, ∀ v, p.2 = some v → F (.str p.1) v

variable {F : Key → Value → Prop}

theorem okFields_nil : OkFields F [] := by intro p hp; cases hp

theorem okFields_cons {k v fs} (h : ∀ x, v = some x → F (.str k) x) (t : OkFields F fs) : OkFields F ((k, v) :: fs) := by
  intro p hp x hx
  rcases List.mem_cons.1 hp with rfl | hp
  · exact h x hx
  · exact t p hp x hx

theorem OkFields.entries {fs} (h : OkFields F fs) : ∀ e ∈ entriesOf fs, F e.1 e.2 := by
  intro e he
  obtain ⟨k, hk, hm⟩ := mem_entriesOf.1 he
  have := h _ hm _ rfl
  rw [hk]
  exact this

theorem hasKey_entries {k v fs} (h : (k, some v) ∈ fs) : HasKey k (entriesOf fs) :=
  ⟨v, mem_entriesOf.2 ⟨k, rfl, h⟩⟩

theorem HasKey.left {k es es'} (h : HasKey k es) : HasKey k (es ++ es') := by
  obtain ⟨v, h⟩ := h
  exact ⟨v, List.mem_append_left _ h⟩

/-! ## Schemas -/

theorem legalRefs_iff (rs : List Ref) : legalRefs rs ↔ ∀ r ∈ rs, r.Legal := by
  induction rs with
  | nil => simp [legalRefs]
  | cons r rs ih => simp [legalRefs, ih]

theorem legalProps_iff (ps : List (String × Ref)) : legalProps ps ↔ ∀ p ∈ ps, p.2.Legal := by
  induction ps with
  | nil => simp [legalProps]
  | cons p ps ih => obtain ⟨k, r⟩ := p; simp [legalProps, ih]

theorem legalOpt_iff (a : Option Ref) : legalOpt a ↔ ∀ r, a = some r → r.Legal := by
  cases a <;> simp [legalOpt]

theorem items_of_array (m : Model) (h : (Key.str "type", Value.str "array") ∈ m.entries) : HasKey "items" m.entries := by
  obtain ⟨d, data⟩ := m
  have h1 : (Key.str "type", Value.str "array") ∈ data.entries := by
    rw [Model.entries, List.mem_append] at h
    rcases h with h | h
    · obtain ⟨k, hk, hm⟩ := mem_entriesOf.1 h
      cases hk
      simp at hm
    · exact h
  have h2 : HasKey "items" data.entries := by
    cases data with
    | single t =>
      obtain ⟨n, td⟩ := t
      rw [ModelData.entries, ModelType.entries, List.mem_append] at h1
      have h3 : (Key.str "type", Value.str "array") ∈ td.entries := by
        rcases h1 with h | h
        · obtain ⟨k, hk, hm⟩ := mem_entriesOf.1 h
          cases hk
          simp at hm
        · exact h
      obtain ⟨v, hv⟩ : HasKey "items" td.entries := by
        cases td with
        | array r => exact ⟨r.ser, by simp [TypeDesc.entries]⟩
        | boolean => simp [TypeDesc.entries] at h3
        | object o =>
          obtain ⟨ps, a, req⟩ := o
          rw [TypeDesc.entries, ModelObject.entries, List.mem_cons] at h3
          rcases h3 with h | h
          · simp at h
          · obtain ⟨k, hk, hm⟩ := mem_entriesOf.1 h
            cases hk
            simp at hm
        | _ =>
          rw [TypeDesc.entries, List.mem_cons] at h3
          rcases h3 with h | h
          · simp at h
          · obtain ⟨k, hk, hm⟩ := mem_entriesOf.1 h
            cases hk
            simp at hm
      exact ⟨v, by rw [ModelData.entries, ModelType.entries]; exact List.mem_append_right _ hv⟩
    | _ => simp [ModelData.entries] at h1
  obtain ⟨v, hv⟩ := h2
  exact ⟨v, by rw [Model.entries]; exact List.mem_append_right _ hv⟩

theorem type_of_nullable (m : Model) (h : HasKey "nullable" m.entries) : HasKey "type" m.entries := by
  obtain ⟨d, data⟩ := m
  obtain ⟨v, h⟩ := h
  cases data with
  | single t =>
    obtain ⟨n, td⟩ := t
    obtain ⟨x, hx⟩ : HasKey "type" td.entries := by
      cases td <;> exact ⟨_, by rw [TypeDesc.entries]; exact .head _⟩
    exact ⟨x, by
      rw [Model.entries, ModelData.entries, ModelType.entries]
      exact List.mem_append_right _ (List.mem_append_right _ hx)⟩
  | _ =>
    rw [Model.entries, List.mem_append] at h
    rcases h with h | h
    · obtain ⟨k, hk, hm⟩ := mem_entriesOf.1 h
      cases hk
      simp at hm
    · simp [ModelData.entries] at h

theorem optStr_field {P : Value → Prop} (hP : ∀ s, P (.str s)) (o : Option String) : ∀ x, optStr o = some x → P x :=
  opt_str_all hP o

theorem serProps_keys (ps : List (String × Ref)) : ∀ e ∈ serProps ps, ∃ k, e.1 = .str k := by
  rw [serProps_eq]
  intro e he
  obtain ⟨p, -, rfl⟩ := List.mem_map.1 he
  exact ⟨p.1, rfl⟩

mutual
theorem Ref.ser_legal : ∀ (r : Ref), r.Legal → LegalSchema r.ser
  | .link l, _ => by rw [Ref.ser]; exact .ref _
  | .inline m, h => by rw [Ref.Legal] at h; rw [Ref.ser]; exact Model.entries_legal m h
  | .any, _ => by
    rw [Ref.ser]
    exact .schema (by simp) (by simp) (by rintro ⟨v, h⟩; cases h)
termination_by structural x => x
theorem Model.entries_legal : ∀ (m : Model), m.Legal → LegalSchema (.map m.entries)
  | ⟨d, data⟩, h => by
    rw [Model.Legal] at h
    refine .schema ?_ (items_of_array _) (type_of_nullable _)
    rw [Model.entries]
    intro e he
    rcases List.mem_append.1 he with he | he
    · exact (okFields_cons (optStr_field .description d) okFields_nil).entries e he
    · exact ModelData.entries_legal data h e he
termination_by structural x => x
theorem ModelData.entries_legal : ∀ (d : ModelData), d.Legal → ∀ e ∈ d.entries, SchemaField e.1 e.2
  | .single t, h => by
    rw [ModelData.Legal] at h; rw [ModelData.entries]
    exact ModelType.entries_legal t h
  | .oneOf rs, h => by
    rw [ModelData.Legal] at h; rw [ModelData.entries]
    intro e he
    rw [List.mem_singleton] at he
    subst he
    exact .oneOf (by rw [serRefs_eq]; simpa using h.1) (legalRefs_ser rs h.2)
  | .allOf rs, h => by
    rw [ModelData.Legal] at h; rw [ModelData.entries]
    intro e he
    rw [List.mem_singleton] at he
    subst he
    exact .allOf (by rw [serRefs_eq]; simpa using h.1) (legalRefs_ser rs h.2)
  | .anyOf rs, h => by
    rw [ModelData.Legal] at h; rw [ModelData.entries]
    intro e he
    rw [List.mem_singleton] at he
    subst he
    exact .anyOf (by rw [serRefs_eq]; simpa using h.1) (legalRefs_ser rs h.2)
termination_by structural x => x
theorem ModelType.entries_legal : ∀ (t : ModelType), t.Legal → ∀ e ∈ t.entries, SchemaField e.1 e.2
  | ⟨n, td⟩, h => by
    rw [ModelType.Legal] at h; rw [ModelType.entries]
    intro e he
    rcases List.mem_append.1 he with he | he
    · exact (okFields_cons (flag_all (.nullable true) n) okFields_nil).entries e he
    · exact TypeDesc.entries_legal td h e he
termination_by structural x => x
theorem TypeDesc.entries_legal : ∀ (t : TypeDesc), t.Legal → ∀ e ∈ t.entries, SchemaField e.1 e.2
  | .string vs f ex, h => by
    rw [TypeDesc.Legal] at h; rw [TypeDesc.entries]
    intro e he
    rcases List.mem_cons.1 he with rfl | he
    · exact .type (by simp)
    · refine (okFields_cons ?_ (okFields_cons (optStr_field .format f) (okFields_cons (optStr_field (fun s => .example _) ex)
        okFields_nil))).entries e he
      intro x hx
      cases vs with
      | none => cases hx
      | some vs =>
        cases hx
        exact .enum (by simpa [strs] using h)
  | .number f ex, h => by
    rw [TypeDesc.entries]
    intro e he
    rcases List.mem_cons.1 he with rfl | he
    · exact .type (by simp)
    · exact (okFields_cons (optStr_field .format f) (okFields_cons (optStr_field (fun s => .example _) ex)
        okFields_nil)).entries e he
  | .integer f ex, h => by
    rw [TypeDesc.entries]
    intro e he
    rcases List.mem_cons.1 he with rfl | he
    · exact .type (by simp)
    · exact (okFields_cons (optStr_field .format f) (okFields_cons (optStr_field (fun s => .example _) ex)
        okFields_nil)).entries e he
  | .boolean, h => by
    rw [TypeDesc.entries]
    intro e he
    rw [List.mem_singleton] at he
    subst he
    exact .type (by simp)
  | .array items, h => by
    rw [TypeDesc.Legal] at h; rw [TypeDesc.entries]
    intro e he
    rcases List.mem_cons.1 he with rfl | he
    · exact .type (by simp)
    · rw [List.mem_singleton] at he
      subst he
      exact .items (Ref.ser_legal items h)
  | .object o, h => by
    rw [TypeDesc.Legal] at h; rw [TypeDesc.entries]
    intro e he
    rcases List.mem_cons.1 he with rfl | he
    · exact .type (by simp)
    · exact ModelObject.entries_legal o h e he
termination_by structural x => x
theorem ModelObject.entries_legal : ∀ (o : ModelObject), o.Legal → ∀ e ∈ o.entries, SchemaField e.1 e.2
  | ⟨ps, a, req⟩, h => by
    rw [ModelObject.Legal] at h; rw [ModelObject.entries]
    refine (okFields_cons ?_ (okFields_cons ?_ (okFields_cons ?_ okFields_nil))).entries
    · exact nonEmptyMap_all (.properties (serProps_keys ps) (legalProps_ser ps h.2.1))
    · exact fun x hx => .additionalProperties (legalOpt_ser a h.2.2 x hx)
    · intro x hx
      unfold nonEmptySeq at hx
      split at hx
      · cases hx
      · rename_i hne
        cases hx
        refine .required ?_ h.1
        intro e
        subst e
        exact hne rfl
termination_by structural x => x
theorem legalRefs_ser : ∀ (rs : List Ref), legalRefs rs → ∀ v ∈ serRefs rs, LegalSchema v
  | [], _ => by simp [serRefs]
  | r :: rs, h => by
    rw [legalRefs] at h; rw [serRefs]
    intro v hv
    rcases List.mem_cons.1 hv with rfl | hv
    · exact Ref.ser_legal r h.1
    · exact legalRefs_ser rs h.2 v hv
termination_by structural x => x
theorem legalProps_ser : ∀ (ps : List (String × Ref)), legalProps ps → ∀ e ∈ serProps ps, LegalSchema e.2
  | [], _ => by simp [serProps]
  | (k, r) :: ps, h => by
    rw [legalProps] at h; rw [serProps]
    intro v hv
    rcases List.mem_cons.1 hv with rfl | hv
    · exact Ref.ser_legal r h.1
    · exact legalProps_ser ps h.2 v hv
termination_by structural x => x
theorem legalOpt_ser : ∀ (a : Option Ref), legalOpt a → ∀ v, serOptRef a = some v → LegalSchema v
  | none, _ => by simp [serOptRef]
  | some r, h => by
    rw [legalOpt] at h; rw [serOptRef]
    intro v hv
    cases hv
    exact Ref.ser_legal r h
termination_by structural x => x
end

theorem Model.ser_legal (m : Model) (h : m.Legal) : LegalSchema m.ser := Model.entries_legal m h

/-! The converse. -/

theorem SchemaField.inv {k v} (h : SchemaField k v) :
    (k = .str "oneOf" ∨ k = .str "allOf" ∨ k = .str "anyOf" → ∃ vs, v = .seq vs ∧ vs ≠ [] ∧ ∀ x ∈ vs, LegalSchema x) ∧
    (k = .str "enum" → ∃ vs, v = .seq vs ∧ vs ≠ []) ∧
    (k = .str "items" ∨ k = .str "additionalProperties" → LegalSchema v) ∧
    (k = .str "properties" → ∃ es, v = .map es ∧ ∀ e ∈ es, LegalSchema e.2) ∧
    (k = .str "required" → ∃ ss : List String, v = .seq (ss.map Value.str) ∧ ss.Nodup) := by
  cases h with
  | properties keys h => simpa using fun a b hm => h (a, b) hm
  | required h hd => simpa using ⟨_, rfl, hd⟩
  | _ => simp_all

theorem LegalSchema.fields_of {m : Model} (h : LegalSchema (.map m.entries)) : ∀ e ∈ m.entries, SchemaField e.1 e.2 := by
  generalize hv : Value.map m.entries = v at h
  cases h with
  | ref s =>
    injection hv with hm
    have hk := keys_model m
    rw [hm] at hk
    have := hk.subset (by simp [BMap.keys] : Key.str "$ref" ∈ BMap.keys [(Key.str "$ref", Value.str s)])
    simp [schemaKeys] at this
  | schema fields _ _ => injection hv with hm; rw [hm]; exact fields

theorem str_list_inj {as bs : List String} (h : as.map Value.str = bs.map Value.str) : as = bs := by
  induction as generalizing bs with
  | nil => cases bs with
    | nil => rfl
    | cons b bs => cases h
  | cons a as ih => cases bs with
    | nil => cases h
    | cons b bs =>
      rw [List.map_cons, List.map_cons] at h
      injection h with h1 h2
      cases h1
      rw [ih h2]

mutual
theorem Ref.legal_of_ser : ∀ (r : Ref), LegalSchema r.ser → r.Legal
  | .link _, _ => by simp [Ref.Legal]
  | .inline m, h => by
    rw [Ref.ser] at h
    rw [Ref.Legal]
    exact Model.legal_of_entries m h.fields_of
  | .any, _ => by simp [Ref.Legal]
termination_by structural x => x
theorem Model.legal_of_entries : ∀ (m : Model), (∀ e ∈ m.entries, SchemaField e.1 e.2) → m.Legal
  | ⟨d, data⟩, h => by
    rw [Model.entries] at h
    rw [Model.Legal]
    exact ModelData.legal_of_entries data fun e he => h e (List.mem_append_right _ he)
termination_by structural x => x
theorem ModelData.legal_of_entries : ∀ (d : ModelData), (∀ e ∈ d.entries, SchemaField e.1 e.2) → d.Legal
  | .single t, h => by
    rw [ModelData.entries] at h; rw [ModelData.Legal]
    exact ModelType.legal_of_entries t h
  | .oneOf rs, h => by
    rw [ModelData.entries] at h; rw [ModelData.Legal]
    obtain ⟨vs, hv, hn, ha⟩ := (h _ (.head _)).inv.1 (.inl rfl)
    cases hv
    exact ⟨by rw [serRefs_eq] at hn; simpa using hn, legalRefs_of_ser rs ha⟩
  | .allOf rs, h => by
    rw [ModelData.entries] at h; rw [ModelData.Legal]
    obtain ⟨vs, hv, hn, ha⟩ := (h _ (.head _)).inv.1 (.inr (.inl rfl))
    cases hv
    exact ⟨by rw [serRefs_eq] at hn; simpa using hn, legalRefs_of_ser rs ha⟩
  | .anyOf rs, h => by
    rw [ModelData.entries] at h; rw [ModelData.Legal]
    obtain ⟨vs, hv, hn, ha⟩ := (h _ (.head _)).inv.1 (.inr (.inr rfl))
    cases hv
    exact ⟨by rw [serRefs_eq] at hn; simpa using hn, legalRefs_of_ser rs ha⟩
termination_by structural x => x
theorem ModelType.legal_of_entries : ∀ (t : ModelType), (∀ e ∈ t.entries, SchemaField e.1 e.2) → t.Legal
  | ⟨n, td⟩, h => by
    rw [ModelType.entries] at h; rw [ModelType.Legal]
    exact TypeDesc.legal_of_entries td fun e he => h e (List.mem_append_right _ he)
termination_by structural x => x
theorem TypeDesc.legal_of_entries : ∀ (t : TypeDesc), (∀ e ∈ t.entries, SchemaField e.1 e.2) → t.Legal
  | .string vs f ex, h => by
    rw [TypeDesc.entries] at h; rw [TypeDesc.Legal]
    intro hv
    subst hv
    have hm : ((Key.str "enum", Value.seq (strs [])) : Key × Value) ∈ entriesOf [("enum", (some []).map fun vs => .seq (strs vs)),
        ("format", optStr f), ("example", optStr ex)] := mem_entriesOf.2 ⟨"enum", rfl, by simp⟩
    obtain ⟨ws, hw, hn⟩ := (h _ (List.mem_cons_of_mem _ hm)).inv.2.1 rfl
    cases hw
    exact hn rfl
  | .number f ex, h => by simp [TypeDesc.Legal]
  | .integer f ex, h => by simp [TypeDesc.Legal]
  | .boolean, h => by simp [TypeDesc.Legal]
  | .array items, h => by
    rw [TypeDesc.entries] at h; rw [TypeDesc.Legal]
    exact Ref.legal_of_ser items ((h _ (.tail _ (.head _))).inv.2.2.1 (.inl rfl))
  | .object o, h => by
    rw [TypeDesc.entries] at h; rw [TypeDesc.Legal]
    exact ModelObject.legal_of_entries o fun e he => h e (List.mem_cons_of_mem _ he)
termination_by structural x => x
theorem ModelObject.legal_of_entries : ∀ (o : ModelObject), (∀ e ∈ o.entries, SchemaField e.1 e.2) → o.Legal
  | ⟨ps, a, req⟩, h => by
    rw [ModelObject.entries] at h; rw [ModelObject.Legal]
    have hf : ∀ k v, (k, some v) ∈ [("properties", nonEmptyMap (serProps ps)), ("additionalProperties", serOptRef a),
        ("required", nonEmptySeq (strs req))] → SchemaField (.str k) v :=
      fun k v hk => h (.str k, v) (mem_entriesOf.2 ⟨k, rfl, hk⟩)
    refine ⟨?_, ?_, ?_⟩
    · cases req with
      | nil => simp
      | cons x xs =>
        obtain ⟨ss, hs, hd⟩ := (hf "required" (.seq (strs (x :: xs))) (by simp [nonEmptySeq, strs])).inv.2.2.2.2 rfl
        injection hs with hs
        rw [str_list_inj hs]
        exact hd
    · refine legalProps_of_ser ps fun e he => ?_
      have hne : serProps ps ≠ [] := by intro hn; rw [hn] at he; cases he
      obtain ⟨es, hes, ha⟩ := (hf "properties" (.map (serProps ps)) (by simp [nonEmptyMap, hne])).inv.2.2.2.1 rfl
      cases hes
      exact ha e he
    · refine legalOpt_of_ser a fun v hv => ?_
      exact (hf "additionalProperties" v (by simp [hv])).inv.2.2.1 (.inr rfl)
termination_by structural x => x
theorem legalRefs_of_ser : ∀ (rs : List Ref), (∀ v ∈ serRefs rs, LegalSchema v) → legalRefs rs
  | [], _ => by simp [legalRefs]
  | r :: rs, h => by
    rw [serRefs] at h; rw [legalRefs]
    exact ⟨Ref.legal_of_ser r (h _ (.head _)), legalRefs_of_ser rs fun v hv => h v (List.mem_cons_of_mem _ hv)⟩
termination_by structural x => x
theorem legalProps_of_ser : ∀ (ps : List (String × Ref)), (∀ e ∈ serProps ps, LegalSchema e.2) → legalProps ps
  | [], _ => by simp [legalProps]
  | (k, r) :: ps, h => by
    rw [serProps] at h; rw [legalProps]
    exact ⟨Ref.legal_of_ser r (h _ (.head _)), legalProps_of_ser ps fun v hv => h v (List.mem_cons_of_mem _ hv)⟩
termination_by structural x => x
theorem legalOpt_of_ser : ∀ (a : Option Ref), (∀ v, serOptRef a = some v → LegalSchema v) → legalOpt a
  | none, _ => by simp [legalOpt]
  | some r, h => by
    rw [serOptRef] at h; rw [legalOpt]
    exact Ref.legal_of_ser r (h _ rfl)
termination_by structural x => x
end

theorem Model.legal_iff (m : Model) : LegalSchema m.ser ↔ m.Legal :=
  ⟨fun h => Model.legal_of_entries m (LegalSchema.fields_of h), Model.ser_legal m⟩

end Verif
