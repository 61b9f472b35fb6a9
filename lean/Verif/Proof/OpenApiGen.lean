import Verif.Proof.OpenApi
import Verif.Proof.Conform
import Verif.Proof.Returns
import Verif.Spec.Deps
/-!
# Legality of generated schemas
-/

namespace Verif

/-! ## Static legality of generated code -/

/-- The names pushed to `required`. -/
def PropExpr.requiredNames : List (PropExpr Ty) → List String
  | [] => []
  | .mk name _ required :: rest => (if required then [name] else []) ++ PropExpr.requiredNames rest

mutual
def RefExpr.Legal : RefExpr Ty → Prop
  | .mention .. => True
  | .inline m => m.Legal
  | .any => True
def ModelExpr.Legal : ModelExpr Ty → Prop
  | .getSchema _ => True
  | .getSchemaWithParams _ _ => True
  | .single _ _ td => td.Legal
  | .oneOf _ rs => rs ≠ [] ∧ RefExpr.LegalList rs
  | .tagged m .. => m.Legal
def TypeExpr.Legal : TypeExpr Ty → Prop
  | .string v _ _ => v ≠ some []
  | .number .. => True
  | .integer .. => True
  | .boolean => True
  | .array items => items.Legal
  | .object es => (PropExpr.requiredNames es).Nodup ∧ PropExpr.LegalList es
  | .dictionary r => r.Legal
def RefExpr.LegalList : List (RefExpr Ty) → Prop
  | [] => True
  | r :: rs => r.Legal ∧ RefExpr.LegalList rs
def PropExpr.LegalList : List (PropExpr Ty) → Prop
  | [] => True
  | .mk _ r _ :: rest => r.Legal ∧ PropExpr.LegalList rest
end

theorem RefExpr.legalList_iff (rs : List (RefExpr Ty)) : RefExpr.LegalList rs ↔ ∀ r ∈ rs, r.Legal := by
  induction rs with
  | nil => simp [RefExpr.LegalList]
  | cons r rs ih => simp [RefExpr.LegalList, ih]

/-- Legal, and every object schema in it well formed. -/
def Ref.Sound (r : Ref) : Prop := r.Legal ∧ r.All True fun _ => True
def Model.Sound (m : Model) : Prop := m.Legal ∧ m.All True fun _ => True
def TypeDesc.Sound (d : TypeDesc) : Prop := d.Legal ∧ d.All True fun _ => True
/-- All registered schemas are legal. -/
def Components.Sound (cx : Components) : Prop := ∀ b ∈ cx.schemas, b.2.Sound

theorem Model.sound_single {d n td} : (⟨d, .single ⟨n, td⟩⟩ : Model).Sound ↔ td.Sound := by
  rw [Model.Sound, TypeDesc.Sound, Model.all_single]
  simp only [Model.Legal, ModelData.Legal, ModelType.Legal]

theorem Model.sound_oneOf {d rs} : (⟨d, .oneOf rs⟩ : Model).Sound ↔ rs ≠ [] ∧ ∀ r ∈ rs, r.Sound := by
  rw [Model.Sound, Model.all_oneOf]
  simp only [Model.Legal, ModelData.Legal, legalRefs_iff, Ref.Sound]
  constructor
  · exact fun h => ⟨h.1.1, fun r hr => ⟨h.1.2 r hr, h.2 r hr⟩⟩
  · exact fun h => ⟨⟨h.1, fun r hr => (h.2 r hr).1⟩, fun r hr => (h.2 r hr).2⟩

theorem Ref.sound_inline {m : Model} : (Ref.inline m).Sound ↔ m.Sound := by
  rw [Ref.Sound, Model.Sound, Ref.all_inline]; simp only [Ref.Legal]
theorem Ref.sound_link (l : String) : (Ref.link l).Sound := ⟨trivial, Ref.all_link.2 trivial⟩
theorem Ref.sound_any : Ref.any.Sound := ⟨trivial, Ref.all_any⟩

theorem TypeDesc.sound_array {r : Ref} : (TypeDesc.array r).Sound ↔ r.Sound := by
  rw [TypeDesc.Sound, TypeDesc.all_array]; simp only [TypeDesc.Legal]; exact Iff.rfl

theorem TypeDesc.sound_object {props add req} : (TypeDesc.object ⟨props, add, req⟩).Sound ↔
    req.Nodup ∧ (∀ p ∈ props, p.2.Sound) ∧ (∀ r, add = some r → r.Sound) ∧
    (⟨props, add, req⟩ : ModelObject).WellFormed := by
  rw [TypeDesc.Sound, TypeDesc.all_object]
  simp only [TypeDesc.Legal, ModelObject.Legal, legalProps_iff, legalOpt_iff, Ref.Sound, List.mem_map,
    forall_exists_index, and_imp, true_imp_iff]
  constructor
  · rintro ⟨⟨h1, h2, h3⟩, h4, h5, h6⟩
    exact ⟨h1, fun p hp => ⟨h2 p hp, h4 _ p hp rfl⟩, fun r hr => ⟨h3 r hr, h5 r hr⟩, h6⟩
  · rintro ⟨h1, h2, h3, h4⟩
    exact ⟨⟨h1, fun p hp => (h2 p hp).1, fun r hr => (h3 r hr).1⟩,
      fun r p hp e => e ▸ (h2 p hp).2, fun r hr => (h3 r hr).2, h4⟩

theorem Model.legal_applyParams {m : Model} {p : Params} (hp : p.variants = none) : (m.applyParams p).Legal ↔ m.Legal := by
  obtain ⟨d, data⟩ := m
  cases data with
  | single t =>
    obtain ⟨n, td⟩ := t
    cases td <;> simp [Model.applyParams, ModelData.applyParams, ModelType.applyParams, TypeDesc.applyParams, Model.Legal,
      ModelData.Legal, ModelType.Legal, TypeDesc.Legal, hp, overrideOpt]
  | _ => rfl

theorem Model.legal_applyParams' {m : Model} {p : Params} (hp : p.variants ≠ some []) (h : m.Legal) :
    (m.applyParams p).Legal := by
  obtain ⟨d, data⟩ := m
  cases data with
  | single t =>
    obtain ⟨n, td⟩ := t
    cases td with
    | string v f e =>
      simp only [Model.applyParams, ModelData.applyParams, ModelType.applyParams, TypeDesc.applyParams, Model.Legal,
        ModelData.Legal, ModelType.Legal, TypeDesc.Legal] at h ⊢
      cases hv : p.variants with
      | none => exact h
      | some x => rw [hv] at hp; exact hp
    | _ => exact h
  | _ => exact h

theorem Model.sound_applyParams {m : Model} {p : Params} (hp : p.variants ≠ some []) (h : m.Sound) :
    (m.applyParams p).Sound := ⟨legal_applyParams' hp h.1, all_applyParams p h.2⟩

theorem ParamsExpr.eval_variants (env : Env) (p : ParamsExpr) : (p.eval env).variants = none := rfl

theorem Model.sound_tagged {m : Model} (ident tag name : String) (n : Bool) (h : m.Sound) :
    ((m.tryMerge (internalTagModel ident tag name n)).2).Sound := by
  refine ⟨?_, all_tagged ident tag name n h.2⟩
  obtain ⟨d, data⟩ := m
  cases data with
  | single t =>
    obtain ⟨n', td⟩ := t
    cases td with
    | object o =>
      obtain ⟨props, add, req⟩ := o
      rw [Model.sound_single, TypeDesc.sound_object] at h
      obtain ⟨h1, h2, h3, h4⟩ := h
      simp only [Model.tryMerge, internalTagModel, BMap.insert, ModelObject.merge, mergeProps]
      split
      · rename_i heq
        split at heq
        · cases heq
          simp only [Model.Legal, ModelData.Legal, ModelType.Legal, TypeDesc.Legal, ModelObject.Legal, legalProps_iff,
            legalOpt_iff]
          exact ⟨h1, fun p hp => (h2 p hp).1, fun r hr => (h3 r hr).1⟩
        · cases heq
      · rename_i heq
        split at heq
        · cases heq
        · cases heq
          rename_i hc
          simp only [Model.Legal, ModelData.Legal, ModelType.Legal, TypeDesc.Legal, ModelObject.Legal, legalProps_iff,
            legalOpt_iff]
          refine ⟨?_, ?_, fun r hr => (h3 r hr).1⟩
          · rw [List.nodup_append]
            refine ⟨h1, by simp, ?_⟩
            intro a ha b hb e
            rw [List.mem_singleton] at hb
            subst e; subst hb
            exact hc (BMap.containsKey_iff.2 (h4.2 _ ha))
          · intro p hp
            rcases BMap.mem_insert_sub hp with e | hp
            · subst e
              simp [Ref.Legal, Model.Legal, ModelData.Legal, ModelType.Legal, TypeDesc.Legal]
            · exact (h2 p hp).1
    | _ => exact h.1
  | _ => exact h.1

variable {env : Env} {rec : Ty → M Model}

/-- Calls of `get_schema` for `t` return legal schemas and keep the registry legal. -/
def Preserves (rec : Ty → M Model) (t : Ty) : Prop :=
  ∀ cx m cx', cx.Sound → rec t cx = some (m, cx') → m.Sound ∧ cx'.Sound

theorem mentionWith_sound {t i p cx r cx'} (hrec : Preserves rec t) (hp : p.variants ≠ some []) (hc : cx.Sound)
    (h : mentionWith env rec t i p cx = some (r, cx')) : r.Sound ∧ cx'.Sound := by
  rcases mentionWith_some h with ⟨l, hl, hr, ⟨hk, he⟩ | ⟨hk, m, cx2, h2, he⟩⟩ | ⟨hl, m, h2, hr⟩
  · subst hr; subst he
    exact ⟨Ref.sound_link l, hc⟩
  · subst hr; subst he
    obtain ⟨h3, h4⟩ := hrec _ _ _ hc h2
    refine ⟨Ref.sound_link l, ?_⟩
    intro b hb
    rcases BMap.mem_insert_sub hb with e | hb
    · subst e; exact h3
    · exact h4 b hb
  · subst hr
    obtain ⟨h3, h4⟩ := hrec _ _ _ hc h2
    exact ⟨Ref.sound_inline.2 (Model.sound_applyParams hp h3), h4⟩

mutual
theorem RefExpr.eval_sound (e : RefExpr Ty) {cx r cx'} (hl : e.Legal) (hrec : ∀ t b, (t, b) ∈ e.asked → Preserves rec t)
    (hc : cx.Sound) (h : e.eval env rec cx = some (r, cx')) : r.Sound ∧ cx'.Sound := by
  match e with
  | .mention t i p =>
    rw [RefExpr.eval] at h
    exact mentionWith_sound (hrec t _ (by simp only [RefExpr.asked]; exact .head _)) (by simp [ParamsExpr.eval_variants]) hc h
  | .inline m =>
    rw [RefExpr.eval] at h
    split at h
    · cases h
    · rename_i m' cx1 h1
      cases h
      simp only [RefExpr.Legal] at hl
      simp only [RefExpr.asked] at hrec
      have := ModelExpr.eval_sound m hl hrec hc h1
      exact ⟨Ref.sound_inline.2 this.1, this.2⟩
  | .any =>
    rw [RefExpr.eval] at h
    cases h
    exact ⟨Ref.sound_any, hc⟩
theorem ModelExpr.eval_sound (e : ModelExpr Ty) {cx m cx'} (hl : e.Legal) (hrec : ∀ t b, (t, b) ∈ e.asked → Preserves rec t)
    (hc : cx.Sound) (h : e.eval env rec cx = some (m, cx')) : m.Sound ∧ cx'.Sound := by
  match e with
  | .getSchema t =>
    rw [ModelExpr.eval] at h
    exact hrec t _ (by simp only [ModelExpr.asked]; exact .head _) _ _ _ hc h
  | .getSchemaWithParams t p =>
    rw [ModelExpr.eval] at h
    split at h
    · cases h
    · rename_i m' cx1 h1
      cases h
      have := hrec t _ (by simp only [ModelExpr.asked]; exact .head _) _ _ _ hc h1
      exact ⟨Model.sound_applyParams (by simp [ParamsExpr.eval_variants]) this.1, this.2⟩
  | .single d n td =>
    rw [ModelExpr.eval] at h
    split at h
    · cases h
    · rename_i m' cx1 h1
      cases h
      simp only [ModelExpr.Legal] at hl
      simp only [ModelExpr.asked] at hrec
      have := TypeExpr.eval_sound td hl hrec hc h1
      exact ⟨Model.sound_single.2 this.1, this.2⟩
  | .oneOf d rs =>
    rw [ModelExpr.eval] at h
    split at h
    · cases h
    · rename_i rs' cx1 h1
      cases h
      simp only [ModelExpr.Legal] at hl
      simp only [ModelExpr.asked] at hrec
      have := RefExpr.evalList_sound rs hl.2 hrec hc h1
      refine ⟨Model.sound_oneOf.2 ⟨?_, this.2.1⟩, this.2.2⟩
      intro e
      rw [e] at this
      exact hl.1 (List.length_eq_zero_iff.1 this.1.symm)
  | .tagged m' i t n b =>
    rw [ModelExpr.eval] at h
    split at h
    · cases h
    · rename_i m' cx1 h1
      cases h
      simp only [ModelExpr.Legal] at hl
      simp only [ModelExpr.asked] at hrec
      have := ModelExpr.eval_sound _ hl hrec hc h1
      exact ⟨Model.sound_tagged _ _ _ _ this.1, this.2⟩
theorem TypeExpr.eval_sound (e : TypeExpr Ty) {cx d cx'} (hl : e.Legal) (hrec : ∀ t b, (t, b) ∈ e.asked → Preserves rec t)
    (hc : cx.Sound) (h : e.eval env rec cx = some (d, cx')) : d.Sound ∧ cx'.Sound := by
  match e with
  | .string v f x =>
    rw [TypeExpr.eval] at h
    cases h
    simp only [TypeExpr.Legal] at hl
    exact ⟨⟨hl, by simp [TypeDesc.All, TypeDesc.links, TypeDesc.objects]⟩, hc⟩
  | .number f x =>
    rw [TypeExpr.eval] at h
    cases h
    exact ⟨⟨trivial, by simp [TypeDesc.All, TypeDesc.links, TypeDesc.objects]⟩, hc⟩
  | .integer f x =>
    rw [TypeExpr.eval] at h
    cases h
    exact ⟨⟨trivial, by simp [TypeDesc.All, TypeDesc.links, TypeDesc.objects]⟩, hc⟩
  | .boolean =>
    rw [TypeExpr.eval] at h
    cases h
    exact ⟨⟨trivial, by simp [TypeDesc.All, TypeDesc.links, TypeDesc.objects]⟩, hc⟩
  | .array r =>
    rw [TypeExpr.eval] at h
    split at h
    · cases h
    · rename_i r' cx1 h1
      cases h
      simp only [TypeExpr.Legal] at hl
      simp only [TypeExpr.asked] at hrec
      have := RefExpr.eval_sound r hl hrec hc h1
      exact ⟨TypeDesc.sound_array.2 this.1, this.2⟩
  | .object es =>
    rw [TypeExpr.eval] at h
    split at h
    · cases h
    · rename_i props req cx1 h1
      cases h
      simp only [TypeExpr.Legal] at hl
      simp only [TypeExpr.asked] at hrec
      obtain ⟨a1, a2, a3, a4, a5⟩ := PropExpr.evalList_sound es hl.2 hrec hc (by simp) BMap.sorted_nil (by simp) h1
      refine ⟨TypeDesc.sound_object.2 ⟨?_, a2, by simp, a3, a4⟩, a5⟩
      rw [a1]
      exact hl.1
  | .dictionary r =>
    rw [TypeExpr.eval] at h
    split at h
    · cases h
    · rename_i r' cx1 h1
      cases h
      simp only [TypeExpr.Legal] at hl
      simp only [TypeExpr.asked] at hrec
      have := RefExpr.eval_sound r hl hrec hc h1
      refine ⟨TypeDesc.sound_object.2 ⟨.nil, by simp, ?_, BMap.sorted_nil, by simp⟩, this.2⟩
      intro x hx
      cases hx
      exact this.1
theorem RefExpr.evalList_sound (rs : List (RefExpr Ty)) {cx rs' cx'} (hl : RefExpr.LegalList rs)
    (hrec : ∀ t b, (t, b) ∈ RefExpr.askedList rs → Preserves rec t)
    (hc : cx.Sound) (h : RefExpr.evalList env rec rs cx = some (rs', cx')) :
    rs'.length = rs.length ∧ (∀ r ∈ rs', r.Sound) ∧ cx'.Sound := by
  match rs with
  | [] =>
    rw [RefExpr.evalList] at h
    cases h
    exact ⟨rfl, by simp, hc⟩
  | r :: rs =>
    rw [RefExpr.evalList] at h
    split at h
    · cases h
    · rename_i r' cx1 h1
      split at h
      · cases h
      · rename_i rs1 cx2 h2
        cases h
        simp only [RefExpr.LegalList] at hl
        simp only [RefExpr.askedList, List.mem_append] at hrec
        have a := RefExpr.eval_sound r hl.1 (fun t b ht => hrec t b (.inl ht)) hc h1
        have b := RefExpr.evalList_sound rs hl.2 (fun t b ht => hrec t b (.inr ht)) a.2 h2
        refine ⟨by simp [b.1], ?_, b.2.2⟩
        intro x hx
        rcases List.mem_cons.1 hx with e | hx
        · subst e; exact a.1
        · exact b.2.1 x hx
theorem PropExpr.evalList_sound (es : List (PropExpr Ty)) {props req props' req' cx cx'} (hl : PropExpr.LegalList es)
    (hrec : ∀ t b, (t, b) ∈ PropExpr.askedList es → Preserves rec t)
    (hc : cx.Sound) (hp : ∀ p ∈ props, p.2.Sound) (hs : BMap.Sorted props) (hr : ∀ x ∈ req, x ∈ BMap.keys props)
    (h : PropExpr.evalList env rec es props req cx = some ((props', req'), cx')) :
    req' = req ++ PropExpr.requiredNames es ∧ (∀ p ∈ props', p.2.Sound) ∧ BMap.Sorted props' ∧
      (∀ x ∈ req', x ∈ BMap.keys props') ∧ cx'.Sound := by
  match es with
  | [] =>
    rw [PropExpr.evalList] at h
    cases h
    exact ⟨by simp [PropExpr.requiredNames], hp, hs, hr, hc⟩
  | .mk name r q :: es =>
    rw [PropExpr.evalList] at h
    split at h
    · cases h
    · rename_i r' cx1 h1
      simp only [PropExpr.LegalList] at hl
      simp only [PropExpr.askedList, List.mem_append] at hrec
      have a := RefExpr.eval_sound r hl.1 (fun t b ht => hrec t b (.inl ht)) hc h1
      have b := PropExpr.evalList_sound es hl.2 (fun t b ht => hrec t b (.inr ht)) a.2 ?_ (BMap.sorted_insert hs) ?_ h
      · refine ⟨?_, b.2⟩
        rw [b.1, PropExpr.requiredNames]
        cases q <;> simp
      · intro p hp'
        rcases BMap.mem_insert_sub hp' with e | hp'
        · subst e; exact a.1
        · exact hp p hp'
      · intro x hx
        rw [BMap.mem_keys_insert]
        cases q with
        | true =>
          rcases List.mem_append.1 hx with hx | hx
          · exact .inr (hr x hx)
          · exact .inl (List.mem_singleton.1 hx)
        | false => exact .inr (hr x hx)
end

/-! ## The converse -/

namespace BMap

theorem mem_insert_self {k : String} {v : Ref} {m : List (String × Ref)} : (k, v) ∈ insert k v m :=
  mem_of_get (get_insert_self k v m)

theorem mem_insert_of_ne {k : String} {v : Ref} {p : String × Ref} {m : List (String × Ref)} (h : p ∈ m) (hn : p.1 ≠ k) :
    p ∈ insert k v m := by
  induction m with
  | nil => cases h
  | cons b m ih =>
    simp only [insert]
    split
    · exact .tail _ h
    · rename_i e
      rcases List.mem_cons.1 h with rfl | h
      · exact absurd (Std.LawfulEqCmp.eq_of_compare e).symm hn
      · exact .tail _ h
    · rcases List.mem_cons.1 h with rfl | h
      · exact .head _
      · exact .tail _ (ih h)

end BMap

/-- The names inserted into `properties`. -/
def PropExpr.names : List (PropExpr Ty) → List String
  | [] => []
  | .mk name _ _ :: rest => name :: PropExpr.names rest

mutual
/-- Like `Legal`, but of properties that may be overwritten nothing is said. -/
def RefExpr.Legal' : RefExpr Ty → Prop
  | .mention .. => True
  | .inline m => m.Legal'
  | .any => True
def ModelExpr.Legal' : ModelExpr Ty → Prop
  | .getSchema _ => True
  | .getSchemaWithParams _ _ => True
  | .single _ _ td => td.Legal'
  | .oneOf _ rs => rs ≠ [] ∧ RefExpr.LegalList' rs
  | .tagged m .. => m.Legal'
def TypeExpr.Legal' : TypeExpr Ty → Prop
  | .string v _ _ => v ≠ some []
  | .number .. => True
  | .integer .. => True
  | .boolean => True
  | .array items => items.Legal'
  | .object es => (PropExpr.requiredNames es).Nodup ∧ ((PropExpr.names es).Nodup → PropExpr.LegalList' es)
  | .dictionary r => r.Legal'
def RefExpr.LegalList' : List (RefExpr Ty) → Prop
  | [] => True
  | r :: rs => r.Legal' ∧ RefExpr.LegalList' rs
def PropExpr.LegalList' : List (PropExpr Ty) → Prop
  | [] => True
  | .mk _ r _ :: rest => r.Legal' ∧ PropExpr.LegalList' rest
end

theorem Model.legal_of_tagged {m : Model} {ident tag name : String} {n : Bool}
    (h : ((m.tryMerge (internalTagModel ident tag name n)).2).Legal) : m.Legal := by
  obtain ⟨d, data⟩ := m
  cases data with
  | single t =>
    obtain ⟨n', td⟩ := t
    cases td with
    | object o =>
      obtain ⟨props, add, req⟩ := o
      simp only [Model.tryMerge, internalTagModel, BMap.insert, ModelObject.merge, mergeProps] at h
      split at h
      · rename_i heq
        split at heq
        · cases heq
          exact h
        · cases heq
      · rename_i heq
        split at heq
        · cases heq
        · cases heq
          rename_i hc
          simp only [Model.Legal, ModelData.Legal, ModelType.Legal, TypeDesc.Legal, ModelObject.Legal, legalProps_iff,
            legalOpt_iff] at h ⊢
          refine ⟨(List.nodup_append.1 h.1).1, ?_, h.2.2⟩
          intro p hp
          refine h.2.1 p ?_
          apply BMap.mem_insert_of_ne hp
          intro e
          exact hc (BMap.containsKey_iff.2 (e ▸ List.mem_map_of_mem hp))
    | _ => exact h
  | _ => exact h

mutual
theorem RefExpr.legal_of_eval (e : RefExpr Ty) {cx r cx'} (h : e.eval env rec cx = some (r, cx')) (hr : r.Legal) :
    e.Legal' := by
  match e with
  | .mention t i p => simp only [RefExpr.Legal']
  | .any => simp only [RefExpr.Legal']
  | .inline m =>
    rw [RefExpr.eval] at h
    split at h
    · cases h
    · rename_i m' cx1 h1
      cases h
      simp only [RefExpr.Legal', Ref.Legal] at hr ⊢
      exact ModelExpr.legal_of_eval m h1 hr
theorem ModelExpr.legal_of_eval (e : ModelExpr Ty) {cx m cx'} (h : e.eval env rec cx = some (m, cx')) (hr : m.Legal) :
    e.Legal' := by
  match e with
  | .getSchema t => simp only [ModelExpr.Legal']
  | .getSchemaWithParams t p => simp only [ModelExpr.Legal']
  | .single d n td =>
    rw [ModelExpr.eval] at h
    split at h
    · cases h
    · rename_i m' cx1 h1
      cases h
      simp only [ModelExpr.Legal', Model.Legal, ModelData.Legal, ModelType.Legal] at hr ⊢
      exact TypeExpr.legal_of_eval td h1 hr
  | .oneOf d rs =>
    rw [ModelExpr.eval] at h
    split at h
    · cases h
    · rename_i rs' cx1 h1
      cases h
      simp only [ModelExpr.Legal', Model.Legal, ModelData.Legal] at hr ⊢
      have := RefExpr.legal_of_evalList rs h1 hr.2
      refine ⟨?_, this.2⟩
      intro e
      rw [e] at this
      exact hr.1 (List.length_eq_zero_iff.1 this.1)
  | .tagged m' i t n b =>
    rw [ModelExpr.eval] at h
    split at h
    · cases h
    · rename_i m' cx1 h1
      cases h
      simp only [ModelExpr.Legal']
      exact ModelExpr.legal_of_eval _ h1 (Model.legal_of_tagged hr)
theorem TypeExpr.legal_of_eval (e : TypeExpr Ty) {cx d cx'} (h : e.eval env rec cx = some (d, cx')) (hr : d.Legal) :
    e.Legal' := by
  match e with
  | .string v f x =>
    rw [TypeExpr.eval] at h
    cases h
    exact hr
  | .number f x => trivial
  | .integer f x => trivial
  | .boolean => trivial
  | .array r =>
    rw [TypeExpr.eval] at h
    split at h
    · cases h
    · rename_i r' cx1 h1
      cases h
      simp only [TypeExpr.Legal', TypeDesc.Legal] at hr ⊢
      exact RefExpr.legal_of_eval r h1 hr
  | .object es =>
    rw [TypeExpr.eval] at h
    split at h
    · cases h
    · rename_i props req cx1 h1
      cases h
      simp only [TypeExpr.Legal', TypeDesc.Legal, ModelObject.Legal] at hr ⊢
      have := PropExpr.legal_of_evalList es h1 ((legalProps_iff _).1 hr.2.1)
      refine ⟨?_, fun hn => this.2.1 hn⟩
      have h2 := this.1
      rw [List.nil_append] at h2
      rw [← h2]
      exact hr.1
  | .dictionary r =>
    rw [TypeExpr.eval] at h
    split at h
    · cases h
    · rename_i r' cx1 h1
      cases h
      simp only [TypeExpr.Legal', TypeDesc.Legal, ModelObject.Legal, legalOpt] at hr ⊢
      exact RefExpr.legal_of_eval r h1 hr.2.2
theorem RefExpr.legal_of_evalList (rs : List (RefExpr Ty)) {cx rs' cx'}
    (h : RefExpr.evalList env rec rs cx = some (rs', cx')) (hr : legalRefs rs') :
    rs'.length = rs.length ∧ RefExpr.LegalList' rs := by
  match rs with
  | [] =>
    rw [RefExpr.evalList] at h
    cases h
    exact ⟨rfl, trivial⟩
  | r :: rs =>
    rw [RefExpr.evalList] at h
    split at h
    · cases h
    · rename_i r' cx1 h1
      split at h
      · cases h
      · rename_i rs1 cx2 h2
        cases h
        simp only [legalRefs] at hr
        simp only [RefExpr.LegalList']
        have a := RefExpr.legal_of_eval r h1 hr.1
        have b := RefExpr.legal_of_evalList rs h2 hr.2
        exact ⟨by simp [b.1], a, b.2⟩
theorem PropExpr.legal_of_evalList (es : List (PropExpr Ty)) {props req props' req' cx cx'}
    (h : PropExpr.evalList env rec es props req cx = some ((props', req'), cx')) (hr : ∀ p ∈ props', p.2.Legal) :
    req' = req ++ PropExpr.requiredNames es ∧ ((PropExpr.names es).Nodup → PropExpr.LegalList' es) ∧
      ∀ p ∈ props, p.1 ∉ PropExpr.names es → p ∈ props' := by
  match es with
  | [] =>
    rw [PropExpr.evalList] at h
    cases h
    exact ⟨by simp [PropExpr.requiredNames], fun _ => trivial, fun p hp _ => hp⟩
  | .mk name r q :: es =>
    rw [PropExpr.evalList] at h
    split at h
    · cases h
    · rename_i r' cx1 h1
      have b := PropExpr.legal_of_evalList es h hr
      refine ⟨?_, ?_, ?_⟩
      · rw [b.1, PropExpr.requiredNames]
        cases q <;> simp
      · intro hn
        rw [PropExpr.names, List.nodup_cons] at hn
        have hm := b.2.2 (name, r') BMap.mem_insert_self hn.1
        exact ⟨RefExpr.legal_of_eval r h1 (hr _ hm), b.2.1 hn.2⟩
      · intro p hp hn
        rw [PropExpr.names, List.mem_cons, not_or] at hn
        exact b.2.2 p (BMap.mem_insert_of_ne hp hn.1) hn.2
end

/-! ## Derived types -/

theorem newtypeModel_legal (n p t) : (newtypeModel n p t : ModelExpr Ty).Legal := by
  cases t <;> simp [newtypeModel, ModelExpr.Legal, TypeExpr.Legal]

theorem fieldModelReference_legal (p : ParamsExpr) (f : Field Ty) (i : Bool) : (fieldModelReference p f i).Legal := by
  unfold fieldModelReference
  split
  · trivial
  · simp only [RefExpr.Legal]; exact newtypeModel_legal _ _ _
  · trivial

theorem object_requiredNames (fs : List (Field Ty)) (pred : Field Ty → Bool) :
    PropExpr.requiredNames ((fs.filter fun f => !f.attrs.skipSerializing).map fun f =>
      .mk f.attrs.name.serialized (fieldModelReference f.attrs.params f (pred f)) (!f.attrs.optional)) =
    ((serialFields fs).filter fun f => !f.attrs.optional).map Field.key := by
  rw [serialFields]
  generalize fs.filter (fun f => !f.attrs.skipSerializing) = fs
  induction fs with
  | nil => rfl
  | cons f fs ih =>
    rw [List.map_cons, PropExpr.requiredNames, ih]
    cases h : f.attrs.optional <;> simp [h]

theorem object_legal (fs : List (Field Ty)) (pred : Field Ty → Bool) :
    (objectTypeDescription fs pred).Legal ↔ DistinctRequired fs := by
  rw [objectTypeDescription, TypeExpr.Legal, object_requiredNames, DistinctRequired]
  refine and_iff_left ?_
  generalize fs.filter (fun f => !f.attrs.skipSerializing) = fs
  induction fs with
  | nil => trivial
  | cons f fs ih => exact ⟨fieldModelReference_legal _ _ _, ih⟩

theorem object_legal' (fs : List (Field Ty)) (pred : Field Ty → Bool) (h : (objectTypeDescription fs pred).Legal') :
    DistinctRequired fs := by
  rw [objectTypeDescription, TypeExpr.Legal', object_requiredNames] at h
  exact h.1

theorem tuple_legal (fs : List (Field Ty)) (pred : Field Ty → Bool) : (tupleTypeDescription fs pred).Legal ↔ fs ≠ [] := by
  rw [tupleTypeDescription]
  simp only [TypeExpr.Legal, RefExpr.Legal, ModelExpr.Legal, RefExpr.legalList_iff]
  constructor
  · intro h e
    exact h.1 (by simp [e])
  · intro h
    refine ⟨by simpa using h, ?_⟩
    intro r hr
    obtain ⟨f, -, rfl⟩ := List.mem_map.1 hr
    exact fieldModelReference_legal _ _ _

theorem tuple_legal' (fs : List (Field Ty)) (pred : Field Ty → Bool) (h : (tupleTypeDescription fs pred).Legal') : fs ≠ [] := by
  rw [tupleTypeDescription] at h
  simp only [TypeExpr.Legal', RefExpr.Legal', ModelExpr.Legal'] at h
  intro e
  exact h.1 (by simp [e])

/-- What legality of the declaration requires of one variant. -/
def VariantLegal (mt : MModelType) (v : Variant Ty) : Prop :=
  (v.style = .tuple → v.fields ≠ []) ∧
  (v.style = .struct → if mt = .object then v.fields ≠ [] else DistinctRequired v.fields)

theorem newtypeVariantReference_legal {v : Variant Ty} {r} (h : newtypeVariantReference v = .ok r) : r.Legal := by
  unfold newtypeVariantReference at h
  split at h
  · cases h
  · cases h; exact fieldModelReference_legal _ _ _

theorem untagged_legal {v : Variant Ty} {r} (h : untaggedAlternative v = .ok r) :
    (VariantLegal .oneOf v → r.Legal) ∧ (r.Legal' → VariantLegal .oneOf v) := by
  unfold untaggedAlternative at h
  split at h
  · rename_i hs
    exact ⟨fun _ => newtypeVariantReference_legal h, fun _ => ⟨by simp [hs], by simp [hs]⟩⟩
  · rename_i hs
    cases h
    simp only [VariantLegal, hs, RefExpr.Legal, RefExpr.Legal', objectModel, ModelExpr.Legal, ModelExpr.Legal']
    exact ⟨fun hv => (object_legal _ _).2 (hv.2 trivial), fun hr => ⟨by simp, fun _ => object_legal' _ _ hr⟩⟩
  · cases h

theorem adjacent_legal {v : Variant Ty} {r} (h : adjacentAlternative v = .ok r) :
    (VariantLegal .object v → r.Legal) ∧ (r.Legal' → VariantLegal .object v) := by
  unfold adjacentAlternative at h
  split at h
  · rename_i hs
    exact ⟨fun _ => newtypeVariantReference_legal h, fun _ => ⟨by simp [hs], by simp [hs]⟩⟩
  · rename_i hs
    cases h
    simp only [VariantLegal, hs, RefExpr.Legal, RefExpr.Legal', tupleModel, ModelExpr.Legal, ModelExpr.Legal']
    exact ⟨fun hv => (tuple_legal _ _).2 (hv.1 trivial), fun hr => ⟨fun _ => tuple_legal' _ _ hr, by simp⟩⟩
  · rename_i hs
    cases h
    simp only [VariantLegal, hs, RefExpr.Legal, RefExpr.Legal', tupleModel, ModelExpr.Legal, ModelExpr.Legal']
    exact ⟨fun hv => (tuple_legal _ _).2 (hv.2 trivial), fun hr => ⟨by simp, fun _ => tuple_legal' _ _ hr⟩⟩
  · cases h

theorem external_legal {v : Variant Ty} {r} (h : externalAlternative v = .ok r) :
    (VariantLegal .dictionary v → r.Legal) ∧ (r.Legal' → VariantLegal .dictionary v) := by
  unfold externalAlternative at h
  split at h
  · rename_i hs
    cases h
    exact ⟨fun _ => by simp [RefExpr.Legal, ModelExpr.Legal, TypeExpr.Legal], fun _ => ⟨by simp [hs], by simp [hs]⟩⟩
  · rename_i hs
    exact ⟨fun _ => newtypeVariantReference_legal h, fun _ => ⟨by simp [hs], by simp [hs]⟩⟩
  · rename_i hs
    cases h
    simp only [VariantLegal, hs, RefExpr.Legal, RefExpr.Legal', tupleModel, ModelExpr.Legal, ModelExpr.Legal']
    exact ⟨fun hv => (tuple_legal _ _).2 (hv.1 trivial), fun hr => ⟨fun _ => tuple_legal' _ _ hr, by simp⟩⟩
  · rename_i hs
    cases h
    simp only [VariantLegal, hs, RefExpr.Legal, RefExpr.Legal', objectModel, ModelExpr.Legal, ModelExpr.Legal']
    exact ⟨fun hv => (object_legal _ _).2 (hv.2 trivial), fun hr => ⟨by simp, fun _ => object_legal' _ _ hr⟩⟩

theorem internal_legal {c : Container Ty} {tag} {v : Variant Ty} {r} (h : internalAlternative c tag v = .ok r) :
    (VariantLegal .oneOf v → r.Legal) ∧ (r.Legal' → VariantLegal .oneOf v) := by
  unfold internalAlternative at h
  split at h
  · cases h
  · rename_i m hm
    cases h
    simp only [RefExpr.Legal, RefExpr.Legal', ModelExpr.Legal, ModelExpr.Legal']
    unfold internalInner at hm
    split at hm
    · rename_i hs
      cases hm
      exact ⟨fun _ => (object_legal _ _).2 List.nodup_nil, fun _ => ⟨by simp [hs], by simp [hs]⟩⟩
    · rename_i hs
      split at hm
      · cases hm
      · cases hm
        exact ⟨fun _ => by simp [ModelExpr.Legal], fun _ => ⟨by simp [hs], by simp [hs]⟩⟩
    · rename_i hs
      cases hm
      simp only [VariantLegal, hs, objectModel, ModelExpr.Legal, ModelExpr.Legal']
      exact ⟨fun hv => (object_legal _ _).2 (hv.2 trivial), fun hr => ⟨by simp, fun _ => object_legal' _ _ hr⟩⟩
    · cases hm

theorem RefExpr.legalList_iff' (rs : List (RefExpr Ty)) : RefExpr.LegalList' rs ↔ ∀ r ∈ rs, r.Legal' := by
  induction rs with
  | nil => simp [RefExpr.LegalList']
  | cons r rs ih => simp [RefExpr.LegalList', ih]

theorem Pointwise.mem_right {α β : Type} {R : α → β → Prop} {as bs} (h : Pointwise R as bs) {b} (hb : b ∈ bs) :
    ∃ a ∈ as, R a b := by
  induction h with
  | nil => cases hb
  | cons h _ ih =>
    rcases List.mem_cons.1 hb with rfl | hb
    · exact ⟨_, .head _, h⟩
    · obtain ⟨a, ha, hr⟩ := ih hb
      exact ⟨a, .tail _ ha, hr⟩

/-- The alternatives of an enum. -/
theorem alternatives_legal {alt : Variant Ty → Except MacroPanic (RefExpr Ty)} {mt vs rs}
    (ha : ∀ v r, alt v = .ok r → (VariantLegal mt v → r.Legal) ∧ (r.Legal' → VariantLegal mt v))
    (hm : mapExcept alt (serialVariants vs) = .ok rs) :
    ((∃ v ∈ vs, v.attrs.skipSerializing = false) ∧ (∀ v ∈ vs, v.attrs.skipSerializing = false → VariantLegal mt v) →
      rs ≠ [] ∧ RefExpr.LegalList rs) ∧
    (rs ≠ [] ∧ RefExpr.LegalList' rs →
      (∃ v ∈ vs, v.attrs.skipSerializing = false) ∧ ∀ v ∈ vs, v.attrs.skipSerializing = false → VariantLegal mt v) := by
  have hp := mapExcept_ok hm
  have hmem : ∀ v, v ∈ serialVariants vs ↔ v ∈ vs ∧ v.attrs.skipSerializing = false := by
    intro v; simp [serialVariants]
  constructor
  · rintro ⟨⟨v, hv, hs⟩, hall⟩
    constructor
    · obtain ⟨r, hr, -⟩ := hp.mem_left ((hmem v).2 ⟨hv, hs⟩)
      exact List.ne_nil_of_mem hr
    · rw [RefExpr.legalList_iff]
      intro r hr
      obtain ⟨v, hv, hvr⟩ := hp.mem_right hr
      exact (ha v r hvr).1 (hall v ((hmem v).1 hv).1 ((hmem v).1 hv).2)
  · rintro ⟨hn, hl⟩
    rw [RefExpr.legalList_iff'] at hl
    constructor
    · obtain ⟨r, hr⟩ := List.exists_mem_of_ne_nil _ hn
      obtain ⟨v, hv, -⟩ := hp.mem_right hr
      exact ⟨v, (hmem v).1 hv⟩
    · intro v hv hs
      obtain ⟨r, hr, hvr⟩ := hp.mem_left ((hmem v).2 ⟨hv, hs⟩)
      exact (ha v r hvr).2 (hl r hr)

theorem LegalDecl.variantLegal {c : Container Ty} (h : LegalDecl c) {vs} (hd : c.data = .enum vs)
    (hm : c.attrs.modelType ≠ .newType) :
    (∃ v ∈ vs, v.attrs.skipSerializing = false) ∧
      ∀ v ∈ vs, v.attrs.skipSerializing = false → VariantLegal c.attrs.modelType v :=
  ⟨h.variants vs hd, fun v hv hs => ⟨h.tupleVariants vs hd hm v hv hs, h.structVariants vs hd hm v hv hs⟩⟩

theorem legalDecl_of_variants {c : Container Ty} {vs} (hd : c.data = .enum vs)
    (hm : c.attrs.modelType ≠ .newType)
    (h : (∃ v ∈ vs, v.attrs.skipSerializing = false) ∧
      ∀ v ∈ vs, v.attrs.skipSerializing = false → VariantLegal c.attrs.modelType v)
    (ht : c.attrs.modelType = .object → ∀ t k, c.attrs.tagType = .adjacent t k → t ≠ k) : LegalDecl c := by
  refine ⟨?_, ?_, ?_, ?_, ?_, ?_, ?_⟩
  · intro fs e; rw [hd] at e; cases e
  · intro fs e; rw [hd] at e; cases e
  · intro vs' e; rw [hd] at e; cases e; exact h.1
  · intro vs' e e'; exact absurd e' hm
  · intro vs' e _ v hv hs; rw [hd] at e; cases e; exact (h.2 v hv hs).1
  · intro vs' e _ v hv hs; rw [hd] at e; cases e; exact (h.2 v hv hs).2
  · intro vs' e; exact ht

theorem names_nonempty (vs : List (Variant Ty)) :
    some ((serialVariants vs).map fun v => v.attrs.name.serialized) ≠ some [] ↔ ∃ v ∈ vs, v.attrs.skipSerializing = false := by
  simp [serialVariants]

/-- The generated code is legal exactly when the declaration is. -/
theorem serializeBody_legal {c : Container Ty} {e} (h : serializeBody c = .ok e) :
    (LegalDecl c → e.Legal) ∧ (e.Legal' → LegalDecl c) := by
  unfold serializeBody at h
  split at h
  · rename_i vs hd
    unfold serializeEnum at h
    split at h
    · rename_i hmt
      cases h
      have conv : (∃ v ∈ vs, v.attrs.skipSerializing = false) →
          (c.attrs.hasRepr = true → ∃ v ∈ vs, v.attrs.skipSerializing = false ∧ v.discriminant ≠ none) → LegalDecl c := by
        intro h1 h2
        refine ⟨?_, ?_, ?_, ?_, ?_, ?_, ?_⟩
        · intro fs e; rw [hd] at e; cases e
        · intro fs e; rw [hd] at e; cases e
        · intro vs' e; rw [hd] at e; cases e; exact h1
        · intro vs' e _; rw [hd] at e; cases e; exact h2
        · intro vs' e e'; exact absurd hmt e'
        · intro vs' e e'; exact absurd hmt e'
        · intro vs' e e'; rw [hmt] at e'; cases e'
      unfold serializeNewtypeEnum
      split
      · rename_i hr
        simp only [ModelExpr.Legal, ModelExpr.Legal']
        constructor
        · intro hl
          refine ⟨?_, ?_⟩
          · obtain ⟨v, hv, hs, hn⟩ := hl.codes vs hd hmt hr
            cases hdisc : v.discriminant with
            | none => exact absurd hdisc hn
            | some d =>
              refine List.ne_nil_of_mem (List.mem_filterMap.2 ⟨v, ?_, by rw [reprAlternative, hdisc]; rfl⟩)
              simp [serialVariants, hv, hs]
          · rw [RefExpr.legalList_iff]
            intro r hr
            obtain ⟨v, -, hv⟩ := List.mem_filterMap.1 hr
            unfold reprAlternative at hv
            cases hdisc : v.discriminant with
            | none => rw [hdisc] at hv; cases hv
            | some d =>
              rw [hdisc] at hv; cases hv
              simp [RefExpr.Legal, ModelExpr.Legal, TypeExpr.Legal]
        · rintro ⟨hn, -⟩
          obtain ⟨r, hr'⟩ := List.exists_mem_of_ne_nil _ hn
          obtain ⟨v, hv, hvr⟩ := List.mem_filterMap.1 hr'
          have hv' : v ∈ vs ∧ v.attrs.skipSerializing = false := by simpa [serialVariants] using hv
          refine conv ⟨v, hv'.1, hv'.2⟩ fun _ => ⟨v, hv'.1, hv'.2, ?_⟩
          intro hnone
          rw [reprAlternative, hnone] at hvr
          cases hvr
      · rename_i hr
        simp only [ModelExpr.Legal, ModelExpr.Legal', TypeExpr.Legal, TypeExpr.Legal', names_nonempty]
        exact ⟨fun hl => hl.variants vs hd, fun hv => conv hv fun e => absurd e hr⟩
    · rename_i tag content hmt htt
      unfold serializeAdjacentEnum at h
      split at h
      · cases h
      · rename_i rs hm
        cases h
        have ha := alternatives_legal (fun v r => adjacent_legal) hm
        simp only [ModelExpr.Legal, ModelExpr.Legal', TypeExpr.Legal, TypeExpr.Legal', PropExpr.LegalList,
          PropExpr.LegalList', RefExpr.Legal, RefExpr.Legal', PropExpr.requiredNames, PropExpr.names, names_nonempty]
        constructor
        · intro hl
          have hv := hl.variantLegal hd (by simp [hmt])
          rw [hmt] at hv
          have := hl.tags vs hd hmt tag content htt
          exact ⟨by simpa using this, hv.1, ha.1 hv, trivial⟩
        · rintro ⟨h1, h2⟩
          have htk : tag ≠ content := by simpa using h1
          have h3 := h2 (by simpa using htk)
          have hv := ha.2 h3.2.1
          refine legalDecl_of_variants hd (by simp [hmt]) (by rw [hmt]; exact hv) ?_
          intro _ t k e
          rw [htt] at e
          cases e
          exact htk
    · rename_i hmt
      unfold serializeExternalEnum at h
      split at h
      · cases h
      · rename_i rs hm
        cases h
        have ha := alternatives_legal (fun v r => external_legal) hm
        simp only [ModelExpr.Legal, ModelExpr.Legal', TypeExpr.Legal, TypeExpr.Legal', RefExpr.Legal, RefExpr.Legal']
        constructor
        · intro hl
          have hv := hl.variantLegal hd (by simp [hmt])
          rw [hmt] at hv
          exact ha.1 hv
        · intro h2
          exact legalDecl_of_variants hd (by simp [hmt]) (by rw [hmt]; exact ha.2 h2) (by simp [hmt])
    · rename_i hmt htt
      unfold serializeUntaggedEnum at h
      split at h
      · cases h
      · rename_i rs hm
        cases h
        have ha := alternatives_legal (fun v r => untagged_legal) hm
        simp only [ModelExpr.Legal, ModelExpr.Legal']
        constructor
        · intro hl
          have hv := hl.variantLegal hd (by simp [hmt])
          rw [hmt] at hv
          exact ha.1 hv
        · intro h2
          exact legalDecl_of_variants hd (by simp [hmt]) (by rw [hmt]; exact ha.2 h2) (by simp [hmt])
    · rename_i tag hmt htt
      unfold serializeInternalEnum at h
      split at h
      · cases h
      · rename_i rs hm
        cases h
        have ha := alternatives_legal (fun v r => internal_legal) hm
        simp only [ModelExpr.Legal, ModelExpr.Legal']
        constructor
        · intro hl
          have hv := hl.variantLegal hd (by simp [hmt])
          rw [hmt] at hv
          exact ha.1 hv
        · intro h2
          exact legalDecl_of_variants hd (by simp [hmt]) (by rw [hmt]; exact ha.2 h2) (by simp [hmt])
    · cases h
  · rename_i fs hd
    cases h
    simp only [serializeStruct, ModelExpr.Legal, ModelExpr.Legal']
    refine ⟨fun hl => (object_legal _ _).2 (hl.structs fs hd), fun h => ?_⟩
    have := object_legal' _ _ h
    refine ⟨?_, ?_, ?_, ?_, ?_, ?_, ?_⟩
    · intro fs' e; rw [hd] at e; cases e; exact this
    all_goals intro vs' e; rw [hd] at e; cases e
  · rename_i fs hd
    cases h
    simp only [serializeTupleStruct, ModelExpr.Legal, ModelExpr.Legal']
    refine ⟨fun hl => (tuple_legal _ _).2 (hl.tuples fs hd), fun h => ?_⟩
    have := tuple_legal' _ _ h
    refine ⟨?_, ?_, ?_, ?_, ?_, ?_, ?_⟩
    · intro fs' e; rw [hd] at e; cases e
    · intro fs' e; rw [hd] at e; cases e; exact this
    all_goals intro vs' e; rw [hd] at e; cases e
  · rename_i fs hd
    have : LegalDecl c := by
      refine ⟨?_, ?_, ?_, ?_, ?_, ?_, ?_⟩
      all_goals intro vs' e; rw [hd] at e; cases e
    split at h
    · cases h
    · refine ⟨fun _ => ?_, fun _ => this⟩
      unfold serializeNewtypeStruct at h
      simp only at h
      split at h
      · cases h
      · cases h; exact newtypeModel_legal _ _ _
      · cases h; trivial
  · cases h

/-! ## All types -/

theorem schemaExpr_legal {t : Ty} {e} (h : schemaExpr env t = some e) :
    (LegalType env t → e.Legal) ∧ (e.Legal' → LegalType env t) := by
  cases t with
  | prim p =>
    cases h
    refine ⟨fun _ => ?_, fun _ => trivial⟩
    cases p <;> simp [ModelExpr.Legal, simpleExpr, Prim.schema, TypeExpr.Legal]
  | wrap w t => cases h; exact ⟨fun _ => trivial, fun _ => trivial⟩
  | option t => cases h; exact ⟨fun _ => trivial, fun _ => trivial⟩
  | tuple ts =>
    cases h
    simp only [LegalType, ModelExpr.Legal, ModelExpr.Legal', TypeExpr.Legal, TypeExpr.Legal', RefExpr.Legal, RefExpr.Legal']
    constructor
    · intro h
      refine ⟨by simpa using h, ?_⟩
      rw [RefExpr.legalList_iff]
      intro r hr
      obtain ⟨t, -, rfl⟩ := List.mem_map.1 hr
      trivial
    · rintro ⟨h, -⟩ e
      exact h (by simp [e])
  | seq k t => cases h; exact ⟨fun _ => by simp [ModelExpr.Legal, TypeExpr.Legal, RefExpr.Legal], fun _ => trivial⟩
  | dict k t => cases h; exact ⟨fun _ => by simp [ModelExpr.Legal, TypeExpr.Legal, RefExpr.Legal], fun _ => trivial⟩
  | unit => cases h; exact ⟨fun _ => by simp [ModelExpr.Legal, TypeExpr.Legal], fun _ => trivial⟩
  | uuid => cases h; exact ⟨fun _ => by simp [ModelExpr.Legal, TypeExpr.Legal], fun _ => trivial⟩
  | naiveDateTime => cases h; exact ⟨fun _ => by simp [ModelExpr.Legal, TypeExpr.Legal], fun _ => trivial⟩
  | dateTime => cases h; exact ⟨fun _ => by simp [ModelExpr.Legal, TypeExpr.Legal], fun _ => trivial⟩
  | naiveDate => cases h; exact ⟨fun _ => by simp [ModelExpr.Legal, TypeExpr.Legal], fun _ => trivial⟩
  | named i =>
    rw [schemaExpr] at h
    split at h
    · rename_i body hb
      cases h
      exact serializeBody_legal hb
    · cases h

/-- A legal schema comes from a legal type. -/
theorem SchemaReturns.legalType {t cx m cx'} (h : SchemaReturns env t cx m cx') (hm : m.Legal) : LegalType env t := by
  obtain ⟨n, h⟩ := h
  cases n with
  | zero => simp [getSchema] at h
  | succ n =>
    rw [getSchema] at h
    split at h
    · cases h
    · rename_i e he
      exact (schemaExpr_legal he).2 (ModelExpr.legal_of_eval e h hm)

theorem getSchema_preserves {roots : List (Ty × Bool)} (hl : ∀ t, Reached env roots t → LegalType env t) (n : Nat) :
    ∀ t, Reached env roots t → Preserves (getSchema env n) t := by
  induction n with
  | zero => intro t _ cx m cx' _ h; simp [getSchema] at h
  | succ n ih =>
    intro t ht cx m cx' hc h
    rw [getSchema] at h
    split at h
    · cases h
    · rename_i e he
      exact ModelExpr.eval_sound e ((schemaExpr_legal he).1 (hl t ht)) (fun t' b hb => ih t' (.step ht ⟨e, he, hb⟩)) hc h

theorem CallsReturn.sound {calls cx rs cx'} (h : CallsReturn env cx calls rs cx') {roots : List (Ty × Bool)}
    (hroots : ∀ x ∈ rootsOf calls, x ∈ roots)
    (hl : ∀ t, Reached env roots t → LegalType env t)
    (hp : ∀ t i p, Call.mention t i p ∈ calls → p.variants ≠ some [])
    (hadd : ∀ name m, Call.addModel name m ∈ calls → m.Sound) (hc : cx.Sound) :
    (∀ r ∈ rs, r.Sound) ∧ cx'.Sound := by
  induction h with
  | nil => exact ⟨by simp, hc⟩
  | mention h _ ih =>
    rename_i t i p r _ _ _ _ _
    obtain ⟨n, h⟩ := h
    have a := mentionWith_sound (getSchema_preserves hl n t (.root (hroots _ (.head _))))
      (hp t i p (.head _)) hc h
    have b := ih (fun x hx => hroots x (.tail _ hx)) (fun t i p h => hp t i p (.tail _ h))
      (fun name m h => hadd name m (.tail _ h)) a.2
    refine ⟨?_, b.2⟩
    intro x hx
    rcases List.mem_cons.1 hx with e | hx
    · subst e; exact a.1
    · exact b.1 x hx
  | addModel _ ih =>
    rename_i cx name m _ _ _ _
    refine ih hroots (fun t i p h => hp t i p (.tail _ h)) (fun name m h => hadd name m (.tail _ h)) ?_
    unfold Components.addModel
    split
    · exact hc
    · intro b hb
      rcases BMap.mem_insert_sub hb with e | hb
      · subst e; exact hadd name m (.head _)
      · exact hc b hb
  | security _ ih =>
    refine ih hroots (fun t i p h => hp t i p (.tail _ h)) (fun name m h => hadd name m (.tail _ h)) ?_
    unfold Components.mentionSecurityScheme
    split <;> exact hc

end Verif
