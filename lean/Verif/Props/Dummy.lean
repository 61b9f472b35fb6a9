import Verif.Model.Dummy
/-!
# C78: names of generated items
-/

namespace Verif

/-- Rust identifiers: a name without `#`, possibly behind `r#`. -/
def RustIdent (s name : String) : Prop := '#' ∉ name.toList ∧ (s = name ∨ s = "r#" ++ name)

theorem trimRaw_plain {cs : List Char} (h : '#' ∉ cs) : trimRaw cs = cs := by
  unfold trimRaw
  split
  · simp at h
  · rfl

theorem unraw_ident {s name : String} (h : RustIdent s name) : unraw s = name := by
  obtain ⟨hn, rfl | rfl⟩ := h
  · simp [unraw, trimRaw_plain hn]
  · have : ("r#" ++ name).toList = 'r' :: '#' :: name.toList := by simp
    simp [unraw, this, trimRaw, trimRaw_plain hn]

/-- C78: the items emitted for two types have the same name exactly if the types have the same name, raw or not.  (Two types
of one name cannot be declared in one module.) -/
theorem c78_const_names (s s' name name' trait_ : String) (h : RustIdent s name) (h' : RustIdent s' name') :
    implConst trait_ s = implConst trait_ s' ↔ name = name' := by
  unfold implConst
  rw [unraw_ident h, unraw_ident h']
  constructor
  · intro e
    have := congrArg String.toList e
    simp only [String.toList_append] at this
    exact String.ext (List.append_cancel_left this)
  · rintro rfl
    rfl

/-- `type` written raw, and a type of another name. -/
example : RustIdent "r#type" "type" ∧ RustIdent "Pet" "Pet" ∧ implConst "OPG_MODEL" "r#type" = "_IMPL_OPG_MODEL_FOR_type" ∧
    implConst "OPG_MODEL" "r#type" ≠ implConst "OPG_MODEL" "Pet" := by
  refine ⟨⟨by decide, .inr rfl⟩, ⟨by decide, .inl rfl⟩, rfl, ?_⟩
  intro h
  exact absurd ((c78_const_names "r#type" "Pet" "type" "Pet" "OPG_MODEL" ⟨by decide, .inr rfl⟩ ⟨by decide, .inl rfl⟩).mp h) (by decide)

end Verif
