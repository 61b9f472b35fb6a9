import Verif.Proof.Requires
import Verif.Props.Generic
/-!
# Which types have to implement the trait (C105)
-/

namespace Verif

variable {τ : Type}

/-- **C105**: the code of a derived impl asks for the schema of type `t` if and only if the documentation of the item
depends on `t`, by reference if and only if it is said to. -/
theorem c105_asks_exactly (o : Oracle) (input : DeriveInput τ) (c : Container τ) (body : ModelExpr τ)
    (hc : derive o input = .code c body) (t : τ) (byRef : Bool) : (t, byRef) ∈ body.asked ↔ Requires c t byRef :=
  serializeBody_iff (derive_shaped hc) (derive_code hc).2

/-- In particular, if all fields of a struct are skipped or given explicit types, no type has to implement the trait. -/
theorem c105_nothing (o : Oracle) (input : DeriveInput τ) (c : Container τ) (body : ModelExpr τ)
    (hc : derive o input = .code c body) (fs : List (Field τ)) (hd : c.data = .struct .struct fs)
    (fields : ∀ f ∈ fs, f.attrs.skipSerializing = true ∨ f.attrs.explicitModelType ≠ none) : body.asked = [] := by
  refine List.eq_nil_iff_forall_not_mem.2 fun ⟨t, b⟩ h => ?_
  cases (c105_asks_exactly o input c body hc t b).1 h with
  | field hd' hf hk he =>
    rw [hd] at hd'
    cases hd'
    rcases fields _ hf with h | h
    · rw [hk] at h; cases h
    · exact h he
  | _ hd' => rw [hd] at hd'; cases hd'

namespace Sample

/-- ```
#[serde(tag = "t")]
enum E {
    A(#[opg(string)] X),
    B { #[opg(inline)] y: Y, #[serde(skip_serializing)] z: Z, #[opg(integer)] w: W },
}
``` -/
def requiring : DeriveInput SynType := ⟨"E", [attr "serde" [.item (.nameValue "tag" (.str "t"))]], .enum
  [⟨"A", [], .unnamed [⟨none, [attr "opg" [.item (.path "string")]], .var "X"⟩], none⟩,
   ⟨"B", [], .named [⟨some "y", [attr "opg" [.item (.path "inline")]], .var "Y"⟩,
     ⟨some "z", [attr "serde" [.item (.path "skip_serializing")]], .var "Z"⟩,
     ⟨some "w", [attr "opg" [.item (.path "integer")]], .var "W"⟩], none⟩]⟩

end Sample

open Sample in
/-- The type given on the field of an internally tagged newtype variant is ignored: `X` has to implement the trait; so does
`Y`, but neither `Z` nor `W`. -/
example : ∃ c body, derive oracle requiring = .code c body ∧ body.asked = [(.var "X", false), (.var "Y", false)] ∧
    Requires c (.var "X") false ∧ Requires c (.var "Y") false ∧ ¬ Requires c (.var "Y") true ∧
    (∀ b, ¬ Requires c (.var "Z") b) ∧ ∀ b, ¬ Requires c (.var "W") b := by
  have key : ∃ c body, derive oracle requiring = .code c body ∧ body.asked = [(SynType.var "X", false), (.var "Y", false)] :=
    ⟨_, _, rfl, rfl⟩
  obtain ⟨c, body, hc, ha⟩ := key
  refine ⟨c, body, hc, ha, ?_, ?_, ?_, fun b => ?_, fun b => ?_⟩ <;>
    rw [← c105_asks_exactly oracle requiring c body hc, ha] <;> simp [SynType.var]

/-- The bounds that the macro adds for type parameters. -/
theorem bounded_iff (c : Container SynType) (g : Generics) (x : String) (own : WherePred.bound (.var x) ∉ g.preds) :
    WherePred.bound (.var x) ∈ (buildGenerics c g).preds ↔ x ∈ g.typeParams ∧ ∃ f, FieldSerialized c f ∧ Occurs x f.ty := by
  obtain ⟨-, xs, us, hpreds, -, hmem, uss, hus, hpw⟩ := c54_bounds c g
  rw [hpreds]
  constructor
  · intro h
    rcases List.mem_append.1 h with h | h
    · rcases List.mem_append.1 h with h | h
      · exact absurd h own
      · obtain ⟨y, hy, e⟩ := List.mem_map.1 h
        have e : y = x := by simpa [SynType.var] using e
        subst e
        exact (hmem y).1 hy
    · obtain ⟨u, hu, e⟩ := List.mem_map.1 h
      have e : u = .var x := by simpa using e
      subst e
      exfalso
      rw [hus] at hu
      obtain ⟨l, hl, hul⟩ := List.mem_flatten.1 hu
      clear hus hpreds h hu
      generalize c.serializedFields = sfs at hpw
      induction hpw with
      | nil => cases hl
      | cons hh _ ih =>
        rcases List.mem_cons.1 hl with rfl | hl
        · rcases hh with ⟨u', rfl, ha⟩ | ⟨rfl, _⟩
          · rw [List.mem_singleton] at hul
            subst hul
            obtain ⟨q, l', s, s', ss, -, -, e⟩ := ungroup_eq.1 ha
            cases e
          · cases hul
        · exact ih hl
  · intro h
    exact List.mem_append_left _ (List.mem_append_right _ (List.mem_map.2 ⟨x, (hmem x).2 h, rfl⟩))

/-- C85, exactly: the bounds `T: OpgModel` that the macro adds although `T` occurs in no type its code asks for are those
of parameters which occur in the type of a serialized field, but in no type that the documentation depends on. -/
theorem c85_exact (o : Oracle) (input : DeriveInput SynType) (g : Generics) (c : Container SynType)
    (body : ModelExpr SynType) (hc : derive o input = .code c body) (x : String) (own : WherePred.bound (.var x) ∉ g.preds) :
    (WherePred.bound (.var x) ∈ (buildGenerics c g).preds ∧ ∀ t byRef, (t, byRef) ∈ body.asked → ¬ Occurs x t) ↔
    x ∈ g.typeParams ∧ (∃ f, FieldSerialized c f ∧ Occurs x f.ty) ∧ ∀ t byRef, Requires c t byRef → ¬ Occurs x t := by
  simp only [bounded_iff c g x own, c105_asks_exactly o input c body hc, and_assoc]

open Sample in
/-- `W` is such a parameter, and `Y` is not. -/
example : ∃ c body, derive oracle requiring = .code c body ∧
    (∃ f, FieldSerialized c f ∧ Occurs "W" f.ty) ∧ (∀ t b, Requires c t b → ¬ Occurs "W" t) ∧
    WherePred.bound (.var "W") ∈ (buildGenerics c ⟨[.type ⟨"W", [], none⟩], []⟩).preds ∧ Requires c (.var "Y") false := by
  have key : ∃ c body, derive oracle requiring = .code c body ∧ body.asked = [(SynType.var "X", false), (.var "Y", false)] ∧
      WherePred.bound (.var "W") ∈ (buildGenerics c ⟨[.type ⟨"W", [], none⟩], []⟩).preds :=
    ⟨_, _, rfl, rfl, .head _⟩
  obtain ⟨c, body, hc, ha, hb⟩ := key
  have hr := c105_asks_exactly oracle requiring c body hc
  refine ⟨c, body, hc, ((bounded_iff c _ "W" (by simp)).1 hb).2, fun t b h => ?_, hb, ?_⟩
  · rw [← hr, ha] at h
    simp only [List.mem_cons, List.not_mem_nil, or_false, Prod.mk.injEq] at h
    rcases h with ⟨rfl, -⟩ | ⟨rfl, -⟩ <;>
      (rw [← mem_visitType (all := ["W"]) (.head _)]; simp [SynType.var, visitType, visitBare, visitSegments, visitArgs, visitOption, SynSeg.ident, SynSeg.args])
  · rw [← hr, ha]; simp

end Verif
