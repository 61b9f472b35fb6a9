import Verif.Props.Attrs
import Verif.Props.Case
/-!
# Unknown renaming rules (C47)
-/

namespace Verif

variable {τ : Type}

/-- `attrs'` is `attrs`, or that with one more item `serde(rename_all = "s")` whose `s` is none of the rules. -/
inductive UnknownRule : List Attribute → List Attribute → Prop
  | same (attrs) : UnknownRule attrs attrs
  | written {attrs attrs'} (pre post : List (AttrFrom × NestedMeta)) (s : String) (hs : ∀ r, (s, r) ∉ ruleTable)
      (h : itemsOf attrs = some (pre ++ post))
      (h' : itemsOf attrs' = some (pre ++ (.serde, .item (.nameValue "rename_all" (.str s))) :: post)) :
      UnknownRule attrs attrs'

theorem UnknownRule.run {act : AttrFrom → NestedMeta → Action} {as as'} (h : UnknownRule as as')
    (hn : ∀ s, RenameRule.fromStr s = none → act .serde (.item (.nameValue "rename_all" (.str s))) = .nothing) :
    runAttrs act as' = runAttrs act as := by
  cases h with
  | same => rfl
  | written pre post s hs h h' =>
    refine runAttrs_ignore h' h (hn s ?_)
    cases e : RenameRule.fromStr s with
    | none => rfl
    | some r => exact absurd ((c47_rule_names s r).1 e) (hs r)

/-- C47, last part.  A rule that is none of the eight, on the container or on variants, changes neither code, nor errors,
nor panics: names stay as they are without it. -/
theorem c47_unknown_ignored (o : Oracle) (i j : DeriveInput τ) (h : InputRel UnknownRule UnknownRule Eq i j) :
    derive o j = derive o i := by
  apply derive_of_containerFromAst
  refine containerFromAst_congr ErrPred.any ?_ ?_ ?_ h trivial
  · intro kind as as' hr _ _
    exact hr.run fun s hs => by simp [containerAction, actRenameAll, getLitStr, hs]
  · intro id as as' hr _
    unfold variantAttrsFromAst
    rw [hr.run fun s hs => by simp [variantAction, actRenameAll, getLitStr, hs]]
  · intro i id as as' hr _
    rw [hr]

/-- `#[serde(rename_all = "Title Case")]` next to `#[serde(rename_all = "camelCase")]`. -/
example : UnknownRule [⟨"serde", .list [.item (.nameValue "rename_all" (.str "camelCase"))]⟩]
    [⟨"serde", .list [.item (.nameValue "rename_all" (.str "Title Case"))]⟩,
     ⟨"serde", .list [.item (.nameValue "rename_all" (.str "camelCase"))]⟩] :=
  .written [] _ "Title Case" (by intro r h; simp [ruleTable] at h) rfl rfl

end Verif
