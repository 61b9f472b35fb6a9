import Verif.Proof.Refactor
import Verif.Proof.Same
import Verif.Props.PublishedReads
/-!
# C90: identifiers are only seen through the names in JSON
-/

namespace Verif

variable {o : Oracle} {τ : Type}

/-! ## C90 -/

/-- **C90**.  Two items that say the same, names being given by identifiers, `rename` or `rename_all` alike, and that
the macro accepts, have the same generated code: `get_schema`, `type_name` and inlining. -/
theorem c90_same_code (o : Oracle) (i i' : DeriveInput τ) (same : SameItem o i i') (c c' : Container τ)
    (body body' : ModelExpr τ) (hc : derive o i = .code c body) (hc' : derive o i' = .code c' body') :
    body' = body ∧ c'.typeName = c.typeName ∧ c'.attrs.inline = c.attrs.inline := by
  obtain ⟨h1, h2, h3⟩ := code_same same hc hc'
  exact ⟨h1, by simp only [Container.typeName, h2, h3], h3⟩

theorem agree_of_same {env env' : Env} (he : env'.evalExpr = env.evalExpr)
    (same : ∀ i, env'.decl i = env.decl i ∨
      ∃ o input input', Derived o env i input ∧ Derived o env' i input' ∧ SameItem o input input') :
    Agree (fun _ => True) env env' := by
  have key : ∀ i, serializeBody (env'.decl i) = serializeBody (env.decl i) ∧
      (env'.decl i).typeName = (env.decl i).typeName ∧ (env'.decl i).attrs.inline = (env.decl i).attrs.inline := by
    intro i
    rcases same i with h | ⟨o, input, input', ⟨b, h⟩, ⟨b', h'⟩, hs⟩
    · rw [h]; exact ⟨rfl, rfl, rfl⟩
    · obtain ⟨h1, h2, h3⟩ := c90_same_code o input input' hs _ _ _ _ h h'
      refine ⟨?_, h2, h3⟩
      rw [(derive_code h).2, (derive_code h').2, h1]
  refine agree_code ?_ ?_ ?_ he
  · intro i; simp only [schemaExpr, (key i).1]
  · intro i; simp only [typeName, (key i).2.1]
  · intro i; simp only [alwaysInline, (key i).2.2]

/-- **C90**, for whole programs: if each type of one program is also a type of the other, or is derived in both from
items that say the same, then every API has the same document in both. -/
theorem c90_same_document (env env' : Env) (examples : env'.evalExpr = env.evalExpr)
    (same : ∀ i, env'.decl i = env.decl i ∨
      ∃ o input input', Derived o env i input ∧ Derived o env' i input' ∧ SameItem o input input')
    (reason : Nat → Option String) (api : Api) (d : Opg) : Describes env' reason api d ↔ Describes env reason api d :=
  (agree_of_same examples same).describes reason api (fun _ _ => trivial) d

/-- The program with the declaration of one type replaced. -/
def Env.replace (env : Env) (i : Nat) (c : Container Ty) : Env :=
  { env with decl := fun j => if j = i then c else env.decl j }

/-- **C90**, for renamed identifiers: some fields and variants of a derived type get another identifier, and
`#[serde(rename = "..")]` with the name they had in JSON.  Then the item is still accepted, and every API has the same
document as before. -/
theorem c90_renamed (o : Oracle) (env : Env) (i : Nat) (input input' : DeriveInput Ty) (derived : Derived o env i input)
    (renamed : ItemRenamed o input input') :
    ∃ c, Derived o (env.replace i c) i input' ∧
      ∀ reason api d, Describes (env.replace i c) reason api d ↔ Describes env reason api d := by
  obtain ⟨b, h⟩ := derived
  obtain ⟨hs, c, b', h'⟩ := itemRenamed_same renamed h
  have hd : Derived o (env.replace i c) i input' := ⟨b', by simp [Env.replace, h']⟩
  refine ⟨c, hd, fun reason api d => c90_same_document env (env.replace i c) rfl (fun j => ?_) reason api d⟩
  by_cases hj : j = i
  · subst hj; exact .inr ⟨o, input, input', ⟨b, h⟩, hd, hs⟩
  · exact .inl (by simp [Env.replace, hj])

namespace Sample

/-- `#[serde(rename_all = "camelCase")] struct Login { user_name: String, #[serde(rename = "pin")] code: u32 }` -/
def loginInput : DeriveInput Ty := ⟨"Login", [attr "serde" [nv "rename_all" "camelCase"]],
  .struct (.named [fld "user_name" (.prim .string), fld "code" (.prim .u32) [attr "serde" [nv "rename" "pin"]]])⟩
/-- `#[serde(rename_all = "camelCase")]
struct Login { #[serde(rename = "userName")] who: String, #[serde(rename = "pin")] code: u32 }` -/
def loginInput' : DeriveInput Ty := ⟨"Login", [attr "serde" [nv "rename_all" "camelCase"]],
  .struct (.named [fld "who" (.prim .string) [renameTo "userName"], fld "code" (.prim .u32) [attr "serde" [nv "rename" "pin"]]])⟩
/-- `struct Login { userName: String, pin: u32 }` -/
def loginInput'' : DeriveInput Ty := ⟨"Login", [], .struct (.named [fld "userName" (.prim .string), fld "pin" (.prim .u32)])⟩

theorem loginInput_rule {r} (h : RuleOf (ContainerGives oracle loginInput.data.kind) loginInput.attrs r) : r = .camelCase := by
  have hv := fun v => runAttrs_vals (act := containerAction oracle loginInput.data.kind)
    (g := ContainerGives oracle loginInput.data.kind) (fun _ _ _ _ => containerAction_set)
    (attrs := loginInput.attrs) rfl (k := .renameAll) (v := v)
  rcases h with h | ⟨h, -⟩
  · rw [← hv] at h
    exact (AVal.rule.inj (Option.some.inj h)).symm
  · exact absurd ((hv (.rule .camelCase)).1 rfl) (h _)

theorem no_attrs {g : AttrFrom → NestedMeta → AttrKey → AVal → Prop} {k v} : ¬ Gives g [] k v := by
  rintro ⟨items, h, x, hx, -⟩
  cases h
  cases hx

theorem login_renamed : ItemRenamed oracle loginInput loginInput' := by
  refine ⟨rfl, rfl, fun r hr => ?_⟩
  have := loginInput_rule hr
  subst this
  refine ⟨trivial, rfl, fun i f f' hf hf' => ?_⟩
  match i, hf, hf' with
  | 0, hf, hf' => cases hf; cases hf'; exact .renamed (fld "user_name" (.prim .string)) _ "userName" (fun _ => no_attrs) (.inr ⟨fun _ => no_attrs, rfl⟩)
  | 1, hf, hf' => cases hf; cases hf'; exact .kept _

def loginEnv : Env := program [match containerFromAst oracle loginInput with
  | some (some c, _) => c
  | _ => decl 1]

theorem loginEnv_derived : Derived oracle loginEnv 0 loginInput := ⟨_, rfl⟩

/-- A field is renamed, and the document remains what it was. -/
example : ∃ c, Derived oracle (loginEnv.replace 0 c) 0 loginInput' ∧
    ∀ reason api d, Describes (loginEnv.replace 0 c) reason api d ↔ Describes loginEnv reason api d :=
  c90_renamed oracle loginEnv 0 loginInput loginInput' loginEnv_derived login_renamed

theorem login_same : SameItem oracle loginInput loginInput'' := by
  have hv := fun k v => runAttrs_vals (act := containerAction oracle loginInput.data.kind)
    (g := ContainerGives oracle loginInput.data.kind) (fun _ _ _ _ => containerAction_set)
    (attrs := loginInput.attrs) rfl (k := k) (v := v)
  have hp := fun k v => runAttrs_vals (act := fieldAction oracle) (g := FieldGives oracle) (fun _ _ _ _ => fieldAction_set)
    (attrs := [attr "serde" [nv "rename" "pin"]]) rfl (k := k) (v := v)
  have ht : ∀ t, GivesType [] t ↔ False := fun t =>
    ⟨fun ⟨_, h, p, hp, _⟩ => (by cases h; cases hp), False.elim⟩
  refine ⟨rfl, rfl, ⟨fun k hk v => ?_, fun t => ?_⟩, fun r r' hr hr' => ?_⟩
  · rw [← hv]
    have : ¬ Gives (ContainerGives oracle loginInput.data.kind) loginInput''.attrs k v := no_attrs
    simp only [this, iff_false]
    revert hk
    cases k <;> first | (intro _ h; cases h; done) | (intro hk; exact absurd (by simp) hk)
  · rw [show loginInput''.attrs = [] from rfl, ht]
    refine ⟨fun ⟨_, h, p, hp, _⟩ => ?_, False.elim⟩
    cases h
    simp [nv] at hp
  · have h1 := loginInput_rule hr
    have h2 : r' = .none := by
      rcases hr' with h | h
      · exact absurd h no_attrs
      · exact h.2
    subst h1 h2
    refine ⟨trivial, rfl, fun i f f' hf hf' => ?_⟩
    match i, hf, hf' with
    | 0, hf, hf' =>
      cases hf; cases hf'
      refine ⟨rfl, .refl _ _, fun _ s => ?_⟩
      constructor
      · rintro (h | ⟨-, h⟩)
        · exact absurd h no_attrs
        · exact .inr ⟨fun _ => no_attrs, h⟩
      · rintro (h | ⟨-, h⟩)
        · exact absurd h no_attrs
        · exact .inr ⟨fun _ => no_attrs, h⟩
    | 1, hf, hf' =>
      cases hf; cases hf'
      refine ⟨rfl, ⟨fun k hk v => ?_, fun t => ?_⟩, fun _ s => ?_⟩
      · rw [show (fld "code" (.prim .u32) [attr "serde" [nv "rename" "pin"]] : SynField Ty).attrs =
          [attr "serde" [nv "rename" "pin"]] from rfl, ← hp]
        have : ¬ Gives (FieldGives oracle) (fld "pin" (.prim .u32) : SynField Ty).attrs k v := no_attrs
        simp only [this, iff_false]
        revert hk
        cases k <;> first | (intro _ h; cases h; done) | (intro hk; exact absurd (by simp) hk)
      · rw [show (fld "pin" (.prim .u32) : SynField Ty).attrs = [] from rfl, ht]
        refine ⟨fun ⟨_, h, p, hp, _⟩ => ?_, False.elim⟩
        cases h
        simp [nv] at hp
      · have h0 : Gives (FieldGives oracle) [attr "serde" [nv "rename" "pin"]] .rename (.str "pin") := (hp _ _).1 rfl
        constructor
        · rintro (h | ⟨h, -⟩)
          · rw [show (fld "code" (.prim .u32) [attr "serde" [nv "rename" "pin"]] : SynField Ty).attrs =
              [attr "serde" [nv "rename" "pin"]] from rfl, ← hp] at h
            have := AVal.str.inj (Option.some.inj h)
            subst this
            exact .inr ⟨fun _ => no_attrs, rfl⟩
          · exact absurd h0 (h _)
        · rintro (h | ⟨-, h⟩)
          · exact absurd h no_attrs
          · have : s = "pin" := (Option.some.inj h).symm
            subst this
            exact .inl h0

/-- The names may also be given by the identifiers alone. -/
example : ∃ c c' body body', derive oracle loginInput = .code c body ∧ derive oracle loginInput'' = .code c' body' ∧
    body' = body :=
  ⟨_, _, _, _, rfl, rfl, (c90_same_code oracle loginInput loginInput'' login_same _ _ _ _ rfl rfl).1⟩

end Sample

end Verif
