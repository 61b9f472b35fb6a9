import Verif.Proof.Written
import Verif.Props.Refactor
/-!
# C90: `rename_all` can be written out
-/

namespace Verif

variable {o : Oracle} {τ : Type}

/-! ## C90 -/

/-- **C90**, for acceptance: if two items say the same and one is accepted, so is the other, with the same code, unless
one of its attributes is mistaken or one of its names cannot be converted. -/
theorem c90_accepted (o : Oracle) (i i' : DeriveInput τ) (same : SameItem o i i') (c : Container τ) (body : ModelExpr τ)
    (hc : derive o i = .code c body) (clean : InputProblems o i' []) (names : ¬ NameFails o i') :
    ∃ c', derive o i' = .code c' body ∧ c'.typeName = c.typeName ∧ c'.attrs.inline = c.attrs.inline := by
  obtain ⟨c', b', h⟩ := accepted_same same hc (inputProblems_iff.1 clean) names
  obtain ⟨rfl, h2, h3⟩ := c90_same_code o i i' same c c' body b' hc h
  exact ⟨c', h, h2, h3⟩

/-- **C90**, for `rename_all`: where every field and variant has a `rename` of its own, `rename_all` can be left out.
The item is still accepted, and has the same code. -/
theorem c90_without (o : Oracle) (i : DeriveInput τ) (all : AllRenamed o i) (c : Container τ) (body : ModelExpr τ)
    (hc : derive o i = .code c body) :
    ∃ c', derive o i.withoutRenameAll = .code c' body ∧ c'.typeName = c.typeName ∧ c'.attrs.inline = c.attrs.inline := by
  obtain ⟨same, c', b', h⟩ := without_same hc all
  obtain ⟨rfl, h2, h3⟩ := c90_same_code o _ _ same c c' body b' hc h
  exact ⟨c', h, h2, h3⟩

/-- **C90**: `rename_all` is a shorthand.  Each accepted item can be written with a `rename` on every field and variant
and without any `rename_all`, and has the same code then. -/
theorem c90_shorthand (o : Oracle) (i : DeriveInput τ) (c : Container τ) (body : ModelExpr τ)
    (hc : derive o i = .code c body) :
    ∃ j, ItemRenamed o i j ∧ AllRenamed o j ∧
      ∃ c', derive o j.withoutRenameAll = .code c' body ∧ c'.typeName = c.typeName ∧ c'.attrs.inline = c.attrs.inline := by
  obtain ⟨j, hj, ha⟩ := item_written hc
  obtain ⟨same, c1, b1, h1⟩ := itemRenamed_same hj hc
  obtain ⟨rfl, h2, h3⟩ := c90_same_code o _ _ same c c1 body b1 hc h1
  obtain ⟨c2, h4, h5, h6⟩ := c90_without o j ha c1 b1 h1
  exact ⟨j, hj, ha, c2, h4, h5.trans h2, h6.trans h3⟩

namespace Sample

/-- `#[serde(rename_all = "camelCase")]
struct Login { #[serde(rename = "userName")] user_name: String, #[serde(rename = "pin")] code: u32 }` -/
def loginWritten : DeriveInput Ty := ⟨"Login", [attr "serde" [nv "rename_all" "camelCase"]],
  .struct (.named [fld "user_name" (.prim .string) [renameTo "userName"], fld "code" (.prim .u32) [renameTo "pin"]])⟩

theorem loginWritten_all : AllRenamed oracle loginWritten := by
  refine ⟨fun f hf => ?_, fun v hv => nomatch hv⟩
  have hf : f = fld "user_name" (.prim .string) [renameTo "userName"] ∨ f = fld "code" (.prim .u32) [renameTo "pin"] := by
    simpa [loginWritten, SynData.structFields, SynFields.list] using hf
  rcases hf with rfl | rfl
  · exact ⟨"userName", _, rfl, _, List.mem_cons_self .., .common (.rename (.nameValue _))⟩
  · exact ⟨"pin", _, rfl, _, List.mem_cons_self .., .common (.rename (.nameValue _))⟩

/-- Without `rename_all`, nothing changes. -/
example : ∃ c b c', derive oracle loginWritten = .code c b ∧ derive oracle loginWritten.withoutRenameAll = .code c' b := by
  obtain ⟨c', h, -⟩ := c90_without oracle loginWritten loginWritten_all _ _ rfl
  exact ⟨_, _, c', rfl, h⟩

/-- The attribute is really gone. -/
example : loginWritten.withoutRenameAll.attrs = [⟨"serde", .list []⟩] := rfl

/-- `rename_all` of the first item can be written out. -/
example : ∃ c b j c', derive oracle loginInput = .code c b ∧ ItemRenamed oracle loginInput j ∧ AllRenamed oracle j ∧
    derive oracle j.withoutRenameAll = .code c' b := by
  obtain ⟨j, h1, h2, c', h3, -⟩ := c90_shorthand oracle loginInput _ _ rfl
  exact ⟨_, _, j, c', rfl, h1, h2, h3⟩

/-- An item that says the same is accepted. -/
example : ∃ c b c', derive oracle loginInput = .code c b ∧ derive oracle loginInput'' = .code c' b := by
  obtain ⟨c', h, -⟩ := c90_accepted oracle loginInput loginInput'' login_same _ _ rfl (inputProblems_iff.2 rfl) (by
    rintro ⟨⟨pre, x, post, h, -⟩, -⟩
    cases pre <;> cases h)
  exact ⟨_, _, c', rfl, h⟩

end Sample

end Verif
