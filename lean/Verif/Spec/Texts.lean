import Verif.Model.Eval
/-!
# Descriptions, formats and examples (specification)

What is left of a declaration and of a schema when their texts are taken away.
-/

namespace Verif

/-! ## Declarations -/

/-- A field without `description`, `format` and `example`. -/
def Field.wordless (f : Field Ty) : Field Ty :=
  { f with attrs := { f.attrs with description := none, format := none, ex := none } }

/-- A variant without them. -/
def Variant.wordless (v : Variant Ty) : Variant Ty :=
  { v with
    attrs := { v.attrs with description := none, format := none, ex := none }
    fields := v.fields.map Field.wordless }

/-- Fields or variants without them. -/
def Data.wordless : Data Ty → Data Ty
  | .enum vs => .enum (vs.map Variant.wordless)
  | .struct style fs => .struct style (fs.map Field.wordless)

/-- A derived type without them. -/
def Container.wordless (c : Container Ty) : Container Ty :=
  { c with
    attrs := { c.attrs with description := none, format := none, ex := none }
    data := c.data.wordless }

/-- Two programs differ only in descriptions, formats, examples, and in what examples evaluate to. -/
def SameButWords (env env' : Env) : Prop := ∀ i, (env.decl i).wordless = (env'.decl i).wordless

/-! ## Schemas -/

mutual
/-- A reference without descriptions, formats and examples. -/
def Ref.wordless : Ref → Ref
  | .link n => .link n
  | .inline m => .inline m.wordless
  | .any => .any
/-- A schema without them. -/
def Model.wordless : Model → Model
  | ⟨_, d⟩ => ⟨none, d.wordless⟩
def ModelData.wordless : ModelData → ModelData
  | .single ⟨n, td⟩ => .single ⟨n, td.wordless⟩
  | .oneOf rs => .oneOf (Ref.wordlessList rs)
  | .allOf rs => .allOf (Ref.wordlessList rs)
  | .anyOf rs => .anyOf (Ref.wordlessList rs)
def TypeDesc.wordless : TypeDesc → TypeDesc
  | .string v _ _ => .string v none none
  | .number _ _ => .number none none
  | .integer _ _ => .integer none none
  | .boolean => .boolean
  | .array r => .array r.wordless
  | .object ⟨ps, none, rq⟩ => .object ⟨Ref.wordlessProps ps, none, rq⟩
  | .object ⟨ps, some a, rq⟩ => .object ⟨Ref.wordlessProps ps, some a.wordless, rq⟩
def Ref.wordlessList : List Ref → List Ref
  | [] => []
  | r :: rs => r.wordless :: Ref.wordlessList rs
def Ref.wordlessProps : List (String × Ref) → List (String × Ref)
  | [] => []
  | (k, r) :: ps => (k, r.wordless) :: Ref.wordlessProps ps
end

/-- Registered schemas without them. -/
def wordlessSchemas (reg : List (String × Model)) : List (String × Model) := reg.map fun x => (x.1, x.2.wordless)

/-- A registry without them. -/
def Components.wordless (cx : Components) : Components := { cx with schemas := wordlessSchemas cx.schemas }

/-- Metadata without them. -/
def Params.wordless (p : Params) : Params := { p with description := none, format := none, ex := none }

/-- A call without them. -/
def Call.wordless : Call → Call
  | .mention t i p => .mention t i p.wordless
  | .addModel n m => .addModel n m.wordless
  | .security n s => .security n s

end Verif
