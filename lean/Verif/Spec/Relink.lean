import Verif.Model.Ast
import Verif.Spec.Texts
import Verif.Spec.Api
/-!
# Types under other names (specification)

What happens to schemas, registries and calls if the derived types of a program get other identifiers.
-/

namespace Verif

variable (ρ : String → String)

mutual
/-- A reference with the names in links changed. -/
def Ref.relinked : Ref → Ref
  | .link n => .link (ρ n)
  | .inline m => .inline m.relinked
  | .any => .any
/-- A schema with the names in links changed. -/
def Model.relinked : Model → Model
  | ⟨d, data⟩ => ⟨d, data.relinked⟩
def ModelData.relinked : ModelData → ModelData
  | .single ⟨n, td⟩ => .single ⟨n, td.relinked⟩
  | .oneOf rs => .oneOf (Ref.relinkedList rs)
  | .allOf rs => .allOf (Ref.relinkedList rs)
  | .anyOf rs => .anyOf (Ref.relinkedList rs)
def TypeDesc.relinked : TypeDesc → TypeDesc
  | .string v f e => .string v f e
  | .number f e => .number f e
  | .integer f e => .integer f e
  | .boolean => .boolean
  | .array r => .array r.relinked
  | .object ⟨ps, none, rq⟩ => .object ⟨Ref.relinkedProps ps, none, rq⟩
  | .object ⟨ps, some a, rq⟩ => .object ⟨Ref.relinkedProps ps, some a.relinked, rq⟩
def Ref.relinkedList : List Ref → List Ref
  | [] => []
  | r :: rs => r.relinked :: Ref.relinkedList rs
def Ref.relinkedProps : List (String × Ref) → List (String × Ref)
  | [] => []
  | (k, r) :: ps => (k, r.relinked) :: Ref.relinkedProps ps
end

/-- The derived types of one program are those of another under other identifiers; nothing else is changed. -/
def TypesRenamed (env env' : Env) : Prop := ∀ i, env'.decl i =
  { env.decl i with
    ident := ρ (env.decl i).ident
    attrs := { (env.decl i).attrs with name := (env'.decl i).attrs.name } }

/-- Two references: the second is the first one with the names in links changed, but for descriptions, formats and examples. -/
def RefRenamed (r r' : Ref) : Prop := r.wordless.relinked ρ = r'.wordless

/-- Two registries: the names of the second are the changed names of the first, and the schemas under them have the names in links
changed, but for descriptions, formats and examples. -/
structure RegistryRenamed (cx cx' : Components) : Prop where
  names : ∀ k, k ∈ BMap.keys cx'.schemas ↔ ∃ n ∈ BMap.keys cx.schemas, k = ρ n
  schemas : ∀ n m m', BMap.get n cx.schemas = some m → BMap.get (ρ n) cx'.schemas = some m' → m.wordless.relinked ρ = m'.wordless
  securitySchemes : cx.securitySchemes = cx'.securitySchemes

/-- A call with the names changed. -/
def Call.relinked : Call → Call
  | .mention t i p => .mention t i p
  | .addModel n m => .addModel (ρ n) (m.relinked ρ)
  | .security n s => .security n s

/-- Exchanges two names. -/
def swapName (a b n : String) : String := if n = a then b else if n = b then a else n

end Verif
