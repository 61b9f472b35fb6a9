import Verif.Spec.Api
/-!
# Descriptions that give a document (specification)

What has to be right about a description so that the expansion of `describe_api!` compiles and does not panic.
-/

namespace Verif

/-- A type given as a segment has a name that starts in ASCII: what follows the last colon of its text does (C62). -/
def PathSeg.Ok : PathSeg → Prop
  | .bare path _ => ∃ before c cs, path.print.toList = before ++ c :: cs ∧ ':' ∉ c :: cs ∧
      (before = [] ∨ before.getLast? = some ':') ∧ c.toNat < 128
  | _ => True

/-- A body has a schema. -/
def BodyDecl.Ok : BodyDecl → Prop
  | .type _ => True
  | .props ps => ∃ t, .schema t ∈ ps

/-- A security scheme is asked for without roles. -/
def SecurityDecl.Ok : SecurityDecl → Prop
  | .literal _ roles => roles = []
  | .scheme _ _ roles => roles = []

mutual
/-- Security requirements have conjuncts, none with roles; status codes are in the range of their type. -/
def OpOk : List OpProp → Prop
  | [] => True
  | .summary _ :: ps => OpOk ps
  | .operationId _ :: ps => OpOk ps
  | .description _ :: ps => OpOk ps
  | .deprecated _ :: ps => OpOk ps
  | .tags _ :: ps => OpOk ps
  | .parameters _ :: ps => OpOk ps
  | .callbacks cs :: ps => CallbacksOk cs ∧ OpOk ps
  | .security alts :: ps => (∀ alt ∈ alts, alt ≠ [] ∧ ∀ s ∈ alt, s.Ok) ∧ OpOk ps
  | .body b :: ps => b.Ok ∧ OpOk ps
  | .response code _ _ :: ps => code < 65536 ∧ OpOk ps
/-- A callback whose name is a string literal is the last one (C61). -/
def CallbacksOk : List CallbackDecl → Prop
  | [] => True
  | .literal _ _ :: cs => cs = []
  | .ident _ ps :: cs => PathsOk ps ∧ CallbacksOk cs
/-- Paths have segments. -/
def PathsOk : List PathDecl → Prop
  | [] => True
  | .mk segs props :: ds => (segs ≠ [] ∧ (∀ s ∈ segs, s.Ok) ∧ ItemOk props) ∧ PathsOk ds
def ItemOk : List ItemProp → Prop
  | [] => True
  | .summary _ :: ps => ItemOk ps
  | .description _ :: ps => ItemOk ps
  | .parameters _ :: ps => ItemOk ps
  | .operation _ os :: ps => OpOk os ∧ ItemOk ps
end

/-- Nothing is given twice in a section `info`; security schemes are described completely. -/
def Section.Ok : Section → Prop
  | .info ps => (ps.filterMap InfoProp.title?).length ≤ 1 ∧ (ps.filterMap InfoProp.version?).length ≤ 1 ∧
      (ps.filterMap InfoProp.description?).length ≤ 1
  | .tags _ => True
  | .servers _ => True
  | .securitySchemes ds => ∀ d ∈ ds, ∃ s, SchemeOf d s
  | .paths ps => PathsOk ps

/-- All sections are in order. -/
def Api.Ok (api : Api) : Prop := ∀ s ∈ api, s.Ok

end Verif
