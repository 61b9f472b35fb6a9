import Verif.Spec.Size
import Verif.Spec.Api
/-!
# Sizes of descriptions (specification)

A description has one node for each section, path, segment, operation, property, parameter, alternative and conjunct of
a security requirement, tag, server and security scheme.  The types and schemas it mentions are counted apart.
-/

namespace Verif

/-- The number of nodes of a parameter. -/
def ParamDecl.nodes : ParamDecl → Nat
  | .header _ ps => 1 + ps.length
  | .query _ _ ps => 1 + ps.length

/-- The number of nodes of a request body. -/
def BodyDecl.nodes : BodyDecl → Nat
  | .props ps => 1 + ps.length
  | .type _ => 1

mutual
/-- The number of nodes of the properties of an operation. -/
def nodesOp : List OpProp → Nat
  | [] => 0
  | .summary _ :: ps => 1 + nodesOp ps
  | .operationId _ :: ps => 1 + nodesOp ps
  | .description _ :: ps => 1 + nodesOp ps
  | .deprecated _ :: ps => 1 + nodesOp ps
  | .tags ts :: ps => (1 + ts.length) + nodesOp ps
  | .parameters ds :: ps => (1 + total ParamDecl.nodes ds) + nodesOp ps
  | .callbacks cs :: ps => (1 + nodesCallbacks cs) + nodesOp ps
  | .security alts :: ps => (1 + total (fun alt => 1 + alt.length) alts) + nodesOp ps
  | .body b :: ps => (1 + b.nodes) + nodesOp ps
  | .response _ _ _ :: ps => 1 + nodesOp ps
/-- The number of nodes of some callbacks. -/
def nodesCallbacks : List CallbackDecl → Nat
  | [] => 0
  | .literal _ ps :: cs => (1 + nodesPaths ps) + nodesCallbacks cs
  | .ident _ ps :: cs => (1 + nodesPaths ps) + nodesCallbacks cs
/-- The number of nodes of some paths. -/
def nodesPaths : List PathDecl → Nat
  | [] => 0
  | .mk segs props :: ds => (1 + segs.length + nodesItem props) + nodesPaths ds
/-- The number of nodes of the properties of a path. -/
def nodesItem : List ItemProp → Nat
  | [] => 0
  | .summary _ :: ps => 1 + nodesItem ps
  | .description _ :: ps => 1 + nodesItem ps
  | .parameters ds :: ps => (1 + total ParamDecl.nodes ds) + nodesItem ps
  | .operation _ os :: ps => (1 + nodesOp os) + nodesItem ps
end

/-- The number of nodes of a section. -/
def Section.nodes : Section → Nat
  | .info ps => 1 + ps.length
  | .tags ts => 1 + ts.length
  | .servers ss => 1 + ss.length
  | .securitySchemes ss => 1 + ss.length
  | .paths ps => 1 + nodesPaths ps

/-- The number of nodes of a description. -/
def Api.nodes (api : Api) : Nat := total Section.nodes api

/-- What is copied for a type that a description mentions. -/
def Ty.placed (env : Env) (t : Ty) : List Nat := if t.linkable env then [] else t.copied env

/-- The size of something that a description mentions, if types have that size. -/
def Part.weight (size : Ty → Nat) : Part → Nat
  | .mention t => size t
  | .raw r => r.ser.nodes
  | .scheme _ _ => 0
  | .literal _ => 0

/-- The number of nodes of something that a description mentions: those of a type and of the declarations that are copied
for it, and those of a schema given in the description. -/
def Part.nodes (env : Env) : Part → Nat := Part.weight fun t => t.nodes + env.nodes (t.placed env)

end Verif
