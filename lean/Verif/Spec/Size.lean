import Verif.Model.Types
import Verif.Model.Ser
/-!
# Sizes of programs and of documents (specification)

A written value has one node for each scalar, sequence and map and one for each key.  A declaration has one node for
itself, one for each variant and field, and one for each constructor of the types of its fields; a derived type in a
type counts for one, whatever its size.
-/

namespace Verif

mutual
/-- The number of nodes of a written value. -/
def Value.nodes : Value → Nat
  | .null | .bool _ | .str _ => 1
  | .seq vs => 1 + nodesSeq vs
  | .map es => 1 + nodesMap es
def nodesSeq : List Value → Nat
  | [] => 0
  | v :: vs => v.nodes + nodesSeq vs
def nodesMap : List (Key × Value) → Nat
  | [] => 0
  | (_, v) :: es => (1 + v.nodes) + nodesMap es
end

mutual
/-- The number of nodes of a type. -/
def Ty.nodes : Ty → Nat
  | .wrap _ t => 1 + t.nodes
  | .option t => 1 + t.nodes
  | .tuple ts => 1 + nodesTypes ts
  | .seq _ t => 1 + t.nodes
  | .dict _ t => 1 + t.nodes
  | .prim _ | .unit | .uuid | .naiveDateTime | .dateTime | .naiveDate | .named _ => 1
def nodesTypes : List Ty → Nat
  | [] => 0
  | t :: ts => t.nodes + nodesTypes ts
end

/-- The number of nodes of the fields of a declaration. -/
def nodesFields : List (Field Ty) → Nat
  | [] => 0
  | f :: fs => (1 + f.ty.nodes) + nodesFields fs

/-- The number of nodes of the variants of a declaration. -/
def nodesVariants : List (Variant Ty) → Nat
  | [] => 0
  | v :: vs => (1 + nodesFields v.fields) + nodesVariants vs

/-- The number of nodes of a declaration. -/
def Container.nodes (c : Container Ty) : Nat :=
  match c.data with
  | .struct _ fs => 1 + nodesFields fs
  | .enum vs => 1 + nodesVariants vs

/-- The number of nodes of some declarations of a program. -/
def Env.nodes (env : Env) : List Nat → Nat
  | [] => 0
  | i :: is => (env.decl i).nodes + env.nodes is

/-- A derived type that is not `#[opg(inline)]`, behind any number of boxes and options: it is referred to by name
unless the place asks otherwise. -/
def Ty.linkable (env : Env) : Ty → Bool
  | .wrap _ t => t.linkable env
  | .option t => t.linkable env
  | .named i => !(env.decl i).attrs.inline
  | _ => false

mutual
/-- The derived types whose schemas are copied into the schema of a type, once for each copy. -/
def Ty.copied (env : Env) : Ty → List Nat
  | .wrap _ t => t.copied env
  | .option t => t.copied env
  | .tuple ts => copiedMembers env ts
  | .seq _ t => if t.linkable env then [] else t.copied env
  | .dict _ t => if t.linkable env then [] else t.copied env
  | .named i => [i]
  | .prim _ | .unit | .uuid | .naiveDateTime | .dateTime | .naiveDate => []
def copiedMembers (env : Env) : List Ty → List Nat
  | [] => []
  | t :: ts => (if t.linkable env then [] else t.copied env) ++ copiedMembers env ts
end

/-- What is copied for a field: nothing if its type is given by a word or referred to by name. -/
def Field.copied (env : Env) (inline : Bool) (f : Field Ty) : List Nat :=
  if f.attrs.explicitModelType.isSome then [] else if !inline && f.ty.linkable env then [] else f.ty.copied env

/-- What is copied for a variant.  The only field of a variant of an internally tagged enum is merged with the tag and is
copied in any case. -/
def Variant.copied (env : Env) (internal : Bool) (v : Variant Ty) : List Nat :=
  match v.style with
  | .newType =>
    if internal then v.fields.flatMap fun f => f.ty.copied env else v.fields.flatMap (Field.copied env v.attrs.inline)
  | _ => v.fields.flatMap fun f => f.copied env (v.attrs.inline || f.attrs.inline)

/-- Whether an enum is internally tagged. -/
def Container.internal (c : Container Ty) : Bool :=
  match c.attrs.tagType with
  | .internal _ => true
  | _ => false

/-- The derived types whose schemas are copied into the schema of a declaration, those of skipped fields included.  A
newtype struct is a copy of its field, unless its type is given by a word. -/
def Container.copied (env : Env) (c : Container Ty) : List Nat :=
  match c.data with
  | .struct .newType fs => if c.attrs.explicitModelType.isSome then [] else fs.flatMap fun f => f.ty.copied env
  | .struct _ fs => fs.flatMap fun f => f.copied env f.attrs.inline
  | .enum vs => vs.flatMap (Variant.copied env c.internal)

/-- The sum of a quantity over a list. -/
def total {α : Type} (size : α → Nat) : List α → Nat
  | [] => 0
  | a :: as => size a + total size as

end Verif
