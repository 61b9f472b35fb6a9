import Verif.Model.Codegen
/-!
# `opg_derive/src/bound.rs`: the generics of the generated impl

Types are given by their syntax (`syn::Type`), as far as `syn::visit` looks into it.
-/

namespace Verif

mutual
/-- `syn::Type`, as visited from bound.rs 40-49.  Lifetimes, mutability and the like are left out: the visitor does
not look at them.  A trait bound is given by its path, an expression by the paths and types in it, both as types. -/
inductive SynType where
  /-- `<qself>::a::b<..>`; the flag is the leading `::` -/
  | path (qself : Option SynType) (leading : Bool) (segments : List SynSeg)
  /-- `Type::Group`, invisible delimiters -/
  | group (t : SynType)
  | paren (t : SynType)
  | reference (t : SynType)
  | ptr (t : SynType)
  | slice (t : SynType)
  | array (t : SynType) (len : List SynType)
  | tuple (ts : List SynType)
  | bareFn (inputs : List SynType) (output : Option SynType)
  /-- `dyn A + B` and `impl A + B` -/
  | bounds (ts : List SynType)
  /-- `!`, `_`, and macro invocations (`visit_macro` is empty, bound.rs 51) -/
  | opaque
/-- `syn::PathSegment` (bound.rs 42-43, 54-60). -/
inductive SynSeg where
  | mk (ident : String) (args : List SynArg)
/-- `syn::GenericArgument`, as visited from bound.rs 65; the inputs and the output of `Fn(A) -> B` are listed as type
arguments. -/
inductive SynArg where
  | lifetime
  | type (t : SynType)
  | binding (name : String) (t : SynType)
  | constraint (name : String) (bounds : List SynType)
  | const (e : List SynType)
end

/-- The identifier of a segment (bound.rs 43, 55, 60). -/
def SynSeg.ident : SynSeg → String
  | ⟨i, _⟩ => i
/-- The arguments of a segment, as visited from bound.rs 65. -/
def SynSeg.args : SynSeg → List SynArg
  | ⟨_, a⟩ => a

/-- A type parameter, as a type (bound.rs 107-110). -/
def SynType.var (x : String) : SynType := .path none false [⟨x, []⟩]

/-- `syn::TypeParam` (bound.rs 9-25); its own bounds are opaque. -/
structure TypeParam where
  ident : String
  bounds : List String
  default : Option SynType

/-- `syn::GenericParam` (bound.rs 9-25). -/
inductive GenericParam where
  | type (p : TypeParam)
  | lifetime (text : String)
  | const (text : String)

/-- `syn::WherePredicate`: one that was written, or `ty: _opg::OpgModel` (bound.rs 112-126). -/
inductive WherePred where
  | given (text : String)
  | bound (ty : SynType)

/-- `syn::Generics` (bound.rs 9-25, 128-133). -/
structure Generics where
  params : List GenericParam
  preds : List WherePred

/-- `Generics::type_params` (idents; bound.rs 69-72, 103-105). -/
def Generics.typeParams (g : Generics) : List String :=
  g.params.filterMap fun
    | .type p => some p.ident
    | _ => none

/-- `without_default` (bound.rs 9-25). -/
def Generics.withoutDefault (g : Generics) : Generics :=
  { g with params := g.params.map fun
      | .type p => .type { p with default := none }
      | p => p }

/-- The path of a single type parameter (bound.rs 59-64). -/
def visitBare (all : List String) (leading : Bool) (segments : List SynSeg) : List String :=
  match leading, segments with
  | false, [⟨id, _⟩] => if id ∈ all then [id] else []
  | _, _ => []

mutual
/-- `Visit::visit_type` for `FindTyParams`: the idents put into `relevant_type_params`, in order, if `all` are the type
parameters.  `visit_path` (bound.rs 53-66) stands in the first case. -/
def visitType (all : List String) : SynType → List String
  | .path qself leading segments =>
    visitOption all qself ++
    (if (segments.getLast?.map SynSeg.ident) = some "PhantomData" then []
     else visitBare all leading segments ++ visitSegments all segments)
  | .group t => visitType all t
  | .paren t => visitType all t
  | .reference t => visitType all t
  | .ptr t => visitType all t
  | .slice t => visitType all t
  | .array t len => visitType all t ++ visitTypes all len
  | .tuple ts => visitTypes all ts
  | .bareFn inputs output => visitTypes all inputs ++ visitOption all output
  | .bounds ts => visitTypes all ts
  | .opaque => []
/-- `visitType` on the optional parts of a type (`syn::visit`, called from bound.rs 48 and 65). -/
def visitOption (all : List String) : Option SynType → List String
  | none => []
  | some t => visitType all t
/-- `visitType` on the parts of a type (`syn::visit`, called from bound.rs 48 and 65). -/
def visitTypes (all : List String) : List SynType → List String
  | [] => []
  | t :: ts => visitType all t ++ visitTypes all ts
/-- `visit::visit_path` (called in bound.rs 65). -/
def visitSegments (all : List String) : List SynSeg → List String
  | [] => []
  | ⟨_, args⟩ :: ss => visitArgs all args ++ visitSegments all ss
/-- `visit::visit_path_arguments` (called from bound.rs 65). -/
def visitArgs (all : List String) : List SynArg → List String
  | [] => []
  | a :: as => visitArg all a ++ visitArgs all as
/-- `visit::visit_generic_argument` (called from bound.rs 65). -/
def visitArg (all : List String) : SynArg → List String
  | .lifetime => []
  | .type t => visitType all t
  | .binding _ t => visitType all t
  | .constraint _ ts => visitTypes all ts
  | .const e => visitTypes all e
end

/-- `ungroup` (bound.rs 136-141). -/
def SynType.ungroup : SynType → SynType
  | .group t => t.ungroup
  | t => t

/-- What `visit_field` (bound.rs 40-49) adds to `associated_type_usage`. -/
def visitAssociated (all : List String) (t : SynType) : List SynType :=
  match t.ungroup with
  | .path qself leading (s :: s' :: ss) => if s.ident ∈ all then [.path qself leading (s :: s' :: ss)] else []
  | _ => []

/-- The fields that are visited (bound.rs 80-98), with the filter of `build_generics` (opg.rs 43-45). -/
def Container.relevantFields {τ : Type} (c : Container τ) : List (Field τ) :=
  match c.data with
  | .enum vs => vs.flatMap fun v => v.fields.filter fun f => !f.attrs.skipSerializing && !v.attrs.skipSerializing
  | .struct _ fs => fs.filter fun f => !f.attrs.skipSerializing

/-- `with_bound` (bound.rs 27-134). -/
def withBound (c : Container SynType) (g : Generics) : Generics :=
  let all := g.typeParams
  let relevant := c.relevantFields.flatMap fun f => visitType all f.ty
  let associated := c.relevantFields.flatMap fun f => visitAssociated all f.ty
  { g with preds := g.preds ++
      (((g.typeParams.filter fun x => x ∈ relevant).map SynType.var) ++ associated).map WherePred.bound }

/-- `build_generics` (opg.rs 37-48). -/
def buildGenerics (c : Container SynType) (g : Generics) : Generics := withBound c g.withoutDefault

end Verif
