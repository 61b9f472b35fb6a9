import Verif.Model.Schema
/-!
# `opg/src/models.rs`: the document (`Opg`) and its parts

`BTreeMap` fields are binding lists (see `Verif.Base.BMap`).
-/

namespace Verif

/-- `enum PathElement` (models.rs 168-172). -/
inductive PathElement where
  | path (s : String)
  | parameter (s : String)
  deriving DecidableEq, Repr

/-- `struct Path(Vec<PathElement>)` (models.rs 140-141). -/
abbrev UrlPath := List PathElement

/-- `enum HttpMethod` (models.rs 202-212). -/
inductive HttpMethod where
  | get | put | post | delete | options | head | patch | trace
  deriving DecidableEq, Repr

/-- Declaration order, as in `#[derive(Ord)]` (models.rs 202). -/
def HttpMethod.rank : HttpMethod → Nat
  | .get => 0 | .put => 1 | .post => 2 | .delete => 3 | .options => 4 | .head => 5 | .patch => 6 | .trace => 7

/-- `#[derive(Ord)]` (models.rs 202). -/
instance : Ord HttpMethod := ⟨fun a b => compare a.rank b.rank⟩

theorem HttpMethod.rank_inj {a b : HttpMethod} (h : a.rank = b.rank) : a = b := by
  cases a <;> cases b <;> first | rfl | cases h

/-- The order of models.rs 202 is transitive. -/
instance : Std.TransOrd HttpMethod where
  eq_swap := by intro a b; exact Std.OrientedCmp.eq_swap (cmp := compare) (a := a.rank) (b := b.rank)
  isLE_trans := by
    intro a b c h h'
    exact Std.TransCmp.isLE_trans (cmp := compare) (a := a.rank) (b := b.rank) (c := c.rank) h h'

/-- The order of models.rs 202 goes with `Eq`. -/
instance : Std.LawfulEqOrd HttpMethod where
  compare_self := by intro a; exact Std.ReflCmp.compare_self (cmp := compare) (a := a.rank)
  eq_of_compare := by
    intro a b h
    exact HttpMethod.rank_inj (Std.LawfulEqCmp.eq_of_compare (cmp := compare) h)

/-- `HttpMethod::as_str` (models.rs 214-227). -/
def HttpMethod.asStr : HttpMethod → String
  | .get => "get" | .put => "put" | .post => "post" | .delete => "delete"
  | .options => "options" | .head => "head" | .patch => "patch" | .trace => "trace"

/-- `struct RequestBody` (models.rs 328-338). -/
structure RequestBody where
  description : Option String
  required : Bool
  schema : Ref

/-- `struct Response` (models.rs 369-376). -/
structure Response where
  description : String
  schema : Option Ref

/-- `struct OperationParameter` (models.rs 478-497). -/
structure OperationParameter where
  description : Option String
  parameterIn : ParameterIn
  required : Bool
  deprecated : Bool
  schema : Option Ref

mutual
/-- `struct Operation` (models.rs 241-287). Status codes are `u16` in Rust; the model allows any number. -/
structure Operation where
  tags : List String
  summary : Option String
  operationId : Option String
  description : Option String
  deprecated : Bool
  security : List (List (String × List String))
  requestBody : Option RequestBody
  responses : List (Nat × Response)
  parameters : List (String × OperationParameter)
  callbacks : List (String × CallbackObject)
/-- `struct CallbackObject` (models.rs 417-426). -/
inductive CallbackObject where
  | mk (paths : List (List PathElement × PathValue))
/-- `struct PathValue` (models.rs 177-197). -/
structure PathValue where
  summary : Option String
  description : Option String
  operations : List (HttpMethod × Operation)
  parameters : List (String × OperationParameter)
end

/-- The field of `CallbackObject` (models.rs 418-426). -/
def CallbackObject.paths : CallbackObject → List (UrlPath × PathValue)
  | ⟨ps⟩ => ps

/-- `Operation::default()` (derive(Default), models.rs 241). -/
def Operation.empty : Operation := ⟨[], none, none, none, false, [], none, [], [], []⟩
/-- `PathValue::default()` (derive(Default), models.rs 177). -/
def PathValue.empty : PathValue := ⟨none, none, [], []⟩
/-- `Default for Operation` (models.rs 241). -/
instance : Inhabited Operation := ⟨.empty⟩
/-- `Default for PathValue` (models.rs 177). -/
instance : Inhabited PathValue := ⟨.empty⟩
/-- `Default for CallbackObject` (models.rs 417). -/
instance : Inhabited CallbackObject := ⟨⟨[]⟩⟩

/-- `struct Info` (models.rs 99-110). -/
structure Info where
  title : String := ""
  description : Option String := none
  version : String := ""
  deriving DecidableEq, Repr

/-- `struct Tag` (models.rs 115-119). -/
structure Tag where
  description : Option String
  deriving DecidableEq, Repr

/-- `struct Server` (models.rs 127-135). -/
structure Server where
  url : String
  description : Option String
  deriving DecidableEq, Repr

/-- `struct Opg` (models.rs 12-40), with `OpenApiVersion(String)` (44-45) as its string. -/
structure Opg where
  openapi : String
  info : Info
  tags : List (String × Tag)
  servers : List Server
  paths : List (UrlPath × PathValue)
  components : Components

/-- `OPENAPI_VERSION` (lib.rs 10). -/
def openapiVersion : String := "3.0.3"

/-- `Opg::default()` (derive(Default), models.rs 12) with `OpenApiVersion::default()` (47-51). -/
def Opg.empty : Opg := ⟨openapiVersion, {}, [], [], [], .empty⟩

/-! ## `impl Operation` -/

/-- `Operation::with_summary` (models.rs 290-296); the arguments are the results of `to_string`. -/
def Operation.withSummary (op : Operation) (s : String) : Operation := { op with summary := some s }
/-- `Operation::with_operation_id` (models.rs 298-304). -/
def Operation.withOperationId (op : Operation) (s : String) : Operation := { op with operationId := some s }
/-- `Operation::with_description` (models.rs 306-312). -/
def Operation.withDescription (op : Operation) (s : String) : Operation := { op with description := some s }
/-- `Operation::mark_deprecated` (models.rs 314-317). -/
def Operation.markDeprecated (op : Operation) (b : Bool) : Operation := { op with deprecated := b }
/-- `Operation::with_request_body` (models.rs 319-322). -/
def Operation.withRequestBody (op : Operation) (b : RequestBody) : Operation := { op with requestBody := some b }

end Verif
