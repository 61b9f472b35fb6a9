import Verif.Model.Types
/-!
# Meaning of the generated code: `get_schema`, `select_reference`, `mention_schema`

A call that does not return (unbounded recursion) has no value: functions take a bound on the nesting depth
of `get_schema` calls and return `none` when it is exceeded.
-/

namespace Verif

/-- A computation on `&mut Components` (as in models.rs 590, 596, 602-606); `none` means it did not return within the
depth bound. -/
abbrev M (α : Type) := Components → Option (α × Components)

/-- Run-time value of an `example` expression: `(expr).to_string()` (opg.rs 747-754). -/
def Example.eval (env : Env) : Example → String
  | .lit s => s
  | .expr src => env.evalExpr src

/-- Run-time value of a quoted `ContextParams` (opg.rs 896-911). -/
def ParamsExpr.eval (env : Env) (p : ParamsExpr) : Params :=
  { description := p.description, nullable := p.nullable, variants := none, format := p.format
    ex := p.ex.map (Example.eval env) }

/-- `OpgModel::select_reference`: the overriding always-inline version or the default (models.rs 601-611).
`rec` stands for `get_schema`. -/
def selectReference (env : Env) (rec : Ty → M Model) (t : Ty) (inline : Bool) (p : Params) : M Ref :=
  fun cx =>
  let inlined : Option (Ref × Components) :=
    match rec t cx with
    | none => none
    | some (m, cx') => some (.inline (m.applyParams p), cx')
  if alwaysInline env t then inlined
  else
    match typeName env t with
    | some link => if inline then inlined else some (.link link, cx)
    | none => inlined

/-- `Components::mention_schema` (models.rs 536-548). -/
def mentionWith (env : Env) (rec : Ty → M Model) (t : Ty) (inline : Bool) (p : Params) : M Ref :=
  fun cx =>
  match selectReference env rec t inline p cx with
  | none => none
  | some (reference, cx1) =>
    match reference with
    | .link link =>
      if BMap.containsKey link cx1.schemas then some (reference, cx1)
      else
        match rec t cx1 with
        | none => none
        | some (structure_, cx2) =>
          some (reference, { cx2 with schemas := BMap.insert link structure_ cx2.schemas })
    | _ => some (reference, cx1)

mutual
/-- Meaning of reference expressions (opg.rs 585-589, 671-699). -/
def RefExpr.eval (env : Env) (rec : Ty → M Model) : RefExpr Ty → M Ref
  | .mention t inline p, cx => mentionWith env rec t inline (p.eval env) cx
  | .inline m, cx =>
    match m.eval env rec cx with
    | none => none
    | some (m', cx') => some (.inline m', cx')
  | .any, cx => some (.any, cx)
/-- Meaning of model expressions (opg.rs 77-473, 539-583, 701-745). -/
def ModelExpr.eval (env : Env) (rec : Ty → M Model) : ModelExpr Ty → M Model
  | .getSchema t, cx => rec t cx
  | .getSchemaWithParams t p, cx =>       -- default method, models.rs 595-598
    match rec t cx with
    | none => none
    | some (m, cx') => some (m.applyParams (p.eval env), cx')
  | .single d n td, cx =>
    match td.eval env rec cx with
    | none => none
    | some (td', cx') => some (⟨d, .single ⟨n, td'⟩⟩, cx')
  | .oneOf d rs, cx =>
    match RefExpr.evalList env rec rs cx with
    | none => none
    | some (rs', cx') => some (⟨d, .oneOf rs'⟩, cx')
  | .tagged m ident tag name nullable, cx =>
    match m.eval env rec cx with
    | none => none
    | some (m', cx') => some ((m'.tryMerge (internalTagModel ident tag name nullable)).2, cx')
/-- Meaning of type-description expressions (opg.rs 77-473, 591-669, 701-745). -/
def TypeExpr.eval (env : Env) (rec : Ty → M Model) : TypeExpr Ty → M TypeDesc
  | .string v f e, cx => some (.string v f (e.map (Example.eval env)), cx)
  | .number f e, cx => some (.number f (e.map (Example.eval env)), cx)
  | .integer f e, cx => some (.integer f (e.map (Example.eval env)), cx)
  | .boolean, cx => some (.boolean, cx)
  | .array items, cx =>
    match items.eval env rec cx with
    | none => none
    | some (r, cx') => some (.array r, cx')
  | .object entries, cx =>
    match PropExpr.evalList env rec entries [] [] cx with
    | none => none
    | some ((props, req), cx') => some (.object ⟨props, none, req⟩, cx')
  | .dictionary r, cx =>
    match r.eval env rec cx with
    | none => none
    | some (r', cx') => some (.object ⟨[], some r', []⟩, cx')
/-- `vec![..]` of references (opg.rs 148-473), evaluated left to right. -/
def RefExpr.evalList (env : Env) (rec : Ty → M Model) : List (RefExpr Ty) → M (List Ref)
  | [], cx => some ([], cx)
  | r :: rs, cx =>
    match r.eval env rec cx with
    | none => none
    | some (r', cx') =>
      match RefExpr.evalList env rec rs cx' with
      | none => none
      | some (rs', cx'') => some (r' :: rs', cx'')
/-- The statements `properties.insert(..); required.push(..);` (opg.rs 624-669), given the variables so far. -/
def PropExpr.evalList (env : Env) (rec : Ty → M Model) :
    List (PropExpr Ty) → List (String × Ref) → List String → M (List (String × Ref) × List String)
  | [], props, req, cx => some ((props, req), cx)
  | .mk name r required :: rest, props, req, cx =>
    match r.eval env rec cx with
    | none => none
    | some (r', cx') =>
      PropExpr.evalList env rec rest (BMap.insert name r' props)
        (if required then req ++ [name] else req) cx'
end

/-- `<t as OpgModel>::get_schema(cx)` (models.rs 590) with at most `fuel` nested `get_schema` calls. -/
def getSchema (env : Env) : Nat → Ty → M Model
  | 0, _, _ => none
  | fuel + 1, t, cx =>
    match schemaExpr env t with
    | none => none
    | some e => e.eval env (getSchema env fuel) cx

/-- `cx.mention_schema::<t>(inline, &params)` (models.rs 536-548). -/
def mentionSchema (env : Env) (fuel : Nat) (t : Ty) (inline : Bool) (p : Params) : M Ref :=
  mentionWith env (getSchema env fuel) t inline p

/-- One call on the registry by user code: `mention_schema`, `add_model` or `mention_security_scheme` (models.rs
536-585). -/
inductive Call where
  | mention (t : Ty) (inline : Bool) (p : Params)
  | addModel (name : String) (m : Model)
  | security (name : String) (s : SecurityScheme)

end Verif
