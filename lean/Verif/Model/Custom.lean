import Verif.Model.Eval
/-!
# Hand written impls of `OpgModel`

Code that is given `cx: &mut Components` is what it calls, and what it does with the results.  Simplifications: the public
fields `schemas` and `security_schemes` are not accessed, and code without effects on the registry is a function.
-/

namespace Verif

/-- Code that works on a registry: calls of methods of `Components` (models.rs 524-585) and of `OpgModel` (588-612). -/
inductive Prog (τ : Type) (α : Type) where
  /-- the value of the code -/
  | ret (a : α)
  /-- `<t as OpgModel>::get_schema(cx)` -/
  | getSchema (t : τ) (k : Model → Prog τ α)
  /-- `<t as OpgModel>::get_schema_with_params(cx, &params)` -/
  | withParams (t : τ) (p : Params) (k : Model → Prog τ α)
  /-- `cx.mention_schema::<t>(inline, &params)` -/
  | mention (t : τ) (inline : Bool) (p : Params) (k : Ref → Prog τ α)
  /-- `<t as OpgModel>::select_reference(cx, inline, &params)` -/
  | select (t : τ) (inline : Bool) (p : Params) (k : Ref → Prog τ α)
  /-- `cx.contains_model(name)` -/
  | contains (name : String) (k : Bool → Prog τ α)
  /-- `cx.verify_schemas()` -/
  | verify (k : Except String Unit → Prog τ α)
  /-- `cx.add_model(name, model)` -/
  | addModel (name : String) (m : Model) (next : Prog τ α)
  /-- `cx.mention_security_scheme(name, &scheme)` -/
  | security (name : String) (s : SecurityScheme) (next : Prog τ α)

/-- The method `select_reference` of an impl (models.rs 600-611). -/
inductive Select (τ : Type) where
  /-- not overridden -/
  | default
  /-- overridden as in macros.rs 227-230, 323-326 and opg.rs 786-789: always the schema itself -/
  | inlined
  /-- overridden by other code -/
  | custom (f : Bool → Params → Prog τ Ref)

/-- `impl OpgModel for ..` (models.rs 588-612); `withParams` is `none` if `get_schema_with_params` is not overridden. -/
structure Impl (τ : Type) where
  schema : Prog τ Model
  name : Option String
  withParams : Option (Params → Prog τ Model) := none
  select : Select τ := .default

/-- The calls that need an impl: methods of the trait (models.rs 588-612) and `mention_schema` (536-548). -/
structure Ops (τ : Type) where
  getSchema : τ → M Model
  withParams : τ → Params → M Model
  mention : τ → Bool → Params → M Ref
  select : τ → Bool → Params → M Ref

/-- Running code that makes the calls of models.rs 531-585 and 588-612. -/
def Prog.exec {τ α : Type} (ops : Ops τ) : Prog τ α → M α
  | .ret a, cx => some (a, cx)
  | .getSchema t k, cx =>
    match ops.getSchema t cx with
    | none => none
    | some (m, cx') => (k m).exec ops cx'
  | .withParams t p k, cx =>
    match ops.withParams t p cx with
    | none => none
    | some (m, cx') => (k m).exec ops cx'
  | .mention t i p k, cx =>
    match ops.mention t i p cx with
    | none => none
    | some (r, cx') => (k r).exec ops cx'
  | .select t i p k, cx =>
    match ops.select t i p cx with
    | none => none
    | some (r, cx') => (k r).exec ops cx'
  | .contains n k, cx => (k (cx.containsModel n)).exec ops cx
  | .verify k, cx => (k cx.verifySchemas).exec ops cx
  | .addModel n m next, cx => next.exec ops (cx.addModel n m)
  | .security n s next, cx => next.exec ops (cx.mentionSecurityScheme n s).2

/-- `Self::get_schema(cx).apply_params(params)` (models.rs 597, 609). -/
def appliedSchema (schema : M Model) (p : Params) : M Model := fun cx =>
  match schema cx with
  | none => none
  | some (m, cx') => some (m.applyParams p, cx')

/-- `get_schema_with_params` (models.rs 596-598). -/
def Impl.runWithParams {τ : Type} (im : Impl τ) (run : (α : Type) → Prog τ α → M α) (p : Params) : M Model :=
  match im.withParams with
  | none => appliedSchema (run Model im.schema) p
  | some f => run Model (f p)

/-- `select_reference` (models.rs 602-611). -/
def Impl.runSelect {τ : Type} (im : Impl τ) (run : (α : Type) → Prog τ α → M α) (inline : Bool) (p : Params) : M Ref := fun cx =>
  let inlined : Option (Ref × Components) :=
    match appliedSchema (run Model im.schema) p cx with
    | none => none
    | some (m, cx') => some (.inline m, cx')
  match im.select with
  | .inlined => inlined
  | .custom f => run Ref (f inline p) cx
  | .default =>
    match im.name with
    | some link => if inline then inlined else some (.link link, cx)
    | none => inlined

/-- `Components::mention_schema` (models.rs 536-548). -/
def mentionVia (select : M Ref) (schema : M Model) : M Ref := fun cx =>
  match select cx with
  | none => none
  | some (reference, cx1) =>
    match reference with
    | .link link =>
      if BMap.containsKey link cx1.schemas then some (reference, cx1)
      else
        match schema cx1 with
        | none => none
        | some (structure_, cx2) =>
          some (reference, { cx2 with schemas := BMap.insert link structure_ cx2.schemas })
    | _ => some (reference, cx1)

/-- The calls of models.rs 536-548 and 588-612, given how the bodies of impls run. -/
def implOps {τ : Type} (w : τ → Impl τ) (run : (α : Type) → Prog τ α → M α) : Ops τ where
  getSchema t := run Model (w t).schema
  withParams t p := (w t).runWithParams run p
  mention t i p := mentionVia ((w t).runSelect run i p) (run Model (w t).schema)
  select t i p := (w t).runSelect run i p

/-- Running code where `w` gives the impl of each type (models.rs 588-612), with at most `fuel` nested calls of impls;
the bound is the model's own. -/
def runProg {τ : Type} (w : τ → Impl τ) : Nat → (α : Type) → Prog τ α → M α
  | 0, _, _ => fun _ => none
  | fuel + 1, _, p => p.exec (implOps w (runProg w fuel))

/-! ## Derived and built-in impls -/

/-- One piece of code after another (sequencing of Rust statements; nothing of its own in /repo). -/
def Prog.bind {τ α β : Type} : Prog τ α → (α → Prog τ β) → Prog τ β
  | .ret a, f => f a
  | .getSchema t k, f => .getSchema t fun m => (k m).bind f
  | .withParams t p k, f => .withParams t p fun m => (k m).bind f
  | .mention t i p k, f => .mention t i p fun r => (k r).bind f
  | .select t i p k, f => .select t i p fun r => (k r).bind f
  | .contains n k, f => .contains n fun b => (k b).bind f
  | .verify k, f => .verify fun e => (k e).bind f
  | .addModel n m next, f => .addModel n m (next.bind f)
  | .security n s next, f => .security n s (next.bind f)

mutual
/-- The code of reference expressions (opg.rs 585-589, 671-699). -/
def RefExpr.prog (env : Env) : RefExpr Ty → Prog Ty Ref
  | .mention t i p => .mention t i (p.eval env) .ret
  | .inline m => (m.prog env).bind fun m => .ret (.inline m)
  | .any => .ret .any
/-- The code of model expressions (opg.rs 77-473, 539-583, 701-745). -/
def ModelExpr.prog (env : Env) : ModelExpr Ty → Prog Ty Model
  | .getSchema t => .getSchema t .ret
  | .getSchemaWithParams t p => .withParams t (p.eval env) .ret
  | .single d n td => (td.prog env).bind fun td => .ret ⟨d, .single ⟨n, td⟩⟩
  | .oneOf d rs => (RefExpr.progList env rs).bind fun rs => .ret ⟨d, .oneOf rs⟩
  | .tagged m ident tag name nullable =>
    (m.prog env).bind fun m => .ret (m.tryMerge (internalTagModel ident tag name nullable)).2
/-- The code of type-description expressions (opg.rs 77-473, 591-669, 701-745). -/
def TypeExpr.prog (env : Env) : TypeExpr Ty → Prog Ty TypeDesc
  | .string v f e => .ret (.string v f (e.map (Example.eval env)))
  | .number f e => .ret (.number f (e.map (Example.eval env)))
  | .integer f e => .ret (.integer f (e.map (Example.eval env)))
  | .boolean => .ret .boolean
  | .array r => (r.prog env).bind fun r => .ret (.array r)
  | .object es => (PropExpr.progList env es [] []).bind fun x => .ret (.object ⟨x.1, none, x.2⟩)
  | .dictionary r => (r.prog env).bind fun r => .ret (.object ⟨[], some r, []⟩)
/-- The code of lists of references: the `vec![..]`s of opg.rs 148-473. -/
def RefExpr.progList (env : Env) : List (RefExpr Ty) → Prog Ty (List Ref)
  | [] => .ret []
  | r :: rs => (r.prog env).bind fun r => (RefExpr.progList env rs).bind fun rs => .ret (r :: rs)
/-- The code of properties (opg.rs 624-669). -/
def PropExpr.progList (env : Env) : List (PropExpr Ty) → List (String × Ref) → List String →
    Prog Ty (List (String × Ref) × List String)
  | [], props, req => .ret (props, req)
  | .mk name r required :: rest, props, req => (r.prog env).bind fun r =>
    PropExpr.progList env rest (BMap.insert name r props) (if required then req ++ [name] else req)
end

/-- `type_name` (models.rs 593; macros.rs 180-182, 196-198) where some of the named types have hand written impls
(otherwise `typeName`). -/
def mixedName (env : Env) (custom : Nat → Option (Impl Ty)) : Ty → Option String
  | .wrap _ t => mixedName env custom t
  | .option t => mixedName env custom t
  | .named i =>
    match custom i with
    | some im => im.name
    | none => typeName env (.named i)
  | t => typeName env t

/-- The code of the `get_schema` generated for a type (opg.rs 801-803), or written in the library's own impls (lib.rs
13-262).  A type whose macro panicked has none; its schema is taken not to return. -/
def schemaProg (env : Env) (t : Ty) : Prog Ty Model :=
  match schemaExpr env t with
  | none => .getSchema t .ret
  | some e => e.prog env

/-- The impls of a program (models.rs 588-612) in which some of the named types have hand written impls; the others
are generated (opg.rs 774-807), or the library's own (lib.rs 13-262). -/
def impls (env : Env) (custom : Nat → Option (Impl Ty)) (t : Ty) : Impl Ty :=
  let derived : Impl Ty :=
    { schema := schemaProg env t
      name := mixedName env custom t
      select := if alwaysInline env t then .inlined else .default }
  match t with
  | .named i => (custom i).getD derived
  | _ => derived

end Verif
