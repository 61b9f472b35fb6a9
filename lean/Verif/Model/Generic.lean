import Verif.Model.Types
/-!
# Generic types

`#[derive(OpgModel)]` runs once on a generic item; the impl it writes (`implement_type`, opg.rs 774-807) has the type
parameters of the item, and the compiler instantiates it for each list of arguments.  `map` puts types for type
expressions in inputs, parsed items and generated code; nothing else in them depends on types.
-/

namespace Verif

variable {τ σ : Type}

/-- The field (ast.rs 153-170) with another type for its type expression. -/
def SynField.map (f : τ → σ) (x : SynField τ) : SynField σ := ⟨x.ident, x.attrs, f x.ty⟩
/-- The fields (ast.rs 143-150) with other types for their type expressions. -/
def SynFields.map (f : τ → σ) : SynFields τ → SynFields σ
  | .named fs => .named (fs.map (SynField.map f))
  | .unnamed fs => .unnamed (fs.map (SynField.map f))
  | .unit => .unit
/-- The variant (ast.rs 102-137) with other types for its type expressions. -/
def SynVariant.map (f : τ → σ) (v : SynVariant τ) : SynVariant σ := ⟨v.ident, v.attrs, v.fields.map f, v.discriminant⟩
/-- The data (ast.rs 39-49) with other types for its type expressions. -/
def SynData.map (f : τ → σ) : SynData τ → SynData σ
  | .enum vs => .enum (vs.map (SynVariant.map f))
  | .struct fs => .struct (fs.map f)
  | .union => .union
/-- The item (ast.rs 36) with other types for its type expressions. -/
def DeriveInput.map (f : τ → σ) (i : DeriveInput τ) : DeriveInput σ := ⟨i.ident, i.attrs, i.data.map f⟩

/-- The parsed field (ast.rs 28-33) with another type for its type expression. -/
def Field.map (f : τ → σ) (x : Field τ) : Field σ := ⟨x.attrs, f x.ty⟩
/-- The parsed variant (ast.rs 20-26) with other types for its type expressions. -/
def Variant.map (f : τ → σ) (v : Variant τ) : Variant σ := ⟨v.ident, v.attrs, v.style, v.fields.map (Field.map f), v.discriminant⟩
/-- The parsed data (ast.rs 15-18) with other types for its type expressions. -/
def Data.map (f : τ → σ) : Data τ → Data σ
  | .enum vs => .enum (vs.map (Variant.map f))
  | .struct style fs => .struct style (fs.map (Field.map f))
/-- The parsed item (ast.rs 7-13) with other types for its type expressions. -/
def Container.map (f : τ → σ) (c : Container τ) : Container σ := ⟨c.ident, c.attrs, c.data.map f⟩

mutual
/-- Instantiated code (opg.rs 26-29): references. -/
def RefExpr.map (f : τ → σ) : RefExpr τ → RefExpr σ
  | .mention t inline p => .mention (f t) inline p
  | .inline m => .inline (m.map f)
  | .any => .any
/-- Instantiated code (opg.rs 26-29): models. -/
def ModelExpr.map (f : τ → σ) : ModelExpr τ → ModelExpr σ
  | .getSchema t => .getSchema (f t)
  | .getSchemaWithParams t p => .getSchemaWithParams (f t) p
  | .single d n td => .single d n (td.map f)
  | .oneOf d rs => .oneOf d (RefExpr.mapList f rs)
  | .tagged m a b c n => .tagged (m.map f) a b c n
/-- Instantiated code (opg.rs 26-29): type descriptions. -/
def TypeExpr.map (f : τ → σ) : TypeExpr τ → TypeExpr σ
  | .string v fm e => .string v fm e
  | .number fm e => .number fm e
  | .integer fm e => .integer fm e
  | .boolean => .boolean
  | .array r => .array (r.map f)
  | .object es => .object (PropExpr.mapList f es)
  | .dictionary r => .dictionary (r.map f)
/-- Instantiated code (opg.rs 26-29): lists of references. -/
def RefExpr.mapList (f : τ → σ) : List (RefExpr τ) → List (RefExpr σ)
  | [] => []
  | r :: rs => r.map f :: RefExpr.mapList f rs
/-- Instantiated code (opg.rs 26-29): properties. -/
def PropExpr.mapList (f : τ → σ) : List (PropExpr τ) → List (PropExpr σ)
  | [] => []
  | .mk n r q :: es => .mk n (r.map f) q :: PropExpr.mapList f es
end

/-- The outcome of the macro (opg.rs 10-35) with other types for type expressions. -/
def DeriveOutcome.map (f : τ → σ) : DeriveOutcome τ → DeriveOutcome σ
  | .panic p => .panic p
  | .errors es => .errors es
  | .code c body => .code (c.map f) (body.map f)

/-- Types as they occur in generic items (opg.rs 26-29): the types of `Ty`, type parameters (by position) and generic
items applied to arguments. -/
inductive GTy where
  | param (k : Nat)
  | prim (p : Prim)
  | wrap (w : Wrapper) (t : GTy)
  | option (t : GTy)
  | tuple (ts : List GTy)
  | seq (k : SeqKind) (t : GTy)
  | dict (k : DictKind) (t : GTy)
  | unit
  | uuid
  | naiveDateTime
  | dateTime
  | naiveDate
  | app (item : Nat) (args : List GTy)

mutual
/-- The type meant by a type expression in an instance of the impl of opg.rs 26-29, for given arguments; `index`
numbers the instances. -/
def GTy.inst (index : Nat → List Ty → Nat) (args : List Ty) : GTy → Ty
  | .param k => args.getD k .unit
  | .prim p => .prim p
  | .wrap w t => .wrap w (t.inst index args)
  | .option t => .option (t.inst index args)
  | .tuple ts => .tuple (GTy.instList index args ts)
  | .seq k t => .seq k (t.inst index args)
  | .dict k t => .dict k (t.inst index args)
  | .unit => .unit
  | .uuid => .uuid
  | .naiveDateTime => .naiveDateTime
  | .dateTime => .dateTime
  | .naiveDate => .naiveDate
  | .app g as => .named (index g (GTy.instList index args as))
/-- `GTy.inst` on lists (opg.rs 26-29). -/
def GTy.instList (index : Nat → List Ty → Nat) (args : List Ty) : List GTy → List Ty
  | [] => []
  | t :: ts => t.inst index args :: GTy.instList index args ts
end

end Verif
