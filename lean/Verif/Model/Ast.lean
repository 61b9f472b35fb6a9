import Verif.Model.Attr
/-!
# `opg_derive/src/ast.rs` and the rest of `attr.rs`: from derive input to a parsed container

The type of a field is a parameter `τ` (type syntax for bounds, semantic types for schema generation).
-/

namespace Verif

/-! ## Derive input (`syn`) -/

/-- `syn::Field`, as read in ast.rs 153-170 and attr.rs 315-421; `ident` is `none` in tuple structs. -/
structure SynField (τ : Type) where
  ident : Option String
  attrs : List Attribute
  ty : τ

/-- `syn::Fields`, as read in ast.rs 143-150. -/
inductive SynFields (τ : Type) where
  | named (fs : List (SynField τ))
  | unnamed (fs : List (SynField τ))
  | unit

/-- `syn::Variant`, as read in ast.rs 102-137 and attr.rs 192-292; the discriminant is given by its token text. -/
structure SynVariant (τ : Type) where
  ident : String
  attrs : List Attribute
  fields : SynFields τ
  discriminant : Option String

/-- `syn::Data`, as read in ast.rs 39-49. -/
inductive SynData (τ : Type) where
  | enum (vs : List (SynVariant τ))
  | struct (fs : SynFields τ)
  | union

/-- `syn::DeriveInput`, as read in ast.rs 36-87 and attr.rs 33-176 (generics are handled in `Bound`). -/
structure DeriveInput (τ : Type) where
  ident : String
  attrs : List Attribute
  data : SynData τ

/-! ## Parsed container -/

/-- `enum StructStyle` (ast.rs 172-178). -/
inductive StructStyle where
  | struct | tuple | newType | unit
  deriving DecidableEq, Repr

/-- `struct Field` of ast.rs (28-33). -/
structure Field (τ : Type) where
  attrs : FieldAttrs
  ty : τ

/-- `struct Variant` of ast.rs (20-26); of `original` only the discriminant is used (opg.rs 79-84). -/
structure Variant (τ : Type) where
  ident : String
  attrs : VariantAttrs
  style : StructStyle
  fields : List (Field τ)
  discriminant : Option String

/-- `enum Data` of ast.rs (15-18). -/
inductive Data (τ : Type) where
  | enum (vs : List (Variant τ))
  | struct (style : StructStyle) (fs : List (Field τ))

/-- `struct Container` of ast.rs (7-13). -/
structure Container (τ : Type) where
  ident : String
  attrs : ContainerAttrs
  data : Data τ

variable {τ : Type}

/-! ## Container attributes -/

/-- `matches!(field.fields, syn::Fields::Unit)` (attr.rs 494). -/
def SynFields.isUnit : SynFields τ → Bool
  | .unit => true
  | _ => false

/-- What `containerAction` needs to know about the data, `input.data` in attr.rs 485-528. -/
def SynData.kind : SynData τ → DataKind
  | .enum _ => .enum
  | .struct (.named _) => .namedStruct
  | .struct _ => .otherStruct
  | .union => .union

/-- `decide_model_type` (attr.rs 485-528). -/
def decideModelType (data : SynData τ) (tagType : TagType) : Except DErr MModelType :=
  match data with
  | .enum variants =>
    if variants.all fun v => v.fields.isUnit then
      match tagType with
      | .none => .error .untaggedUnitEnum
      | _ => .ok .newType
    else
      match tagType with
      | .none | .internal _ => .ok .oneOf
      | .external => .ok .dictionary
      | .adjacent _ _ => .ok .object
  | .struct (.named _) => .ok .object
  | .struct (.unnamed _) => .ok .newType
  | .struct .unit => .error .unitStruct
  | .union => .error .union

/-- `Container::from_ast` of attr.rs (31-177): attributes and recorded errors. -/
def containerAttrsFromAst (o : Oracle) (input : DeriveInput τ) : ContainerAttrs × List DErr :=
  let acc := runAttrs (containerAction o input.data.kind) input.attrs
  let tagType := decideTag (acc.has .untagged) (acc.str .tag) (acc.str .content)
  let (explicit, flagErrs) := atMostOne acc.flags
  let (modelType, mtErrs) := match decideModelType input.data tagType with
    | .ok mt => (mt, [])
    | .error e => (MModelType.object, [e])
  ({ name := Name.fromAttrs (unraw input.ident) (acc.str .rename)
     renameRule := acc.rule
     transparent := acc.has .transparent
     tagType := tagType
     hasFlatten := false
     hasRepr := acc.has .repr
     description := acc.str .description
     format := acc.str .format
     ex := acc.exv
     inline := acc.has .inline
     nullable := acc.has .nullable
     explicitModelType := explicit
     modelType := modelType }, acc.errs ++ flagErrs ++ mtErrs)

/-! ## Fields and variants -/

/-- `fields_from_ast` (ast.rs 153-170), numbering from `i`. -/
def fieldsFromAst (o : Oracle) : Nat → List (SynField τ) → List (Field τ) × List DErr
  | _, [] => ([], [])
  | i, f :: fs =>
    let (a, e) := fieldAttrsFromAst o i f.ident f.attrs
    let (rest, es) := fieldsFromAst o (i + 1) fs
    (⟨a, f.ty⟩ :: rest, e ++ es)

/-- `struct_from_ast` (ast.rs 139-151). -/
def structFromAst (o : Oracle) (fields : SynFields τ) : (StructStyle × List (Field τ)) × List DErr :=
  match fields with
  | .named fs => let (r, e) := fieldsFromAst o 0 fs; ((.struct, r), e)
  | .unnamed fs =>
    let (r, e) := fieldsFromAst o 0 fs
    ((if fs.length = 1 then .newType else .tuple, r), e)
  | .unit => ((.unit, []), [])

/-- The closure of `enum_from_ast` (ast.rs 124-134). -/
def variantFromAst (o : Oracle) (v : SynVariant τ) : Variant τ × List DErr :=
  let (a, e) := variantAttrsFromAst o v.ident v.attrs
  let ((style, fields), es) := structFromAst o v.fields
  (⟨v.ident, a, style, fields, v.discriminant⟩, e ++ es)

/-- `has_consistent_discriminants` (ast.rs 106-114). -/
def consistentDiscriminants (vs : List (SynVariant τ)) : Bool :=
  match vs with
  | [] => true
  | v :: vs => vs.all fun w => w.discriminant.isSome == v.discriminant.isSome

/-- The mapping of `enum_from_ast` (ast.rs 121-136). -/
def variantsFromAst (o : Oracle) : List (SynVariant τ) → List (Variant τ) × List DErr
  | [] => ([], [])
  | v :: vs =>
    let (a, e) := variantFromAst o v
    let (rest, es) := variantsFromAst o vs
    (a :: rest, e ++ es)

/-- `attr::Field::rename_by_rule` (attr.rs 423-425); `none` is a panic. -/
def Field.rename (r : RenameRule) (f : Field τ) : Option (Field τ) :=
  (f.attrs.name.renameAsField r).map fun n => { f with attrs := { f.attrs with name := n } }

/-- The `for` loops of ast.rs 54-62 and 65-70 over a list, stopping at the first panic. -/
def mapPanic {α β : Type} (f : α → Option β) : List α → Option (List β)
  | [] => some []
  | a :: as =>
    match f a with
    | none => none
    | some b =>
      match mapPanic f as with
      | none => none
      | some bs => some (b :: bs)

/-- Renaming of one variant and of its fields (ast.rs 55-63). -/
def Variant.rename (isUpper : Char → Bool) (r : RenameRule) (v : Variant τ) : Option (Variant τ) :=
  match v.attrs.name.renameAsVariant isUpper r with
  | none => none
  | some n =>
    match mapPanic (Field.rename v.attrs.renameRule) v.fields with
    | none => none
    | some fs => some { v with attrs := { v.attrs with name := n }, fields := fs }

/-- `Container::from_ast` (ast.rs 35-87). Outer `none`: panic. Inner `none`: the Rust `None`. -/
def containerFromAst (o : Oracle) (input : DeriveInput τ) : Option (Option (Container τ) × List DErr) :=
  let (attrs, errs) := containerAttrsFromAst o input
  match input.data with
  | .union => some (none, errs ++ [.unionType])
  | .enum vs =>
    if consistentDiscriminants vs then
      let (vars, es) := variantsFromAst o vs
      match mapPanic (Variant.rename o.isUpper attrs.renameRule) vars with
      | none => none
      | some vars' =>
        let flat := vars.any fun v => v.fields.any fun f => f.attrs.flatten
        some (some ⟨input.ident, { attrs with hasFlatten := flat }, .enum vars'⟩, errs ++ es)
    else some (none, errs ++ [.inconsistentDiscriminants])
  | .struct fields =>
    let ((style, fs), es) := structFromAst o fields
    match mapPanic (Field.rename attrs.renameRule) fs with
    | none => none
    | some fs' =>
      let flat := fs.any fun f => f.attrs.flatten
      some (some ⟨input.ident, { attrs with hasFlatten := flat }, .struct style fs'⟩, errs ++ es)

end Verif
