import Verif.Model.Ast
/-!
# Surface syntax of the attributes (specification)

Which attribute items are recognised on which kind of item, and what they mean, as tables.
-/

namespace Verif

/-- The attributes the macro looks at. -/
def attrNames : List (String × AttrFrom) := [("opg", .opg), ("serde", .serde), ("repr", .repr)]

/-- Which of these an attribute is, by its path. -/
def attrSource (path : String) : Option AttrFrom := attrNames.lookup path

/-- The meta items of the relevant attributes of one item, in order; `none` if one of them is not of the form
`#[name(..)]`. -/
def itemsOf : List Attribute → Option (List (AttrFrom × NestedMeta))
  | [] => some []
  | a :: rest =>
    match attrSource a.path, a.parsed, itemsOf rest with
    | none, _, r => r
    | some src, .list nested, some r => some (nested.map (fun m => (src, m)) ++ r)
    | some _, _, _ => none

/-- Items of `rename(..)` that do not give the serialized name: `deserialize = ..`, and `serialize = ..` with
something that is not a string. -/
inductive NoSerializedName : NestedMeta → Prop
  | deserialize (l) : NoSerializedName (.item (.nameValue "deserialize" l))
  | serialize : NoSerializedName (.item (.nameValue "serialize" .other))

/-- `rename = "s"` and `rename(serialize = "s")`, the latter possibly among other items. -/
inductive NamesSerialized (word : String) : NestedMeta → String → Prop
  | nameValue (s) : NamesSerialized word (.item (.nameValue word (.str s))) s
  | list (before after : List NestedMeta) (s) (hb : ∀ m ∈ before, NoSerializedName m)
      (ha : ∀ m ∈ after, NoSerializedName m) :
      NamesSerialized word (.item (.list word (before ++ .item (.nameValue "serialize" (.str s)) :: after))) s

/-- Items understood in the same way on containers, variants and fields. -/
inductive CommonGives (o : Oracle) : AttrFrom → NestedMeta → AttrKey → AVal → Prop
  | rename {m s} (h : NamesSerialized "rename" m s) : CommonGives o .serde m .rename (.str s)
  | description (s) : CommonGives o .opg (.lit (.str s)) .description (.str s)
  | format (s) : CommonGives o .opg (.item (.nameValue "format" (.str s))) .format (.str s)
  | ex (s) : CommonGives o .opg (.item (.nameValue "example" (.str s))) .ex (.ex (.lit s))
  | exWith (s) (h : o.exprOk s = true) :
      CommonGives o .opg (.item (.nameValue "example_with" (.str s))) .ex (.ex (.expr s))
  | inline : CommonGives o .opg (.item (.path "inline")) .inline .unit

/-- Items recognised on a container. -/
inductive ContainerGives (o : Oracle) (kind : DataKind) : AttrFrom → NestedMeta → AttrKey → AVal → Prop
  | common {src m k v} (h : CommonGives o src m k v) : ContainerGives o kind src m k v
  | renameAll {m s r} (h : NamesSerialized "rename_all" m s) (hr : RenameRule.fromStr s = some r) :
      ContainerGives o kind .serde m .renameAll (.rule r)
  | transparent : ContainerGives o kind .serde (.item (.path "transparent")) .transparent .unit
  | untagged (h : kind = .enum) : ContainerGives o kind .serde (.item (.path "untagged")) .untagged .unit
  | tag (s) (h : kind = .enum ∨ kind = .namedStruct) :
      ContainerGives o kind .serde (.item (.nameValue "tag" (.str s))) .tag (.str s)
  | content (s) (h : kind = .enum) :
      ContainerGives o kind .serde (.item (.nameValue "content" (.str s))) .content (.str s)
  | nullable : ContainerGives o kind .opg (.item (.path "nullable")) .nullable .unit
  | repr (m) : ContainerGives o kind .repr m .repr .unit

/-- Items recognised on a variant. -/
inductive VariantGives (o : Oracle) : AttrFrom → NestedMeta → AttrKey → AVal → Prop
  | common {src m k v} (h : CommonGives o src m k v) : VariantGives o src m k v
  | renameAll {m s r} (h : NamesSerialized "rename_all" m s) (hr : RenameRule.fromStr s = some r) :
      VariantGives o .serde m .renameAll (.rule r)
  | skip : VariantGives o .serde (.item (.path "skip")) .skipSerializing .unit
  | skipSerializing : VariantGives o .serde (.item (.path "skip_serializing")) .skipSerializing .unit

/-- Items recognised on a field. -/
inductive FieldGives (o : Oracle) : AttrFrom → NestedMeta → AttrKey → AVal → Prop
  | common {src m k v} (h : CommonGives o src m k v) : FieldGives o src m k v
  | skip : FieldGives o .serde (.item (.path "skip")) .skipSerializing .unit
  | skipSerializing : FieldGives o .serde (.item (.path "skip_serializing")) .skipSerializing .unit
  | skipSerializingIf (s) (h : o.pathOk s = true) :
      FieldGives o .serde (.item (.nameValue "skip_serializing_if" (.str s))) .skipSerializingIf .unit
  | flatten : FieldGives o .serde (.item (.path "flatten")) .flatten .unit
  | optional : FieldGives o .opg (.item (.path "optional")) .optional .unit
  | nullable : FieldGives o .opg (.item (.path "nullable")) .nullable .unit

/-- The type words `string`, `number`, `integer`, `boolean`, `any`. -/
def typeWords : List (String × ExplicitModelType) :=
  [("string", .string), ("number", .number), ("integer", .integer), ("boolean", .boolean), ("any", .any)]

/-- `opg(..)` items that are not understood: a word, a `name = value` or a list whose name is unknown, where
`words` are the additional known words; a known name with a value of the wrong form. -/
inductive OpgRejected (o : Oracle) (words : List String) : NestedMeta → Prop
  | word (p) (h : p ∉ "inline" :: words) (ht : p ∉ typeWords.map Prod.fst) : OpgRejected o words (.item (.path p))
  | nameValue (p l) (h : p ∉ ["format", "example", "example_with"]) : OpgRejected o words (.item (.nameValue p l))
  | notString (p) : OpgRejected o words (.item (.nameValue p .other))
  | notExpr (s) (h : o.exprOk s = false) : OpgRejected o words (.item (.nameValue "example_with" (.str s)))
  | list (p items) : OpgRejected o words (.item (.list p items))

/-- The name of a meta item. -/
def NestedMeta.name : NestedMeta → Option String
  | .item (.path p) => some p
  | .item (.nameValue p _) => some p
  | .item (.list p _) => some p
  | .lit _ => none

/-- `serde(..)` items this crate looks at, by kind of item. -/
def containerSerdeNames : List String := ["rename", "rename_all", "transparent", "untagged", "tag", "content"]
def variantSerdeNames : List String := ["rename", "rename_all", "skip", "skip_serializing"]
def fieldSerdeNames : List String := ["rename", "skip", "skip_serializing", "skip_serializing_if", "flatten"]

end Verif

namespace Verif

/-- Some attribute item of the list gives `k` the value `v`, according to the table `g`. -/
def Gives (g : AttrFrom → NestedMeta → AttrKey → AVal → Prop) (attrs : List Attribute) (k : AttrKey) (v : AVal) :
    Prop :=
  ∃ items, itemsOf attrs = some items ∧ ∃ x ∈ items, g x.1 x.2 k v

/-- The attributes carry `opg(<type word>)`. -/
def GivesType (attrs : List Attribute) (t : ExplicitModelType) : Prop :=
  ∃ items, itemsOf attrs = some items ∧ ∃ p, (AttrFrom.opg, NestedMeta.item (.path p)) ∈ items ∧ (p, t) ∈ typeWords

/-- One attribute is given twice. -/
def Duplicated (g : AttrFrom → NestedMeta → AttrKey → AVal → Prop) (attrs : List Attribute) : Prop :=
  ∃ pre x mid y post, itemsOf attrs = some (pre ++ x :: mid ++ y :: post) ∧
    ((∃ k v w, g x.1 x.2 k v ∧ g y.1 y.2 k w) ∨
     (∃ p q t u, x = (.opg, .item (.path p)) ∧ y = (.opg, .item (.path q)) ∧ (p, t) ∈ typeWords ∧ (q, u) ∈ typeWords))

/-- Some `opg(..)` item is not understood. -/
def Rejected (o : Oracle) (words : List String) (attrs : List Attribute) : Prop :=
  ∃ items, itemsOf attrs = some items ∧ ∃ m, (AttrFrom.opg, m) ∈ items ∧ OpgRejected o words m

variable {τ : Type}

def SynFields.list : SynFields τ → List (SynField τ)
  | .named fs => fs
  | .unnamed fs => fs
  | .unit => []

def SynData.variants : SynData τ → List (SynVariant τ)
  | .enum vs => vs
  | _ => []

/-- The fields of a struct (not those of variants). -/
def SynData.structFields : SynData τ → List (SynField τ)
  | .struct fs => fs.list
  | _ => []

/-- The rename rule given by `serde(rename_all = "..")`, `None` otherwise. -/
def RuleOf (g : AttrFrom → NestedMeta → AttrKey → AVal → Prop) (attrs : List Attribute) (r : RenameRule) : Prop :=
  Gives g attrs .renameAll (.rule r) ∨ ((∀ v, ¬ Gives g attrs .renameAll v) ∧ r = .none)

/-- The identifier of a field without `r#`, or its index. -/
def SynField.source (index : Nat) (f : SynField τ) : String :=
  match f.ident with
  | some i => unraw i
  | none => toString index

/-- The serialized name a field must have under the rule of its container (or variant). -/
def FieldSerializedAs (o : Oracle) (rule : RenameRule) (index : Nat) (f : SynField τ) (s : String) : Prop :=
  Gives (FieldGives o) f.attrs .rename (.str s) ∨
  ((∀ v, ¬ Gives (FieldGives o) f.attrs .rename v) ∧ rule.applyToField (f.source index) = some s)

/-- The serialized name a variant must have under the rule of its container. -/
def VariantSerializedAs (o : Oracle) (rule : RenameRule) (v : SynVariant τ) (s : String) : Prop :=
  Gives (VariantGives o) v.attrs .rename (.str s) ∨
  ((∀ x, ¬ Gives (VariantGives o) v.attrs .rename x) ∧ rule.applyToVariant o.isUpper (unraw v.ident) = some s)

/-! ## Tagging -/

/-- How the tag attributes of a container decide its tagging.  Contradictory combinations count as external. -/
inductive Tagging (g : AttrFrom → NestedMeta → AttrKey → AVal → Prop) (attrs : List Attribute) : TagType → Prop
  | external (hu : ¬ Gives g attrs .untagged .unit) (ht : ∀ s, ¬ Gives g attrs .tag (.str s))
      (hc : ∀ s, ¬ Gives g attrs .content (.str s)) : Tagging g attrs .external
  | untagged (hu : Gives g attrs .untagged .unit) (ht : ∀ s, ¬ Gives g attrs .tag (.str s))
      (hc : ∀ s, ¬ Gives g attrs .content (.str s)) : Tagging g attrs .none
  | internal (t) (hu : ¬ Gives g attrs .untagged .unit) (ht : Gives g attrs .tag (.str t))
      (hc : ∀ s, ¬ Gives g attrs .content (.str s)) : Tagging g attrs (.internal t)
  | adjacent (t c) (hu : ¬ Gives g attrs .untagged .unit) (ht : Gives g attrs .tag (.str t))
      (hc : Gives g attrs .content (.str c)) : Tagging g attrs (.adjacent t c)
  | contradictory (hu : Gives g attrs .untagged .unit)
      (h : (∃ s, Gives g attrs .tag (.str s)) ∨ ∃ s, Gives g attrs .content (.str s)) : Tagging g attrs .external
  | contentOnly (c) (hu : ¬ Gives g attrs .untagged .unit) (ht : ∀ s, ¬ Gives g attrs .tag (.str s))
      (hc : Gives g attrs .content (.str c)) : Tagging g attrs .external

/-- An enum is not just a list of unit variants. -/
def HasData (vs : List (SynVariant τ)) : Prop := ∃ v ∈ vs, v.fields ≠ .unit

/-- Some variants of an enum have an explicit discriminant and others do not. -/
def MixedDiscriminants (vs : List (SynVariant τ)) : Prop :=
  (∃ v ∈ vs, v.discriminant ≠ none) ∧ ∃ v ∈ vs, v.discriminant = none

/-! ## The same item with attributes written differently -/

/-- Two lists related element by element. -/
inductive Pointwise {α β : Type} (R : α → β → Prop) : List α → List β → Prop
  | nil : Pointwise R [] []
  | cons {a b as bs} (h : R a b) (t : Pointwise R as bs) : Pointwise R (a :: as) (b :: bs)

/-- The attribute items are the same up to order and grouping. -/
def Reordered (attrs attrs' : List Attribute) : Prop :=
  ∃ items items', itemsOf attrs = some items ∧ itemsOf attrs' = some items' ∧ items.Perm items'

/-- `attrs'` is `attrs` with one more attribute that belongs to some other macro, or one more `serde` item with
a name not in `names`. -/
inductive Extended (names : List String) : List Attribute → List Attribute → Prop
  | same (attrs) : Extended names attrs attrs
  | foreign (as bs : List Attribute) (a : Attribute) (h : a.path ∉ ["opg", "serde", "repr"]) :
      Extended names (as ++ bs) (as ++ a :: bs)
  | unknown {attrs attrs'} (pre post : List (AttrFrom × NestedMeta)) (m : NestedMeta)
      (h : itemsOf attrs = some (pre ++ post)) (h' : itemsOf attrs' = some (pre ++ (.serde, m) :: post))
      (hm : ∀ n, m.name = some n → n ∉ names) : Extended names attrs attrs'

/-- Fields that differ at most in attributes related by `R`. -/
structure FieldRel (R : List Attribute → List Attribute → Prop) (f g : SynField τ) : Prop where
  ident : g.ident = f.ident
  ty : g.ty = f.ty
  attrs : R f.attrs g.attrs

inductive FieldsRel (R : List Attribute → List Attribute → Prop) : SynFields τ → SynFields τ → Prop
  | named {fs gs} (h : Pointwise (FieldRel R) fs gs) : FieldsRel R (.named fs) (.named gs)
  | unnamed {fs gs} (h : Pointwise (FieldRel R) fs gs) : FieldsRel R (.unnamed fs) (.unnamed gs)
  | unit : FieldsRel R .unit .unit

structure VariantRel (Rv Rf : List Attribute → List Attribute → Prop) (v w : SynVariant τ) : Prop where
  ident : w.ident = v.ident
  discriminant : w.discriminant = v.discriminant
  attrs : Rv v.attrs w.attrs
  fields : FieldsRel Rf v.fields w.fields

inductive DataRel (Rv Rf : List Attribute → List Attribute → Prop) : SynData τ → SynData τ → Prop
  | enum {vs ws} (h : Pointwise (VariantRel Rv Rf) vs ws) : DataRel Rv Rf (.enum vs) (.enum ws)
  | struct {fs gs} (h : FieldsRel Rf fs gs) : DataRel Rv Rf (.struct fs) (.struct gs)
  | union : DataRel Rv Rf .union .union

/-- Items that differ at most in their attributes. -/
structure InputRel (Rc Rv Rf : List Attribute → List Attribute → Prop) (i j : DeriveInput τ) : Prop where
  ident : j.ident = i.ident
  attrs : Rc i.attrs j.attrs
  data : DataRel Rv Rf i.data j.data

/-! ## Panics -/

/-- The attribute items of the well-formed attributes. -/
def wellFormedItems (attrs : List Attribute) : List (AttrFrom × NestedMeta) :=
  attrs.flatMap fun a =>
    match attrSource a.path, a.parsed with
    | some src, .list nested => nested.map fun m => (src, m)
    | _, _ => []

/-- The first well-formed item giving `k` gives it `v`. -/
def FirstGives (g : AttrFrom → NestedMeta → AttrKey → AVal → Prop) (attrs : List Attribute) (k : AttrKey)
    (v : AVal) : Prop :=
  ∃ pre x post, wellFormedItems attrs = pre ++ x :: post ∧ g x.1 x.2 k v ∧ ∀ y ∈ pre, ∀ w, ¬ g y.1 y.2 k w

/-- `rename_all` is `camelCase` (the only conversion that can fail). -/
def CamelCased (g : AttrFrom → NestedMeta → AttrKey → AVal → Prop) (attrs : List Attribute) : Prop :=
  FirstGives g attrs .renameAll (.rule .camelCase)

/-- A field has no name of its own and its identifier has no ASCII character after leading underscores. -/
def FieldNameFails (o : Oracle) (f : SynField τ) : Prop :=
  (∀ v, ¬ FirstGives (FieldGives o) f.attrs .rename v) ∧
  ∃ i, f.ident = some i ∧ ∀ c, (unraw i).toList.find? (fun c => c ≠ '_') = some c → 128 ≤ c.toNat

/-- A variant has no name of its own and its identifier does not start with an ASCII character. -/
def VariantNameFails (o : Oracle) (v : SynVariant τ) : Prop :=
  (∀ x, ¬ FirstGives (VariantGives o) v.attrs .rename x) ∧
  ∀ c, (unraw v.ident).toList.head? = some c → 128 ≤ c.toNat

/-- Some name cannot be converted to camel case. -/
def NameFails (o : Oracle) (input : DeriveInput τ) : Prop :=
  match input.data with
  | .union => False
  | .struct fs => CamelCased (ContainerGives o input.data.kind) input.attrs ∧ ∃ f ∈ fs.list, FieldNameFails o f
  | .enum vs => ¬ MixedDiscriminants vs ∧ ∃ v ∈ vs,
      (CamelCased (ContainerGives o .enum) input.attrs ∧ VariantNameFails o v) ∨
      (CamelCased (VariantGives o) v.attrs ∧ ∃ f ∈ v.fields.list, FieldNameFails o f)

def SynFields.isTuple : SynFields τ → Prop
  | .unnamed fs => fs.length ≠ 1
  | _ => False

/-- Shapes the code generator does not support: a unit or tuple variant in an untagged enum, a unit variant in
an adjacently tagged one, a tuple variant in an internally tagged one (skipped variants aside, in enums with
data), and a newtype struct marked `any`. -/
def Unsupported (o : Oracle) (input : DeriveInput τ) : Prop :=
  match input.data with
  | .enum vs => HasData vs ∧ ∃ v ∈ vs, ¬ Gives (VariantGives o) v.attrs .skipSerializing .unit ∧
      ((Tagging (ContainerGives o .enum) input.attrs .none ∧ (v.fields = .unit ∨ v.fields.isTuple)) ∨
       (∃ t c, Tagging (ContainerGives o .enum) input.attrs (.adjacent t c) ∧ v.fields = .unit) ∨
       (∃ t, Tagging (ContainerGives o .enum) input.attrs (.internal t) ∧ v.fields.isTuple))
  | .struct (.unnamed [_]) => GivesType input.attrs .any
  | _ => False

end Verif
