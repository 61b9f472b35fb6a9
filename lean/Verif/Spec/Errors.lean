import Verif.Spec.Attrs
/-!
# Mistakes in a derive input (specification)

Which mistakes the macro must report for an item, and in which order.
-/

namespace Verif

/-! ## One attribute item -/

/-- Items allowed inside `rename(..)`. -/
def SerdeDirection : NestedMeta → Prop
  | .item (.nameValue p _) => p = "serialize" ∨ p = "deserialize"
  | _ => False

/-- `rename` (or `rename_all`) with something that is not a string; `rename(..)` with two serialized names. -/
inductive RenameFaulty (word : String) : NestedMeta → DErr → Prop
  | notString : RenameFaulty word (.item (.nameValue word .other)) (.expectedString word)
  | twice (a b c : List NestedMeta) (s t : String)
      (h : ∀ m ∈ a ++ b ++ c, SerdeDirection m) :
      RenameFaulty word (.item (.list word (a ++ .item (.nameValue "serialize" (.str s)) ::
        (b ++ .item (.nameValue "serialize" (.str t)) :: c)))) (.duplicate "rename")

/-- Mistakes common to containers, variants and fields; `words` are the words of the `opg` attribute that are
understood in addition to the type words. -/
inductive CommonFaulty (o : Oracle) (words : List String) : AttrFrom → NestedMeta → DErr → Prop
  | rename {m e} (h : RenameFaulty "rename" m e) : CommonFaulty o words .serde m e
  | notString (p) (h : p ∈ ["format", "example", "example_with"]) :
      CommonFaulty o words .opg (.item (.nameValue p .other)) (.expectedString p)
  | notExpr (s) (h : o.exprOk s = false) :
      CommonFaulty o words .opg (.item (.nameValue "example_with" (.str s))) (.badExpr s)
  | nameValue (p l) (h : p ∉ ["format", "example", "example_with"]) :
      CommonFaulty o words .opg (.item (.nameValue p l)) (.unknownMeta p)
  | list (p items) : CommonFaulty o words .opg (.item (.list p items)) (.unknownMeta p)
  | word (p) (h : p ∉ words) (ht : p ∉ typeWords.map Prod.fst) :
      CommonFaulty o words .opg (.item (.path p)) (.unknownWord p)

/-- Mistakes in one item of an attribute of a container. -/
inductive ContainerFaulty (o : Oracle) : AttrFrom → NestedMeta → DErr → Prop
  | common {src m e} (h : CommonFaulty o ["inline", "nullable"] src m e) : ContainerFaulty o src m e
  | renameAll {m e} (h : RenameFaulty "rename_all" m e) : ContainerFaulty o .serde m e

/-- Mistakes in one item of an attribute of a variant. -/
inductive VariantFaulty (o : Oracle) : AttrFrom → NestedMeta → DErr → Prop
  | common {src m e} (h : CommonFaulty o ["inline"] src m e) : VariantFaulty o src m e
  | renameAll {m e} (h : RenameFaulty "rename_all" m e) : VariantFaulty o .serde m e

/-- Mistakes in one item of an attribute of a field. -/
inductive FieldFaulty (o : Oracle) : AttrFrom → NestedMeta → DErr → Prop
  | common {src m e} (h : CommonFaulty o ["optional", "inline", "nullable"] src m e) : FieldFaulty o src m e
  | notString : FieldFaulty o .serde (.item (.nameValue "skip_serializing_if" .other))
      (.expectedString "skip_serializing_if")
  | notPath (s) (h : o.pathOk s = false) :
      FieldFaulty o .serde (.item (.nameValue "skip_serializing_if" (.str s))) (.badPath s)

/-! ## The attributes of one item -/

/-- What stands in the relevant attributes: items, and attributes that are not lists of items. -/
inductive AttrPart where
  | item (src : AttrFrom) (m : NestedMeta)
  | broken (e : DErr)

/-- The parts of the relevant attributes, in order. -/
def partsOf (attrs : List Attribute) : List AttrPart :=
  attrs.flatMap fun a =>
    match attrSource a.path, a.parsed with
    | none, _ => []
    | some src, .list nested => nested.map (.item src)
    | some _, .other => [.broken (.expectedList a.path)]
    | some _, .synErr => [.broken .syn]

/-- The name under which a repeated attribute is reported. -/
def reportedAs : AttrKey → String
  | .rename => "rename"
  | .renameAll => "rename_all"
  | .transparent => "transparent"
  | .untagged => "untagged"
  | .tag => "tag"
  | .content => "content"
  | .repr => "repr"
  | .description => "description"
  | .format => "format"
  | .ex => "example"
  | .inline => "inline"
  | .nullable => "nullable"
  | .skipSerializing => "skip_serializing"
  | .skipSerializingIf => "skip_serializing_if"
  | .flatten => "flatten"
  | .optional => "optional"

/-- The mistakes in a list of parts, in order: what is not a list, faulty items, and what was `given` before. -/
inductive PartProblems (gives : AttrFrom → NestedMeta → AttrKey → AVal → Prop)
    (faulty : AttrFrom → NestedMeta → DErr → Prop) : (given : List AttrKey) → List AttrPart → List DErr → Prop
  | done (given) : PartProblems gives faulty given [] []
  | broken {given e rest es} (t : PartProblems gives faulty given rest es) :
      PartProblems gives faulty given (.broken e :: rest) (e :: es)
  | faulty {given src m e rest es} (h : faulty src m e) (t : PartProblems gives faulty given rest es) :
      PartProblems gives faulty given (.item src m :: rest) (e :: es)
  | again {given src m k v rest es} (h : gives src m k v) (hk : k ∈ given)
      (t : PartProblems gives faulty given rest es) :
      PartProblems gives faulty given (.item src m :: rest) (.duplicate (reportedAs k) :: es)
  | first {given src m k v rest es} (h : gives src m k v) (hk : k ∉ given)
      (t : PartProblems gives faulty (k :: given) rest es) :
      PartProblems gives faulty given (.item src m :: rest) es
  | other {given src m rest es} (hg : ∀ k v, ¬ gives src m k v) (hf : ∀ e, ¬ faulty src m e)
      (t : PartProblems gives faulty given rest es) : PartProblems gives faulty given (.item src m :: rest) es

/-- `opg(<type word>)`. -/
def AttrPart.isTypeWord : AttrPart → Bool
  | .item .opg (.item (.path p)) => (typeWords.map Prod.fst).contains p
  | _ => false

/-- The mistakes in the attributes of one item: those of the parts, and more than one type word. -/
def AttrProblems (gives : AttrFrom → NestedMeta → AttrKey → AVal → Prop)
    (faulty : AttrFrom → NestedMeta → DErr → Prop) (attrs : List Attribute) (es : List DErr) : Prop :=
  ∃ ps, PartProblems gives faulty [] (partsOf attrs) ps ∧
    es = ps ++ if 2 ≤ (partsOf attrs).countP AttrPart.isTypeWord then [.duplicateModelType] else []

/-! ## The whole item -/

variable {τ : Type}

/-- Some well-formed attribute item gives `k`. -/
def SomeGives (g : AttrFrom → NestedMeta → AttrKey → AVal → Prop) (attrs : List Attribute) (k : AttrKey) : Prop :=
  ∃ x ∈ wellFormedItems attrs, ∃ v, g x.1 x.2 k v

/-- `untagged`, without `tag` or `content`. -/
def JustUntagged (g : AttrFrom → NestedMeta → AttrKey → AVal → Prop) (attrs : List Attribute) : Prop :=
  SomeGives g attrs .untagged ∧ ¬ SomeGives g attrs .tag ∧ ¬ SomeGives g attrs .content

/-- Items that have no schema: an untagged enum of unit variants, a unit struct, a union. -/
inductive ShapeProblems (o : Oracle) (attrs : List Attribute) : SynData τ → List DErr → Prop
  | untaggedUnits (vs) (h : ¬ HasData vs) (hu : JustUntagged (ContainerGives o .enum) attrs) :
      ShapeProblems o attrs (.enum vs) [.untaggedUnitEnum]
  | enum (vs) (h : HasData vs ∨ ¬ JustUntagged (ContainerGives o .enum) attrs) : ShapeProblems o attrs (.enum vs) []
  | unit : ShapeProblems o attrs (.struct .unit) [.unitStruct]
  | struct (fs) (h : fs ≠ .unit) : ShapeProblems o attrs (.struct fs) []
  | union : ShapeProblems o attrs .union [.union]

/-- The mistakes in the attributes of some fields, in order. -/
def FieldProblems (o : Oracle) (fs : List (SynField τ)) (es : List DErr) : Prop :=
  ∃ ess, Pointwise (fun f => AttrProblems (FieldGives o) (FieldFaulty o) f.attrs) fs ess ∧ es = ess.flatten

/-- The mistakes in one variant: its attributes, then its fields. -/
def VariantProblems (o : Oracle) (v : SynVariant τ) (es : List DErr) : Prop :=
  ∃ a b, AttrProblems (VariantGives o) (VariantFaulty o) v.attrs a ∧ FieldProblems o v.fields.list b ∧ es = a ++ b

/-- The mistakes in the data of an item. -/
inductive DataProblems (o : Oracle) : SynData τ → List DErr → Prop
  | mixed (vs) (h : MixedDiscriminants vs) : DataProblems o (.enum vs) [.inconsistentDiscriminants]
  | enum (vs ess) (h : ¬ MixedDiscriminants vs) (t : Pointwise (VariantProblems o) vs ess) :
      DataProblems o (.enum vs) ess.flatten
  | struct (fs es) (t : FieldProblems o fs.list es) : DataProblems o (.struct fs) es
  | union : DataProblems o .union [.unionType]

/-- All mistakes in an item, in order. -/
def InputProblems (o : Oracle) (input : DeriveInput τ) (es : List DErr) : Prop :=
  ∃ a b c, AttrProblems (ContainerGives o input.data.kind) (ContainerFaulty o) input.attrs a ∧
    ShapeProblems o input.attrs input.data b ∧ DataProblems o input.data c ∧ es = a ++ b ++ c

end Verif
