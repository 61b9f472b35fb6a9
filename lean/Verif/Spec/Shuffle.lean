import Verif.Spec.Shapes
import Verif.Spec.Deps
/-!
# Declaring fields and variants in another order (specification)
-/

namespace Verif

/-- Two lists have, up to their order, related elements. -/
inductive UpToOrder {α β : Type} (R : α → β → Prop) : List α → List β → Prop
  | nil : UpToOrder R [] []
  | cons {a b as bs pre post} (h : R a b) (e : bs = pre ++ b :: post) (t : UpToOrder R as (pre ++ post)) :
      UpToOrder R (a :: as) bs

/-! ## Declarations -/

/-- A variant with its fields, if they have names, in another order. -/
inductive Variant.Shuffled (v : Variant Ty) : Variant Ty → Prop
  | same : Variant.Shuffled v v
  | fields {fs} (hs : v.style = .struct) (hp : v.fields.Perm fs) : Variant.Shuffled v { v with fields := fs }

/-- The named fields of a struct, the variants of an enum and their named fields in another order. -/
inductive Data.Shuffled : Data Ty → Data Ty → Prop
  | same {d} : Data.Shuffled d d
  | fields {fs fs'} (h : fs.Perm fs') : Data.Shuffled (.struct .struct fs) (.struct .struct fs')
  | variants {vs vs'} (h : UpToOrder Variant.Shuffled vs vs') : Data.Shuffled (.enum vs) (.enum vs')

/-- A type that is declared with fields and variants in another order. -/
inductive Container.Shuffled (c : Container Ty) : Container Ty → Prop
  | mk {d} (h : c.data.Shuffled d) : Container.Shuffled c { c with data := d }

/-- A program in which types are declared with fields and variants in another order. -/
structure Env.Shuffled (env env' : Env) : Prop where
  decl : ∀ i, (env.decl i).Shuffled (env'.decl i)
  evalExpr : env'.evalExpr = env.evalExpr

/-- The written fields of each struct and of each struct variant have different names, and a tag differs from the key of
the content. -/
structure Orderly (c : Container Ty) : Prop where
  struct : ∀ fs, c.data = .struct .struct fs → ((serialFields fs).map Field.key).Nodup
  variants : ∀ vs, c.data = .enum vs → ∀ v ∈ writtenVariants vs, v.style = .struct →
    ((serialFields v.fields).map Field.key).Nodup
  tag : ∀ tag content, c.attrs.tagType = .adjacent tag content → tag ≠ content

/-! ## Items -/

/-- Named fields in another order. -/
inductive SynFields.Shuffled : SynFields Ty → SynFields Ty → Prop
  | same {fs} : SynFields.Shuffled fs fs
  | named {fs fs'} (hn : ∀ f ∈ fs, f.ident ≠ none) (h : fs.Perm fs') : SynFields.Shuffled (.named fs) (.named fs')

/-- A variant as written, with named fields in another order. -/
inductive SynVariant.Shuffled (v : SynVariant Ty) : SynVariant Ty → Prop
  | mk {fs} (h : v.fields.Shuffled fs) : SynVariant.Shuffled v { v with fields := fs }

/-- The body of an item with named fields and variants in another order. -/
inductive SynData.Shuffled : SynData Ty → SynData Ty → Prop
  | struct {fs fs'} (h : fs.Shuffled fs') : SynData.Shuffled (.struct fs) (.struct fs')
  | enum {vs vs'} (h : UpToOrder SynVariant.Shuffled vs vs') : SynData.Shuffled (.enum vs) (.enum vs')

/-- An item with named fields and variants in another order. -/
inductive DeriveInput.Shuffled (item : DeriveInput Ty) : DeriveInput Ty → Prop
  | mk {d} (h : item.data.Shuffled d) : DeriveInput.Shuffled item { item with data := d }

/-! ## Schemas -/

mutual
/-- Two references are the same up to the order in which names of required properties, allowed values and alternatives
are listed. -/
inductive SameRef : Ref → Ref → Prop
  | link {n} : SameRef (.link n) (.link n)
  | any : SameRef .any .any
  | inline {m m'} (h : SameModel m m') : SameRef (.inline m) (.inline m')
/-- Two schemas are. -/
inductive SameModel : Model → Model → Prop
  | single {d n td td'} (h : SameDesc td td') : SameModel ⟨d, .single ⟨n, td⟩⟩ ⟨d, .single ⟨n, td'⟩⟩
  | oneOf {d rs rs'} (h : SameRefs rs rs') : SameModel ⟨d, .oneOf rs⟩ ⟨d, .oneOf rs'⟩
  | anyOf {d rs rs'} (h : SameRefs rs rs') : SameModel ⟨d, .anyOf rs⟩ ⟨d, .anyOf rs'⟩
  | allOf {d rs rs'} (h : SameRefs rs rs') : SameModel ⟨d, .allOf rs⟩ ⟨d, .allOf rs'⟩
/-- Two types are.  The example of a list of allowed values is the first one. -/
inductive SameDesc : TypeDesc → TypeDesc → Prop
  | string {v f e} : SameDesc (.string v f e) (.string v f e)
  | values {vs vs' f e e'} (h : vs.Perm vs') (he : e = e' ∨ e = vs.head? ∧ e' = vs'.head?) :
      SameDesc (.string (some vs) f e) (.string (some vs') f e')
  | number {f e} : SameDesc (.number f e) (.number f e)
  | integer {f e} : SameDesc (.integer f e) (.integer f e)
  | boolean : SameDesc .boolean .boolean
  | array {r r'} (h : SameRef r r') : SameDesc (.array r) (.array r')
  | object {o o' : ModelObject} (hr : o.required.Perm o'.required)
      (hk : ∀ k, k ∈ BMap.keys o.properties ↔ k ∈ BMap.keys o'.properties)
      (hp : ∀ k r r', BMap.get k o.properties = some r → BMap.get k o'.properties = some r' → SameRef r r')
      (ha : o.additional = none ↔ o'.additional = none)
      (hs : ∀ r r', o.additional = some r → o'.additional = some r' → SameRef r r') : SameDesc (.object o) (.object o')
/-- The same references, in some order. -/
inductive SameRefs : List Ref → List Ref → Prop
  | nil : SameRefs [] []
  | cons {r r' rs rs' pre post} (h : SameRef r r') (e : rs' = pre ++ r' :: post) (t : SameRefs rs (pre ++ post)) :
      SameRefs (r :: rs) rs'
end

/-- Two registries list the same names, with schemas that are the same up to order. -/
structure SameRegistry (reg reg' : List (String × Model)) : Prop where
  keys : ∀ n, n ∈ BMap.keys reg ↔ n ∈ BMap.keys reg'
  schemas : ∀ n m m', BMap.get n reg = some m → BMap.get n reg' = some m' → SameModel m m'

end Verif
