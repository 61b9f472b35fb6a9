import Verif.Spec.Links
import Verif.Spec.Conform
import Verif.Spec.Json
/-!
# Which components a document uses (specification)
-/

namespace Verif

/-- `name` is one of the links `from_`, or a link in a component that is used itself. -/
inductive UsedFrom (schemas : List (String × Model)) (from_ : List String) : String → Prop
  | here {name} (h : name ∈ from_) : UsedFrom schemas from_ name
  | through {n m name} (h : UsedFrom schemas from_ n) (hm : BMap.get n schemas = some m) (hl : name ∈ m.links) :
      UsedFrom schemas from_ name

/-- The fields that are written have different keys. -/
def DistinctFields (fs : List (Field Ty)) : Prop := ((serialFields fs).map Field.key).Nodup

/-- No struct and no variant of the declaration has two written fields of one key. -/
def Container.DistinctKeys (c : Container Ty) : Prop :=
  match c.data with
  | .struct .struct fs => DistinctFields fs
  | .struct _ _ => True
  | .enum vs => ∀ v ∈ vs, v.style = .struct → DistinctFields v.fields

/-- The value a document has for a component. -/
def Value.component (doc : Value) (name : String) : Option Value := do
  let components ← doc.at "components"
  let schemas ← components.at "schemas"
  schemas.at name

/-- A document uses a component: there is a `$ref` to it in the paths, or in a component that is used. -/
inductive Value.Uses (doc : Value) : String → Prop
  | path {name paths} (h : doc.at "paths" = some paths) (hr : "#/components/schemas/" ++ name ∈ paths.refStrings) : doc.Uses name
  | component {n v name} (h : doc.Uses n) (hv : doc.component n = some v)
      (hr : "#/components/schemas/" ++ name ∈ v.refStrings) : doc.Uses name

end Verif
