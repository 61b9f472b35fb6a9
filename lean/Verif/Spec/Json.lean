import Verif.Model.Ser
import Verif.Spec.Objects
/-!
# Serialized values (specification)
-/

namespace Verif

mutual
/-- No map at any depth has a repeated key. -/
def Value.DistinctKeys : Value → Prop
  | .null | .bool _ | .str _ => True
  | .seq vs => distinctSeq vs
  | .map es => (BMap.keys es).Nodup ∧ distinctMap es
def distinctSeq : List Value → Prop
  | [] => True
  | v :: vs => v.DistinctKeys ∧ distinctSeq vs
def distinctMap : List (Key × Value) → Prop
  | [] => True
  | (_, v) :: es => v.DistinctKeys ∧ distinctMap es
end

/-- Some order on keys, used only to forget the order in which the entries of a map are written. -/
instance : Ord Key where
  compare
    | .str a, .str b => compare a b
    | .num a, .num b => compare a b
    | .str _, .num _ => .lt
    | .num _, .str _ => .gt

mutual
/-- The value with the entries of every map put in key order: two values have the same normal form iff they are
equal up to the order of the entries of their maps (as JSON objects are). -/
def Value.normal : Value → Value
  | .null => .null
  | .bool b => .bool b
  | .str s => .str s
  | .seq vs => .seq (normalSeq vs)
  | .map es => .map (BMap.insertAll (normalMap es) [])
def normalSeq : List Value → List Value
  | [] => []
  | v :: vs => v.normal :: normalSeq vs
def normalMap : List (Key × Value) → List (Key × Value)
  | [] => []
  | (k, v) :: es => (k, v.normal) :: normalMap es
end

/-- The string in an entry of the form `"$ref": ".."`. -/
def refString : Key → Value → List String
  | .str k, .str s => if k = "$ref" then [s] else []
  | _, _ => []

mutual
/-- The strings found under the key `"$ref"` anywhere in a value. -/
def Value.refStrings : Value → List String
  | .null | .bool _ | .str _ => []
  | .seq vs => refStringsSeq vs
  | .map es => refStringsMap es
def refStringsSeq : List Value → List String
  | [] => []
  | v :: vs => v.refStrings ++ refStringsSeq vs
def refStringsMap : List (Key × Value) → List String
  | [] => []
  | (k, v) :: es => refString k v ++ v.refStrings ++ refStringsMap es
end

/-- The value under a key of a map. -/
def Value.at (v : Value) (k : String) : Option Value :=
  match v with
  | .map es => BMap.get (.str k) es
  | _ => none

/-- All properties of all object schemas inside a schema are in key order (as in a `BTreeMap`). -/
def Model.PropsSorted (m : Model) : Prop := ∀ o ∈ m.objects, BMap.Sorted o.properties
def Ref.PropsSorted (r : Ref) : Prop := ∀ o ∈ r.objects, BMap.Sorted o.properties

end Verif
