import Verif.Spec.Conform
/-!
# Values among alternatives

OpenAPI reads `oneOf` as "exactly one".  Whether a value passes then depends on the alternatives it does not belong to.
-/

namespace Verif

/-- All alternatives but at most one reject the value. -/
def Separated (reg : List (String × Model)) (rs : List Ref) (j : Json) : Prop :=
  ∃ pre r post, rs = pre ++ r :: post ∧ ∀ r' ∈ pre ++ post, Invalid true reg r' j

mutual
/-- `Meets reg r j rs j'`: when `j` is checked against `r`, its part `j'` is compared with the alternatives `rs` of a
`oneOf`.  Alternatives that do not accept the value, even if `oneOf` is read as "at least one", are not entered. -/
inductive Meets (reg : List (String × Model)) : Ref → Json → List Ref → Json → Prop
  | link {n m j rs j'} (hg : BMap.get n reg = some m) (h : MeetsModel reg m j rs j') : Meets reg (.link n) j rs j'
  | inline {m j rs j'} (h : MeetsModel reg m j rs j') : Meets reg (.inline m) j rs j'

inductive MeetsModel (reg : List (String × Model)) : Model → Json → List Ref → Json → Prop
  | here {d rs j} : MeetsModel reg ⟨d, .oneOf rs⟩ j rs j
  | alternative {d rs r j rs' j'} (hr : r ∈ rs) (hv : Valid false reg r j) (h : Meets reg r j rs' j') :
      MeetsModel reg ⟨d, .oneOf rs⟩ j rs' j'
  | anyOf {d rs r j rs' j'} (hr : r ∈ rs) (hv : Valid false reg r j) (h : Meets reg r j rs' j') :
      MeetsModel reg ⟨d, .anyOf rs⟩ j rs' j'
  | allOf {d rs r j rs' j'} (hr : r ∈ rs) (h : Meets reg r j rs' j') : MeetsModel reg ⟨d, .allOf rs⟩ j rs' j'
  | item {d n r xs x rs j'} (hx : x ∈ xs) (h : Meets reg r x rs j') :
      MeetsModel reg ⟨d, .single ⟨n, .array r⟩⟩ (.arr xs) rs j'
  | property {d n o es k j r rs j'} (hk : (k, j) ∈ es) (hg : BMap.get k o.properties = some r)
      (h : Meets reg r j rs j') : MeetsModel reg ⟨d, .single ⟨n, .object o⟩⟩ (.obj es) rs j'
  | additional {d n o es k j r rs j'} (hk : (k, j) ∈ es) (hg : BMap.get k o.properties = none)
      (ha : o.additional = some r) (h : Meets reg r j rs j') :
      MeetsModel reg ⟨d, .single ⟨n, .object o⟩⟩ (.obj es) rs j'
end

/-- The choices a schema offers itself: as a whole (untagged and internally tagged enums, enums of numbers), for the
items of an array (tuples), for a property (content of adjacently tagged enums), for the other properties (externally
tagged enums), and for the items of an array that is an alternative of one of these (tuple variants). -/
inductive Offers (reg : List (String × Model)) : Model → Json → List Ref → Json → Prop
  | whole {d rs j} : Offers reg ⟨d, .oneOf rs⟩ j rs j
  | item {d n d' rs xs x} (hx : x ∈ xs) : Offers reg ⟨d, .single ⟨n, .array (.inline ⟨d', .oneOf rs⟩)⟩⟩ (.arr xs) rs x
  | property {d n o es k j d' rs} (hk : (k, j) ∈ es) (hg : BMap.get k o.properties = some (.inline ⟨d', .oneOf rs⟩)) :
      Offers reg ⟨d, .single ⟨n, .object o⟩⟩ (.obj es) rs j
  | additional {d n o es k j d' rs} (hk : (k, j) ∈ es) (hg : BMap.get k o.properties = none)
      (ha : o.additional = some (.inline ⟨d', .oneOf rs⟩)) : Offers reg ⟨d, .single ⟨n, .object o⟩⟩ (.obj es) rs j
  | within {m j rs d n d' rs' xs x} (h : Offers reg m j rs (.arr xs))
      (hr : .inline ⟨d, .single ⟨n, .array (.inline ⟨d', .oneOf rs'⟩)⟩⟩ ∈ rs)
      (hv : Valid false reg (.inline ⟨d, .single ⟨n, .array (.inline ⟨d', .oneOf rs'⟩)⟩⟩) (.arr xs)) (hx : x ∈ xs) :
      Offers reg m j rs' x

/-- The types whose schemas have alternatives of their own: tuples, tuple structs and enums. -/
def HasChoices (env : Env) : Ty → Prop
  | .tuple _ => True
  | .named i =>
    match (env.decl i).data with
    | .struct .tuple _ => True
    | .enum _ => True
    | _ => False
  | _ => False

/-- Where the schema of a tuple, tuple struct or enum offers a choice, all alternatives but one reject what serde
writes there. -/
def Distinct (k : Docs) (w : Writes) (reg : List (String × Model)) (t : Ty) : Prop :=
  HasChoices k.env t → ∀ m, k.schema t m → ∀ j, w.values k.env t j → ∀ rs j', Offers reg m j rs j' → Separated reg rs j'

end Verif
