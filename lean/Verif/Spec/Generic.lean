import Verif.Model.Generic
import Verif.Spec.Bound
/-!
# Instances of generic types, and what an impl needs (specification)
-/

namespace Verif

/-- `Stands index args g t`: with the arguments `args` for the type parameters, the type expression `g` means `t`. -/
inductive Stands (index : Nat → List Ty → Nat) (args : List Ty) : GTy → Ty → Prop
  | param {k t} (h : args[k]? = some t) : Stands index args (.param k) t
  | prim {p} : Stands index args (.prim p) (.prim p)
  | wrap {w g t} (h : Stands index args g t) : Stands index args (.wrap w g) (.wrap w t)
  | option {g t} (h : Stands index args g t) : Stands index args (.option g) (.option t)
  | tuple {gs ts} (hl : gs.length = ts.length)
      (h : ∀ (k : Nat) g t, gs[k]? = some g → ts[k]? = some t → Stands index args g t) : Stands index args (.tuple gs) (.tuple ts)
  | seq {k g t} (h : Stands index args g t) : Stands index args (.seq k g) (.seq k t)
  | dict {k g t} (h : Stands index args g t) : Stands index args (.dict k g) (.dict k t)
  | unit : Stands index args .unit .unit
  | uuid : Stands index args .uuid .uuid
  | naiveDateTime : Stands index args .naiveDateTime .naiveDateTime
  | dateTime : Stands index args .dateTime .dateTime
  | naiveDate : Stands index args .naiveDate .naiveDate
  | app {item gs ts} (hl : gs.length = ts.length)
      (h : ∀ (k : Nat) g t, gs[k]? = some g → ts[k]? = some t → Stands index args g t) :
      Stands index args (.app item gs) (.named (index item ts))

/-- Type `i` of the program is the generic `item` with the arguments `args`: the macro accepted the item, and `i` is what
it parsed with the arguments in place of the type parameters. -/
structure IsInstance (o : Oracle) (env : Env) (index : Nat → List Ty → Nat) (item : DeriveInput GTy) (args : List Ty) (i : Nat) :
    Prop where
  accepted : ∃ c body, derive o item = .code c body ∧ env.decl i = c.map (GTy.inst index args)

/-- The traits that occur in bounds of impls of `OpgModel`. -/
inductive Trait where
  | opgModel | serialize
  deriving DecidableEq

/-- `Holds rules given (T, t)`: `t: T` follows from the bounds `given` by the impls `rules`, each of which gives one bound
if its own bounds hold. -/
inductive Holds (rules : Trait × SynType → List (Trait × SynType) → Prop) (given : List (Trait × SynType)) : Trait × SynType → Prop
  | given {b} (h : b ∈ given) : Holds rules given b
  | rule {b needs} (hr : rules b needs) (h : ∀ n ∈ needs, Holds rules given n) : Holds rules given b
  | group {tr t} (h : Holds rules given (tr, t)) : Holds rules given (tr, .group t)
  | paren {tr t} (h : Holds rules given (tr, t)) : Holds rules given (tr, .paren t)

/-- The bounds of the impls are on types made of parts of the type it is for. -/
def Structural (rules : Trait × SynType → List (Trait × SynType) → Prop) : Prop :=
  ∀ b needs, rules b needs → ∀ n ∈ needs, ∀ x, Occurs x n.2 → Occurs x b.2

/-- `Name<args>` -/
def SynType.named (name : String) (args : List SynType) : SynType := .path none false [⟨name, args.map .type⟩]

/-- The impls of opg for types of the standard library (lib.rs 13-146), and the impls of serde for strings and numbers. -/
inductive LibraryImpl : Trait × SynType → List (Trait × SynType) → Prop
  | simple {tr n} (h : n ∈ ["char", "str", "String", "i8", "u8", "i16", "u16", "i32", "u32", "i64", "u64", "isize", "usize", "f32",
      "f64", "bool"]) : LibraryImpl (tr, .named n []) []
  | one {n t} (h : n ∈ ["Box", "Rc", "Arc", "Cell", "RefCell", "Option", "Vec", "HashSet", "LinkedList", "VecDeque", "BinaryHeap"]) :
      LibraryImpl (.opgModel, .named n [t]) [(.opgModel, t)]
  | map {n k t} (h : n ∈ ["HashMap", "BTreeMap"]) : LibraryImpl (.opgModel, .named n [k, t]) [(.opgModel, t), (.serialize, k)]
  | reference {t} : LibraryImpl (.opgModel, .reference t) [(.opgModel, t)]
  | slice {t} : LibraryImpl (.opgModel, .slice t) [(.opgModel, t)]
  | array {t e} : LibraryImpl (.opgModel, .array t e) [(.opgModel, t)]
  | tuple {ts} (h : 1 ≤ ts.length ∧ ts.length ≤ 10) : LibraryImpl (.opgModel, .tuple ts) (ts.map fun t => (.opgModel, t))
  | unit : LibraryImpl (.opgModel, .tuple []) []

/-- The bounds `_: OpgModel` among the predicates of a `where` clause. -/
def opgBounds (ps : List WherePred) : List (Trait × SynType) :=
  ps.filterMap fun
    | .bound t => some (.opgModel, t)
    | .given _ => none

end Verif
