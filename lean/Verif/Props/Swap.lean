import Verif.Proof.Swap
import Verif.Props.Published
/-!
# C100: pointers and kinds of collections make no difference to a document
-/

namespace Verif

/-- **C100**, the macro: on items that differ in the types of fields only it panics alike, reports the same errors, or
accepts both. -/
theorem c100_macro (o : Oracle) (item : DeriveInput Swap) :
    (∀ p, derive o (item.map Swap.before) = .panic p ↔ derive o (item.map Swap.after) = .panic p) ∧
    (∀ errs, derive o (item.map Swap.before) = .errors errs ↔ derive o (item.map Swap.after) = .errors errs) ∧
    ∀ c b, derive o (item.map Swap.before) = .code c b → ∃ c' b', derive o (item.map Swap.after) = .code c' b' ∧ c.Swapped c' := by
  rw [derive_map, derive_map]
  generalize derive o item = out
  cases out with
  | code c b =>
    refine ⟨fun _ => ⟨nofun, nofun⟩, fun _ => ⟨nofun, nofun⟩, fun c' b' h => ?_⟩
    cases h
    exact ⟨_, _, rfl, c, rfl, rfl⟩
  | panic p => exact ⟨by simp [DeriveOutcome.map], by simp [DeriveOutcome.map], fun c b h => by simp [DeriveOutcome.map] at h⟩
  | errors es => exact ⟨by simp [DeriveOutcome.map], by simp [DeriveOutcome.map], fun c b h => by simp [DeriveOutcome.map] at h⟩

/-- **C100**, programs: if every item of a program is written as in another but for the types of fields, and these are
interchangeable, so are the programs. -/
theorem c100_programs (env env' : Env) (exprs : env'.evalExpr = env.evalExpr)
    (items : ∀ i, ∃ o, ∃ item : DeriveInput Swap, Derived o env i (item.map Swap.before) ∧ Derived o env' i (item.map Swap.after)) :
    env.Swapped env' := by
  refine ⟨exprs, fun i => ?_⟩
  obtain ⟨o, item, ⟨b, hb⟩, ⟨b', hb'⟩⟩ := items i
  obtain ⟨c', b2, h2, hs⟩ := (c100_macro o item).2.2 _ _ hb
  rw [h2] at hb'
  cases hb'
  exact hs

/-- **C100**, types: in such programs interchangeable types go by one name and have one schema, and mentioning them
returns the same and registers the same. -/
theorem c100_types (env env' : Env) (swapped : env.Swapped env') (t u : Ty) (h : Interchangeable t u) :
    typeName env' u = typeName env t ∧
    (∀ cx m cx', SchemaReturns env' u cx m cx' ↔ SchemaReturns env t cx m cx') ∧
    (∀ inline p cx r cx', MentionReturns env' u inline p cx r cx' ↔ MentionReturns env t inline p cx r cx') := by
  refine ⟨h.typeName swapped, fun cx m cx' => ⟨?_, ?_⟩, fun inline p cx r cx' => ⟨?_, ?_⟩⟩ <;> rintro ⟨n, hn⟩
  · obtain ⟨k, hk⟩ := getSchema_swapped swapped.symm n u t h.symm
    exact ⟨k, hk _ _ hn⟩
  · obtain ⟨k, hk⟩ := getSchema_swapped swapped n t u h
    exact ⟨k, hk _ _ hn⟩
  · obtain ⟨k, hk⟩ := mention_swapped swapped.symm h.symm n
    exact ⟨k, hk _ _ _ _ hn⟩
  · obtain ⟨k, hk⟩ := mention_swapped swapped h n
    exact ⟨k, hk _ _ _ _ hn⟩

/-- **C100**, registries: the same calls but for interchangeable types return the same references and leave the same
components. -/
theorem c100_calls (env env' : Env) (swapped : env.Swapped env') (calls calls' : List Call)
    (same : Pointwise Call.Swapped calls calls') (cx : Components) (rs : List Ref) (cx' : Components) :
    CallsReturn env' cx calls' rs cx' ↔ CallsReturn env cx calls rs cx' := by
  refine ⟨calls_swapped swapped.symm ?_, calls_swapped swapped same⟩
  induction same with
  | nil => exact .nil
  | cons h _ ih =>
    refine .cons ?_ ih
    cases h with
    | mention h => exact .mention h.symm
    | addModel => exact .addModel ..
    | security => exact .security ..

/-- **C100**, documents: a description gives the same document in both programs. -/
theorem c100_documents (env env' : Env) (swapped : env.Swapped env') (reason : Nat → Option String) (api : Api) (d : Opg) :
    Describes env' reason api d ↔ Describes env reason api d := by
  constructor <;> rintro ⟨n, hd⟩
  · obtain ⟨k, hk⟩ := askAlike_swapped swapped.symm n reason api.parts
    exact ⟨k, describeApi_same hk api (fun _ h => h) hd⟩
  · obtain ⟨k, hk⟩ := askAlike_swapped swapped n reason api.parts
    exact ⟨k, describeApi_same hk api (fun _ h => h) hd⟩

/-- **C100** is about these differences only: `Option<T>`, unlike `Box<T>`, is documented as nullable. -/
theorem c100_option : ¬Interchangeable (.option (.prim .bool)) (.prim .bool) ∧
    ∃ env m m', HasSchema env (.option (.prim .bool)) m ∧ HasSchema env (.prim .bool) m' ∧ m ≠ m' := by
  refine ⟨nofun, Sample.diamond, ?_⟩
  refine ⟨⟨none, .single ⟨true, .boolean⟩⟩, ⟨none, .single ⟨false, .boolean⟩⟩, ⟨.empty, .empty, 3, rfl⟩, ⟨.empty, .empty, 3, rfl⟩, ?_⟩
  intro h
  cases h

namespace Sample

/-- `struct Leaf { n: u32 }` and `struct Leaf { n: AtomicU32 }` -/
def leafItem : DeriveInput Swap :=
  ⟨"Leaf", [], .struct (.named [⟨some "n", [], ⟨(.prim .u32, .prim .atomicU32), .prim rfl⟩⟩])⟩
/-- `struct Left { leaf: Rc<Leaf> }`, `struct Right { leaf: Leaf }`, `struct Leaf { n: AtomicU32 }` -/
def sharedItem : Nat → DeriveInput Swap
  | 0 => ⟨"Left", [], .struct (.named [⟨some "leaf", [], ⟨(.named 2, .wrap .rc (.named 2)), .right (.named 2)⟩⟩])⟩
  | 1 => ⟨"Right", [], .struct (.named [⟨some "leaf", [], ⟨(.wrap .box (.named 2), .named 2), .left (.named 2)⟩⟩])⟩
  | _ => leafItem
def shared : Env := ⟨fun
  | 0 => struct "Left" [field "leaf" (.wrap .rc (.named 2))]
  | 1 => struct "Right" [field "leaf" (.named 2)]
  | _ => struct "Leaf" [field "n" (.prim .atomicU32)], id⟩

theorem shared_left : Derived oracle diamond 0 ((sharedItem 0).map Swap.before) ∧
    Derived oracle shared 0 ((sharedItem 0).map Swap.after) := ⟨⟨_, rfl⟩, ⟨_, rfl⟩⟩
theorem shared_right : Derived oracle diamond 1 ((sharedItem 1).map Swap.before) ∧
    Derived oracle shared 1 ((sharedItem 1).map Swap.after) := ⟨⟨_, rfl⟩, ⟨_, rfl⟩⟩
theorem shared_leaf : Derived oracle diamond 2 (leafItem.map Swap.before) ∧
    Derived oracle shared 2 (leafItem.map Swap.after) := ⟨⟨_, rfl⟩, ⟨_, rfl⟩⟩
theorem shared_swapped : diamond.Swapped shared := by
  refine c100_programs _ _ rfl fun i => ⟨oracle, sharedItem i, ?_⟩
  match i with
  | 0 => exact shared_left
  | 1 => exact shared_right
  | n + 2 => exact ⟨⟨shared_leaf.1.accepted⟩, ⟨shared_leaf.2.accepted⟩⟩

example : Describes shared reason publishedApi published :=
  (c100_documents _ _ shared_swapped _ _ _).2 published_described

/-- `Vec<Leaf>` and `&HashSet<Arc<Leaf>>` -/
example (cx m cx') : SchemaReturns shared (.wrap .ref (.seq .hashSet (.wrap .arc (.named 2)))) cx m cx' ↔
    SchemaReturns diamond (.seq .vec (.named 2)) cx m cx' :=
  (c100_types _ _ shared_swapped _ _ (.right (.seq (.right (.named 2))))).2.1 _ _ _

end Sample

end Verif
