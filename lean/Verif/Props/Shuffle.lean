import Verif.Proof.ShuffleSyn
import Verif.Proof.ShuffleValid
import Verif.Proof.ShuffleDoc
import Verif.Props.Skip
import Verif.Props.Precise
/-!
# C102: the order in which fields and variants are declared
-/

namespace Verif

/-- **C102**, the macro: if it accepts an item, and no two written fields of a struct or of a variant go by one name, it
accepts the item with named fields and variants in another order.  Missing: fields that go by one name. -/
theorem c102_macro_partial (o : Oracle) (item item' : DeriveInput Ty) (shuffled : item.Shuffled item') (c : Container Ty)
    (body : ModelExpr Ty) (accepted : derive o item = .code c body) (orderly : Orderly c) :
    ∃ c' body', derive o item' = .code c' body' ∧ c.Shuffled c' := by
  obtain ⟨c', b', h, hs, -⟩ := derive_shuffled shuffled accepted orderly
  exact ⟨c', b', h, hs⟩

/-- **C102**, programs: if every item of a program is written as in another but for the order of named fields and variants,
so are the types.  Missing: fields that go by one name. -/
theorem c102_programs_partial (env env' : Env) (exprs : env'.evalExpr = env.evalExpr) (orderly : ∀ i, Orderly (env.decl i))
    (items : ∀ i, ∃ o, ∃ item item' : DeriveInput Ty, item.Shuffled item' ∧ Derived o env i item ∧ Derived o env' i item') :
    env.Shuffled env' := by
  refine ⟨fun i => ?_, exprs⟩
  obtain ⟨o, item, item', hs, ⟨b, hb⟩, ⟨b', hb'⟩⟩ := items i
  obtain ⟨c', b2, h2, hs⟩ := c102_macro_partial o item item' hs _ _ hb (orderly i)
  rw [h2] at hb'
  cases hb'
  exact hs

/-- **C102**, types: in such programs the schemas of a type are the same up to the order of the names of required properties,
of allowed values and of alternatives.  Missing: fields that go by one name, recursive types. -/
theorem c102_schema_partial (env env' : Env) (shuffled : env.Shuffled env') (orderly : ∀ i, Orderly (env.decl i)) (t : Ty)
    (finite : Expands env t) : (∃ m', HasSchema env' t m') ∧ ∀ m m', HasSchema env t m → HasSchema env' t m' → SameModel m m' := by
  refine ⟨?_, expands_same shuffled orderly finite⟩
  obtain ⟨m, cx, h⟩ := expands_returns (finite.turn shuffled orderly) .empty
  exact ⟨m, _, _, h⟩

/-- **C102**, registries: calls that return in one program return in the other, return the same references up to order, and
register the same names with schemas that are the same up to order.  Missing: fields that go by one name, and types that
do. -/
theorem c102_calls_partial (env env' : Env) (shuffled : env.Shuffled env') (orderly : ∀ i, Orderly (env.decl i))
    (calls : List Call) (mentions : ∀ c ∈ calls, c.isMention = true) (plain : ∀ t i p, .mention t i p ∈ calls → p.variants = none)
    (unique : NamesUnique env (rootsOf calls)) (rs : List Ref) (cx : Components)
    (run : CallsReturn env Components.empty calls rs cx) :
    ∃ rs' cx', CallsReturn env' Components.empty calls rs' cx' ∧ Pointwise SameRef rs rs' ∧
      cx'.securitySchemes = cx.securitySchemes ∧ SameRegistry cx.schemas cx'.schemas := by
  have hx := (tidy_of_run unique mentions run fun _ _ h => h).expands
  obtain ⟨rs', cx', h1, h2, h3⟩ := calls_turn shuffled orderly run mentions plain (fun x hr => hx _ (.root (b := x.2) hr)) .empty rfl
  exact ⟨rs', cx', h1, h2, h3, registry_turn shuffled orderly mentions unique run h1⟩

/-- **C102**, documents: a description gives in the second program the document that it gives in the first one, but for schemas,
which are the same up to order.  Missing: fields that go by one name, and types that do. -/
theorem c102_documents_partial (env env' : Env) (shuffled : env.Shuffled env') (orderly : ∀ i, Orderly (env.decl i))
    (reason : Nat → Option String) (api : Api) (unique : NamesUnique env api.roots) (d : Opg)
    (described : Describes env reason api d) :
    ∃ d', Describes env' reason api d' ∧ d.Along SameRef d' ∧ SameRegistry d.components.schemas d'.components.schemas := by
  obtain ⟨rs, sx, run, es, -⟩ := described.registry
  have hroots : rootsOf (callsOf api.parts) = api.mentions.map fun t => (t, true) := rootsOf_mentions _
  have hx := (tidy_of_run unique (callsOf_mentions _) run fun _ _ h => h).expands
  obtain ⟨n, hd⟩ := described
  obtain ⟨k, hk⟩ := askTo_turn shuffled orderly n reason api.mentions fun t ht => hx t (.root (b := true) (by
    rw [hroots]; exact List.mem_map.2 ⟨t, ht, rfl⟩))
  obtain ⟨d', hd', ha, -⟩ := describeApi_to hk rfl (fun _ _ h => h) api
    ⟨fun t ht => List.mem_filterMap.2 ⟨_, ht, rfl⟩, fun _ _ => trivial⟩ hd
  obtain ⟨rs', sx', run', es', -⟩ := Describes.registry ⟨k, hd'⟩
  refine ⟨d', ⟨k, hd'⟩, ha, ?_⟩
  rw [← es, ← es']
  exact registry_turn shuffled orderly (callsOf_mentions _) unique run run'

/-- **C102**, meaning: schemas that are the same up to order accept the same values and reject the same values, whether `oneOf`
is read as exactly one or as at least one. -/
theorem c102_values (excl : Bool) (reg reg' : List (String × Model)) (registries : SameRegistry reg reg') (r r' : Ref)
    (same : SameRef r r') (j : Json) :
    (Valid excl reg r j ↔ Valid excl reg' r' j) ∧ (Invalid excl reg r j ↔ Invalid excl reg' r' j) :=
  ⟨⟨fun h => turn_valid registries h same, fun h => turn_valid registries.symm h same.symm⟩,
   ⟨fun h => turn_invalid registries h same, fun h => turn_invalid registries.symm h same.symm⟩⟩

namespace Sample

/-- `struct Order { id: u8, state: State }` -/
def orderInput : DeriveInput Ty := ⟨"Order", [], .struct (.named [fld "id" (.prim .u8), fld "state" (.named 1)])⟩
/-- `struct Order { state: State, id: u8 }` -/
def orderInput' : DeriveInput Ty := ⟨"Order", [], .struct (.named [fld "state" (.named 1), fld "id" (.prim .u8)])⟩
/-- `enum State { New, Sent { at: String, by: String } }` -/
def stateInput : DeriveInput Ty :=
  ⟨"State", [], .enum [var "New", var "Sent" (.named [fld "at" (.prim .string), fld "by" (.prim .string)])]⟩
/-- `enum State { Sent { by: String, at: String }, New }` -/
def stateInput' : DeriveInput Ty :=
  ⟨"State", [], .enum [var "Sent" (.named [fld "by" (.prim .string), fld "at" (.prim .string)]), var "New"]⟩

def orders : Env := ⟨fun
  | 0 => struct "Order" [field "id" (.prim .u8), field "state" (.named 1)]
  | _ => container "State" (fun a => { a with modelType := .dictionary }) (.enum [variantAs "New" "New" .unit [],
      variantAs "Sent" "Sent" .struct [field "at" (.prim .string), field "by" (.prim .string)]]), id⟩
def orders' : Env := ⟨fun
  | 0 => struct "Order" [field "state" (.named 1), field "id" (.prim .u8)]
  | _ => container "State" (fun a => { a with modelType := .dictionary }) (.enum [
      variantAs "Sent" "Sent" .struct [field "by" (.prim .string), field "at" (.prim .string)], variantAs "New" "New" .unit []]), id⟩

theorem orders_orderly (i : Nat) : Orderly (orders.decl i) := by
  match i with
  | 0 =>
    refine ⟨fun fs h => ?_, fun vs h => ?_, nofun⟩
    · cases h; decide
    · cases h
  | n + 1 =>
    refine ⟨fun fs h => ?_, fun vs h v hv hs => ?_, nofun⟩
    · cases h
    · cases h
      rcases List.mem_cons.1 hv with rfl | hv
      · cases hs
      · rcases List.mem_cons.1 hv with rfl | hv
        · decide
        · cases hv

theorem orders_shuffled : orders.Shuffled orders' := by
  have h0 : orderInput.Shuffled orderInput' :=
    .mk (item := orderInput) (.struct (.named (by simp [fld]) (.swap ..)))
  have h1 : stateInput.Shuffled stateInput' :=
    .mk (item := stateInput) (.enum (.cons (pre := [_]) (b := var "New") (.mk .same) rfl
      (.cons (pre := []) (.mk (v := var "Sent" (.named [fld "at" (.prim .string), fld "by" (.prim .string)]))
        (.named (by simp [fld]) (.swap ..))) rfl .nil)))
  have d0 : Derived oracle orders 0 orderInput ∧ Derived oracle orders' 0 orderInput' := ⟨⟨_, rfl⟩, ⟨_, rfl⟩⟩
  have d1 : Derived oracle orders 1 stateInput ∧ Derived oracle orders' 1 stateInput' := ⟨⟨_, rfl⟩, ⟨_, rfl⟩⟩
  refine c102_programs_partial _ _ rfl orders_orderly fun i => ?_
  match i with
  | 0 => exact ⟨oracle, _, _, h0, d0⟩
  | n + 1 => exact ⟨oracle, _, _, h1, ⟨d1.1.accepted⟩, ⟨d1.2.accepted⟩⟩

def orderCalls : List Call := [.mention (.named 0) false {}, .mention (.wrap .box (.named 1)) true {}]

theorem orders_unique : NamesUnique orders (rootsOf orderCalls) :=
  namesUnique_of_closed (l := [.named 0, .wrap .box (.named 1), .named 1, .prim .u8, .prim .string]) rfl rfl

example : ∃ rs rs' cx cx', CallsReturn orders .empty orderCalls rs cx ∧ CallsReturn orders' .empty orderCalls rs' cx' ∧
    Pointwise SameRef rs rs' ∧ SameRegistry cx.schemas cx'.schemas := by
  have run : ∃ rs cx, CallsReturn orders .empty orderCalls rs cx :=
    ⟨_, _, .mention ⟨10, rfl⟩ (.mention ⟨10, rfl⟩ (.nil _))⟩
  obtain ⟨rs, cx, run⟩ := run
  obtain ⟨rs', cx', h1, h2, -, h3⟩ := c102_calls_partial _ _ orders_shuffled orders_orderly orderCalls (by decide)
    (by rintro t i p (_ | ⟨_, _ | ⟨_, h⟩⟩) <;> first | rfl | cases h) orders_unique rs cx run
  exact ⟨rs, rs', cx, cx', run, h1, h2, h3⟩

def orderApi : Api := [.info [.title "Orders"], .paths [.mk [.literal "orders", .named "id" (.prim .u32)]
  [.operation .post [.summary "Place", .body (.type (.named 0)), .response 200 none (.type (.wrap .box (.named 1))),
    .callbacks [.ident "sent" [.mk [.literal "hook"] [.operation .get [.response 200 none .absent]]]]]]]]

theorem orderApi_unique : NamesUnique orders orderApi.roots := by
  have : orderApi.roots = [(.prim .u32, true), (.named 0, true), (.wrap .box (.named 1), true)] := by
    simp [Api.roots, Api.parts, Api.pathList, orderApi, Section.pathList, pathParts, itemParts, opParts, PathSeg.parts,
      ResponseDecl.parts, BodyDecl.parts, callbackParts, callsOf, Part.call?, rootsOf]
  rw [this]
  exact namesUnique_of_closed (l := [.prim .u32, .named 0, .wrap .box (.named 1), .named 1, .prim .u8, .prim .string]) rfl rfl

example : ∃ d d', Describes orders reason orderApi d ∧ Describes orders' reason orderApi d' ∧ d.Along SameRef d' ∧
    SameRegistry d.components.schemas d'.components.schemas := by
  have h : ∃ d, Describes orders reason orderApi d := ⟨_, 10, rfl⟩
  obtain ⟨d, h⟩ := h
  obtain ⟨d', h', ha⟩ := c102_documents_partial _ _ orders_shuffled orders_orderly reason orderApi orderApi_unique d h
  exact ⟨d, d', h, h', ha⟩

example (x : Bool) (j : Json) :
    Valid x [] (.inline ⟨none, .oneOf [.any, .inline ⟨none, .single ⟨false, .string (some ["a", "b"]) none (some "a")⟩⟩]⟩) j ↔
    Valid x [] (.inline ⟨none, .oneOf [.inline ⟨none, .single ⟨false, .string (some ["b", "a"]) none (some "b")⟩⟩, .any]⟩) j :=
  (c102_values x [] [] ⟨fun _ => Iff.rfl, nofun⟩ _ _ (.inline (.oneOf (.cons (pre := [_]) .any rfl
    (.cons (pre := []) (.inline (.single (.values (.swap ..) (.inr ⟨rfl, rfl⟩)))) rfl .nil)))) j).1

/-- `struct P { a: u8, #[serde(rename = "a")] b: bool }` and the same with fields in the other order -/
def twice : DeriveInput Ty :=
  ⟨"P", [], .struct (.named [fld "a" (.prim .u8), fld "b" (.prim .bool) [attr "serde" [nv "rename" "a"]]])⟩
def twice' : DeriveInput Ty :=
  ⟨"P", [], .struct (.named [fld "b" (.prim .bool) [attr "serde" [nv "rename" "a"]], fld "a" (.prim .u8)])⟩
def renamedB : Field Ty := fieldAs "b" "a" (.prim .bool) fun a => { a with name := ⟨"b", "a", true⟩ }

/-- `mod x { struct P { a: u8 } } mod y { struct P { b: u8 } } struct Q { x: x::P, y: y::P }` -/
def homonyms : Env := program [struct "Q" [field "x" (.named 1), field "y" (.named 2)],
  struct "P" [field "a" (.prim .u8)], struct "P" [field "b" (.prim .u8)]]
/-- the same with `struct Q { y: y::P, x: x::P }` -/
def homonyms' : Env := program [struct "Q" [field "y" (.named 2), field "x" (.named 1)],
  struct "P" [field "a" (.prim .u8)], struct "P" [field "b" (.prim .u8)]]

theorem homonyms_shuffled : homonyms.Shuffled homonyms' := by
  refine ⟨fun i => ?_, rfl⟩
  match i with
  | 0 => exact .mk (c := struct "Q" [field "x" (.named 1), field "y" (.named 2)]) (.fields (.swap ..))
  | 1 => exact .mk (c := struct "P" [field "a" (.prim .u8)]) .same
  | n + 2 => exact .mk (c := homonyms.decl (n + 2)) .same

end Sample

open Sample in
/-- **C102** is false if two fields go by one name: the last one is documented. -/
theorem c102_is_false_fields : twice.Shuffled twice' ∧ ∃ env env', Derived oracle env 0 twice ∧ Derived oracle env' 0 twice' ∧
    ∃ m m', HasSchema env (.named 0) m ∧ HasSchema env' (.named 0) m' ∧ ¬SameModel m m' := by
  refine ⟨.mk (item := twice) (.struct (.named (by simp [fld]) (.swap ..))),
    program [struct "P" [field "a" (.prim .u8), renamedB]], program [struct "P" [renamedB, field "a" (.prim .u8)]],
    ⟨_, rfl⟩, ⟨_, rfl⟩, _, _, ⟨.empty, .empty, 5, rfl⟩, ⟨.empty, .empty, 5, rfl⟩, ?_⟩
  intro h
  cases h with
  | single h =>
    cases h with
    | object hr hk hp =>
      have := hp "a" _ _ rfl rfl
      cases this with
      | inline h => cases h with | single h => cases h

open Sample in
/-- **C102** is false if two types go by one name: the first one is registered. -/
theorem c102_is_false_types : homonyms.Shuffled homonyms' ∧ ∃ cx cx' m m' r,
    MentionReturns homonyms (.named 0) false {} .empty r cx ∧ MentionReturns homonyms' (.named 0) false {} .empty r cx' ∧
    BMap.get "P" cx.schemas = some m ∧ BMap.get "P" cx'.schemas = some m' ∧ ¬SameModel m m' := by
  refine ⟨homonyms_shuffled, _, _, _, _, _, ⟨10, rfl⟩, ⟨10, rfl⟩, rfl, rfl, ?_⟩
  intro h
  cases h with
  | single h =>
    cases h with
    | object hr hk => exact absurd ((hk "a").1 (by decide)) (by decide)

end Verif
