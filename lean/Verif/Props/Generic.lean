import Verif.Proof.Generic
import Verif.Proof.Needs
import Verif.Props.Bound
import Verif.Props.Neutral
import Verif.Props.Generation
/-!
# Generic types (C82 - C85)
-/

namespace Verif

variable {o : Oracle} {env : Env}

/-! ## C82 -/

/-- **C82**, the macro: on a generic item written out for some arguments it does what it does on the item, with the
arguments in place of the parameters: the same panic, the same errors, or the instantiated impl. -/
theorem c82_written_out {τ σ : Type} (o : Oracle) (item : DeriveInput τ) (inst : τ → σ) :
    derive o (item.map inst) = (derive o item).map inst := derive_map inst item

/-- **C82**, instances: the impl of an instance is the generic impl with the arguments in place of the parameters, and the
instance is documented as the item written out with these arguments; so everything proved of derived types holds of it. -/
theorem c82_instance (o : Oracle) (env : Env) (index : Nat → List Ty → Nat) (item : DeriveInput GTy) (args : List Ty) (i : Nat)
    (h : IsInstance o env index item args i) :
    (∃ c body, derive o item = .code c body ∧ schemaExpr env (.named i) = some (body.map (GTy.inst index args))) ∧
    Derived o env i (item.map (GTy.inst index args)) := by
  obtain ⟨c, body, hd, hi⟩ := h.accepted
  have hm := c82_written_out o item (GTy.inst index args)
  rw [hd] at hm
  have hm : derive o (item.map (GTy.inst index args)) = .code (env.decl i) (body.map (GTy.inst index args)) := by rw [hi, hm]; rfl
  refine ⟨⟨c, body, hd, ?_⟩, ⟨_, hm⟩⟩
  simp only [schemaExpr, (derive_code hm).2]

mutual
theorem GTy.inst_eq {index : Nat → List Ty → Nat} {args : List Ty} : ∀ (g : GTy) {t : Ty}, Stands index args g t → g.inst index args = t
  | .param k, t, .param h => by simp [GTy.inst, h]
  | .prim _, _, .prim => by rw [GTy.inst]
  | .wrap _ g, _, .wrap h => by rw [GTy.inst, g.inst_eq h]
  | .option g, _, .option h => by rw [GTy.inst, g.inst_eq h]
  | .tuple gs, _, .tuple hl h => by rw [GTy.inst, GTy.instList_eq gs hl h]
  | .seq _ g, _, .seq h => by rw [GTy.inst, g.inst_eq h]
  | .dict _ g, _, .dict h => by rw [GTy.inst, g.inst_eq h]
  | .unit, _, .unit => by rw [GTy.inst]
  | .uuid, _, .uuid => by rw [GTy.inst]
  | .naiveDateTime, _, .naiveDateTime => by rw [GTy.inst]
  | .dateTime, _, .dateTime => by rw [GTy.inst]
  | .naiveDate, _, .naiveDate => by rw [GTy.inst]
  | .app _ gs, _, .app hl h => by rw [GTy.inst, GTy.instList_eq gs hl h]
theorem GTy.instList_eq {index : Nat → List Ty → Nat} {args : List Ty} : ∀ (gs : List GTy) {ts : List Ty}, gs.length = ts.length →
    (∀ (k : Nat) g t, gs[k]? = some g → ts[k]? = some t → Stands index args g t) → GTy.instList index args gs = ts
  | [], [], _, _ => by rw [GTy.instList]
  | g :: gs, t :: ts, hl, h => by
    rw [GTy.instList, g.inst_eq (h 0 g t rfl rfl), GTy.instList_eq gs (by simpa using hl) fun k g t hg ht => h (k + 1) g t hg ht]
end

/-- **C82**, arguments: the type in an instance is the one meant by the expression in the item, each type parameter standing for
its argument. -/
theorem c82_arguments (index : Nat → List Ty → Nat) (args : List Ty) (g : GTy) (t : Ty) (h : Stands index args g t) :
    g.inst index args = t := g.inst_eq h

/-- `(A, HashMap<String, Vec<B>>)` for `A = u8` and `B = bool`. -/
example (index : Nat → List Ty → Nat) : GTy.inst index [.prim .u8, .prim .bool]
    (.tuple [.param 0, .dict .hashMap (.seq .vec (.param 1))]) = .tuple [.prim .u8, .dict .hashMap (.seq .vec (.prim .bool))] := by
  refine c82_arguments index _ _ _ (.tuple rfl fun k g t hg ht => ?_)
  match k with
  | 0 => cases hg; cases ht; exact .param rfl
  | 1 => cases hg; cases ht; exact .dict (.seq (.param rfl))
  | k + 2 => cases hg

/-- **C82**, schemas: an instance and a type written out have the same schemas, register the same, and go by the same
name. -/
theorem c82_same_schema (o : Oracle) (env : Env) (index : Nat → List Ty → Nat) (item : DeriveInput GTy) (args : List Ty) (i j : Nat)
    (h : IsInstance o env index item args i) (written : Derived o env j (item.map (GTy.inst index args))) :
    typeName env (.named i) = typeName env (.named j) ∧
    (∀ cx m cx', SchemaReturns env (.named i) cx m cx' ↔ SchemaReturns env (.named j) cx m cx') ∧
    (∀ inline p cx r cx', MentionReturns env (.named i) inline p cx r cx' ↔ MentionReturns env (.named j) inline p cx r cx') := by
  obtain ⟨body, hi⟩ := (c82_instance o env index item args i h).2.accepted
  obtain ⟨body', hj⟩ := written.accepted
  have hd : env.decl i = env.decl j := by rw [hi] at hj; injection hj
  have hn : typeName env (.named i) = typeName env (.named j) := by simp only [typeName, hd]
  have he : schemaExpr env (.named i) = schemaExpr env (.named j) := by simp only [schemaExpr, hd]
  have hs : ∀ n cx, getSchema env n (.named i) cx = getSchema env n (.named j) cx := by
    intro n cx
    cases n with
    | zero => rfl
    | succ n => simp only [getSchema, he]
  refine ⟨hn, fun cx m cx' => ?_, fun inline p cx r cx' => ?_⟩
  · unfold SchemaReturns; simp only [hs]
  · rw [mentionReturns_iff, mentionReturns_iff]
    have hl : linkName env (.named i) inline = linkName env (.named j) inline := by simp only [linkName, hn]
    simp only [hl, SchemaReturns, hs]

namespace Sample

/-- `struct Page<T> { items: Vec<T>, next: Option<Box<Page<T>>>, size: u32 }`, the field `next` skipped -/
def page : DeriveInput GTy := ⟨"Page", [], .struct (.named [⟨some "items", [], .seq .vec (.param 0)⟩,
  ⟨some "next", [attr "serde" [.item (.path "skip_serializing")]], .option (.wrap .box (.app 0 [.param 0]))⟩,
  ⟨some "size", [], .prim .u32⟩])⟩

/-- The instances `Page<u32>` (0) and `Page<String>` (1). -/
def pageIndex : Nat → List Ty → Nat
  | _, [.prim .u32] => 0
  | _, _ => 1

def pageEnv (written : DeriveInput Ty) : Env := ⟨fun
  | 0 => match derive oracle page with
    | .code c _ => c.map (GTy.inst pageIndex [.prim .u32])
    | _ => decl 0
  | 1 => match derive oracle page with
    | .code c _ => c.map (GTy.inst pageIndex [.prim .string])
    | _ => decl 0
  | _ => match derive oracle written with
    | .code c _ => c
    | _ => decl 0, id⟩

/-- `Page<String>` written out -/
def stringPage : DeriveInput Ty := ⟨"Page", [], .struct (.named [⟨some "items", [], .seq .vec (.prim .string)⟩,
  ⟨some "next", [attr "serde" [.item (.path "skip_serializing")]], .option (.wrap .box (.named 1))⟩, ⟨some "size", [], .prim .u32⟩])⟩

end Sample

open Sample

theorem Sample.page_u32 : IsInstance oracle (pageEnv stringPage) pageIndex page [.prim .u32] 0 := ⟨_, _, rfl, rfl⟩
theorem Sample.page_string : IsInstance oracle (pageEnv stringPage) pageIndex page [.prim .string] 1 := ⟨_, _, rfl, rfl⟩

example : page.map (GTy.inst pageIndex [.prim .string]) = stringPage := rfl

example : IsInstance oracle (pageEnv stringPage) pageIndex page [.prim .string] 1 ∧
    Derived oracle (pageEnv stringPage) 2 (page.map (GTy.inst pageIndex [.prim .string])) ∧
    ∃ m cx, SchemaReturns (pageEnv stringPage) (.named 1) Components.empty m cx :=
  ⟨page_string, ⟨_, rfl⟩, _, _, 10, rfl⟩

/-! ## C83 -/

/-- C83 is false: all instances of a type go by one name, so in an API with `Page<u32>` and `Page<String>` the links to the
second lead to the schema of the first, which rejects its values. -/
theorem c83_is_false : ∃ (o : Oracle) (env : Env) (index : Nat → List Ty → Nat) (item : DeriveInput GTy) (args args' : List Ty) (i j : Nat)
    (s : Serde) (r r' : Ref) (cx : Components) (v : Json),
    IsInstance o env index item args i ∧ IsInstance o env index item args' j ∧
    CallsReturn env Components.empty [.mention (.named i) false {}, .mention (.named j) false {}] [r, r'] cx ∧
    s.nonFinite = false ∧ Ser env s (.named j) v ∧ ¬ Valid false cx.schemas r' v := by
  refine ⟨oracle, pageEnv stringPage, pageIndex, page, [.prim .u32], [.prim .string], 0, 1, ⟨false, fun _ => false⟩, _, _, _,
    .obj [("items", .arr [.str "a"]), ("size", .int 1)], page_u32, page_string,
    .mention ⟨10, rfl⟩ (.mention ⟨10, rfl⟩ (.nil _)), rfl, ?_, ?_⟩
  · refine Ser.struct (ps := [(field "items" (.seq .vec (.prim .string)), .arr [.str "a"]), (field "size" (.prim .u32), .int 1)])
      (fs := [field "items" (.seq .vec (.prim .string)), ⟨{ (field "next" .unit).attrs with skipSerializing := true }, .option (.wrap .box (.named 1))⟩,
        field "size" (.prim .u32)]) rfl rfl (.keep rfl (.drop (.inl rfl) (.keep rfl .nil))) ?_ ?_
    · intro p hp t ht
      simp only [List.mem_cons, List.not_mem_nil, or_false] at hp
      rcases hp with rfl | rfl <;> cases ht
    · intro p hp _
      simp only [List.mem_cons, List.not_mem_nil, or_false] at hp
      rcases hp with rfl | rfl
      · refine .seq fun x hx => ?_
        rw [List.mem_singleton] at hx
        subst hx
        exact .prim ⟨_, rfl⟩
      · exact .prim ⟨_, rfl⟩
  · refine not_valid_link rfl ?_
    intro h
    cases h with
    | object _ hp _ =>
      refine not_valid_inline ?_ (hp "items" (.arr [.str "a"]) _ (.head _) rfl)
      intro h
      cases h with
      | array h =>
        refine not_valid_inline ?_ (h (.str "a") (.head _))
        exact not_valid_type (fun h => h) (fun h => nomatch h)

/-- C83, the mechanism: instances of one item go by one name, so once one of them is registered, mentioning another gives
a link to it and registers nothing. -/
theorem c83_first_wins (o : Oracle) (env : Env) (index : Nat → List Ty → Nat) (item : DeriveInput GTy) (args args' : List Ty) (i j : Nat)
    (hi : IsInstance o env index item args i) (hj : IsInstance o env index item args' j) :
    typeName env (.named i) = typeName env (.named j) ∧
    ∀ name cx r cx' p q, typeName env (.named i) = some name → MentionReturns env (.named i) false p cx r cx' →
      r = .link name ∧ MentionReturns env (.named j) false q cx' r cx' := by
  obtain ⟨c, body, hd, h⟩ := hi.accepted
  obtain ⟨c', body', hd', h'⟩ := hj.accepted
  rw [hd] at hd'
  cases hd'
  have hn : typeName env (.named i) = typeName env (.named j) := by simp only [typeName, h, h']; rfl
  refine ⟨hn, fun name cx r cx' p q hname run => ?_⟩
  obtain ⟨hr, ⟨m, hm⟩, -⟩ := c04_mention_registers env _ name p cx cx' r hname run
  refine ⟨hr, ?_⟩
  rw [hr]
  exact c08_registered_mention_returns env _ name q cx' m (hn ▸ hname) hm

example : typeName (pageEnv stringPage) (.named 0) = some "Page" ∧
    ∃ r cx, MentionReturns (pageEnv stringPage) (.named 0) false {} Components.empty r cx :=
  ⟨rfl, _, _, 10, rfl⟩

/-- C83, exactly: an API refers to an instance first, then to another, and to whatever types before, between and after.  What the
links to both lead to is the schema of the first one; it is the schema of the second exactly if both have the same schema. -/
theorem c83_exact (o : Oracle) (env : Env) (index : Nat → List Ty → Nat) (item : DeriveInput GTy) (args args' : List Ty) (i j : Nat)
    (hi : IsInstance o env index item args i) (hj : IsInstance o env index item args' j) (name : String)
    (named : typeName env (.named i) = some name) (cx cx1 cx2 : Components) (r : Ref) (p : Params)
    (free : BMap.get name cx.schemas = none) (first : MentionReturns env (.named i) false p cx r cx1)
    (calls : List Call) (rs : List Ref) (later : CallsReturn env cx1 calls rs cx2) (m m' : Model) (cxi cxi' cxj cxj' : Components)
    (schema : SchemaReturns env (.named i) cxi m cxi') (schema' : SchemaReturns env (.named j) cxj m' cxj') :
    (∀ q, MentionReturns env (.named j) false q cx2 (.link name) cx2) ∧ BMap.get name cx2.schemas = some m ∧
      (BMap.get name cx2.schemas = some m' ↔ m = m') := by
  obtain ⟨hr, -, hs⟩ := c04_mention_registers env _ name p cx cx1 r named first
  obtain ⟨m1, cx0, hm1, hg⟩ := hs free
  have e := (c05_context_independent env (.named i) cx cxi cx0 cxi').1 m1 m hm1 schema
  subst e
  have hg2 := (c02_registered_is_kept env cx1 cx2 calls rs later).1 name m1 hg
  have hn := (c83_first_wins o env index item args args' i j hi hj).1
  refine ⟨fun q => c08_registered_mention_returns env _ name q cx2 m1 (hn ▸ named) hg2, hg2, ?_⟩
  rw [hg2]
  simp

/-- Whether the entry `items` of a schema holds texts. -/
def Sample.itemsAreTexts (m : Model) : Bool :=
  match m.data with
  | .single ⟨_, .object ob⟩ => match BMap.get "items" ob.properties with
    | some (.inline ⟨_, .single ⟨_, .array (.inline ⟨_, .single ⟨_, .string _ _ _⟩⟩)⟩⟩) => true
    | _ => false
  | _ => false

/-- `Page<u32>` and `Page<String>` have different schemas. -/
example : ∃ m cx m' cx', SchemaReturns (pageEnv stringPage) (.named 0) Components.empty m cx ∧
    SchemaReturns (pageEnv stringPage) (.named 1) Components.empty m' cx' ∧ m ≠ m' := by
  refine ⟨_, _, _, _, ⟨10, rfl⟩, ⟨10, rfl⟩, ?_⟩
  intro h
  exact absurd (congrArg itemsAreTexts h) (by decide)

/-- C83 for types marked `inline`: each mention of an instance gives the schema of this instance.  Missing: types that are
not inline (`c83_is_false`), for which see `c83_one_instance_partial`. -/
theorem c83_inline_partial (o : Oracle) (env : Env) (index : Nat → List Ty → Nat) (item : DeriveInput GTy) (args : List Ty) (i : Nat)
    (hi : IsInstance o env index item args i) (inline : Gives (ContainerGives o item.data.kind) item.attrs .inline .unit)
    (flag : Bool) (p : Params) (cx cx' : Components) (r : Ref) :
    MentionReturns env (.named i) flag p cx r cx' ↔ ∃ m, SchemaReturns env (.named i) cx m cx' ∧ r = .inline (m.applyParams p) := by
  obtain ⟨c, body, hd, h⟩ := hi.accepted
  have hinl : (env.decl i).attrs.inline = true := by
    rw [h]
    exact (c65_parsed o item c body hd).doc.inline.2 inline
  exact ((c34_inline env cx cx' p r).1 i hinl).2 flag

/-- `#[opg(inline)] struct One<T>(T);` at `u32` -/
example : IsInstance oracle ⟨fun _ => ⟨"One", { (newtype "One" (field "0" .unit)).attrs with inline := true },
      .struct .newType [field "0" (.prim .u32)]⟩, id⟩ pageIndex
      ⟨"One", [attr "opg" [.item (.path "inline")]], .struct (.unnamed [⟨none, [], .param 0⟩])⟩ [.prim .u32] 0 ∧
    Gives (ContainerGives oracle .otherStruct) [attr "opg" [.item (.path "inline")]] .inline .unit :=
  ⟨⟨_, _, rfl, rfl⟩, _, rfl, _, .head _, .common .inline⟩

/-- C83 if only one instance is used by reference: links to it lead to its own schema.  Missing: several instances. -/
theorem c83_one_instance_partial (o : Oracle) (env : Env) (index : Nat → List Ty → Nat) (item : DeriveInput GTy) (args : List Ty) (i : Nat)
    (_hi : IsInstance o env index item args i) (calls : List Call) (rs : List Ref) (cx : Components)
    (unique : NamesUnique env (rootsOf calls)) (mentions : ∀ c ∈ calls, c.isMention = true)
    (run : CallsReturn env Components.empty calls rs cx) (name : String)
    (linked : Linked env (rootsOf calls) (.named i)) (named : typeName env (.named i) = some name) (m : Model)
    (schema : HasSchema env (.named i) m) (exclusive : Bool) (v : Json) :
    Valid exclusive cx.schemas (.link name) v ↔ Valid exclusive cx.schemas (.inline m) v :=
  c76_link_is_schema env calls rs cx unique mentions run _ name linked named m schema exclusive v

theorem Sample.page_reached {t : Ty} (h : Reached (pageEnv stringPage) (rootsOf [.mention (.named 0) false {}]) t) :
    t = .named 0 ∨ t = .seq .vec (.prim .u32) ∨ t = .prim .u32 := by
  induction h with
  | root h => simp [rootsOf] at h; simp [h.1]
  | step _ ha ih =>
    obtain ⟨e, he, hm⟩ := ha
    rcases ih with rfl | rfl | rfl <;> cases he
    · change _ ∈ [_, _] at hm
      simp only [List.mem_cons, List.not_mem_nil, or_false] at hm
      rcases hm with hm | hm <;> cases hm
      · exact .inr (.inl rfl)
      · exact .inr (.inr rfl)
    · change _ ∈ [_] at hm
      rw [List.mem_singleton] at hm
      cases hm
      exact .inr (.inr rfl)
    · change _ ∈ [] at hm
      cases hm

/-- An API with `Page<u32>` only. -/
example : NamesUnique (pageEnv stringPage) (rootsOf [.mention (.named 0) false {}]) ∧
    ∃ rs cx m, CallsReturn (pageEnv stringPage) Components.empty [.mention (.named 0) false {}] rs cx ∧
    Linked (pageEnv stringPage) (rootsOf [.mention (.named 0) false {}]) (.named 0) ∧ HasSchema (pageEnv stringPage) (.named 0) m := by
  refine ⟨?_, _, _, _, .mention ⟨10, rfl⟩ (.nil _), .inl (.head _), Components.empty, _, 10, rfl⟩
  have h : ∀ t, Linked (pageEnv stringPage) (rootsOf [.mention (.named 0) false {}]) t →
      t = .named 0 ∨ t = .seq .vec (.prim .u32) ∨ t = .prim .u32 := by
    rintro t (h | ⟨u, hu, ha⟩)
    · exact page_reached (.root h)
    · exact page_reached (.step hu ha)
  intro t t' n hl hl' hn hn'
  rcases h t hl with rfl | rfl | rfl <;> rcases h t' hl' with rfl | rfl | rfl <;>
    first | rfl | (simp [typeName] at hn'; done) | (simp [typeName] at hn; done)

/-! ## C84 -/

/-- C84 is false for associated types below other types: `struct S<I>(Vec<I::Item>)` compiles if `I::Item: OpgModel`, but
the impl does not ask for that. -/
theorem c84_is_false : ∃ (o : Oracle) (input : DeriveInput SynType) (g : Generics) (c : Container SynType)
    (body : ModelExpr SynType) (t u : SynType) (byRef : Bool), derive o input = .code c body ∧ (t, byRef) ∈ body.asked ∧
    AssociatedOf g.typeParams u u ∧ Holds LibraryImpl [(.opgModel, u)] (.opgModel, t) ∧
    ¬ Holds LibraryImpl (opgBounds (buildGenerics c g).preds) (.opgModel, t) := by
  refine ⟨oracle, ⟨"S", [], .struct (.unnamed [⟨none, [], .named "Vec" [.path none false [⟨"I", []⟩, ⟨"Item", []⟩]]⟩])⟩,
    ⟨[.type ⟨"I", [], none⟩], []⟩, _, _, .named "Vec" [.path none false [⟨"I", []⟩, ⟨"Item", []⟩]],
    .path none false [⟨"I", []⟩, ⟨"Item", []⟩], false, rfl, .head _, .path (by decide) (by simp),
    .rule (.one (by simp)) (fun n hn => .given (by simpa using hn)), ?_⟩
  change ¬ Holds LibraryImpl [] _
  intro h
  cases h with
  | given h => cases h
  | rule hr h =>
    cases hr with
    | one _ =>
      have := h _ (.head _)
      cases this with
      | given h => cases h
      | rule hr h => cases hr

/-- C84 is false for keys of maps: `struct S<K>(HashMap<K, u32>)` gets the bound `K: OpgModel`, but the impl for maps needs
`K: Serialize`. -/
theorem c84_is_false_key : ∃ (o : Oracle) (input : DeriveInput SynType) (g : Generics) (c : Container SynType)
    (body : ModelExpr SynType) (t : SynType) (x : String) (byRef : Bool), derive o input = .code c body ∧ (t, byRef) ∈ body.asked ∧
    x ∈ g.typeParams ∧ Holds LibraryImpl [(.serialize, .var x)] (.opgModel, t) ∧
    (buildGenerics c g).preds = [.bound (.var x)] ∧ ¬ Holds LibraryImpl (opgBounds (buildGenerics c g).preds) (.opgModel, t) := by
  refine ⟨oracle, ⟨"S", [], .struct (.unnamed [⟨none, [], .named "HashMap" [.var "K", .named "u32" []]⟩])⟩,
    ⟨[.type ⟨"K", [], none⟩], []⟩, _, _, .named "HashMap" [.var "K", .named "u32" []], "K", false, rfl, .head _, by decide,
    .rule (.map (by simp)) ?_, rfl, ?_⟩
  · intro n hn
    simp only [List.mem_cons, List.not_mem_nil, or_false] at hn
    rcases hn with rfl | rfl
    · exact .rule (.simple (by simp)) fun _ h => nomatch h
    · exact .given (.head _)
  · change ¬ Holds LibraryImpl [(.opgModel, .var "K")] _
    intro h
    cases h with
    | given h => simp [SynType.named, SynType.var] at h
    | rule hr h =>
      cases hr with
      | map _ =>
        have := h _ (.tail _ (.head _))
        cases this with
        | given h => simp at h
        | rule hr h =>
          cases hr with
          | simple hn => simp at hn

/-- C84 for any impls that are structural, such as those of the library: suppose no field of a tuple (or newtype) struct or
variant is skipped (nor one of an adjacently tagged struct variant), and each type `t` that the generated code asks for is
an associated type of a parameter or has an impl if every type parameter has one (and the bounds written by the user
hold).  Then each `t` has an impl under the bounds the macro writes.  Missing: associated types below other types
(`c84_is_false`), other traits than `OpgModel` (`c84_is_false_key`), skipped positional fields (`c55_is_false`), type
parameters called `PhantomData`. -/
theorem c84_bounds_suffice_partial (o : Oracle) (input : DeriveInput SynType) (g : Generics) (c : Container SynType)
    (body : ModelExpr SynType) (hc : derive o input = .code c body)
    (positional : ∀ f, FieldPositional c f → f.attrs.skipSerializing = false) (phantom : "PhantomData" ∉ g.typeParams)
    (rules : Trait × SynType → List (Trait × SynType) → Prop) (structural : Structural rules) (user : List (Trait × SynType))
    (t : SynType) (byRef : Bool) (asked : (t, byRef) ∈ body.asked)
    (hasImpl : (∃ u, AssociatedOf g.typeParams t u) ∨ Holds rules (user ++ g.typeParams.map fun x => (.opgModel, .var x)) (.opgModel, t)) :
    Holds rules (user ++ opgBounds (buildGenerics c g).preds) (.opgModel, t) := by
  rcases hasImpl with ⟨u, hu⟩ | h
  · obtain ⟨f, e, hf⟩ := serializeBody_asks (derive_code hc).2 asked
    have hs : FieldSerialized c f := by
      rcases hf with hf | hf
      · exact hf
      · have hk := positional f hf
        cases hf with
        | struct hd hf _ => exact .struct hd hf hk
        | variant hd hv hvs hf _ => exact .variant hd hv hvs hf hk
    have hb : WherePred.bound u ∈ (buildGenerics c g).preds := by
      have e : t = f.ty := e
      show _ ∈ g.preds ++ _
      refine List.mem_append_right _ (List.mem_map.2 ⟨u, List.mem_append_right _ (List.mem_flatMap.2 ⟨f, mem_relevantFields.2 hs, ?_⟩), rfl⟩)
      rw [typeParams_withoutDefault, ← e]
      exact mem_visitAssociated.2 hu
    have hh : Holds rules (user ++ opgBounds (buildGenerics c g).preds) (.opgModel, u) :=
      .given (List.mem_append_right _ (mem_opgBounds.2 hb))
    clear e hb asked hs hf f
    induction hu with
    | path _ _ => exact hh
    | group _ ih => exact .group (ih hh)
  · exact holds_weaken structural phantom h fun x hx ho =>
      mem_opgBounds.2 (c55_mentioned_are_bounded_partial o input g c body hc positional t byRef asked x hx ho)

/-- The sample of C54 (without the field of type `PhantomData<B>`, which has no impl): all types asked for have impls. -/
example : Structural LibraryImpl ∧ "PhantomData" ∉ genericParams.typeParams ∧
    ∃ c body, derive oracle generic = .code c body ∧ (∀ f, FieldPositional c f → f.attrs.skipSerializing = false) ∧
    (ty "Vec" [ty "Option" [ty "C"]], true) ∈ body.asked ∧
    Holds LibraryImpl ([] ++ genericParams.typeParams.map fun x => (.opgModel, .var x)) (.opgModel, ty "Vec" [ty "Option" [ty "C"]]) := by
  refine ⟨library_structural, by decide, _, _, rfl, fun f hf => ?_, .head _, ?_⟩
  · cases hf with
    | struct hd _ h =>
      injection hd with hd _
      subst hd
      rcases h with h | h <;> cases h
    | variant hd => cases hd
  · refine .rule (.one (n := "Vec") (by simp)) fun n hn => ?_
    rw [List.mem_singleton] at hn
    subst hn
    refine .rule (.one (n := "Option") (by simp)) fun n hn => ?_
    rw [List.mem_singleton] at hn
    subst hn
    exact .given (.tail _ (.tail _ (.head _)))

/-! ## C85 -/

/-- C85 is false for fields with an explicit type: `struct S<T> { #[opg(string)] a: T }` gets the bound `T: OpgModel`, but
its code asks for nothing. -/
theorem c85_is_false : ∃ (o : Oracle) (input : DeriveInput SynType) (g : Generics) (c : Container SynType)
    (body : ModelExpr SynType) (x : String), derive o input = .code c body ∧ body.asked = [] ∧ g.preds = [] ∧
    WherePred.bound (.var x) ∈ (buildGenerics c g).preds :=
  ⟨oracle, ⟨"S", [], .struct (.named [⟨some "a", [attr "opg" [.item (.path "string")]], .var "T"⟩])⟩,
    ⟨[.type ⟨"T", [], none⟩], []⟩, _, _, "T", rfl, rfl, rfl, .head _⟩

/-- C85 is false for keys of maps: the code of `struct S<K>(HashMap<K, u32>)` asks for `HashMap<K, u32>` only, whose impl
does not need `K: OpgModel`. -/
theorem c85_is_false_key : ∃ (o : Oracle) (input : DeriveInput SynType) (g : Generics) (c : Container SynType)
    (body : ModelExpr SynType) (x : String), derive o input = .code c body ∧ g.preds = [] ∧
    WherePred.bound (.var x) ∈ (buildGenerics c g).preds ∧
    ∀ t byRef, (t, byRef) ∈ body.asked → Holds LibraryImpl [(.serialize, .var x)] (.opgModel, t) := by
  refine ⟨oracle, ⟨"S", [], .struct (.unnamed [⟨none, [], .named "HashMap" [.var "K", .named "u32" []]⟩])⟩,
    ⟨[.type ⟨"K", [], none⟩], []⟩, _, _, "K", rfl, rfl, .head _, ?_⟩
  intro t b h
  change (t, b) ∈ [(SynType.named "HashMap" [.var "K", .named "u32" []], false)] at h
  rw [List.mem_singleton] at h
  cases h
  refine .rule (.map (by simp)) fun n hn => ?_
  simp only [List.mem_cons, List.not_mem_nil, or_false] at hn
  rcases hn with rfl | rfl
  · exact .rule (.simple (by simp)) fun _ h => nomatch h
  · exact .given (.head _)

/-- C85 if no explicit type is given on a serialized field, nor on the item if it is a newtype struct: each type parameter
`T` that the macro adds a bound `T: OpgModel` for occurs in a type that the generated code asks for.  Missing: explicit
types (`c85_is_false`); impls that do not need a bound on each of their arguments (`c85_is_false_key`). -/
theorem c85_bounded_are_asked_partial (o : Oracle) (input : DeriveInput SynType) (g : Generics) (c : Container SynType)
    (body : ModelExpr SynType) (hc : derive o input = .code c body)
    (fields : ∀ f, FieldSerialized c f → f.attrs.explicitModelType = none)
    (item : ∀ fs, c.data = .struct .newType fs → c.attrs.explicitModelType = none)
    (x : String) (bounded : WherePred.bound (.var x) ∈ (buildGenerics c g).preds) (own : WherePred.bound (.var x) ∉ g.preds) :
    ∃ t byRef, (t, byRef) ∈ body.asked ∧ Occurs x t := by
  have hp := container_parsed hc
  have hb := (derive_code hc).2
  have hx : ∃ f, FieldSerialized c f ∧ Occurs x f.ty := by
    obtain ⟨-, xs, us, hpreds, -, hmem, uss, hus, hpw⟩ := c54_bounds c g
    rw [hpreds] at bounded
    rcases List.mem_append.1 bounded with h | h
    · rcases List.mem_append.1 h with h | h
      · exact absurd h own
      · obtain ⟨y, hy, e⟩ := List.mem_map.1 h
        have e : y = x := by simpa [SynType.var] using e
        subst e
        exact ((hmem y).1 hy).2
    · obtain ⟨u, hu, e⟩ := List.mem_map.1 h
      have e : u = .var x := by simpa using e
      subst e
      exfalso
      rw [hus] at hu
      obtain ⟨l, hl, hul⟩ := List.mem_flatten.1 hu
      clear hus hpreds bounded h hu
      generalize c.serializedFields = sfs at hpw
      induction hpw with
      | nil => cases hl
      | cons hh _ ih =>
        rcases List.mem_cons.1 hl with rfl | hl
        · rcases hh with ⟨u', rfl, ha⟩ | ⟨rfl, _⟩
          · rw [List.mem_singleton] at hul
            subst hul
            obtain ⟨q, l', s, s', ss, -, -, e⟩ := ungroup_eq.1 ha
            cases e
          · cases hul
        · exact ih hl
  obtain ⟨f, hf, ho⟩ := hx
  have sized : ∀ {rule : RenameRule} {fs : SynFields SynType} {style fs'}, FieldsParsed o rule fs style fs' →
      (style = .newType → fs'.length = 1) ∧ (style = .unit → fs' = []) := by
    intro rule fs style fs' h
    have hl := h.length
    cases h.style with
    | named => exact ⟨(fun h => by cases h), (fun h => by cases h)⟩
    | newType f => exact ⟨(fun _ => hl), (fun h => by cases h)⟩
    | tuple _ _ => exact ⟨(fun h => by cases h), (fun h => by cases h)⟩
    | unit => exact ⟨(fun h => by cases h), (fun _ => List.length_eq_zero_iff.1 hl)⟩
  have hz : ∀ vs, c.data = .enum vs → ∀ v ∈ vs, v.Sized := by
    intro vs hd
    obtain ⟨rule, _, h⟩ := hp.data
    cases hi : input.data with
    | struct fs => rw [hi] at h; obtain ⟨_, _, h, _⟩ := h; rw [hd] at h; cases h
    | union => rw [hi] at h; exact h.elim
    | enum vs₀ =>
      rw [hi] at h
      obtain ⟨vs', h, hv⟩ := h
      rw [hd] at h
      cases h
      clear hd hi
      induction hv with
      | nil => intro v hv; cases hv
      | cons hv _ ih =>
        intro w hw
        rcases List.mem_cons.1 hw with rfl | hw
        · obtain ⟨r, _, hfp⟩ := hv.fields
          exact sized hfp
        · exact ih w hw
  have hs : ∀ fs, c.data = .struct .newType fs → fs.length = 1 := by
    intro fs hd
    obtain ⟨rule, _, h⟩ := hp.data
    cases hi : input.data with
    | struct fs => rw [hi] at h; obtain ⟨_, _, h, hfp⟩ := h; rw [hd] at h; cases h; exact (sized hfp).1 rfl
    | union => rw [hi] at h; exact h.elim
    | enum vs₀ => rw [hi] at h; obtain ⟨_, h, _⟩ := h; rw [hd] at h; cases h
  have hn : ∀ vs, c.data = .enum vs → c.attrs.modelType = .newType → ∀ v ∈ vs, v.fields = [] := by
    intro vs hd hm v hv
    have hder : Derived o ⟨fun _ => c.map fun _ => Ty.unit, id⟩ 0 (input.map fun _ => Ty.unit) := by
      refine ⟨body.map fun _ => Ty.unit, ?_⟩
      rw [derive_map, hc]
      rfl
    have h2 := (derived_enum (vs := vs.map (Variant.map fun _ => Ty.unit)) hder (by show Data.map _ c.data = _; rw [hd]; rfl)).2
    apply (hz vs hd v hv).2
    cases hst : v.style with
    | unit => rfl
    | _ =>
      have h2 := h2 ⟨v.map fun _ => Ty.unit, List.mem_map.2 ⟨v, hv, rfl⟩, by show v.style ≠ _; rw [hst]; simp⟩
      have h2 : c.attrs.modelType = match c.attrs.tagType with
        | .none => .oneOf
        | .internal _ => .oneOf
        | .external => .dictionary
        | .adjacent _ _ => .object := h2
      rw [hm] at h2
      cases ht : c.attrs.tagType <;> rw [ht] at h2 <;> cases h2
  obtain ⟨b, h⟩ := serializeBody_asks_all hb hn hz hs hf (fields f hf) item
  exact ⟨f.ty, b, h, ho⟩

example : ∃ c body, derive oracle generic = .code c body ∧ (∀ f, FieldSerialized c f → f.attrs.explicitModelType = none) ∧
    (∀ fs, c.data = .struct .newType fs → c.attrs.explicitModelType = none) ∧
    WherePred.bound (.var "C") ∈ (buildGenerics c genericParams).preds ∧ WherePred.bound (.var "C") ∉ genericParams.preds := by
  refine ⟨_, _, rfl, fun f hf => ?_, fun fs h => (by injection h with h; cases h), .tail _ (.head _), by simp [genericParams]⟩
  cases hf with
  | struct hd hf h =>
    injection hd with hd hd'
    subst hd'
    simp only [List.mem_cons, List.not_mem_nil, or_false] at hf
    rcases hf with rfl | rfl | rfl | rfl <;> rfl
  | variant hd => cases hd

end Verif
