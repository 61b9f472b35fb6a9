import Verif.Props.Spots
import Verif.Props.Mixed
import Verif.Props.Compiles
/-!
# Structure of documents of programs with hand written impls

C117: what documents say apart from schemas follows from the description alone, however its types are documented.
-/

namespace Verif

open Sample

namespace Sample
/-- A program where all types are structs without fields. -/
def blank : Env := ⟨fun _ => struct "Blank" [], fun s => s⟩
end Sample

mutual
theorem blank_expands : ∀ t, Expands blank t
  | .prim p => .intro rfl fun _ _ h => by
    have : (simpleExpr p.schema.1 p.schema.2).asked = [] := by cases p <;> rfl
    rw [show (ModelExpr.single none false (simpleExpr p.schema.1 p.schema.2)).asked = (simpleExpr p.schema.1 p.schema.2).asked from rfl,
      this] at h
    cases h
  | .wrap _ t => .intro rfl fun _ _ h => by cases List.mem_singleton.1 h; exact blank_expands t
  | .option t => .intro rfl fun _ _ h => by cases List.mem_singleton.1 h; exact blank_expands t
  | .seq _ t => .intro rfl fun _ _ h => by cases List.mem_singleton.1 h; exact blank_expands t
  | .dict _ t => .intro rfl fun _ _ h => by cases List.mem_singleton.1 h; exact blank_expands t
  | .tuple ts => .intro rfl fun t b h => blank_expands_all ts t b h
  | .unit => .intro rfl fun _ _ h => nomatch h
  | .uuid => .intro rfl fun _ _ h => nomatch h
  | .naiveDateTime => .intro rfl fun _ _ h => nomatch h
  | .dateTime => .intro rfl fun _ _ h => nomatch h
  | .naiveDate => .intro rfl fun _ _ h => nomatch h
  | .named _ => .intro rfl fun _ _ h => nomatch h
theorem blank_expands_all : ∀ (ts : List Ty) t b, (t, b) ∈ RefExpr.askedList (ts.map fun t => .mention t false {}) → Expands blank t
  | [], _, _, h => nomatch h
  | u :: ts, t, b, h => by
    rcases List.mem_append.1 (show (t, b) ∈ [(u, true)] ++ _ from h) with h | h
    · cases List.mem_singleton.1 h; exact blank_expands u
    · exact blank_expands_all ts t b h
end

theorem entries_get {κ α : Type} [DecidableEq κ] {R : α → α → Prop} {as bs : List (κ × α)} (h : Entries R as bs) (k : κ) :
    OptRel R (BMap.get k as) (BMap.get k bs) := by
  induction h with
  | nil => exact .none
  | @cons k' _ _ _ _ h _ ih =>
    simp only [BMap.get]
    split
    · exact .some h
    · exact ih

theorem OperationsAlong.get {R} {as bs : List (HttpMethod × Operation)} (h : OperationsAlong R as bs) (m : HttpMethod) :
    OptRel (Operation.Along R) (BMap.get m as) (BMap.get m bs) :=
  match h with
  | .nil => .none
  | .cons h t => by
    simp only [BMap.get]
    split
    · exact .some h
    · exact t.get m

theorem CallbacksAlong.get {R} {as bs : List (String × CallbackObject)} (h : CallbacksAlong R as bs) (name : String) :
    OptRel (fun c c' => PathsAlong R c.paths c'.paths) (BMap.get name as) (BMap.get name bs) :=
  match h with
  | .nil => .none
  | .cons h t => by
    simp only [BMap.get]
    split
    · exact .some h
    · exact t.get name

theorem PathsAlong.get {R} {as bs : List (UrlPath × PathValue)} (h : PathsAlong R as bs) (i : Nat) :
    OptRel (fun a b => a.1 = b.1 ∧ PathValue.Along R a.2 b.2) as[i]? bs[i]? :=
  match h, i with
  | .nil, _ => .none
  | .cons h _, 0 => .some ⟨rfl, h⟩
  | .cons _ t, i + 1 => by simpa using t.get i

section
variable {R : Ref → Ref → Prop} {api : Api} {d d' : Opg}

theorem at_method_along {v v' : PathValue} (h : v.Along R v') (m : HttpMethod) :
    (∃ o o' : Operation, v.ser.at m.asStr = some o.ser ∧ v'.ser.at m.asStr = some o'.ser ∧ o.Along R o') ∨
    v.ser.at m.asStr = none ∧ v'.ser.at m.asStr = none := by
  obtain ⟨-, -, h, -⟩ := h
  rw [at_method, at_method]
  have := h.get m
  generalize BMap.get m v.operations = x at this
  generalize BMap.get m v'.operations = y at this
  cases this with
  | none => exact .inr ⟨rfl, rfl⟩
  | some h => exact .inl ⟨_, _, rfl, rfl, h⟩

theorem at_paths_along {ps ps' : List (UrlPath × PathValue)} (h : PathsAlong R ps ps') (i : Nat) (m : HttpMethod) :
    (∃ o o' : Operation, ((ps[i]?).bind fun pv => pv.2.ser.at m.asStr) = some o.ser ∧ ((ps'[i]?).bind fun pv => pv.2.ser.at m.asStr) = some o'.ser ∧
      o.Along R o') ∨
    ((ps[i]?).bind fun pv => pv.2.ser.at m.asStr) = none ∧ ((ps'[i]?).bind fun pv => pv.2.ser.at m.asStr) = none := by
  have := h.get i
  generalize ps[i]? = x at this
  generalize ps'[i]? = y at this
  cases this with
  | none => exact .inr ⟨rfl, rfl⟩
  | some h => exact at_method_along h.2 m

theorem opAt_along (h : PathsAlong R d.paths d'.paths) : ∀ pos,
    (∃ o o' : Operation, d.ser.opAt pos = some o.ser ∧ d'.ser.opAt pos = some o'.ser ∧ o.Along R o') ∨ d.ser.opAt pos = none ∧ d'.ser.opAt pos = none
  | .top i m => by
    rw [opAt_top, opAt_top]
    exact at_paths_along h i m
  | .callback p name i m => by
    have e : ∀ d : Opg, d.ser.opAt (.callback p name i m) = (d.ser.opAt p).bind fun op =>
      (op.at "callbacks").bind fun cs => (cs.at name).bind fun c => (c.entry i).bind fun item => item.2.at m.asStr := fun _ => rfl
    rw [e, e]
    rcases opAt_along h p with ⟨o, o', e1, e2, ho⟩ | ⟨e1, e2⟩
    · rw [e1, e2, Option.bind_some, Option.bind_some, opAt_callback, opAt_callback]
      obtain ⟨-, -, -, -, -, -, -, -, -, hc⟩ := ho
      have := hc.get name
      generalize BMap.get name o.callbacks = x at this
      generalize BMap.get name o'.callbacks = y at this
      cases this with
      | none => exact .inr ⟨rfl, rfl⟩
      | some h => exact at_paths_along h i m
    · rw [e1, e2]
      exact .inr ⟨rfl, rfl⟩

mutual
theorem ItemIn.along (h : PathsAlong R d.paths d'.paths) {decl pv} (hi : ItemIn api d' decl pv) :
    ∃ v₀ : PathValue, ItemIn api d decl (pv.1, v₀) ∧ v₀.Along R pv.2 :=
  match hi with
  | .top (i := i) ha hp => by
    have := h.get i
    rw [hp] at this
    generalize e : d.paths[i]? = x at this
    cases this with
    | @some a b h =>
      obtain ⟨p₀, v₀⟩ := a
      obtain ⟨he, h⟩ := h
      cases he
      exact ⟨v₀, .top ha e, h⟩
  | .callback (name := name) (i := i) ho hc hc' ha hp => by
    obtain ⟨o₀, ho₀, hal⟩ := OpIn.along h ho
    have hcs : CallbacksAlong R o₀.callbacks _ := match hal with | .mk _ _ _ _ _ _ _ _ _ h => h
    have := hcs.get name
    rw [hc'] at this
    generalize e : BMap.get name o₀.callbacks = x at this
    cases this with
    | @some c₀ _ hps =>
      have := hps.get i
      rw [hp] at this
      generalize e' : c₀.paths[i]? = x at this
      cases this with
      | @some a b h =>
        obtain ⟨p₀, v₀⟩ := a
        obtain ⟨he, h⟩ := h
        cases he
        exact ⟨v₀, .callback ho₀ hc e ha e', h⟩
theorem OpIn.along (h : PathsAlong R d.paths d'.paths) {ps o} (ho : OpIn api d' ps o) : ∃ o₀, OpIn api d ps o₀ ∧ o₀.Along R o :=
  match ho with
  | .mk (m := m) hi hm hg => by
    obtain ⟨v₀, hi₀, hal⟩ := ItemIn.along h hi
    have hos : OperationsAlong R v₀.operations _ := match hal with | .mk _ _ h _ => h
    have := hos.get m
    rw [hg] at this
    generalize e : BMap.get m v₀.operations = x at this
    cases this with
    | some h => exact ⟨_, .mk hi₀ hm e, h⟩
end

end

/-- A schema of a document is one the author has written, or the answer to a mention of a type of the description. -/
def AnyAnswer (w : Ty → Impl Ty) (api : Api) (r r' : Ref) : Prop :=
  r = r' ∨ ∃ t, Part.mention t ∈ api.parts ∧ Mentions blank t false {} r ∧ MentionsVia w t r'

/-- **C117**.  Whatever impls the types have, derived or written by hand, the document of a description is the one it has in a program of
structs without fields, but for schemas and what is registered. -/
theorem c117_structure (w : Ty → Impl Ty) (reason : Nat → Option String) (api : Api) (d : Opg) (h : DescribesVia w reason api d) :
    ∃ d₀, Describes blank reason api d₀ ∧ d₀.Along (AnyAnswer w api) { d with components := d₀.components } := by
  obtain ⟨d₀, h₀⟩ := c110_any_order blank reason api api (fun _ h => h) h.ok fun t _ => blank_expands t
  refine ⟨d₀, h₀, ?_⟩
  have := describeApi_any ((c104_derived blank reason api d₀).2 h₀) h
  have e : ∀ t r, MentionsVia (impls blank fun _ => none) t r ↔ Mentions blank t false {} r := fun t r =>
    exists_congr fun cx => exists_congr fun cx' => (c103_derived blank t cx cx').1 false {} r
  simp only [e] at this
  exact this

/-- Impls written by hand tell what they return. -/
instance : Telling MixedCtx where
  told c := MentionsVia c.impls
  tells {c _ cx _ cx'} h := ⟨cx, cx', c.fuel, h⟩

/-- **C117**.  Path items say what is declared for them, at any depth, and schemas are answers of the types declared there (C58). -/
theorem c117_items (w : Ty → Impl Ty) (reason : Nat → Option String) (api : Api) (d : Opg) (h : DescribesVia w reason api d) (decl : PathDecl)
    (p : UrlPath) (v : PathValue) (hi : ItemIn api d decl (p, v)) : ItemBy (MentionsVia w) decl p v := by
  obtain ⟨fuel, h⟩ := h
  exact (hi.madeFrom (describeApi_made h)).itemOf

/-- **C117**.  Operations say what is declared for them, at any depth, and schemas are answers of the types declared there (C58). -/
theorem c117_operations (w : Ty → Impl Ty) (reason : Nat → Option String) (api : Api) (d : Opg) (h : DescribesVia w reason api d)
    (ps : List OpProp) (o : Operation) (ho : OpIn api d ps o) : OperationBy (MentionsVia w) reason ps o := by
  obtain ⟨fuel, h⟩ := h
  exact (ho.madeFrom (describeApi_made h)).operationOf

/-- **C117**.  Operations stand where they are described, with what is given there (C116). -/
theorem c117_places (w : Ty → Impl Ty) (reason : Nat → Option String) (api : Api) (d : Opg) (h : DescribesVia w reason api d) (p : Spot) :
    ((d.ser.opAt p).isSome = (api.opAt p).isSome) ∧
    ∀ op ps, d.ser.opAt p = some op → api.opAt p = some ps →
      op.at "operationId" = (lastOf OpProp.operationId? ps).map .str ∧ op.at "summary" = (lastOf OpProp.summary? ps).map .str ∧
      op.at "description" = (lastOf OpProp.description? ps).map .str ∧
      op.at "tags" = (match ps.flatMap OpProp.tagList with | [] => none | t :: ts => some (.seq ((t :: ts).map .str))) := by
  obtain ⟨d₀, h₀, hal⟩ := c117_structure w reason api d h
  have says := c116_operations blank reason api d₀ h₀ p
  rcases opAt_along (d := d₀) (d' := d) hal.paths p with ⟨o, o', e1, e2, ho⟩ | ⟨e1, e2⟩
  · rw [e1] at says
    rw [e2]
    refine ⟨says.1, ?_⟩
    rintro _ ps ⟨⟩ hps
    have says := says.2 _ ps rfl hps
    obtain ⟨h1, h2, h3, h4, -⟩ := ho
    have same : ∀ k ∈ ["operationId", "summary", "description", "tags"], o.ser.at k = o'.ser.at k := by
      obtain ⟨tags, summary, id, desc, depr, sec, body, resp, params, callbacks⟩ := o
      obtain ⟨tags', summary', id', desc', depr', sec', body', resp', params', callbacks'⟩ := o'
      cases h1; cases h2; cases h3; cases h4
      intro k hk
      simp only [List.mem_cons, List.not_mem_nil, or_false] at hk
      rcases hk with rfl | rfl | rfl | rfl <;> simp [Operation.ser, Value.at_map]
    rw [← same _ (by simp), ← same _ (by simp), ← same "description" (by simp), ← same "tags" (by simp)]
    exact says
  · rw [e1] at says
    rw [e2]
    exact ⟨says.1, fun _ _ e => nomatch e⟩

/-- **C117**.  The ids of the document are unique exactly if those of the description are. -/
theorem c117_ids (w : Ty → Impl Ty) (reason : Nat → Option String) (api : Api) (d : Opg) (h : DescribesVia w reason api d) :
    d.ser.UniqueIds ↔ api.UniqueIds :=
  SpotSays.ids (c117_places w reason api d h)

theorem pathsAlong_left {R : Ref → Ref → Prop} {Q : PathDecl → UrlPath → Prop} {ds : List PathDecl} {ps ps' : List (UrlPath × PathValue)}
    (h : PathsAlong R ps ps') (hp : Pointwise (fun decl pv => Q decl pv.1) ds ps) : Pointwise (fun decl pv => Q decl pv.1) ds ps' :=
  match h, hp with
  | .nil, .nil => .nil
  | .cons _ t, .cons h' t' => .cons h' (pathsAlong_left t t')

/-- **C117**.  The paths of a document are those described, in their order (C57). -/
theorem c117_order (w : Ty → Impl Ty) (reason : Nat → Option String) (api : Api) (d : Opg) (h : DescribesVia w reason api d) :
    Pointwise (fun decl pv => Pointwise SegOf decl.segments pv.1) api.pathList d.paths := by
  obtain ⟨d₀, h₀, hal⟩ := c117_structure w reason api d h
  exact pathsAlong_left (Q := fun decl p => Pointwise SegOf decl.segments p) hal.paths ((c57_order blank reason api d₀ h₀).1.imp fun _ _ h => h.1)

/-- The document of the sample, with a type that is documented by hand. -/
example : (∃ d₀, Describes blank reason Sample.api d₀ ∧
    d₀.Along (AnyAnswer (impls env byHand) Sample.api) { mixedDoc with components := d₀.components }) ∧
    (mixedDoc.ser.UniqueIds ↔ Sample.api.UniqueIds) :=
  ⟨c117_structure _ _ _ _ mixed_described, c117_ids _ _ _ _ mixed_described⟩

end Verif
