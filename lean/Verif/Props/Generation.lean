import Verif.Proof.Returns
import Verif.Props.Registry
import Verif.Props.Samples
/-!
# C01-C05, C08, C13, C28, C34, C35, C37: schema generation and the registry
-/

namespace Verif

/-- A run of the sample program: `mention_schema::<Owner>(false, ..)` on an empty registry returns a link and
registers `Owner`, `Pet` and `User`. -/
example : (mentionSchema Sample.env 10 (.named 3) false {} Components.empty).map
    (fun x => (x.1.asLink, BMap.keys x.2.schemas)) = some (some "Owner", ["Owner", "Pet", "User"]) := rfl

/-! ## C01 -/

/-- **C01**. From a registry without dangling links (in particular the empty one), after any sequence of
mentions that return, no link at any depth of a registered schema or of a returned reference dangles. -/
theorem c01_links_resolve (env : Env) (cx cx' : Components) (calls : List Call) (rs : List Ref)
    (start : cx.NoDangling) (mentions : ∀ c ∈ calls, c.isMention = true)
    (run : CallsReturn env cx calls rs cx') :
    cx'.NoDangling ∧ ∀ r ∈ rs, ∀ l ∈ r.links, l ∈ BMap.keys cx'.schemas := by
  have h := run.good (W := False) mentions (Components.good_false_iff.2 start)
  exact ⟨Components.good_false_iff.1 h.1, fun r hr => (h.2 r hr).1⟩

theorem c01_links_resolve_from_empty (env : Env) (cx' : Components) (calls : List Call) (rs : List Ref)
    (mentions : ∀ c ∈ calls, c.isMention = true)
    (run : CallsReturn env Components.empty calls rs cx') :
    cx'.NoDangling ∧ ∀ r ∈ rs, ∀ l ∈ r.links, l ∈ BMap.keys cx'.schemas :=
  c01_links_resolve env _ cx' calls rs (fun _ _ h => by cases h) mentions run

/-- The hypotheses are met by two mentions of the sample program that create links at several depths. -/
example : ∃ rs cx', CallsReturn Sample.env Components.empty
    [.mention (.named 3) false {}, .mention (.seq .vec (.named 0)) false {}] rs cx' ∧
    rs.flatMap Ref.links = ["Owner", "User"] :=
  ⟨_, _, .mention ⟨10, rfl⟩ (.mention ⟨10, rfl⟩ (.nil _)), rfl⟩

/-! ## C02 -/

/-- **C02**. No sequence of calls changes or drops a registered schema or security scheme. -/
theorem c02_registered_is_kept (env : Env) (cx cx' : Components) (calls : List Call) (rs : List Ref)
    (run : CallsReturn env cx calls rs cx') :
    (∀ name m, BMap.get name cx.schemas = some m → BMap.get name cx'.schemas = some m) ∧
    (∀ name s, BMap.get name cx.securitySchemes = some s → BMap.get name cx'.securitySchemes = some s) :=
  ⟨run.keeps.schemas, run.keeps.security⟩

/-- **C02** for a bare `get_schema` run. -/
theorem c02_get_schema_keeps (env : Env) (t : Ty) (cx cx' : Components) (m : Model)
    (run : SchemaReturns env t cx m cx') :
    (∀ name m, BMap.get name cx.schemas = some m → BMap.get name cx'.schemas = some m) ∧
    (∀ name s, BMap.get name cx.securitySchemes = some s → BMap.get name cx'.securitySchemes = some s) :=
  ⟨run.keeps.schemas, run.keeps.security⟩

/-- A manually added `Pet` survives the mention of `Owner`, which refers to `Pet`. -/
example : ∃ rs cx', CallsReturn Sample.env Components.empty
      [.addModel "Pet" Sample.str, .mention (.named 3) false {}] rs cx' ∧
    BMap.get "Pet" cx'.schemas = some Sample.str :=
  ⟨_, _, .addModel (.mention ⟨10, rfl⟩ (.nil _)), rfl⟩

/-! ## C03 -/

/-- **C03**. After a mention, the same mention on the resulting registry, or on the registry after any further
calls, returns the same reference and changes nothing. -/
theorem c03_mention_idempotent (env : Env) (t : Ty) (inline : Bool) (p : Params) (cx cx' cx2 : Components)
    (r : Ref) (calls : List Call) (rs : List Ref)
    (first : MentionReturns env t inline p cx r cx') (later : CallsReturn env cx' calls rs cx2) :
    MentionReturns env t inline p cx2 r cx2 ∧
    ∀ r2 cx3, MentionReturns env t inline p cx2 r2 cx3 → r2 = r ∧ cx3 = cx2 := by
  have h : MentionReturns env t inline p cx2 r cx2 := by
    obtain ⟨n, h⟩ := first
    exact ⟨n, mentionSchema_rerun h cx2 fun l hl => later.keeps.keys hl⟩
  exact ⟨h, fun r2 cx3 h2 => (h2.unique h)⟩

example : ∃ r cx', MentionReturns Sample.env (.named 3) false {} Components.empty r cx' ∧
    CallsReturn Sample.env cx' [] [] cx' := ⟨_, _, ⟨10, rfl⟩, .nil _⟩

/-! ## C04 -/

/-- **C04**. A by-reference mention of a type with a name returns the link to that name whatever the
parameters; afterwards the name is registered; and if it was free before, then with the type's own schema. -/
theorem c04_mention_registers (env : Env) (t : Ty) (name : String) (p : Params) (cx cx' : Components) (r : Ref)
    (named : typeName env t = some name) (run : MentionReturns env t false p cx r cx') :
    r = .link name ∧
    (∃ m, BMap.get name cx'.schemas = some m) ∧
    (BMap.get name cx.schemas = none →
      ∃ m cx1, SchemaReturns env t cx m cx1 ∧ BMap.get name cx'.schemas = some m) := by
  have hl : linkName env t false = some name := by simp [linkName, named]
  rcases mentionReturns_iff.1 run with ⟨l, h, hr, hh⟩ | ⟨h, _⟩
  · rw [hl] at h; cases h
    refine ⟨hr, ?_, ?_⟩
    · rcases hh with ⟨hc, he⟩ | ⟨_, m, cx2, _, he⟩
      · subst he
        rw [← BMap.get_isSome_iff] at hc
        exact Option.isSome_iff_exists.1 hc
      · subst he; exact ⟨m, BMap.get_insert_self ..⟩
    · intro hn
      rcases hh with ⟨hc, he⟩ | ⟨_, m, cx2, hm, he⟩
      · exact absurd hc (BMap.get_eq_none_iff.1 hn)
      · subst he; exact ⟨m, cx2, hm, BMap.get_insert_self ..⟩
  · rw [hl] at h; cases h

example : typeName Sample.env (.wrap .box (.named 1)) = some "Pet" ∧
    ∃ r cx', MentionReturns Sample.env (.wrap .box (.named 1)) false {} Components.empty r cx' ∧
      BMap.get "Pet" cx'.schemas = some Sample.petModel := ⟨rfl, _, _, ⟨10, rfl⟩, rfl⟩

/-! ## C05 -/

/-- **C05**. Results do not depend on what was registered before. -/
theorem c05_context_independent (env : Env) (t : Ty) (cx1 cx2 cx1' cx2' : Components) :
    (∀ m1 m2, SchemaReturns env t cx1 m1 cx1' → SchemaReturns env t cx2 m2 cx2' → m1 = m2) ∧
    (∀ inline p r1 r2, MentionReturns env t inline p cx1 r1 cx1' →
      MentionReturns env t inline p cx2 r2 cx2' → r1 = r2) := by
  constructor
  · rintro m1 m2 ⟨n, h1⟩ ⟨k, h2⟩
    exact getSchema_indep n h1 h2
  · rintro i p r1 r2 ⟨n, h1⟩ ⟨k, h2⟩
    exact mentionWith_indep (rec := getSchema env n) (rec' := getSchema env k)
      (fun _ _ _ _ _ _ _ h h' => getSchema_indep n h h') h1 h2

/-- Two registries of which one already has (another) `Pet`. -/
example : ∃ m1 m2 a b, SchemaReturns Sample.env (.named 3) Components.empty m1 a ∧
    SchemaReturns Sample.env (.named 3) (Components.empty.addModel "Pet" Sample.str) m2 b ∧
    BMap.get "Pet" a.schemas = some ⟨none, Sample.petModel.applyParams { nullable := some true } |>.data⟩ ∧
    BMap.get "Pet" b.schemas = some Sample.str :=
  ⟨_, _, _, _, ⟨10, rfl⟩, ⟨10, rfl⟩, rfl, rfl⟩

/-! ## C08 -/

/-- **C08** (one mention). If the name of a type is registered, a by-reference mention returns its link at once
and leaves the registry unchanged, whether or not the type's own `get_schema` terminates. -/
theorem c08_registered_mention_returns (env : Env) (t : Ty) (name : String) (p : Params) (cx : Components)
    (m : Model) (named : typeName env t = some name) (registered : BMap.get name cx.schemas = some m) :
    MentionReturns env t false p cx (.link name) cx := by
  refine mentionReturns_iff.2 (.inl ⟨name, by simp [linkName, named], rfl, .inl ⟨?_, rfl⟩⟩)
  rw [← BMap.get_isSome_iff, registered]; rfl

/-- Every value needed to build `t`'s schema is available without registering anything: each mentioned type is
either registered by name, or its own schema can be built likewise. -/
inductive Settled (env : Env) (cx : Components) : Ty → Prop
  | intro (t : Ty) (e : ModelExpr Ty) (code : schemaExpr env t = some e)
      (byName : ∀ t' p name, Req.mention t' false p ∈ e.reqs → typeName env t' = some name →
        name ∈ BMap.keys cx.schemas)
      (inlined : ∀ t' inline p, Req.mention t' inline p ∈ e.reqs →
        (inline = true ∨ typeName env t' = none) → Settled env cx t')
      (schemas : ∀ t', Req.schema t' ∈ e.reqs → Settled env cx t') : Settled env cx t

/-- **C08** (whole schemas). `get_schema` of a settled type returns and changes nothing; the type may be
recursive. -/
theorem c08_settled_returns (env : Env) (cx : Components) (t : Ty) (h : Settled env cx t) :
    ∃ m, SchemaReturns env t cx m cx := by
  induction h with
  | intro t e code byName inlined schemas ihm ihs =>
    have key : ∀ qs : List Req, (∀ q ∈ qs, q ∈ e.reqs) →
        ∃ n as, runReqs env (getSchema env n) qs cx = some (as, cx) := by
      intro qs
      induction qs with
      | nil => intro _; exact ⟨0, [], rfl⟩
      | cons q qs ih =>
        intro hq
        obtain ⟨n, as, hn⟩ := ih fun q' h' => hq q' (List.mem_cons_of_mem _ h')
        have hmem := hq q List.mem_cons_self
        have : ∃ k a, q.run env (getSchema env k) cx = some (a, cx) := by
          cases q with
          | mention t' i p =>
            have hr : ∃ r, MentionReturns env t' i (p.eval env) cx r cx := by
              cases hc : linkName env t' i with
              | none =>
                have hi : i = true ∨ typeName env t' = none := by
                  cases i <;> simp_all [linkName]
                obtain ⟨m, hm⟩ := ihm t' i p hmem hi
                exact ⟨_, mentionReturns_iff.2 (.inr ⟨hc, m, hm, rfl⟩)⟩
              | some l =>
                have hi : i = false ∧ typeName env t' = some l := by
                  cases i <;> simp_all [linkName]
                obtain ⟨rfl, hn⟩ := hi
                exact ⟨.link l, mentionReturns_iff.2 (.inl ⟨l, hc, rfl, .inl ⟨byName t' p l hmem hn, rfl⟩⟩)⟩
            obtain ⟨r, k, hr⟩ := hr
            exact ⟨k, .ref r, by rw [mentionSchema] at hr; simp [Req.run, hr]⟩
          | schema t' =>
            obtain ⟨m, k, hm⟩ := ihs t' hmem
            exact ⟨k, .model m, by simp [Req.run, hm]⟩
        obtain ⟨k, a, ha⟩ := this
        refine ⟨max k n, a :: as, ?_⟩
        have h1 : runReqs env (getSchema env k) [q] cx = some ([a], cx) := by simp [runReqs, ha]
        have h1' := runReqs_fuel_mono (Nat.le_max_left k n) h1
        obtain ⟨a', as', cx1, ha', hb', e'⟩ := runReqs_cons_some h1'
        simp only [runReqs, Option.some.injEq, Prod.mk.injEq] at hb'
        obtain ⟨rfl, rfl⟩ := hb'
        cases e'
        simp [runReqs, ha', runReqs_fuel_mono (Nat.le_max_right k n) hn]
    obtain ⟨n, as, hn⟩ := key e.reqs (fun q h => h)
    refine ⟨(e.fill env as).1, n + 1, ?_⟩
    rw [getSchema_eq, code]
    simp [hn]


theorem mem_fieldReqs {f : Field Ty} {p : ParamsExpr} {b : Bool} {q : Req}
    (h : q ∈ (fieldModelReference p f b).reqs) :
    f.attrs.explicitModelType = none ∧ q = .mention f.ty b p := by
  unfold fieldModelReference at h
  split at h
  · simp [RefExpr.reqs] at h
  · rename_i t _ _
    cases t <;> simp [RefExpr.reqs, newtypeModel, ModelExpr.reqs, TypeExpr.reqs] at h
  · simp only [RefExpr.reqs, List.mem_singleton] at h
    exact ⟨by assumption, h⟩

theorem mem_structReqs {fs : List (Field Ty)} {pred : Field Ty → Bool} {q : Req}
    (h : q ∈ (objectTypeDescription fs pred).reqs) :
    ∃ f ∈ fs, f.attrs.skipSerializing = false ∧ f.attrs.explicitModelType = none ∧
      q = .mention f.ty (pred f) f.attrs.params := by
  simp only [objectTypeDescription, TypeExpr.reqs] at h
  induction fs with
  | nil => simp [PropExpr.reqsList] at h
  | cons f fs ih =>
    cases hs : f.attrs.skipSerializing with
    | true =>
      simp only [List.filter, hs, Bool.not_true] at h
      obtain ⟨f', hf, hh⟩ := ih h
      exact ⟨f', List.mem_cons_of_mem _ hf, hh⟩
    | false =>
      simp only [List.filter, hs, Bool.not_false, List.map_cons, PropExpr.reqsList, List.mem_append] at h
      rcases h with h | h
      · obtain ⟨he, hq⟩ := mem_fieldReqs h
        exact ⟨f, List.mem_cons_self, hs, he, hq⟩
      · obtain ⟨f', hf, hh⟩ := ih h
        exact ⟨f', List.mem_cons_of_mem _ hf, hh⟩

/-- **C08** (derived structs). If every field of a derived struct that is serialized and mentions its type has
its type name registered, then `get_schema` of the struct returns and changes nothing, recursive or not. -/
theorem c08_struct_returns (env : Env) (i : Nat) (fields : List (Field Ty)) (cx : Components)
    (isStruct : (env.decl i).data = .struct .struct fields)
    (registered : ∀ f ∈ fields, f.attrs.skipSerializing = false → f.attrs.explicitModelType = none →
      f.attrs.inline = false ∧ ∃ name, typeName env f.ty = some name ∧ name ∈ BMap.keys cx.schemas) :
    ∃ m, SchemaReturns env (.named i) cx m cx := by
  apply c08_settled_returns
  refine .intro _ (serializeStruct (env.decl i) fields) (by simp [schemaExpr, serializeBody, isStruct]) ?_ ?_ ?_
  · intro t' p name hq hn
    obtain ⟨f, hf, hs, he, hq⟩ := mem_structReqs hq
    injection hq with e1 e2 e3
    subst e1
    obtain ⟨_, name', hn', hk⟩ := registered f hf hs he
    rw [hn] at hn'; cases hn'; exact hk
  · intro t' inline p hq hi
    obtain ⟨f, hf, hs, he, hq⟩ := mem_structReqs hq
    cases hq
    obtain ⟨h1, name', hn', hk⟩ := registered f hf hs he
    rcases hi with hi | hi
    · rw [h1] at hi; cases hi
    · rw [hn'] at hi; cases hi
  · intro t' hq
    obtain ⟨f, hf, hs, he, hq⟩ := mem_structReqs hq
    cases hq

/-- The recursive sample type returns once its name is registered. -/
example : ∃ m, SchemaReturns Sample.env (.named 2) (Components.empty.addModel "Recursive" Sample.str) m
    (Components.empty.addModel "Recursive" Sample.str) := ⟨_, 3, rfl⟩

/-- `struct Tree { left: Option<Box<Tree>> }` meets the hypotheses of `c08_struct_returns`. -/
example : let env : Env := ⟨fun _ => Sample.struct "Tree" [Sample.field "left" (.option (.wrap .box (.named 0)))], id⟩
    ∃ m, SchemaReturns env (.named 0) (Components.empty.addModel "Tree" Sample.str) m
      (Components.empty.addModel "Tree" Sample.str) :=
  c08_struct_returns _ 0 _ _ rfl (by
    intro f hf _ _
    simp only [List.mem_singleton] at hf
    subst hf
    exact ⟨rfl, "Tree", rfl, by simp [Components.addModel, Components.empty, BMap.containsKey, BMap.insert, BMap.keys]⟩)

/-! ## C13 -/

theorem directLinks_subset (m : Model) : ∀ l ∈ m.directLinks, l ∈ m.links := by
  intro l hl
  obtain ⟨r, hr, he⟩ := List.mem_filterMap.1 hl
  cases r with
  | link l' =>
    simp only [Ref.asLink, Option.some.injEq] at he
    subst he
    rw [Model.links_eq]
    exact List.mem_flatMap.2 ⟨_, hr, by simp [Ref.links]⟩
  | inline _ => simp [Ref.asLink] at he
  | any => simp [Ref.asLink] at he

/-- **C13**. After any sequence of mentions from the empty registry `verify_schemas` returns `Ok`. -/
theorem c13_generated_verifies (env : Env) (cx' : Components) (calls : List Call) (rs : List Ref)
    (mentions : ∀ c ∈ calls, c.isMention = true)
    (run : CallsReturn env Components.empty calls rs cx') : cx'.verifySchemas = .ok () := by
  rw [(c11_verify_direct cx').1]
  intro name m hm l hl
  exact (c01_links_resolve_from_empty env cx' calls rs mentions run).1 name m hm l (directLinks_subset m l hl)

example : ∃ rs cx', CallsReturn Sample.env Components.empty [.mention (.named 3) false {}] rs cx' ∧
    cx'.schemas.length = 3 := ⟨_, _, .mention ⟨10, rfl⟩ (.nil _), rfl⟩

/-! ## C28 -/

/-- **C28**. In every generated schema, at any depth, every required name is a property of the same object
(and property names are strictly sorted, hence distinct), whatever was registered before. -/
theorem c28_required_declared (env : Env) (t : Ty) (cx cx' : Components) :
    (∀ m, SchemaReturns env t cx m cx' → ∀ o ∈ m.objects, ∀ name ∈ o.required, name ∈ BMap.keys o.properties) ∧
    (∀ inline p r, MentionReturns env t inline p cx r cx' →
      ∀ o ∈ r.objects, ∀ name ∈ o.required, name ∈ BMap.keys o.properties) := by
  constructor
  · rintro m ⟨n, h⟩ o ho
    exact ((getSchema_objects n h).2 o ho trivial).2
  · rintro i p r ⟨n, h⟩ o ho
    exact ((mentionSchema_objects h).2 o ho trivial).2

/-- **C28** for everything in a generated registry. -/
theorem c28_registry (env : Env) (cx' : Components) (calls : List Call) (rs : List Ref)
    (mentions : ∀ c ∈ calls, c.isMention = true) (run : CallsReturn env Components.empty calls rs cx') :
    ∀ name m, (name, m) ∈ cx'.schemas → ∀ o ∈ m.objects, ∀ r ∈ o.required, r ∈ BMap.keys o.properties := by
  have h := run.good (W := True) mentions Components.good_empty
  intro name m hm o ho
  exact ((h.1 (name, m) hm).2 o ho trivial).2

/-- The schema of `User` has an object with three required names. -/
example : ∃ m cx', SchemaReturns Sample.env (.named 0) Components.empty m cx' ∧
    m.objects.map (·.required) = [["id", "pet", "tags"]] := ⟨_, _, ⟨10, rfl⟩, rfl⟩

/-! ## C34 -/

/-- **C34**. A container marked inline has no name; mentioned with either flag it is returned as an inline
model; and mentioning any type with `inline = true` returns its inline schema, with exactly the registry effect
of `get_schema` (nothing is registered for the type itself). -/
theorem c34_inline (env : Env) (cx cx' : Components) (p : Params) (r : Ref) :
    (∀ i, (env.decl i).attrs.inline = true → typeName env (.named i) = none ∧
      ∀ flag, MentionReturns env (.named i) flag p cx r cx' ↔
        ∃ m, SchemaReturns env (.named i) cx m cx' ∧ r = .inline (m.applyParams p)) ∧
    (∀ t, MentionReturns env t true p cx r cx' ↔
        ∃ m, SchemaReturns env t cx m cx' ∧ r = .inline (m.applyParams p)) := by
  have key : ∀ t flag, linkName env t flag = none → (MentionReturns env t flag p cx r cx' ↔
        ∃ m, SchemaReturns env t cx m cx' ∧ r = .inline (m.applyParams p)) := by
    intro t flag hl
    rw [mentionReturns_iff]
    simp [hl]
  constructor
  · intro i hi
    have hn : typeName env (.named i) = none := by simp [typeName, Container.typeName, hi]
    exact ⟨hn, fun flag => key _ flag (by simp [linkName, hn])⟩
  · intro t
    exact key t true (by simp [linkName])

/-- The registry is unchanged when `Pet` is mentioned inline. -/
example : MentionReturns Sample.env (.named 1) true {} Components.empty (.inline Sample.petModel)
    Components.empty := ⟨5, rfl⟩

/-- By-reference mentions of named types are always links. -/
theorem c34_by_reference_is_link (env : Env) (t : Ty) (name : String) (p : Params) (cx cx' : Components) (r : Ref)
    (named : typeName env t = some name) (run : MentionReturns env t false p cx r cx') : r = .link name :=
  (c04_mention_registers env t name p cx cx' r named run).1

/-! ## C35 -/

/-- **C35**. `&T`, `&mut T`, `Box<T>`, `Rc<T>`, `Arc<T>`, `Cell<T>`, `RefCell<T>` and `(T,)` behave as `T`. -/
theorem c35_wrappers_transparent (env : Env) (w : Wrapper) (t : Ty) (cx cx' : Components) :
    typeName env (.wrap w t) = typeName env t ∧
    (∀ m, SchemaReturns env (.wrap w t) cx m cx' ↔ SchemaReturns env t cx m cx') ∧
    (∀ inline p r, MentionReturns env (.wrap w t) inline p cx r cx' ↔ MentionReturns env t inline p cx r cx') := by
  have hs : ∀ cx m cx', SchemaReturns env (.wrap w t) cx m cx' ↔ SchemaReturns env t cx m cx' := by
    intro cx m cx'
    rw [schemaReturns_iff (e := .getSchema t) rfl]
    rfl
  refine ⟨rfl, fun m => hs cx m cx', ?_⟩
  intro i p r
  rw [mentionReturns_iff, mentionReturns_iff]
  have hl : linkName env (.wrap w t) i = linkName env t i := rfl
  simp only [hl, hs]

/-- `Box<Arc<Pet>>` is registered as `Pet`. -/
example : ∃ r cx', MentionReturns Sample.env (.wrap .box (.wrap .arc (.named 1))) false {} Components.empty r cx' ∧
    BMap.keys cx'.schemas = ["Pet"] := ⟨_, _, ⟨10, rfl⟩, rfl⟩

/-! ## C37 -/

/-- **C37** (sequences). -/
theorem c37_sequences (env : Env) (k : SeqKind) (t : Ty) (cx cx' : Components) (m : Model) :
    SchemaReturns env (.seq k t) cx m cx' ↔
      ∃ r, MentionReturns env t false {} cx r cx' ∧ m = ⟨none, .single ⟨false, .array r⟩⟩ := by
  rw [schemaReturns_iff (e := .single none false (.array (.mention t false {}))) rfl]
  simp only [ModelExpr.eval, TypeExpr.eval, RefExpr.eval]
  constructor
  · rintro ⟨n, h⟩
    cases hm : mentionWith env (getSchema env n) t false (ParamsExpr.eval env {}) cx with
    | none => simp [hm] at h
    | some x => simp only [hm] at h; cases h; exact ⟨x.1, ⟨n, hm⟩, rfl⟩
  · rintro ⟨r, ⟨n, h⟩, e⟩
    refine ⟨n, ?_⟩
    have h' : mentionWith env (getSchema env n) t false (ParamsExpr.eval env {}) cx = some (r, cx') := h
    simp [h', e]

/-- **C37** (maps). -/
theorem c37_maps (env : Env) (k : DictKind) (t : Ty) (cx cx' : Components) (m : Model) :
    SchemaReturns env (.dict k t) cx m cx' ↔
      ∃ r, MentionReturns env t false {} cx r cx' ∧ m = ⟨none, .single ⟨false, .object ⟨[], some r, []⟩⟩⟩ := by
  rw [schemaReturns_iff (e := .single none false (.dictionary (.mention t false {}))) rfl]
  simp only [ModelExpr.eval, TypeExpr.eval, RefExpr.eval]
  constructor
  · rintro ⟨n, h⟩
    cases hm : mentionWith env (getSchema env n) t false (ParamsExpr.eval env {}) cx with
    | none => simp [hm] at h
    | some x => simp only [hm] at h; cases h; exact ⟨x.1, ⟨n, hm⟩, rfl⟩
  · rintro ⟨r, ⟨n, h⟩, e⟩
    refine ⟨n, ?_⟩
    have h' : mentionWith env (getSchema env n) t false (ParamsExpr.eval env {}) cx = some (r, cx') := h
    simp [h', e]

/-- **C37** (tuples): the components are mentioned one after the other. -/
theorem c37_tuples (env : Env) (ts : List Ty) (cx cx' : Components) (m : Model) :
    SchemaReturns env (.tuple ts) cx m cx' ↔
      ∃ rs, CallsReturn env cx (ts.map fun t => .mention t false {}) rs cx' ∧
        m = ⟨none, .single ⟨false, .array (.inline ⟨none, .oneOf rs⟩)⟩⟩ := by
  rw [schemaReturns_iff (e := .single none false (.array (.inline (.oneOf none
      (ts.map fun t => .mention t false {}))))) rfl]
  have key := fun rs cx' => evalList_mentions (env := env) (ts.map fun t => (t, false, ({} : ParamsExpr))) (cx := cx)
    (rs := rs) (cx' := cx')
  simp only [List.map_map] at key
  simp only [ModelExpr.eval, TypeExpr.eval, RefExpr.eval]
  constructor
  · rintro ⟨n, h⟩
    cases hm : RefExpr.evalList env (getSchema env n) (ts.map fun t => .mention t false {}) cx with
    | none => simp [hm] at h
    | some x => simp only [hm] at h; cases h; exact ⟨x.1, (key _ _).1 ⟨n, hm⟩, rfl⟩
  · rintro ⟨rs, h, e⟩
    obtain ⟨n, h⟩ := (key _ _).2 h
    refine ⟨n, ?_⟩
    have h' : RefExpr.evalList env (getSchema env n) (ts.map fun t => .mention t false {}) cx = some (rs, cx') := h
    simp [h', e]

/-- **C37**: sequences, maps and tuples have no name and are always inlined. -/
theorem c37_always_inlined (env : Env) (t : Ty) (flag : Bool) (p : Params) (cx cx' : Components) (r : Ref)
    (shape : (∃ k t', t = .seq k t') ∨ (∃ k t', t = .dict k t') ∨ (∃ ts, t = .tuple ts)) :
    typeName env t = none ∧ (MentionReturns env t flag p cx r cx' ↔
      ∃ m, SchemaReturns env t cx m cx' ∧ r = .inline (m.applyParams p)) := by
  have hn : typeName env t = none := by
    rcases shape with ⟨k, t', rfl⟩ | ⟨k, t', rfl⟩ | ⟨ts, rfl⟩ <;> rfl
  refine ⟨hn, ?_⟩
  rw [mentionReturns_iff]
  simp [linkName, hn]

example : ∃ m cx', SchemaReturns Sample.env (.tuple [.named 1, .prim .u8]) Components.empty m cx' ∧
    m = ⟨none, .single ⟨false, .array (.inline ⟨none, .oneOf [.link "Pet",
      .inline ⟨none, .single ⟨false, .integer (some "uint8") none⟩⟩]⟩)⟩⟩ := ⟨_, _, ⟨10, rfl⟩, rfl⟩

end Verif
