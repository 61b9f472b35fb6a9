import Verif.Props.Handmade
import Verif.Proof.ConformVia
import Verif.Props.Choice
/-!
# Values of programs with hand written impls

C119: what C81 says of values holds of types documented by derived impls next to hand written ones.
-/

namespace Verif

open Sample

theorem closed_via {env : Env} {custom : Nat → Option (Impl Ty)} {roots : List (Ty × Bool)} (unique : NamesUniqueVia (impls env custom) roots) :
    Closed env custom (ReachedVia (impls env custom) roots) (LinkedVia (impls env custom) roots) where
  calls _ ht _ _ hc := ⟨.step ht hc, fun e => .inr ⟨_, ht, e ▸ hc⟩⟩
  adds t ht n hn := fun ⟨u, hu, e⟩ => unique.own t n u ht hn hu e
  one := unique.one

theorem sound_empty (env : Env) (custom : Nat → Option (Impl Ty)) (hand : Nat → Option (Json → Prop)) (U : Ty → Prop) :
    Sound env custom hand U .empty := fun _ _ h => by cases h

theorem root_mention {t} {ps : List Part} (h : Part.mention t ∈ ps) : (t, true) ∈ rootsOf (callsOf ps) := by
  have key : ∀ {calls : List Call}, Call.mention t false {} ∈ calls → (t, true) ∈ rootsOf calls := by
    intro calls h
    induction calls with
    | nil => cases h
    | cons c rest ih =>
      rcases List.mem_cons.1 h with rfl | h'
      · exact List.mem_cons_self
      · cases c with
        | mention => exact List.mem_cons_of_mem _ (ih h')
        | _ => exact ih h'
  exact key (mention_call h)

/-- The registry of a described document. -/
theorem DescribesVia.sound {env : Env} {custom : Nat → Option (Impl Ty)} {hand : Nat → Option (Json → Prop)} {reason : Nat → Option String}
    {api : Api} {d : Opg} (h : DescribesVia (impls env custom) reason api d) (unique : NamesUniqueVia (impls env custom) api.roots)
    (K : Known custom hand) : Sound env custom hand (LinkedVia (impls env custom) api.roots) d.components ∧
      ∀ t, Part.mention t ∈ api.parts → Left env custom hand d.components (t, true) := by
  obtain ⟨fuel, h⟩ := h
  obtain ⟨rs, hw, -⟩ := describeApi_went h
  obtain ⟨h1, -, h2⟩ := hw.sound (closed_via unique) K rfl
    (fun t ht => ⟨.root (root_mention ht), .inl (root_mention ht)⟩) (sound_empty env custom hand _)
  exact ⟨h1, h2⟩

/-- **C119**.  What a document registers under the name of a type that is mentioned by reference is a schema of this type, if names are
unique and impls override neither `get_schema_with_params` nor, except to be always inlined, `select_reference`. -/
theorem c119_registered (env : Env) (custom : Nat → Option (Impl Ty)) (reason : Nat → Option String) (api : Api) (d : Opg)
    (h : DescribesVia (impls env custom) reason api d) (unique : NamesUniqueVia (impls env custom) api.roots)
    (plain : ∀ i im, custom i = some im → im.Plain) (t : Ty) (linked : LinkedVia (impls env custom) api.roots t) (name : String)
    (named : (impls env custom t).name = some name) (m : Model) (registered : BMap.get name d.components.schemas = some m) :
    SchemaVia (impls env custom) t m :=
  ((h.sound (hand := fun i => (custom i).map fun _ _ => True) unique ⟨fun i => by cases custom i <;> rfl, plain⟩).1 name m registered t
    linked named).1

theorem accepts_via {ex : Bool} (env : Env) (s : Serde) (custom : Nat → Option (Impl Ty)) (hand : Nat → Option (Json → Prop))
    (reason : Nat → Option String) (api : Api) (d : Opg) (h : DescribesVia (impls env custom) reason api d)
    (keys : d.ser.DistinctKeys) (unique : NamesUniqueVia (impls env custom) api.roots)
    (hands : ∀ i, (hand i).isSome = (custom i).isSome) (plain : ∀ i im, custom i = some im → im.Plain)
    (derived : ∀ i, ReachedVia (impls env custom) api.roots (.named i) → custom i = none → ∃ o input, Derived o env i input)
    (faithful : ∀ t, ReachedVia (impls env custom) api.roots t → ¬ ByHand hand t → Faithful (docsVia env custom) (s.writesBy hand) t)
    (finite : s.nonFinite = false)
    (accepts : ∀ i v, ReachedVia (impls env custom) api.roots (.named i) → hand i = some v → ∀ j, v j →
      ∀ m, SchemaVia (impls env custom) (.named i) m → Accepts ex d.ser (Ref.inline m).ser j)
    (distinct : ex = true → ∀ t, ReachedVia (impls env custom) api.roots t → ¬ ByHand hand t →
      Distinct (docsVia env custom) (s.writesBy hand) d.components.schemas t)
    (t : Ty) (v : Value) (placed : PlacedAt api d.ser t v) (j : Json) (written : SerBy env s hand t j) : Accepts ex d.ser v j := by
  have K : Known custom hand := ⟨hands, plain⟩
  obtain ⟨sound, left⟩ := h.sound unique K
  obtain ⟨r, rfl, hm, hp⟩ := c118_schemas _ _ _ _ h keys t v placed
  have W := world_via (s := s) (grounds_via (closed_via unique) K sound fun i hr hb => derived i hr (K.none hb i rfl)) faithful
    (fun i v hr hv j hj m hm => by
      have := accepts_ser.1 (accepts i v hr hv j hj m hm)
      cases this with
      | inline h => exact h) distinct
  have seen := Left.seen (T := ReachedVia (impls env custom) api.roots) (U := LinkedVia (impls env custom) api.roots)
    (x := (t, true)) (.root (root_mention hp)) (fun _ => .inl (root_mention hp)) (left t hp)
  have all := serBy_conforms W finite written
  exact accepts_ser.2 (mention_valid W.toGrounds ⟨by simp, rfl⟩ hm seen all)

/-- **C119**.  In a document of a program with hand written impls, the schema written where the description has a type accepts every
JSON value that is written for the type, if the schemas written by hand accept the values of their types.
Missing: types that are not faithful (C40), names used for several types, impls that override `get_schema_with_params` or
`select_reference`, repeated keys (C20), and the exclusive reading of `oneOf`, for which see `c119_exclusive_partial`. -/
theorem c119_accepts_partial (env : Env) (s : Serde) (custom : Nat → Option (Impl Ty)) (hand : Nat → Option (Json → Prop))
    (reason : Nat → Option String) (api : Api) (d : Opg) (h : DescribesVia (impls env custom) reason api d)
    (distinct : d.ser.DistinctKeys) (unique : NamesUniqueVia (impls env custom) api.roots)
    (hands : ∀ i, (hand i).isSome = (custom i).isSome) (plain : ∀ i im, custom i = some im → im.Plain)
    (derived : ∀ i, ReachedVia (impls env custom) api.roots (.named i) → custom i = none → ∃ o input, Derived o env i input)
    (faithful : ∀ t, ReachedVia (impls env custom) api.roots t → ¬ ByHand hand t → Faithful (docsVia env custom) (s.writesBy hand) t)
    (finite : s.nonFinite = false)
    (accepts : ∀ i v, ReachedVia (impls env custom) api.roots (.named i) → hand i = some v → ∀ j, v j →
      ∀ m, SchemaVia (impls env custom) (.named i) m → Accepts false d.ser (Ref.inline m).ser j)
    (t : Ty) (v : Value) (placed : PlacedAt api d.ser t v) (j : Json) (written : SerBy env s hand t j) :
    Accepts false d.ser v j :=
  accepts_via env s custom hand reason api d h distinct unique hands plain derived faithful finite accepts nofun t v placed j written

/-- **C119**, `oneOf` being read as "exactly one": the same holds if, in addition, the schemas written by hand accept the values of their
types under this reading, and the tuples, tuple structs and enums with derived impls are `Distinct` (C93). -/
theorem c119_exclusive_partial (env : Env) (s : Serde) (custom : Nat → Option (Impl Ty)) (hand : Nat → Option (Json → Prop))
    (reason : Nat → Option String) (api : Api) (d : Opg) (h : DescribesVia (impls env custom) reason api d)
    (keys : d.ser.DistinctKeys) (unique : NamesUniqueVia (impls env custom) api.roots)
    (hands : ∀ i, (hand i).isSome = (custom i).isSome) (plain : ∀ i im, custom i = some im → im.Plain)
    (derived : ∀ i, ReachedVia (impls env custom) api.roots (.named i) → custom i = none → ∃ o input, Derived o env i input)
    (faithful : ∀ t, ReachedVia (impls env custom) api.roots t → ¬ ByHand hand t → Faithful (docsVia env custom) (s.writesBy hand) t)
    (finite : s.nonFinite = false)
    (accepts : ∀ i v, ReachedVia (impls env custom) api.roots (.named i) → hand i = some v → ∀ j, v j →
      ∀ m, SchemaVia (impls env custom) (.named i) m → Accepts true d.ser (Ref.inline m).ser j)
    (distinct : ∀ t, ReachedVia (impls env custom) api.roots t → ¬ ByHand hand t →
      Distinct (docsVia env custom) (s.writesBy hand) d.components.schemas t)
    (t : Ty) (v : Value) (placed : PlacedAt api d.ser t v) (j : Json) (written : SerBy env s hand t j) : Accepts true d.ser v j :=
  accepts_via env s custom hand reason api d h keys unique hands plain derived faithful finite accepts (fun _ => distinct) t v placed j
    written

theorem documents_via {env : Env} {custom : Nat → Option (Impl Ty)} (plain : ∀ i im, custom i = some im → im.Plain) {i m}
    (none : custom i = none) (h : SchemaVia (impls env custom) (.named i) m) : Documents (docsVia env custom) i m := by
  have K : Known custom (fun i => (custom i).map fun _ _ => True) := ⟨fun i => by cases custom i <;> rfl, plain⟩
  obtain ⟨e, he, hy⟩ := K.schema h (by rintro ⟨_, v, e, hv⟩; cases e; simp [none] at hv)
  refine ⟨e, ?_, hy⟩
  simp only [schemaExpr] at he
  show serializeBody (env.decl i) = _
  cases hb : serializeBody (env.decl i) with
  | ok body => rw [hb] at he; cases he; rfl
  | error p => rw [hb] at he; cases he

/-- Which enums are distinct where some types are documented and written by hand: internally tagged ones whose variants match their
documentation and have different names (`c93_internal`). -/
theorem c119_internal (o : Oracle) (env : Env) (s : Serde) (custom : Nat → Option (Impl Ty)) (hand : Nat → Option (Json → Prop))
    (plain : ∀ i im, custom i = some im → im.Plain) (reg : List (String × Model)) (i : Nat) (input : DeriveInput Ty)
    (vs : List (Variant Ty)) (t : String) (derived : Derived o env i input) (by_derive : custom i = none ∧ hand i = none)
    (data : (env.decl i).data = .enum vs) (some_data : ∃ v ∈ vs, v.style ≠ .unit) (tag : (env.decl i).attrs.tagType = .internal t)
    (faithful : ∀ v ∈ writtenVariants vs, FaithfulVariant (docsVia env custom) (s.writesBy hand) (.internal t) v)
    (names : ((writtenVariants vs).map Variant.key).Nodup) :
    Distinct (docsVia env custom) (s.writesBy hand) reg (.named i) :=
  distinct_internal (docs := docsVia env custom) derived (fun _ => documents_via plain by_derive.1) by_derive.2 data some_data tag faithful
    names

/-- Untagged and externally tagged enums of struct variants with telling fields (`c93_untagged`, `c93_external`). -/
theorem c119_structs (o : Oracle) (env : Env) (s : Serde) (custom : Nat → Option (Impl Ty)) (hand : Nat → Option (Json → Prop))
    (plain : ∀ i im, custom i = some im → im.Plain) (reg : List (String × Model)) (i : Nat) (input : DeriveInput Ty)
    (vs : List (Variant Ty)) (derived : Derived o env i input) (by_derive : custom i = none ∧ hand i = none)
    (data : (env.decl i).data = .enum vs) (some_data : ∃ v ∈ vs, v.style ≠ .unit)
    (tag : (env.decl i).attrs.tagType = .none ∨ (env.decl i).attrs.tagType = .external)
    (structs : ∀ v ∈ writtenVariants vs, v.style = .struct ∧ PlainFields v.fields)
    (keys : ∀ (k l : Nat) v w, k ≠ l → (writtenVariants vs)[k]? = some v → (writtenVariants vs)[l]? = some w →
      ∃ f ∈ serialFields w.fields, f.attrs.optional = false ∧ f.key ∉ (serialFields v.fields).map Field.key) :
    Distinct (docsVia env custom) (s.writesBy hand) reg (.named i) := by
  rcases tag with tag | tag
  · exact distinct_untagged (docs := docsVia env custom) derived (fun _ => documents_via plain by_derive.1) by_derive.2 data some_data tag
      structs keys
  · exact distinct_external (docs := docsVia env custom) derived (fun _ => documents_via plain by_derive.1) by_derive.2 data some_data tag
      structs keys

namespace Sample

/-- ```
impl OpgModel for User {
    fn get_schema(cx: &mut Components) -> Model {
        let pet = cx.mention_schema::<Pet>(false, &Default::default());
        /* an array of `pet` */
    }
    fn type_name() -> Option<Cow<'static, str>> { Some("User".into()) }
}
```
or `cx.add_model("Pet", /* a string */); /* an array of anything */`. -/
def herdImpl (taken : Bool) : Impl Ty :=
  { schema := if taken then .addModel "Pet" str (.ret ⟨none, .single ⟨false, .array .any⟩⟩)
      else .mention (.named 1) false {} fun r => .ret ⟨none, .single ⟨false, .array r⟩⟩
    name := some "User" }

def herdHand (taken : Bool) : Nat → Option (Impl Ty)
  | 0 => some (herdImpl taken)
  | _ => none

/-- A user is written as the list of their pets. -/
def herdValues : Nat → Option (Json → Prop)
  | 0 => some fun j => ∃ xs, j = .arr xs ∧ ∀ x ∈ xs, ∃ name, x = .obj [("name", .str name)]
  | _ => none

def herdOp : List OpProp := [.body (.type (.named 3)), .response 200 none (.type (.named 3))]
def herdPath : PathDecl := .mk [.literal "owner"] [.operation .put herdOp]
/-- `paths: { ("owner"): { PUT: { body: Owner, 200: Owner } } }` -/
def herdApi : Api := [.paths [herdPath]]

def herdDoc (taken : Bool) : Opg := (describeApi (⟨impls env (herdHand taken), 10, reason⟩ : MixedCtx) herdApi).getD .empty

theorem herdDoc_described (taken : Bool) : DescribesVia (impls env (herdHand taken)) reason herdApi (herdDoc taken) := by
  cases taken <;> exact ⟨10, rfl⟩

theorem herdApi_parts : herdApi.parts = [.mention (.named 3), .mention (.named 3)] := by
  simp [Api.parts, Api.pathList, herdApi, Section.pathList, pathParts, herdPath, itemParts, herdOp, opParts,
    PathSeg.parts, ResponseDecl.parts, BodyDecl.parts]

theorem herdApi_roots : herdApi.roots = [(.named 3, true), (.named 3, true)] := by
  simp [Api.roots, herdApi_parts, callsOf, Part.call?, rootsOf]

theorem herdDoc_distinct (taken : Bool) : (herdDoc taken).ser.DistinctKeys := by
  refine c20_distinct_keys_partial _ (c118_sorted _ _ ?_ _ _ _ (herdDoc_described taken) ?_) ?_
  · intro i im h
    cases i with
    | succ i => cases h
    | zero =>
      cases h
      refine ⟨?_, nofun, nofun⟩
      cases taken <;>
        simp [herdImpl, Prog.Sorts, Model.PropsSorted, str, Model.objects, ModelData.objects, ModelType.objects, TypeDesc.objects,
          Ref.PropsSorted, Ref.objects]
  · intro r hr
    rw [herdApi_parts] at hr
    simp at hr
  · cases taken <;>
      exact ⟨by show (List.map _ _).Nodup; decide +kernel, ⟨⟨trivial, ⟨⟨trivial, trivial⟩, trivial⟩⟩, trivial⟩⟩

/-- Owners ask for users and lists of pets, users and lists for pets, and pets for strings. -/
theorem herd_reached {taken t} (h : ReachedVia (impls env (herdHand taken)) herdApi.roots t) :
    t = .named 3 ∨ t = .named 0 ∨ t = .seq .vec (.named 1) ∨ t = .named 1 ∨ t = .prim .string := by
  have after : ∀ {u p} {m : Ref → Model} {t b}, (Prog.mention u false p (fun r => .ret (m r)) : Prog Ty Model).Calls t b → t = u := by
    intro u p m t b h
    cases h with
    | mention => rfl
    | afterMention h => cases h
  induction h with
  | root h => rw [herdApi_roots] at h; simp at h; simp [h.1]
  | step _ hc ih =>
    rcases ih with rfl | rfl | rfl | rfl | rfl
    · have hc : (Prog.mention (.named 0) false _ _ : Prog Ty Model).Calls _ _ := hc
      cases hc with
      | mention => simp
      | afterMention hc => simp [show _ = Ty.seq .vec (.named 1) from after hc]
    · cases taken with
      | false => simp [show _ = Ty.named 1 from after hc]
      | true =>
        have hc : (Prog.addModel "Pet" str (.ret _) : Prog Ty Model).Calls _ _ := hc
        cases hc with
        | afterAddModel h => cases h
    · simp [show _ = Ty.named 1 from after hc]
    · simp [show _ = Ty.prim .string from after hc]
    · have hc : (Prog.ret _ : Prog Ty Model).Calls _ _ := hc
      cases hc

theorem herd_linked {taken t} (h : LinkedVia (impls env (herdHand taken)) herdApi.roots t) :
    t = .named 3 ∨ t = .named 0 ∨ t = .seq .vec (.named 1) ∨ t = .named 1 ∨ t = .prim .string :=
  herd_reached (h.elim .root fun ⟨_, hu, hc⟩ => .step hu hc)

theorem herd_one {taken : Bool} (t t' : Ty) (name : String) (h : LinkedVia (impls env (herdHand taken)) herdApi.roots t)
    (h' : LinkedVia (impls env (herdHand taken)) herdApi.roots t') (hn : (impls env (herdHand taken) t).name = some name)
    (hn' : (impls env (herdHand taken) t').name = some name) : t.strip = t'.strip := by
  cases taken <;> rcases herd_linked h with rfl | rfl | rfl | rfl | rfl <;> rcases herd_linked h' with rfl | rfl | rfl | rfl | rfl <;>
    cases hn <;> first | rfl | (cases hn'; done) | exact absurd (Option.some.inj hn') (by decide)

theorem herd_unique : NamesUniqueVia (impls env (herdHand false)) herdApi.roots where
  one := herd_one
  own t name u h ha _ := by
    have after : ∀ {u p} {m : Ref → Model} {n}, ¬ (Prog.mention u false p (fun r => .ret (m r)) : Prog Ty Model).Adds n := by
      intro u p m n h
      cases h with
      | afterMention h => cases h
    rcases herd_reached h with rfl | rfl | rfl | rfl | rfl
    · have hc : (Prog.mention (.named 0) false _ _ : Prog Ty Model).Adds _ := ha
      cases hc with
      | afterMention hc => exact absurd hc after
    · exact absurd ha after
    · exact absurd ha after
    · exact absurd ha after
    · have hc : (Prog.ret _ : Prog Ty Model).Adds _ := ha
      cases hc

theorem herd_derived {taken i} (h : ReachedVia (impls env (herdHand taken)) herdApi.roots (.named i)) (hn : herdHand taken i = none) :
    ∃ o input, Derived o env i input := by
  rcases herd_reached h with h | h | h | h | h <;> cases h
  · exact ⟨oracle, ⟨"Owner", [], .struct (.named [⟨some "user", [], .named 0⟩, ⟨some "pets", [], .seq .vec (.named 1)⟩])⟩, _, rfl⟩
  · cases hn
  · exact ⟨oracle, ⟨"Pet", [], .struct (.named [⟨some "name", [], .prim .string⟩])⟩, _, rfl⟩

theorem herd_faithful {taken t} (h : ReachedVia (impls env (herdHand taken)) herdApi.roots t) (hb : ¬ ByHand herdValues t) :
    Faithful (docsVia env (herdHand taken)) (serde.writesBy herdValues) t := by
  rcases herd_reached h with rfl | rfl | rfl | rfl | rfl
  · simp [Faithful, FaithfulDecl, docsVia, env, decl, struct, PlainFields, serialFields, field, containerAttrs, Field.key]
  · exact absurd ⟨0, _, rfl, rfl⟩ hb
  · trivial
  · simp [Faithful, FaithfulDecl, docsVia, env, decl, struct, PlainFields, serialFields, field, containerAttrs]
  · trivial

theorem herd_accepts {x taken i v} (hv : herdValues i = some v) {j} (hj : v j) {m} (hm : SchemaVia (impls env (herdHand taken)) (.named i) m) :
    Accepts x (herdDoc taken).ser (Ref.inline m).ser j := by
  cases i with
  | succ i => cases hv
  | zero =>
    cases hv
    obtain ⟨xs, rfl, hx⟩ := hj
    obtain ⟨cx, cx', hm⟩ := hm
    obtain ⟨n, hm⟩ := progReturns_iff.1 hm
    cases taken with
    | true =>
      have hm : (Prog.addModel "Pet" str (.ret _) : Prog Ty Model).exec _ _ = _ := hm
      cases hm
      exact accepts_ser.2 (.inline (.array fun _ _ => .any))
    | false =>
      have hm : (Prog.mention (.named 1) false {} _ : Prog Ty Model).exec _ _ = _ := hm
      rw [Prog.exec] at hm
      cases ha : (implOps (impls env (herdHand false)) (runProg (impls env (herdHand false)) n)).mention (.named 1) false {} cx with
      | none => rw [ha] at hm; cases hm
      | some x =>
        rw [ha] at hm
        cases hm
        obtain ⟨_, hs, -⟩ := progReturns_mention_select.1 (progReturns_mention.2 ⟨n, ha⟩)
        have hr : x.1 = .link "Pet" := by
          rcases progReturns_select.1 hs with ⟨-, l, hl, hr, -⟩ | ⟨h | h, -⟩
          · cases hl; exact hr
          · cases h
          · cases h
        rw [accepts_ser]
        refine .inline (.array fun y hy => ?_)
        obtain ⟨name, rfl⟩ := hx y hy
        rw [hr]
        have pet : BMap.get "Pet" (herdDoc false).components.schemas = some petModel := rfl
        refine .link pet (.object (by simp [BMap.keys]) ?_ nofun)
        intro k j r hj hr
        simp only [List.mem_singleton, Prod.mk.injEq] at hj
        obtain ⟨rfl, rfl⟩ := hj
        cases hr
        exact .inline (.string nofun)

theorem herd_plain {taken : Bool} (i : Nat) (im : Impl Ty) (h : herdHand taken i = some im) : im.Plain := by
  cases i <;> cases h
  exact ⟨rfl, nofun⟩

theorem herd_written (xs ys : List Json) (hx : ∀ x ∈ xs, ∃ name, x = .obj [("name", .str name)])
    (hy : ∀ y ∈ ys, ∃ name, y = .obj [("name", .str name)]) :
    SerBy env serde herdValues (.named 3) (.obj [("user", .arr xs), ("pets", .arr ys)]) := by
  refine .struct (ps := [(field "user" (.named 0), .arr xs), (field "pets" (.seq .vec (.named 1)), .arr ys)]) rfl rfl rfl
    (.keep rfl (.keep rfl .nil)) (by simp [field]) ?_
  simp only [List.mem_cons, List.not_mem_nil, or_false]
  rintro p (rfl | rfl) _
  · exact .byHand (i := 0) rfl ⟨_, rfl, hx⟩
  · refine .seq fun y h => ?_
    obtain ⟨name, rfl⟩ := hy y h
    refine .struct (ps := [(field "name" (.prim .string), .str name)]) rfl rfl rfl (.keep rfl .nil) (by simp [field]) ?_
    simp only [List.mem_singleton]
    rintro p rfl _
    exact .prim ⟨name, rfl⟩

/-- The hypotheses hold of the sample, and owners are accepted. -/
example : ∃ v, PlacedAt herdApi (herdDoc false).ser (.named 3) v ∧
    (∀ j, SerBy env serde herdValues (.named 3) j → Accepts false (herdDoc false).ser v j) ∧
    ∀ a b, SerBy env serde herdValues (.named 3) (.obj [("user", .arr [.obj [("name", .str a)]]), ("pets", .arr [.obj [("name", .str b)]])]) := by
  obtain ⟨h1, -, h3, h4, -⟩ := c118_placed _ _ _ _ (herdDoc_described false) (herdDoc_distinct false)
  obtain ⟨item, hi⟩ := h1 herdPath (List.mem_singleton.2 rfl)
  obtain ⟨op, -, hop⟩ := h3 _ _ .put herdOp hi rfl
  obtain ⟨v, -, hv⟩ := h4 _ _ 200 none (.named 3) hop rfl
  refine ⟨v, hv, fun j => ?_, fun a b => ?_⟩
  · exact c119_accepts_partial env serde (herdHand false) herdValues reason herdApi _ (herdDoc_described false) (herdDoc_distinct false)
      herd_unique (fun i => by cases i <;> rfl) herd_plain (fun _ => herd_derived)
      (fun _ => herd_faithful) rfl (fun _ _ _ hv j hj m hm => herd_accepts hv hj hm) (.named 3) v hv j
  · exact herd_written _ _ (by simp) (by simp)

/-! ### Exactly one -/

/-- `impl OpgModel for Figure`, documented as a string: `#[serde(tag = "kind")] enum Action { Draw { figure: Figure }, Stop }` has a derived
impl. -/
def sketchHand : Nat → Option (Impl Ty)
  | 1 => some { schema := .ret str, name := some "Figure" }
  | _ => none

/-- Figures are written as strings. -/
def sketchValues : Nat → Option (Json → Prop)
  | 1 => some fun j => ∃ t, j = .str t
  | _ => none

def sketchOp : List OpProp := [.response 200 none (.type (.named 0))]
def sketchPath : PathDecl := .mk [.literal "action"] [.operation .get sketchOp]
def sketchApi : Api := [.paths [sketchPath]]

def sketchDoc : Opg := (describeApi (⟨impls drawing sketchHand, 10, reason⟩ : MixedCtx) sketchApi).getD .empty

theorem sketchDoc_described : DescribesVia (impls drawing sketchHand) reason sketchApi sketchDoc := ⟨10, rfl⟩

theorem sketchApi_parts : sketchApi.parts = [.mention (.named 0)] := by
  simp [Api.parts, Api.pathList, sketchApi, Section.pathList, pathParts, sketchPath, itemParts, sketchOp, opParts,
    PathSeg.parts, ResponseDecl.parts]

theorem sketchApi_roots : sketchApi.roots = [(.named 0, true)] := by
  simp [Api.roots, sketchApi_parts, callsOf, Part.call?, rootsOf]

theorem sketch_plain (i : Nat) (im : Impl Ty) (h : sketchHand i = some im) : im.Plain := by
  match i, h with
  | 1, h => cases h; exact ⟨rfl, nofun⟩

theorem sketchDoc_distinct : sketchDoc.ser.DistinctKeys := by
  refine c20_distinct_keys_partial _ (c118_sorted _ _ ?_ _ _ _ sketchDoc_described ?_) ?_
  · intro i im h
    match i, h with
    | 1, h =>
      cases h
      refine ⟨?_, nofun, nofun⟩
      simp [Prog.Sorts, Model.PropsSorted, str, Model.objects, ModelData.objects, ModelType.objects, TypeDesc.objects]
  · intro r hr
    rw [sketchApi_parts] at hr
    simp at hr
  · exact ⟨by show (List.map _ _).Nodup; decide +kernel, ⟨⟨trivial, ⟨⟨trivial, trivial⟩, trivial⟩⟩, trivial⟩⟩

theorem sketch_reached {t} (h : ReachedVia (impls drawing sketchHand) sketchApi.roots t) : t = .named 0 ∨ t = .named 1 := by
  induction h with
  | root h => rw [sketchApi_roots] at h; simp at h; exact .inl h.1
  | step _ hc ih =>
    rcases ih with rfl | rfl
    · have hc : (Prog.mention (.named 1) false _ (fun r => .ret _) : Prog Ty Model).Calls _ _ := hc
      cases hc with
      | mention => exact .inr rfl
      | afterMention hc => cases hc
    · have hc : (Prog.ret _ : Prog Ty Model).Calls _ _ := hc
      cases hc

theorem sketch_unique : NamesUniqueVia (impls drawing sketchHand) sketchApi.roots where
  one t t' name h h' hn hn' := by
    have reached : ∀ {t}, LinkedVia (impls drawing sketchHand) sketchApi.roots t → t = .named 0 ∨ t = .named 1 :=
      fun h => sketch_reached (h.elim .root fun ⟨_, hu, hc⟩ => .step hu hc)
    rcases reached h with rfl | rfl <;> rcases reached h' with rfl | rfl <;> cases hn <;>
      first | rfl | exact absurd (Option.some.inj hn') (by decide)
  own t name u h ha _ := by
    rcases sketch_reached h with rfl | rfl
    · have hc : (Prog.mention (.named 1) false _ (fun r => .ret _) : Prog Ty Model).Adds _ := ha
      cases hc with
      | afterMention hc => cases hc
    · have hc : (Prog.ret _ : Prog Ty Model).Adds _ := ha
      cases hc

/-- The hypotheses of `c119_exclusive_partial` hold of a program with an internally tagged enum next to an impl written by hand. -/
example : ∃ v, PlacedAt sketchApi sketchDoc.ser (.named 0) v ∧
    (∀ j, SerBy drawing serde sketchValues (.named 0) j → Accepts true sketchDoc.ser v j) ∧
    ∀ t, SerBy drawing serde sketchValues (.named 0) (.obj [("kind", .str "Draw"), ("figure", .str t)]) := by
  obtain ⟨h1, -, h3, h4, -⟩ := c118_placed _ _ _ _ sketchDoc_described sketchDoc_distinct
  obtain ⟨item, hi⟩ := h1 sketchPath (List.mem_singleton.2 rfl)
  obtain ⟨op, -, hop⟩ := h3 _ _ .get sketchOp hi rfl
  obtain ⟨v, -, hv⟩ := h4 _ _ 200 none (.named 0) hop rfl
  refine ⟨v, hv, fun j => ?_, fun t => ?_⟩
  · refine c119_exclusive_partial drawing serde sketchHand sketchValues reason sketchApi _ sketchDoc_described sketchDoc_distinct
      sketch_unique (fun i => by match i with | 0 => rfl | 1 => rfl | _ + 2 => rfl) sketch_plain ?_ ?_ rfl ?_ ?_ (.named 0) v hv j
    · intro i _ _
      exact ⟨_, drawing_derived i⟩
    · intro t h hb
      rcases sketch_reached h with rfl | rfl
      · simp [Faithful, FaithfulDecl, FaithfulVariant, docsVia, drawing, action, container, variantAs, variantAttrs, PlainFields,
          serialFields, writtenVariants, field, containerAttrs, Field.key, Variant.key]
      · exact absurd ⟨1, _, rfl, rfl⟩ hb
    · intro i v _ hv j hj m hm
      match i, hv with
      | 1, hv =>
        cases hv
        obtain ⟨t, rfl⟩ := hj
        obtain ⟨cx, cx', hm⟩ := hm
        obtain ⟨n, hm⟩ := progReturns_iff.1 hm
        have hm : (Prog.ret str : Prog Ty Model).exec _ _ = _ := hm
        cases hm
        exact accepts_ser.2 (.inline (.string nofun))
    · intro t h hb
      rcases sketch_reached h with rfl | rfl
      · refine c119_internal oracle drawing serde sketchHand sketchValues sketch_plain _ 0 actionInput _ "kind" ⟨_, rfl⟩ ⟨rfl, rfl⟩ rfl ?_ rfl
          ?_ ?_ <;>
          simp [FaithfulVariant, variantAs, variantAttrs, PlainFields, serialFields, writtenVariants, field, Field.key, Variant.key]
      · exact absurd ⟨1, _, rfl, rfl⟩ hb
  · exact .structVariant (v := variantAs "Draw" "Draw" .struct [field "figure" (.named 1)]) rfl rfl rfl
      (by simp [writtenVariants, variantAs, variantAttrs]) rfl
      (ps := [(field "figure" (.named 1), .str t)]) (.keep rfl .nil) (by simp [field])
      (by simp only [List.mem_singleton]; rintro p rfl _; exact .byHand (i := 1) rfl ⟨t, rfl⟩) rfl

/-- Those of `c119_structs` hold of `enum Plot { Circle { r: f64 }, Rect { w: f64, h: f64 } }` next to the same impl. -/
example (reg) : Distinct (docsVia (program [plotC]) sketchHand) (serde.writesBy sketchValues) reg (.named 0) := by
  refine c119_structs oracle (program [plotC]) serde sketchHand sketchValues sketch_plain reg 0 plotInput _ ⟨_, rfl⟩ ⟨rfl, rfl⟩ rfl ?_
    (.inr rfl) ?_ ?_
  · simp [variantAs]
  · simp [variantAs, variantAttrs, PlainFields, serialFields, writtenVariants, field, Field.key]
  · intro k l v w hkl hv hw
    match k, l with
    | 0, 0 => exact absurd rfl hkl
    | 1, 1 => exact absurd rfl hkl
    | 0, 1 => cases hv; cases hw; exact ⟨field "w" (.prim .f64), List.mem_cons_self, rfl, by simp [serialFields, field, variantAs, Field.key]⟩
    | 1, 0 => cases hv; cases hw; exact ⟨field "r" (.prim .f64), List.mem_cons_self, rfl, by simp [serialFields, field, variantAs, Field.key]⟩
    | k + 2, _ => simp [writtenVariants, variantAs, variantAttrs] at hv
    | _, l + 2 => simp [writtenVariants, variantAs, variantAttrs] at hw

end Sample

/-- **C119** is false of impls that register schemas under the names of other types, although each type has a name of its own and the
schemas written by hand are right: the schema of the impl stands in for that of the other type. -/
theorem c119_is_false : ∃ (env : Env) (s : Serde) (custom : Nat → Option (Impl Ty)) (hand : Nat → Option (Json → Prop))
    (reason : Nat → Option String) (api : Api) (d : Opg) (t : Ty) (v : Value) (j : Json),
    DescribesVia (impls env custom) reason api d ∧ d.ser.DistinctKeys ∧
    (∀ t t' name, LinkedVia (impls env custom) api.roots t → LinkedVia (impls env custom) api.roots t' →
      (impls env custom t).name = some name → (impls env custom t').name = some name → t.strip = t'.strip) ∧
    (∀ i, (hand i).isSome = (custom i).isSome) ∧ (∀ i im, custom i = some im → im.Plain) ∧
    (∀ i, ReachedVia (impls env custom) api.roots (.named i) → custom i = none → ∃ o input, Derived o env i input) ∧
    (∀ t, ReachedVia (impls env custom) api.roots t → ¬ ByHand hand t → Faithful (docsVia env custom) (s.writesBy hand) t) ∧
    s.nonFinite = false ∧
    (∀ i v, ReachedVia (impls env custom) api.roots (.named i) → hand i = some v → ∀ j, v j →
      ∀ m, SchemaVia (impls env custom) (.named i) m → Accepts false d.ser (Ref.inline m).ser j) ∧
    PlacedAt api d.ser t v ∧ SerBy env s hand t j ∧ ¬ Accepts false d.ser v j := by
  obtain ⟨h1, -, h3, h4, -⟩ := c118_placed _ _ _ _ (herdDoc_described true) (herdDoc_distinct true)
  obtain ⟨item, hi⟩ := h1 herdPath (List.mem_singleton.2 rfl)
  obtain ⟨op, -, hop⟩ := h3 _ _ .put herdOp hi rfl
  obtain ⟨v, -, hv⟩ := h4 _ _ 200 none (.named 3) hop rfl
  refine ⟨env, serde, herdHand true, herdValues, reason, herdApi, herdDoc true, .named 3, v,
    .obj [("user", .arr []), ("pets", .arr [.obj [("name", .str "Rex")]])], herdDoc_described true, herdDoc_distinct true,
    herd_one, fun i => by cases i <;> rfl, herd_plain, fun _ => herd_derived, fun _ => herd_faithful, rfl,
    fun _ _ _ hv j hj m hm => herd_accepts hv hj hm, hv, herd_written [] _ (by simp) (by simp), fun ha => ?_⟩
  obtain ⟨r, rfl, ⟨cx, cx', hm⟩, -⟩ := c118_schemas _ _ _ _ (herdDoc_described true) (herdDoc_distinct true) _ v hv
  obtain ⟨_, hs, -⟩ := progReturns_mention_select.1 hm
  have hr : r = .link "Owner" := by
    rcases progReturns_select.1 hs with ⟨-, l, hl, rfl, -⟩ | ⟨h | h, -⟩
    · cases hl; rfl
    · cases h
    · cases h
  subst hr
  have owner : BMap.get "Owner" (herdDoc true).components.schemas = some ⟨none, .single ⟨false, .object
    ⟨[("pets", .inline ⟨none, .single ⟨false, .array (.link "Pet")⟩⟩), ("user", .link "User")], none, ["user", "pets"]⟩⟩⟩ := rfl
  have pet : BMap.get "Pet" (herdDoc true).components.schemas = some str := rfl
  cases accepts_ser.1 ha with
  | link hg hv =>
    rw [owner] at hg
    cases hg
    cases hv with
    | object _ hp _ =>
      cases hp "pets" (.arr [.obj [("name", .str "Rex")]]) _ (by simp) rfl with
      | inline h =>
        cases h with
        | array h =>
          cases h _ (List.mem_singleton.2 rfl) with
          | link hg h =>
            rw [pet] at hg
            cases hg
            cases h

end Verif
