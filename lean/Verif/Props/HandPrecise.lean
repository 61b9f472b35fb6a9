import Verif.Props.HandReads
/-!
# Accepted values, in programs with hand written impls

C122: what C79 and C81 say of accepted values holds of types documented by derived impls next to hand written ones.
-/

namespace Verif

open Sample

/-- **C122**.  In a document of a program with hand written impls, the schema written where the description has a type accepts only
values of the type, up to the order of the entries of structs, further entries of structs, and integers for floats, if the schemas
written by hand accept only what is written by hand.  This holds for both readings of `oneOf`.
Missing: types that are not precise (C79), names used for several types, impls that override `get_schema_with_params` or
`select_reference`, and repeated keys (C20). -/
theorem c122_only_partial (x : Bool) (env : Env) (s : Serde) (custom : Nat → Option (Impl Ty)) (hand : Nat → Option (Json → Prop))
    (reason : Nat → Option String) (api : Api) (d : Opg) (h : DescribesVia (impls env custom) reason api d)
    (distinct : d.ser.DistinctKeys) (unique : NamesUniqueVia (impls env custom) api.roots)
    (hands : ∀ i, (hand i).isSome = (custom i).isSome) (plain : ∀ i im, custom i = some im → im.Plain)
    (derived : ∀ i, ReachedVia (impls env custom) api.roots (.named i) → custom i = none → ∃ o input, Derived o env i input)
    (precise : ∀ t, ReachedVia (impls env custom) api.roots t → ¬ ByHand hand t → Precise (docsVia env custom) s t)
    (only : ∀ i v, ReachedVia (impls env custom) api.roots (.named i) → hand i = some v →
      ∀ m, SchemaVia (impls env custom) (.named i) m → ∀ j, Accepts x d.ser (Ref.inline m).ser j → v j)
    (t : Ty) (v : Value) (placed : PlacedAt api d.ser t v) (j : Json) (accepted : Accepts x d.ser v j) :
    ∃ j', SerBy env s hand t j' ∧ Covers env t j' j := by
  have K : Known custom hand := ⟨hands, plain⟩
  obtain ⟨sound, left⟩ := h.sound unique K
  obtain ⟨r, rfl, hm, hp⟩ := c118_schemas _ _ _ _ h distinct t v placed
  have G := grounds_via (closed_via unique) K sound fun i hr hb => derived i hr (K.none hb i rfl)
  have E : Exacting x s _ d.components.schemas := ⟨G, fun t hr hb => precise t hr.1 hb, fun t hr hb => (hr.2 hb).deepVia,
    fun i v hr hv m j hm ha => only i v hr.1 hv m hm j (accepts_ser.2 (.inline ha))⟩
  have seen := Left.seen (T := ReachedVia (impls env custom) api.roots) (U := LinkedVia (impls env custom) api.roots)
    (x := (t, true)) (.root (root_mention hp)) (fun _ => .inl (root_mention hp)) (left t hp)
  exact mention_admits G rfl rfl hm seen (admits E seen.1) (accepts_ser.1 accepted)

/-- **C122**.  The body of a response that follows the document is, up to the same differences, one that the service writes from the type
that the description states for its status.
Missing: as in `c122_only_partial`. -/
theorem c122_responses_partial (x : Bool) (env : Env) (s : Serde) (custom : Nat → Option (Impl Ty)) (hand : Nat → Option (Json → Prop))
    (reason : Nat → Option String) (api : Api) (d : Opg) (h : DescribesVia (impls env custom) reason api d)
    (distinct : d.ser.DistinctKeys) (unique : NamesUniqueVia (impls env custom) api.roots)
    (hands : ∀ i, (hand i).isSome = (custom i).isSome) (plain : ∀ i im, custom i = some im → im.Plain)
    (derived : ∀ i, ReachedVia (impls env custom) api.roots (.named i) → custom i = none → ∃ o input, Derived o env i input)
    (precise : ∀ t, ReachedVia (impls env custom) api.roots t → ¬ ByHand hand t → Precise (docsVia env custom) s t)
    (only : ∀ i v, ReachedVia (impls env custom) api.roots (.named i) → hand i = some v →
      ∀ m, SchemaVia (impls env custom) (.named i) m → ∀ j, Accepts x d.ser (Ref.inline m).ser j → v j)
    (ps : List OpProp) (op : Value) (ho : OpWritten api d.ser ps op) (a : Answer) (got : d.ser.Answers x op a) :
    Answering (fun t j => ∃ j', SerBy env s hand t j' ∧ Covers env t j' j) (fun r j => Accepts x d.ser r.ser j) ps a :=
  ((answers_iff x h.composed distinct ho a).1 got).mono (fun t j _ _ ⟨v, hp, _, hj⟩ =>
    c122_only_partial x env s custom hand reason api d h distinct unique hands plain derived precise only t v hp j hj) fun _ _ h => h

namespace Sample

theorem herd_precise {taken t} (h : ReachedVia (impls env (herdHand taken)) herdApi.roots t) (hb : ¬ ByHand (herdReads taken) t) :
    Precise (docsVia env (herdHand taken)) serde t := by
  rcases herd_reached h with rfl | rfl | rfl | rfl | rfl
  · simp [Precise, PreciseDecl, PreciseFields, docsVia, env, decl, struct, PlainFields, serialFields, field, containerAttrs, Field.key]
  · exact absurd ⟨0, _, rfl, rfl⟩ hb
  · trivial
  · simp [Precise, PreciseDecl, PreciseFields, docsVia, env, decl, struct, PlainFields, serialFields, field, containerAttrs, Field.key]
  · trivial

/-- An owner is documented by a derived impl and contains a user, which is documented by hand. -/
example : ∃ v, PlacedAt herdApi (herdDoc false).ser (.named 3) v ∧ ∀ x j, Accepts x (herdDoc false).ser v j →
    ∃ j', SerBy env serde (herdReads false) (.named 3) j' ∧ Covers env (.named 3) j' j := by
  obtain ⟨h1, -, h3, h4, -⟩ := c118_placed _ _ _ _ (herdDoc_described false) (herdDoc_distinct false)
  obtain ⟨item, hi⟩ := h1 herdPath (List.mem_singleton.2 rfl)
  obtain ⟨op, -, hop⟩ := h3 _ _ .put herdOp hi rfl
  obtain ⟨v, -, hv⟩ := h4 _ _ 200 none (.named 3) hop rfl
  exact ⟨v, hv, fun x j => c122_only_partial x env serde (herdHand false) (herdReads false) reason herdApi _ (herdDoc_described false)
    (herdDoc_distinct false) herd_unique herd_hands herd_plain (fun _ => herd_derived) (fun _ => herd_precise)
    (fun _ _ _ hv m hm j => (herd_exact hv hm j).1) _ v hv j⟩

def stallOp : List OpProp := [.body (.type (.named 0)), .response 200 none (.type (.named 1))]
def stallPath : PathDecl := .mk [.literal "pet"] [.operation .put stallOp]
/-- `paths: { ("pet"): { PUT: { body: User, 200: Pet } } }` -/
def stallApi : Api := [.paths [stallPath]]
def stallDoc : Opg := (describeApi (⟨impls env (herdHand true), 10, reason⟩ : MixedCtx) stallApi).getD .empty

theorem stallDoc_described : DescribesVia (impls env (herdHand true)) reason stallApi stallDoc := ⟨10, rfl⟩

theorem stallApi_parts : stallApi.parts = [.mention (.named 0), .mention (.named 1)] := by
  simp [Api.parts, Api.pathList, stallApi, Section.pathList, pathParts, stallPath, itemParts, stallOp, opParts,
    PathSeg.parts, ResponseDecl.parts, BodyDecl.parts]

theorem stallApi_roots : stallApi.roots = [(.named 0, true), (.named 1, true)] := by
  simp [Api.roots, stallApi_parts, callsOf, Part.call?, rootsOf]

theorem stallDoc_distinct : stallDoc.ser.DistinctKeys := by
  refine c20_distinct_keys_partial _ (c118_sorted _ _ ?_ _ _ _ stallDoc_described ?_) ?_
  · intro i im h
    cases i with
    | succ i => cases h
    | zero =>
      cases h
      refine ⟨?_, nofun, nofun⟩
      simp [herdImpl, Prog.Sorts, Model.PropsSorted, str, Model.objects, ModelData.objects, ModelType.objects, TypeDesc.objects,
        Ref.PropsSorted, Ref.objects]
  · intro r hr
    rw [stallApi_parts] at hr
    simp at hr
  · exact ⟨by show (List.map _ _).Nodup; decide +kernel, ⟨⟨trivial, ⟨⟨trivial, trivial⟩, trivial⟩⟩, trivial⟩⟩

theorem stall_reached {t} (h : ReachedVia (impls env (herdHand true)) stallApi.roots t) :
    t = .named 0 ∨ t = .named 1 ∨ t = .prim .string := by
  induction h with
  | root h =>
    rw [stallApi_roots] at h
    simp only [List.mem_cons, Prod.mk.injEq, List.not_mem_nil, or_false] at h
    rcases h with h | h <;> simp [h.1]
  | step _ hc ih =>
    rcases ih with rfl | rfl | rfl
    · have hc : (Prog.addModel "Pet" str (.ret _) : Prog Ty Model).Calls _ _ := hc
      cases hc with
      | afterAddModel h => cases h
    · have hc : (Prog.mention (.prim .string) false _ (fun _ => .ret _) : Prog Ty Model).Calls _ _ := hc
      cases hc with
      | mention => simp
      | afterMention h => cases h
    · have hc : (Prog.ret _ : Prog Ty Model).Calls _ _ := hc
      cases hc

theorem stall_one (t t' : Ty) (name : String) (h : LinkedVia (impls env (herdHand true)) stallApi.roots t)
    (h' : LinkedVia (impls env (herdHand true)) stallApi.roots t') (hn : (impls env (herdHand true) t).name = some name)
    (hn' : (impls env (herdHand true) t').name = some name) : t.strip = t'.strip := by
  have linked : ∀ {t}, LinkedVia (impls env (herdHand true)) stallApi.roots t → t = .named 0 ∨ t = .named 1 ∨ t = .prim .string :=
    fun h => stall_reached (h.elim .root fun ⟨_, hu, hc⟩ => .step hu hc)
  rcases linked h with rfl | rfl | rfl <;> rcases linked h' with rfl | rfl | rfl <;>
    cases hn <;> first | rfl | (cases hn'; done) | exact absurd (Option.some.inj hn') (by decide)

theorem covers_str {env : Env} {t c} {s : String} (h : Covers env t c (.str s)) : c = .str s := by
  generalize hj : Json.str s = j at h
  induction h with
  | refl => rfl
  | wrap _ ih | option _ ih | newtype _ _ ih => exact (ih hj).trans rfl
  | _ => cases hj

end Sample

/-- **C122** is false of impls that register schemas under the names of other types, although each type has a name of its own and the
schemas written by hand accept only what is written by hand: the document accepts a string for a pet, and no pet is written as one. -/
theorem c122_is_false : ∃ (env : Env) (s : Serde) (custom : Nat → Option (Impl Ty)) (hand : Nat → Option (Json → Prop))
    (reason : Nat → Option String) (api : Api) (d : Opg) (t : Ty) (v : Value) (j : Json),
    DescribesVia (impls env custom) reason api d ∧ d.ser.DistinctKeys ∧
    (∀ t t' name, LinkedVia (impls env custom) api.roots t → LinkedVia (impls env custom) api.roots t' →
      (impls env custom t).name = some name → (impls env custom t').name = some name → t.strip = t'.strip) ∧
    (∀ i, (hand i).isSome = (custom i).isSome) ∧ (∀ i im, custom i = some im → im.Plain) ∧
    (∀ i, ReachedVia (impls env custom) api.roots (.named i) → custom i = none → ∃ o input, Derived o env i input) ∧
    (∀ t, ReachedVia (impls env custom) api.roots t → ¬ ByHand hand t → Precise (docsVia env custom) s t) ∧
    (∀ i v, ReachedVia (impls env custom) api.roots (.named i) → hand i = some v →
      ∀ m, SchemaVia (impls env custom) (.named i) m → ∀ j, Accepts true d.ser (Ref.inline m).ser j → v j) ∧
    PlacedAt api d.ser t v ∧ Accepts true d.ser v j ∧ ¬ ∃ j', SerBy env s hand t j' ∧ Covers env t j' j := by
  obtain ⟨h1, -, h3, h4, -⟩ := c118_placed _ _ _ _ stallDoc_described stallDoc_distinct
  obtain ⟨item, hi⟩ := h1 stallPath (List.mem_singleton.2 rfl)
  obtain ⟨op, -, hop⟩ := h3 _ _ .put stallOp hi rfl
  obtain ⟨v, -, hv⟩ := h4 _ _ 200 none (.named 1) hop rfl
  refine ⟨env, serde, herdHand true, herdReads true, reason, stallApi, stallDoc, .named 1, v, .str "Rex", stallDoc_described,
    stallDoc_distinct, stall_one, herd_hands, herd_plain, ?_, ?_, ?_, hv, ?_, ?_⟩
  · intro i h hn
    rcases stall_reached h with h | h | h <;> cases h
    · cases hn
    · exact ⟨oracle, ⟨"Pet", [], .struct (.named [⟨some "name", [], .prim .string⟩])⟩, _, rfl⟩
  · intro t h hb
    rcases stall_reached h with rfl | rfl | rfl
    · exact absurd ⟨0, _, rfl, rfl⟩ hb
    · simp [Precise, PreciseDecl, PreciseFields, docsVia, env, decl, struct, PlainFields, serialFields, field, containerAttrs, Field.key]
    · trivial
  · intro i w _ hv m hm j ha
    cases i with
    | succ i => cases hv
    | zero =>
      cases hv
      obtain ⟨cx, cx', hm⟩ := hm
      obtain ⟨n, hm⟩ := progReturns_iff.1 hm
      have hm : (Prog.addModel "Pet" str (.ret _) : Prog Ty Model).exec _ _ = _ := hm
      cases hm
      rw [accepts_ser] at ha
      cases ha with
      | inline h => cases h with
        | array h => exact ⟨_, rfl, nofun⟩
  · obtain ⟨r, rfl, ⟨cx, cx', hm⟩, -⟩ := c118_schemas _ _ _ _ stallDoc_described stallDoc_distinct _ v hv
    obtain ⟨_, hs, -⟩ := progReturns_mention_select.1 hm
    have hr : r = .link "Pet" := by
      rcases progReturns_select.1 hs with ⟨-, l, hl, rfl, -⟩ | ⟨h | h, -⟩
      · cases hl; rfl
      · cases h
      · cases h
    subst hr
    have pet : BMap.get "Pet" stallDoc.components.schemas = some str := rfl
    exact accepts_ser.2 (.link pet (.string nofun))
  · rintro ⟨j', hs, hc⟩
    cases covers_str hc
    generalize hj : Json.str "Rex" = j at hs
    cases hs with
    | byHand hh => cases hh
    | struct => cases hj
    | tupleStruct _ hd | newtypeStruct _ hd | explicitNewtype _ hd | repr _ hd | unitVariant _ hd | newtypeVariant _ hd
    | tupleVariant _ hd | structVariant _ hd => cases hd
    | transparent _ hd _ ht => cases ht

end Verif
