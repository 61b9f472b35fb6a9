import Verif.Props.Versions
import Verif.Props.HandReads
/-!
# Changes that clients do not notice, in programs with hand written impls

C121: C115 where some types are documented, read and written by hand.
-/

namespace Verif

open Sample

/-- **C121**.  Whatever impls the types have, the document of a later version takes the requests that the document of an earlier version
takes, if the description keeps them and its schemas accept what those of the earlier document accept.
Missing: descriptions in which names are used twice (`c115_is_false`), and impls that mention security schemes under names that the
description uses without declaring them (`c118_is_false`). -/
theorem c121_requests_partial (excl : Bool) (env env' : Env) (custom custom' : Nat → Option (Impl Ty)) (reason reason' : Nat → Option String)
    (api api' : Api) (d d' : Opg) (h : DescribesVia (impls env custom) reason api d) (h' : DescribesVia (impls env' custom') reason' api' d')
    (spare : ∀ i im, custom i = some im → im.Spares api.Undeclared) (spare' : ∀ i im, custom' i = some im → im.Spares api'.Undeclared)
    (distinct : d.ser.DistinctKeys) (distinct' : d'.ser.DistinctKeys) (one : api.OneScheme) (one' : api'.OneScheme)
    (clear : ∀ decl ∈ api.pathList, decl.Clear) (clear' : ∀ decl ∈ api'.pathList, decl.Clear)
    (sends : ParameterIn → String → Prop) (sendsBody : Prop) (kept : api.KeepsRequests sends sendsBody api')
    (types : ∀ t s s', PlacedAt api d.ser t s → PlacedAt api' d'.ser t s' → ∀ j, j.Distinct → Accepts excl d.ser s j →
      Accepts excl d'.ser s' j)
    (req : Request) (plain : req.Plain) (within : req.Within sends sendsBody) (taken : d.ser.Takes excl req) : d'.ser.Takes excl req :=
  takes_later excl h.composed h'.composed distinct distinct' (c118_access_partial env custom reason api d h spare distinct one)
    (c118_access_partial env' custom' reason' api' d' h' spare' distinct' one') clear clear' kept types plain within taken

/-- **C121**, for services: requests that follow the earlier document are taken by the later one, if the later service reads the values
that the earlier one reads.
Missing: as in `c121_requests_partial`, `c120_read_partial` and `c120_complete_partial`. -/
theorem c121_readers_partial (env env' : Env) (rd rd' : Reader) (custom custom' : Nat → Option (Impl Ty))
    (hand hand' : Nat → Option (Json → Prop)) (reason reason' : Nat → Option String) (api api' : Api) (d d' : Opg)
    (h : DescribesVia (impls env custom) reason api d) (h' : DescribesVia (impls env' custom') reason' api' d')
    (spare : ∀ i im, custom i = some im → im.Spares api.Undeclared) (spare' : ∀ i im, custom' i = some im → im.Spares api'.Undeclared)
    (distinct : d.ser.DistinctKeys) (distinct' : d'.ser.DistinctKeys) (one : api.OneScheme) (one' : api'.OneScheme)
    (clear : ∀ decl ∈ api.pathList, decl.Clear) (clear' : ∀ decl ∈ api'.pathList, decl.Clear)
    (unique : NamesUniqueVia (impls env custom) api.roots) (unique' : NamesUniqueVia (impls env' custom') api'.roots)
    (hands : ∀ i, (hand i).isSome = (custom i).isSome) (hands' : ∀ i, (hand' i).isSome = (custom' i).isSome)
    (plain : ∀ i im, custom i = some im → im.Plain) (plain' : ∀ i im, custom' i = some im → im.Plain)
    (derived : ∀ i, ReachedVia (impls env custom) api.roots (.named i) → custom i = none → ∃ o input, Derived o env i input)
    (derived' : ∀ i, ReachedVia (impls env' custom') api'.roots (.named i) → custom' i = none → ∃ o input, Derived o env' i input)
    (readable : ∀ t, ReachedVia (impls env custom) api.roots t → ¬ ByHand hand t → Readable (docsVia env custom) rd t)
    (documented : ∀ t, ReachedVia (impls env' custom') api'.roots t → ¬ ByHand hand' t → Documented (docsVia env' custom') rd' t)
    (strict : rd'.lenient = false)
    (reads : ∀ i v, ReachedVia (impls env custom) api.roots (.named i) → hand i = some v →
      ∀ m, SchemaVia (impls env custom) (.named i) m → ∀ j, j.Distinct → Accepts false d.ser (Ref.inline m).ser j → v j)
    (accepts : ∀ i v, ReachedVia (impls env' custom') api'.roots (.named i) → hand' i = some v → ∀ j, v j →
      ∀ m, SchemaVia (impls env' custom') (.named i) m → Accepts false d'.ser (Ref.inline m).ser j)
    (sends : ParameterIn → String → Prop) (sendsBody : Prop) (kept : api.KeepsRequests sends sendsBody api')
    (later : ∀ t, Part.mention t ∈ api.parts → Part.mention t ∈ api'.parts → ∀ j, j.Distinct → ReadsBy env rd hand t j →
      ReadsBy env' rd' hand' t j)
    (req : Request) (once : req.Plain) (within : req.Within sends sendsBody) (taken : d.ser.Takes false req) : d'.ser.Takes false req :=
  c121_requests_partial false env env' custom custom' reason reason' api api' d d' h h' spare spare' distinct distinct' one one' clear clear'
    sends sendsBody kept (fun t s s' hp hp' j hj ha => by
      obtain ⟨_, _, _, hm⟩ := c118_schemas _ _ _ _ h distinct t s hp
      obtain ⟨_, _, _, hm'⟩ := c118_schemas _ _ _ _ h' distinct' t s' hp'
      exact c120_complete_partial env' rd' custom' hand' reason' api' d' h' distinct' unique' hands' plain' derived' documented strict accepts
        t s' hp' j (later t hm hm' j hj (c120_read_partial false env rd custom hand reason api d h distinct unique hands plain derived readable
          reads t s hp j hj ha))) req once within taken

/-- **C121**, for responses: what the later service answers, with bodies written from the stated types, follows the earlier document, if
no status is new and what is written for the later types is written for the earlier types, too.
Missing: as in `c120_sent_partial`. -/
theorem c121_answers_partial (x : Bool) (env env' : Env) (s s' : Serde) (custom : Nat → Option (Impl Ty))
    (hand hand' : Nat → Option (Json → Prop)) (reason : Nat → Option String) (api : Api) (d : Opg)
    (h : DescribesVia (impls env custom) reason api d) (distinct : d.ser.DistinctKeys)
    (unique : NamesUniqueVia (impls env custom) api.roots)
    (hands : ∀ i, (hand i).isSome = (custom i).isSome) (plain : ∀ i im, custom i = some im → im.Plain)
    (derived : ∀ i, ReachedVia (impls env custom) api.roots (.named i) → custom i = none → ∃ o input, Derived o env i input)
    (faithful : ∀ t, ReachedVia (impls env custom) api.roots t → ¬ ByHand hand t → Faithful (docsVia env custom) (s.writesBy hand) t)
    (finite : s.nonFinite = false)
    (accepts : ∀ i v, ReachedVia (impls env custom) api.roots (.named i) → hand i = some v → ∀ j, v j →
      ∀ m, SchemaVia (impls env custom) (.named i) m → Accepts x d.ser (Ref.inline m).ser j)
    (choices : x = true → ∀ t, ReachedVia (impls env custom) api.roots t → ¬ ByHand hand t →
      Distinct (docsVia env custom) (s.writesBy hand) d.components.schemas t)
    (ps ps' : List OpProp) (op : Value) (ho : OpWritten api d.ser ps op) (kept : AnswersKept ps ps')
    (before : ∀ t, (∃ code description, lastOf (OpProp.response? code) ps = some (description, .type t)) → ∀ j, SerBy env' s' hand' t j →
      SerBy env s hand t j)
    (a : Answer) (sent : Answering (SerBy env' s' hand') (fun _ _ => False) ps' a) : d.ser.Answers x op a := by
  refine c120_sent_partial x env s custom hand reason api d h distinct unique hands plain derived faithful finite accepts choices ps op ho a ?_
  obtain ⟨desc', decl, hl', ha⟩ := sent
  obtain ⟨-, desc, hl⟩ := kept _ _ _ hl'
  have now : Answering (SerBy env' s' hand') (fun _ _ => False) ps a := ⟨desc, decl, hl, ha⟩
  exact now.mono (fun t j ⟨desc, ht⟩ _ hj => before t ⟨_, desc, ht⟩ j hj) fun _ _ h => h.elim

theorem none_of_same {hand hand' : Nat → Option (Json → Prop)} (same : ∀ i, (hand i).isSome = (hand' i).isSome) {i} (h : hand i = none) :
    hand' i = none := by
  have := same i
  rw [h] at this
  cases h' : hand' i with
  | none => rfl
  | some v => rw [h'] at this; cases this

/-- **C121**: if code written by hand reads more than before, all types read more. -/
theorem c121_wider (env : Env) (rd : Reader) (hand hand' : Nat → Option (Json → Prop)) (same : ∀ i, (hand i).isSome = (hand' i).isSome)
    (more : ∀ i v v', hand i = some v → hand' i = some v' → ∀ j, v j → v' j) (t : Ty) (j : Json) (h : ReadsBy env rd hand t j) :
    ReadsBy env rd hand' t j := by
  induction h with
  | @byHand i v j hh h =>
    cases h' : hand' i with
    | none => have := same i; rw [hh, h'] at this; cases this
    | some v' => exact .byHand h' (more i v v' hh h' j h)
  | scalar ht h => exact .scalar ht h
  | wrap hw _ ih => exact .wrap hw ih
  | tuple1 _ ih => exact .tuple1 ih
  | none => exact .none
  | some _ ih => exact .some ih
  | tuple hl _ ih => exact .tuple hl ih
  | seq hl _ ih => exact .seq hl ih
  | dict _ ih => exact .dict ih
  | unit => exact .unit
  | unitStruct hh hd => exact .unitStruct (none_of_same same hh) hd
  | struct hh hd ht hg hf _ ih => exact .struct (none_of_same same hh) hd ht hg hf ih
  | structSeq hh hl hd ht hg hf _ ih => exact .structSeq (none_of_same same hh) hl hd ht hg hf ih
  | tupleStruct hh hd ht hf _ ih => exact .tupleStruct (none_of_same same hh) hd ht hf ih
  | newtypeStruct hh hd hc hk he _ ih => exact .newtypeStruct (none_of_same same hh) hd hc hk he ih
  | explicitNewtype hh hd hc he => exact .explicitNewtype (none_of_same same hh) hd hc he
  | repr hh hd hr hn => exact .repr (none_of_same same hh) hd hr hn
  | unitVariant hh hd hr hv hk hst hj => exact .unitVariant (none_of_same same hh) hd hr hv hk hst hj
  | newtypeVariant hh hd hr hv hk hst hf hs hj he _ ih => exact .newtypeVariant (none_of_same same hh) hd hr hv hk hst hf hs hj he ih
  | tupleVariant hh hd hr hv hk hst hj hf _ ih => exact .tupleVariant (none_of_same same hh) hd hr hv hk hst hj hf ih
  | structVariant hh hd hr hv hk hst hj hf _ ih => exact .structVariant (none_of_same same hh) hd hr hv hk hst hj hf ih
  | structVariantSeq hh hl hd hr hv hk hst hj hf _ ih => exact .structVariantSeq (none_of_same same hh) hl hd hr hv hk hst hj hf ih

/-- **C121**: if code written by hand writes less than before, all types write less. -/
theorem c121_narrower (env : Env) (s : Serde) (hand hand' : Nat → Option (Json → Prop)) (same : ∀ i, (hand i).isSome = (hand' i).isSome)
    (more : ∀ i v v', hand i = some v → hand' i = some v' → ∀ j, v j → v' j) (t : Ty) (j : Json) (h : SerBy env s hand t j) :
    SerBy env s hand' t j := by
  induction h with
  | @byHand i v j hh h =>
    cases h' : hand' i with
    | none => have := same i; rw [hh, h'] at this; cases this
    | some v' => exact .byHand h' (more i v v' hh h' j h)
  | prim h => exact .prim h
  | wrap hw _ ih => exact .wrap hw ih
  | tuple1 _ ih => exact .tuple1 ih
  | none => exact .none
  | some _ ih => exact .some ih
  | tuple hl _ ih => exact .tuple hl ih
  | seq _ ih => exact .seq ih
  | dict _ ih => exact .dict ih
  | unit => exact .unit
  | uuid => exact .uuid _
  | naiveDateTime => exact .naiveDateTime _
  | dateTime => exact .dateTime _
  | naiveDate => exact .naiveDate _
  | struct hh hd ht hk he _ ih => exact .struct (none_of_same same hh) hd ht hk he ih
  | tupleStruct hh hd ht hk he _ ih => exact .tupleStruct (none_of_same same hh) hd ht hk he ih
  | transparent hh hd hn ht hf he _ ih => exact .transparent (none_of_same same hh) hd hn ht hf he ih
  | newtypeStruct hh hd hc he _ ih => exact .newtypeStruct (none_of_same same hh) hd hc he ih
  | explicitNewtype hh hd hc he => exact .explicitNewtype (none_of_same same hh) hd hc he
  | repr hh hd hr hu hv => exact .repr (none_of_same same hh) hd hr hu hv
  | unitVariant hh hd hr hv hu hj => exact .unitVariant (none_of_same same hh) hd hr hv hu hj
  | newtypeVariant hh hd hr hv hst hf hk he _ hj ih => exact .newtypeVariant (none_of_same same hh) hd hr hv hst hf hk he ih hj
  | tupleVariant hh hd hr hv hst hk he _ hj ih => exact .tupleVariant (none_of_same same hh) hd hr hv hst hk he ih hj
  | structVariant hh hd hr hv hst hk he _ hj ih => exact .structVariant (none_of_same same hh) hd hr hv hst hk he ih hj

namespace Sample

/-- Later, `impl OpgModel for User` documents an array of anything, and there is another path. -/
def freeImpl : Impl Ty := { schema := .ret ⟨none, .single ⟨false, .array .any⟩⟩, name := some "User" }

def freeHand : Nat → Option (Impl Ty)
  | 0 => some freeImpl
  | _ => none

def freeApi : Api := [.paths [.mk [.literal "ping"] [.operation .get []], herdPath]]

def freeDoc : Opg := (describeApi (⟨impls env freeHand, 10, reason⟩ : MixedCtx) freeApi).getD .empty

theorem freeDoc_described : DescribesVia (impls env freeHand) reason freeApi freeDoc := ⟨10, rfl⟩

theorem freeApi_parts : freeApi.parts = [.mention (.named 3), .mention (.named 3)] := by
  simp [Api.parts, Api.pathList, freeApi, Section.pathList, pathParts, herdPath, itemParts, herdOp, opParts,
    PathSeg.parts, ResponseDecl.parts, BodyDecl.parts]

theorem freeApi_roots : freeApi.roots = [(.named 3, true), (.named 3, true)] := by
  simp [Api.roots, freeApi_parts, callsOf, Part.call?, rootsOf]

theorem freeDoc_distinct : freeDoc.ser.DistinctKeys := by
  refine c20_distinct_keys_partial _ (c118_sorted _ _ ?_ _ _ _ freeDoc_described ?_) ?_
  · intro i im h
    cases i with
    | succ i => cases h
    | zero =>
      cases h
      refine ⟨?_, nofun, nofun⟩
      simp [freeImpl, Prog.Sorts, Model.PropsSorted, Model.objects, ModelData.objects, ModelType.objects, TypeDesc.objects, Ref.objects]
  · intro r hr
    rw [freeApi_parts] at hr
    simp at hr
  · exact ⟨by show (List.map _ _).Nodup; decide +kernel,
      ⟨⟨trivial, ⟨⟨trivial, trivial⟩, trivial⟩⟩, ⟨⟨trivial, ⟨⟨trivial, trivial⟩, trivial⟩⟩, trivial⟩⟩⟩

theorem free_reached {t} (h : ReachedVia (impls env freeHand) freeApi.roots t) :
    t = .named 3 ∨ t = .named 0 ∨ t = .seq .vec (.named 1) ∨ t = .named 1 ∨ t = .prim .string := by
  have after : ∀ {u p} {m : Ref → Model} {t b}, (Prog.mention u false p (fun r => .ret (m r)) : Prog Ty Model).Calls t b → t = u := by
    intro u p m t b h
    cases h with
    | mention => rfl
    | afterMention h => cases h
  induction h with
  | root h => rw [freeApi_roots] at h; simp at h; simp [h.1]
  | step _ hc ih =>
    rcases ih with rfl | rfl | rfl | rfl | rfl
    · have hc : (Prog.mention (.named 0) false _ _ : Prog Ty Model).Calls _ _ := hc
      cases hc with
      | mention => simp
      | afterMention hc => simp [show _ = Ty.seq .vec (.named 1) from after hc]
    · have hc : (Prog.ret _ : Prog Ty Model).Calls _ _ := hc
      cases hc
    · simp [show _ = Ty.named 1 from after hc]
    · simp [show _ = Ty.prim .string from after hc]
    · have hc : (Prog.ret _ : Prog Ty Model).Calls _ _ := hc
      cases hc

theorem free_unique : NamesUniqueVia (impls env freeHand) freeApi.roots where
  one t t' name h h' hn hn' := by
    have linked : ∀ {t}, LinkedVia (impls env freeHand) freeApi.roots t → t = .named 3 ∨ t = .named 0 ∨ t = .seq .vec (.named 1) ∨
        t = .named 1 ∨ t = .prim .string := fun h => free_reached (h.elim .root fun ⟨_, hu, hc⟩ => .step hu hc)
    rcases linked h with rfl | rfl | rfl | rfl | rfl <;> rcases linked h' with rfl | rfl | rfl | rfl | rfl <;>
      cases hn <;> first | rfl | (cases hn'; done) | exact absurd (Option.some.inj hn') (by decide)
  own t name u h ha _ := by
    have after : ∀ {u p} {m : Ref → Model} {n}, ¬ (Prog.mention u false p (fun r => .ret (m r)) : Prog Ty Model).Adds n := by
      intro u p m n h
      cases h with
      | afterMention h => cases h
    rcases free_reached h with rfl | rfl | rfl | rfl | rfl
    · have hc : (Prog.mention (.named 0) false _ _ : Prog Ty Model).Adds _ := ha
      cases hc with
      | afterMention hc => exact absurd hc after
    · have hc : (Prog.ret _ : Prog Ty Model).Adds _ := ha
      cases hc
    · exact absurd ha after
    · exact absurd ha after
    · have hc : (Prog.ret _ : Prog Ty Model).Adds _ := ha
      cases hc

/-- The earlier service reads a user from a list of pets, the later one from any list.  The document of the later version takes every
request that the earlier one takes. -/
example (req : Request) (once : req.Plain) (nothing : ∀ place name, req.sent place name = none)
    (taken : (herdDoc false).ser.Takes false req) : freeDoc.ser.Takes false req := by
  refine c121_readers_partial env env (rust false) (rust false) (herdHand false) freeHand (herdReads false) (herdReads true) reason reason
    herdApi freeApi _ _ (herdDoc_described false) freeDoc_described herdHand_spares ?_ (herdDoc_distinct false) freeDoc_distinct herdApi_one
    (no_schemes rfl (by simp [freeApi_parts])) (fun decl hd => by cases List.mem_singleton.1 hd; exact herdPath_clear) ?_ herd_unique
    free_unique herd_hands (fun i => by cases i <;> rfl) herd_plain ?_ (fun _ => herd_derived) ?_ (fun _ => herd_readable) ?_ rfl
    (fun i v _ hv m hm j _ => (herd_exact hv hm j).1) ?_ (fun _ _ => False) True ?_ ?_ req once
    ⟨fun place name h => h (nothing place name), fun _ => trivial⟩ taken
  · intro i im h
    cases i <;> cases h
    exact ⟨trivial, nofun, nofun⟩
  · intro decl hd
    have hd : decl ∈ [PathDecl.mk [.literal "ping"] [.operation .get []], herdPath] := hd
    simp only [List.mem_cons, List.not_mem_nil, or_false] at hd
    rcases hd with rfl | rfl
    · refine clear_literal (by decide) rfl fun m ps h x hx => ?_
      cases m <;> first | (cases h; done) | skip
      cases h
      cases hx
    · exact herdPath_clear
  · intro i im h
    cases i <;> cases h
    exact ⟨rfl, nofun⟩
  · intro i h hn
    rcases free_reached h with h | h | h | h | h <;> cases h
    · exact ⟨oracle, ⟨"Owner", [], .struct (.named [⟨some "user", [], .named 0⟩, ⟨some "pets", [], .seq .vec (.named 1)⟩])⟩, _, rfl⟩
    · cases hn
    · exact ⟨oracle, ⟨"Pet", [], .struct (.named [⟨some "name", [], .prim .string⟩])⟩, _, rfl⟩
  · intro t h hb
    rcases free_reached h with rfl | rfl | rfl | rfl | rfl
    · simp [Documented, DocumentedDecl, DocumentedFields, docsVia, env, decl, struct, PlainFields, serialFields, field, containerAttrs,
        Field.key, rust, CanMiss, MayMiss]
    · exact absurd ⟨0, _, rfl, rfl⟩ hb
    · trivial
    · simp [Documented, DocumentedDecl, DocumentedFields, docsVia, env, decl, struct, PlainFields, serialFields, field, containerAttrs,
        Field.key, rust, CanMiss, MayMiss]
    · simp [Documented, ScalarForm, rust, rustScalar, Prim.family]
  · intro i v _ hv j hj m hm
    cases i with
    | succ i => cases hv
    | zero =>
      cases hv
      obtain ⟨xs, rfl, -⟩ := hj
      obtain ⟨cx, cx', hm⟩ := hm
      obtain ⟨n, hm⟩ := progReturns_iff.1 hm
      have hm : (Prog.ret _ : Prog Ty Model).exec _ _ = _ := hm
      cases hm
      exact accepts_ser.2 (.inline (.array fun _ _ => .any))
  · intro decl hd
    cases List.mem_singleton.1 hd
    refine ⟨herdPath, .tail _ (.head _), .cons .literal .nil, fun m ps hm => ⟨ps, hm, ?_⟩⟩
    cases m <;> first | (cases hm; done) | skip
    cases hm
    exact ⟨.inl rfl, fun name place x' hx' => (nomatch hx'), fun b' hb' => .inl ⟨_, hb', rfl, id⟩⟩
  · intro t _ _ j _
    refine c121_wider env (rust false) _ _ (fun i => by cases i <;> rfl) (fun i v v' h h' j hv => ?_) t j
    cases i <;> cases h
    cases h'
    obtain ⟨xs, rfl, -⟩ := hv
    exact ⟨xs, rfl, nofun⟩

/-- Later, users are written as lists of at most one pet. -/
def fewValues : Nat → Option (Json → Prop)
  | 0 => some fun j => ∃ xs, j = .arr xs ∧ xs.length ≤ 1 ∧ ∀ x ∈ xs, ∃ name, x = .obj [("name", .str name)]
  | _ => none

/-- What the later service answers follows the earlier document. -/
example : ∃ op, OpWritten herdApi (herdDoc false).ser herdOp op ∧
    (∀ x a, Answering (SerBy env serde fewValues) (fun _ _ => False) herdOp a → (herdDoc false).ser.Answers x op a) ∧
    ∃ a, Answering (SerBy env serde fewValues) (fun _ _ => False) herdOp a ∧ a.body ≠ none := by
  obtain ⟨h1, -, h3, -⟩ := c118_placed _ _ _ _ (herdDoc_described false) (herdDoc_distinct _)
  obtain ⟨v, hv⟩ := h1 herdPath (List.mem_singleton.2 rfl)
  obtain ⟨op, -, hop⟩ := h3 _ _ .put herdOp hv rfl
  refine ⟨op, hop, fun x a => c121_answers_partial x env env serde serde (herdHand false) herdValues fewValues reason herdApi _
    (herdDoc_described false) (herdDoc_distinct false) herd_unique (fun i => by cases i <;> rfl) herd_plain (fun _ => herd_derived)
    (fun _ => herd_faithful) rfl (fun _ _ _ hv j hj m hm => herd_accepts hv hj hm) (fun _ _ hr hb => herd_distinct hr hb) herdOp herdOp op hop
    (fun code desc decl h => ⟨fun r hr => ?_, desc, h⟩)
    (fun t _ j => c121_narrower env serde _ _ (fun i => by cases i <;> rfl) (fun i v v' h h' j hv => ?_) t j) a,
    ⟨200, some (.obj [("user", .arr []), ("pets", .arr [])])⟩, ⟨none, _, rfl, .type ?_⟩, nofun⟩
  · obtain ⟨p, hp, e⟩ := lastOf_mem h
    simp only [herdOp, List.mem_cons, List.not_mem_nil, or_false] at hp
    rcases hp with rfl | rfl
    · cases e
    · simp only [OpProp.response?] at e
      split at e
      · cases e; cases hr
      · cases e
  · cases i <;> cases h
    cases h'
    obtain ⟨xs, e, -, hx⟩ := hv
    exact ⟨xs, e, hx⟩
  · refine .struct (ps := [(field "user" (.named 0), .arr []), (field "pets" (.seq .vec (.named 1)), .arr [])]) rfl rfl rfl
      (.keep rfl (.keep rfl .nil)) (by simp [field]) ?_
    simp only [List.mem_cons, List.not_mem_nil, or_false]
    rintro p (rfl | rfl) _
    · exact .byHand (i := 0) rfl ⟨[], rfl, by simp, nofun⟩
    · exact .seq nofun

end Sample

/-- **C121** is false if names are used twice, as C115 is. -/
theorem c121_is_false : ∃ (env : Env) (custom : Nat → Option (Impl Ty)) (reason : Nat → Option String) (api api' : Api) (d d' : Opg)
    (req : Request), DescribesVia (impls env custom) reason api d ∧ DescribesVia (impls env custom) reason api' d' ∧ d.ser.DistinctKeys ∧
    d'.ser.DistinctKeys ∧ req.Plain ∧ (∀ sends sendsBody, api.KeepsRequests sends sendsBody api') ∧
    d.ser.Takes false req ∧ ¬ d'.ser.Takes false req := by
  obtain ⟨env, reason, api, api', d, d', req, h, h', hd, hd', plain, kept, -, taken, refused⟩ := c115_is_false
  exact ⟨env, fun _ => none, reason, api, api', d, d', req, (c104_derived env reason api d).2 h, (c104_derived env reason api' d').2 h', hd,
    hd', plain, kept, taken, refused⟩

end Verif
