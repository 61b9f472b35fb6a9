import Verif.Props.HandValues
import Verif.Props.PublishedReads
import Verif.Props.Reads
import Verif.Proof.Accepts
/-!
# Values that are read, in programs with hand written impls

C120: what C88, C113 and C114 say of values that are read holds of types documented by derived impls next to hand written ones.
-/

namespace Verif

open Sample

theorem Done.deepVia {env : Env} {custom : Nat → Option (Impl Ty)} {hand : Nat → Option (Json → Prop)} {T U : Ty → Prop}
    {cx : Components} {t} (h : Done env custom hand cx t) : Deep (viaSetting env custom hand T U cx) t := by
  induction h with
  | intro he _ _ ih => exact .intro he fun a ha hb => ih a.1 a.2 ha hb

/-- **C120**.  In a document of a program with hand written impls, the schema written where the description has a type accepts, among
the JSON values without repeated keys, only such that are read as values of the type, if the schemas written by hand accept only what
is read by hand.
Missing: types that are not readable (C86), names used for several types, impls that override `get_schema_with_params` or
`select_reference`, and repeated keys (C20). -/
theorem c120_read_partial (x : Bool) (env : Env) (rd : Reader) (custom : Nat → Option (Impl Ty)) (hand : Nat → Option (Json → Prop))
    (reason : Nat → Option String) (api : Api) (d : Opg) (h : DescribesVia (impls env custom) reason api d)
    (distinct : d.ser.DistinctKeys) (unique : NamesUniqueVia (impls env custom) api.roots)
    (hands : ∀ i, (hand i).isSome = (custom i).isSome) (plain : ∀ i im, custom i = some im → im.Plain)
    (derived : ∀ i, ReachedVia (impls env custom) api.roots (.named i) → custom i = none → ∃ o input, Derived o env i input)
    (readable : ∀ t, ReachedVia (impls env custom) api.roots t → ¬ ByHand hand t → Readable (docsVia env custom) rd t)
    (reads : ∀ i v, ReachedVia (impls env custom) api.roots (.named i) → hand i = some v →
      ∀ m, SchemaVia (impls env custom) (.named i) m → ∀ j, j.Distinct → Accepts x d.ser (Ref.inline m).ser j → v j)
    (t : Ty) (v : Value) (placed : PlacedAt api d.ser t v) (j : Json) (once : j.Distinct) (accepted : Accepts x d.ser v j) :
    ReadsBy env rd hand t j := by
  have K : Known custom hand := ⟨hands, plain⟩
  obtain ⟨sound, left⟩ := h.sound unique K
  obtain ⟨r, rfl, hm, hp⟩ := c118_schemas _ _ _ _ h distinct t v placed
  have G := grounds_via (closed_via unique) K sound fun i hr hb => derived i hr (K.none hb i rfl)
  have L : Legible x rd _ d.components.schemas := ⟨G, fun t hr hb => readable t hr.1 hb, fun t hr hb => (hr.2 hb).deepVia,
    fun i v hr hv m j hm ha hj => reads i v hr.1 hv m hm j hj (accepts_ser.2 (.inline ha))⟩
  have seen := Left.seen (T := ReachedVia (impls env custom) api.roots) (U := LinkedVia (impls env custom) api.roots)
    (x := (t, true)) (.root (root_mention hp)) (fun _ => .inl (root_mention hp)) (left t hp)
  exact mention_reads G rfl (by simp) hm seen (reads_all L seen.1) (accepts_ser.1 accepted) once

/-- **C120**, the other direction: the schema accepts what is read as a value of the type, if the schemas written by hand accept what
is read by hand.
Missing: types that are not documented (C87), the other forms that `serde_json` reads, the exclusive reading of `oneOf`, and as in
`c120_read_partial`. -/
theorem c120_complete_partial (env : Env) (rd : Reader) (custom : Nat → Option (Impl Ty)) (hand : Nat → Option (Json → Prop))
    (reason : Nat → Option String) (api : Api) (d : Opg) (h : DescribesVia (impls env custom) reason api d)
    (distinct : d.ser.DistinctKeys) (unique : NamesUniqueVia (impls env custom) api.roots)
    (hands : ∀ i, (hand i).isSome = (custom i).isSome) (plain : ∀ i im, custom i = some im → im.Plain)
    (derived : ∀ i, ReachedVia (impls env custom) api.roots (.named i) → custom i = none → ∃ o input, Derived o env i input)
    (documented : ∀ t, ReachedVia (impls env custom) api.roots t → ¬ ByHand hand t → Documented (docsVia env custom) rd t)
    (strict : rd.lenient = false)
    (accepts : ∀ i v, ReachedVia (impls env custom) api.roots (.named i) → hand i = some v → ∀ j, v j →
      ∀ m, SchemaVia (impls env custom) (.named i) m → Accepts false d.ser (Ref.inline m).ser j)
    (t : Ty) (v : Value) (placed : PlacedAt api d.ser t v) (j : Json) (read : ReadsBy env rd hand t j) : Accepts false d.ser v j := by
  have K : Known custom hand := ⟨hands, plain⟩
  obtain ⟨sound, left⟩ := h.sound unique K
  obtain ⟨r, rfl, hm, hp⟩ := c118_schemas _ _ _ _ h distinct t v placed
  have G := grounds_via (closed_via unique) K sound fun i hr hb => derived i hr (K.none hb i rfl)
  have A : Acceptable rd _ d.components.schemas := ⟨G, strict, fun t hr hb => documented t hr.1 hb, fun i v hr hv j hj m hm => by
    have := accepts_ser.1 (accepts i v hr.1 hv j hj m hm)
    cases this with
    | inline h => exact h⟩
  have seen := Left.seen (T := ReachedVia (impls env custom) api.roots) (U := LinkedVia (impls env custom) api.roots)
    (x := (t, true)) (.root (root_mention hp)) (fun _ => .inl (root_mention hp)) (left t hp)
  exact accepts_ser.2 (mention_valid G ⟨by simp, rfl⟩ hm seen (readsBy_conforms A read))

/-- **C120**.  A document of a program with hand written impls takes exactly the requests that the service reads.
Missing: as in `c118_requests_partial`, `c120_read_partial` and `c120_complete_partial`. -/
theorem c120_requests_partial (env : Env) (rd : Reader) (custom : Nat → Option (Impl Ty)) (hand : Nat → Option (Json → Prop))
    (reason : Nat → Option String) (api : Api) (d : Opg) (h : DescribesVia (impls env custom) reason api d)
    (spare : ∀ i im, custom i = some im → im.Spares api.Undeclared)
    (distinct : d.ser.DistinctKeys) (one : api.OneScheme) (clear : ∀ decl ∈ api.pathList, decl.Clear)
    (unique : NamesUniqueVia (impls env custom) api.roots)
    (hands : ∀ i, (hand i).isSome = (custom i).isSome) (plain : ∀ i im, custom i = some im → im.Plain)
    (derived : ∀ i, ReachedVia (impls env custom) api.roots (.named i) → custom i = none → ∃ o input, Derived o env i input)
    (readable : ∀ t, ReachedVia (impls env custom) api.roots t → ¬ ByHand hand t → Readable (docsVia env custom) rd t)
    (documented : ∀ t, ReachedVia (impls env custom) api.roots t → ¬ ByHand hand t → Documented (docsVia env custom) rd t)
    (strict : rd.lenient = false)
    (exact : ∀ i v, ReachedVia (impls env custom) api.roots (.named i) → hand i = some v →
      ∀ m, SchemaVia (impls env custom) (.named i) m → ∀ j, (v j → Accepts false d.ser (Ref.inline m).ser j) ∧
        (j.Distinct → Accepts false d.ser (Ref.inline m).ser j → v j))
    (req : Request) (once : req.Plain) : d.ser.Takes false req ↔ api.Takes (ReadsBy env rd hand) req :=
  c118_requests_partial false env custom reason api d h spare distinct one clear _ (fun t s hp j hj =>
    ⟨c120_read_partial false env rd custom hand reason api d h distinct unique hands plain derived readable
        (fun i v hr hv m hm j => (exact i v hr hv m hm j).2) t s hp j hj,
      c120_complete_partial env rd custom hand reason api d h distinct unique hands plain derived documented strict
        (fun i v hr hv j hj m hm => (exact i v hr hv m hm j).1 hj) t s hp j⟩) req once

/-- **C120**.  A response whose body is written from the type that the description states for its status follows the document, `oneOf`
being read as "at least one" or, if the types with derived impls are `Distinct` (C93), as "exactly one".
Missing: as in `c119_accepts_partial` and `c119_exclusive_partial`. -/
theorem c120_sent_partial (x : Bool) (env : Env) (s : Serde) (custom : Nat → Option (Impl Ty)) (hand : Nat → Option (Json → Prop))
    (reason : Nat → Option String) (api : Api) (d : Opg) (h : DescribesVia (impls env custom) reason api d)
    (distinct : d.ser.DistinctKeys) (unique : NamesUniqueVia (impls env custom) api.roots)
    (hands : ∀ i, (hand i).isSome = (custom i).isSome) (plain : ∀ i im, custom i = some im → im.Plain)
    (derived : ∀ i, ReachedVia (impls env custom) api.roots (.named i) → custom i = none → ∃ o input, Derived o env i input)
    (faithful : ∀ t, ReachedVia (impls env custom) api.roots t → ¬ ByHand hand t → Faithful (docsVia env custom) (s.writesBy hand) t)
    (finite : s.nonFinite = false)
    (accepts : ∀ i v, ReachedVia (impls env custom) api.roots (.named i) → hand i = some v → ∀ j, v j →
      ∀ m, SchemaVia (impls env custom) (.named i) m → Accepts x d.ser (Ref.inline m).ser j)
    (choices : x = true → ∀ t, ReachedVia (impls env custom) api.roots t → ¬ ByHand hand t →
      Distinct (docsVia env custom) (s.writesBy hand) d.components.schemas t)
    (ps : List OpProp) (op : Value) (ho : OpWritten api d.ser ps op) (a : Answer)
    (sent : Answering (SerBy env s hand) (fun r j => Accepts x d.ser r.ser j) ps a) : d.ser.Answers x op a :=
  c118_sent_partial x _ reason api d h distinct _ (fun t v hp j hj =>
    accepts_via env s custom hand reason api d h distinct unique hands plain derived faithful finite accepts choices t v hp j hj) ps op ho a
    sent

/-- **C120**.  The body of a response that follows the document is read as a value of the type that the description states for its status.
Missing: as in `c120_read_partial`. -/
theorem c120_received_partial (x : Bool) (env : Env) (rd : Reader) (custom : Nat → Option (Impl Ty)) (hand : Nat → Option (Json → Prop))
    (reason : Nat → Option String) (api : Api) (d : Opg) (h : DescribesVia (impls env custom) reason api d)
    (distinct : d.ser.DistinctKeys) (unique : NamesUniqueVia (impls env custom) api.roots)
    (hands : ∀ i, (hand i).isSome = (custom i).isSome) (plain : ∀ i im, custom i = some im → im.Plain)
    (derived : ∀ i, ReachedVia (impls env custom) api.roots (.named i) → custom i = none → ∃ o input, Derived o env i input)
    (readable : ∀ t, ReachedVia (impls env custom) api.roots t → ¬ ByHand hand t → Readable (docsVia env custom) rd t)
    (reads : ∀ i v, ReachedVia (impls env custom) api.roots (.named i) → hand i = some v →
      ∀ m, SchemaVia (impls env custom) (.named i) m → ∀ j, j.Distinct → Accepts x d.ser (Ref.inline m).ser j → v j)
    (ps : List OpProp) (op : Value) (ho : OpWritten api d.ser ps op) (a : Answer) (once : ∀ j, a.body = some j → j.Distinct)
    (got : d.ser.Answers x op a) : Answering (ReadsBy env rd hand) (fun r j => Accepts x d.ser r.ser j) ps a :=
  c118_received_partial x _ reason api d h distinct _ (fun t v hp j hj ha =>
    c120_read_partial x env rd custom hand reason api d h distinct unique hands plain derived readable reads t v hp j hj ha) ps op ho a once
    got

/-- What is read as a struct is an object with its fields. -/
theorem readsBy_struct {env : Env} {rd : Reader} {hand : Nat → Option (Json → Prop)} {i fs j} (hn : hand i = none)
    (hs : (env.decl i).data = .struct .struct fs) (strict : rd.lenient = false) (h : ReadsBy env rd hand (.named i) j) :
    ∃ es, j = .obj es ∧ Fits rd i fs es ∧ ∀ f ∈ readFields rd i fs, ∀ y, (rd.fieldKey i f, y) ∈ es →
      f.attrs.explicitModelType = none → ReadsBy env rd hand f.ty y := by
  cases h with
  | byHand hh => rw [hn] at hh; cases hh
  | scalar ht => exact ht.elim
  | struct _ hd _ _ hf h => rw [hs] at hd; cases hd; exact ⟨_, rfl, hf, h⟩
  | structSeq _ hl => rw [strict] at hl; cases hl
  | structVariantSeq _ hl => rw [strict] at hl; cases hl
  | unitStruct _ hd | tupleStruct _ hd | newtypeStruct _ hd | explicitNewtype _ hd | repr _ hd | unitVariant _ hd | newtypeVariant _ hd
  | tupleVariant _ hd | structVariant _ hd => rw [hs] at hd; cases hd

namespace Sample

/-- An object with a name that is a string. -/
def IsPet (j : Json) : Prop := ∃ es, j = .obj es ∧ "name" ∈ es.map (·.1) ∧ ∀ y, ("name", y) ∈ es → ∃ s, y = .str s

/-- A user is read from the list of their pets, or from any list. -/
def herdReads (taken : Bool) : Nat → Option (Json → Prop)
  | 0 => some fun j => ∃ xs, j = .arr xs ∧ (taken = false → ∀ x ∈ xs, IsPet x)
  | _ => none

theorem herd_hands {taken : Bool} (i : Nat) : (herdReads taken i).isSome = (herdHand taken i).isSome := by cases i <;> rfl

theorem herd_readable {taken t} (h : ReachedVia (impls env (herdHand taken)) herdApi.roots t) (hb : ¬ ByHand (herdReads taken) t) :
    Readable (docsVia env (herdHand taken)) (rust false) t := by
  rcases herd_reached h with rfl | rfl | rfl | rfl | rfl
  · simp [Readable, ReadableDecl, ReadableFields, docsVia, env, decl, struct, PlainFields, serialFields, field, containerAttrs, Field.key, rust]
  · exact absurd ⟨0, _, rfl, rfl⟩ hb
  · trivial
  · simp [Readable, ReadableDecl, ReadableFields, docsVia, env, decl, struct, PlainFields, serialFields, field, containerAttrs, Field.key, rust]
  · simp [Readable, ScalarForm, rust, rustScalar, Prim.family]

theorem herd_documented {taken t} (h : ReachedVia (impls env (herdHand taken)) herdApi.roots t) (hb : ¬ ByHand (herdReads taken) t) :
    Documented (docsVia env (herdHand taken)) (rust false) t := by
  rcases herd_reached h with rfl | rfl | rfl | rfl | rfl
  · simp [Documented, DocumentedDecl, DocumentedFields, docsVia, env, decl, struct, PlainFields, serialFields, field, containerAttrs,
      Field.key, rust, CanMiss, MayMiss]
  · exact absurd ⟨0, _, rfl, rfl⟩ hb
  · trivial
  · simp [Documented, DocumentedDecl, DocumentedFields, docsVia, env, decl, struct, PlainFields, serialFields, field, containerAttrs,
      Field.key, rust, CanMiss, MayMiss]
  · simp [Documented, ScalarForm, rust, rustScalar, Prim.family]

/-- None of the types offers a choice. -/
theorem herd_distinct {taken t w reg} (h : ReachedVia (impls env (herdHand taken)) herdApi.roots t) (hb : ¬ ByHand herdValues t) :
    Distinct (docsVia env (herdHand taken)) w reg t := by
  intro hc
  rcases herd_reached h with rfl | rfl | rfl | rfl | rfl
  · simp [HasChoices, docsVia, env, decl, struct] at hc
  · exact absurd ⟨0, _, rfl, rfl⟩ hb
  · exact hc.elim
  · simp [HasChoices, docsVia, env, decl, struct] at hc
  · exact hc.elim

theorem pet_valid {x j} : Valid x (herdDoc false).components.schemas (.link "Pet") j ↔ IsPet j := by
  have pet : BMap.get "Pet" (herdDoc false).components.schemas = some petModel := rfl
  constructor
  · intro h
    cases h with
    | link hg h =>
      rw [pet] at hg
      cases hg
      cases h with
      | object hr hp _ =>
        refine ⟨_, rfl, hr "name" (by simp), fun y hy => ?_⟩
        cases hp "name" y _ hy rfl with
        | inline h => cases h with
          | string => exact ⟨_, rfl⟩
  · rintro ⟨es, rfl, hn, hs⟩
    refine .link pet (.object (fun k hk => ?_) (fun k j r hj hr => ?_) nofun)
    · cases List.mem_singleton.1 hk; exact hn
    · simp only [BMap.get_cons, BMap.get_nil] at hr
      split at hr
      · rename_i e
        subst e
        cases hr
        obtain ⟨s, rfl⟩ := hs j hj
        exact .inline (.string nofun)
      · cases hr

/-- The schema of users that is written by hand accepts what is read by hand. -/
theorem herd_exact {x taken i v} (hv : herdReads taken i = some v) {m} (hm : SchemaVia (impls env (herdHand taken)) (.named i) m) (j : Json) :
    Accepts x (herdDoc taken).ser (Ref.inline m).ser j ↔ v j := by
  cases i with
  | succ i => cases hv
  | zero =>
    cases hv
    obtain ⟨cx, cx', hm⟩ := hm
    obtain ⟨n, hm⟩ := progReturns_iff.1 hm
    cases taken with
    | true =>
      have hm : (Prog.addModel "Pet" str (.ret _) : Prog Ty Model).exec _ _ = _ := hm
      cases hm
      rw [accepts_ser]
      constructor
      · intro h
        cases h with
        | inline h => cases h with
          | array h => exact ⟨_, rfl, nofun⟩
      · rintro ⟨xs, rfl, -⟩
        exact .inline (.array fun _ _ => .any)
    | false =>
      have hm : (Prog.mention (.named 1) false {} _ : Prog Ty Model).exec _ _ = _ := hm
      rw [Prog.exec] at hm
      cases ha : (implOps (impls env (herdHand false)) (runProg (impls env (herdHand false)) n)).mention (.named 1) false {} cx with
      | none => rw [ha] at hm; cases hm
      | some x =>
        rw [ha] at hm
        cases hm
        obtain ⟨_, hs, -⟩ := progReturns_mention_select.1 (progReturns_mention.2 ⟨n, ha⟩)
        have hr : x.1 = .link "Pet" := by
          rcases progReturns_select.1 hs with ⟨-, l, hl, hr, -⟩ | ⟨h | h, -⟩
          · cases hl; exact hr
          · cases h
          · cases h
        rw [accepts_ser, hr]
        constructor
        · intro h
          cases h with
          | inline h => cases h with
            | array h => exact ⟨_, rfl, fun _ y hy => pet_valid.1 (h y hy)⟩
        · rintro ⟨xs, rfl, h⟩
          exact .inline (.array fun y hy => pet_valid.2 (h rfl y hy))

theorem herdHand_spares : ∀ i im, herdHand false i = some im → im.Spares herdApi.Undeclared := by
  intro i im h
  cases i <;> cases h
  exact ⟨fun _ => trivial, nofun, nofun⟩

theorem herdApi_one : herdApi.OneScheme := by
  intro name s s' h
  cases h with
  | declared h => simp [herdApi, Section.schemeList] at h
  | used h =>
    rw [herdApi_parts] at h
    simp at h

theorem herdPath_clear : herdPath.Clear where
  braces s hs := by
    simp [herdPath, PathDecl.segments] at hs
    subst hs
    simp [PathSeg.NoBraces]
  types s hs s' hs' name t t' h h' := by
    simp [herdPath, PathDecl.segments] at hs
    subst hs
    cases h
  own s _ x hx := by simp [herdPath, PathDecl.props, ItemProp.paramList] at hx
  path x hx := by simp [herdPath, PathDecl.props, ItemProp.paramList] at hx
  operations m ps h x hx := by
    cases m <;> first | (cases h; done) | skip
    cases h
    cases hx

theorem owner_read (xs ys : List Json) (hx : ∀ x ∈ xs, IsPet x) (hy : ∀ y ∈ ys, ReadsBy env (rust false) (herdReads false) (.named 1) y) :
    ReadsBy env (rust false) (herdReads false) (.named 3) (.obj [("user", .arr xs), ("pets", .arr ys)]) := by
  refine .struct (fs := [field "user" (.named 0), field "pets" (.seq .vec (.named 1))]) rfl rfl rfl
    (by simp [env, decl, struct, containerAttrs]) ⟨?_, ?_, ?_, ?_, nofun⟩ ?_
  · simp [readFields, rust, field]
  · simp [readFields, rust, field, Field.key]
  · simp [readFields, rust, field, Field.key]
  · simp [readFields, rust, field, Field.key]
  · simp only [readFields, rust, field, Field.key]
    simp
    exact ⟨.byHand (i := 0) rfl ⟨_, rfl, fun _ => hx⟩, .seq nofun hy⟩

/-- The hypotheses hold of the sample: the requests that the document takes are those that the service reads, what it answers follows the
document, and what follows the document is read. -/
example : (∀ req : Request, req.Plain → ((herdDoc false).ser.Takes false req ↔
      herdApi.Takes (ReadsBy env (rust false) (herdReads false)) req)) ∧
    (∃ req : Request, req.Plain ∧ (herdDoc false).ser.Takes false req) ∧
    (∀ req : Request, req.Plain → req.body = some (.obj [("user", .arr [.null])]) → ¬ (herdDoc false).ser.Takes false req) ∧
    ∃ op, OpWritten herdApi (herdDoc false).ser herdOp op ∧
      (∀ x a b, (herdDoc false).ser.Answers x op
        ⟨200, some (.obj [("user", .arr [.obj [("name", .str a)]]), ("pets", .arr [.obj [("name", .str b)]])])⟩) ∧
      ∀ x a, (∀ j, a.body = some j → j.Distinct) → (herdDoc false).ser.Answers x op a →
        ∃ j, a.body = some j ∧ ReadsBy env (rust false) (herdReads false) (.named 3) j := by
  have all := c120_requests_partial env (rust false) (herdHand false) (herdReads false) reason herdApi _ (herdDoc_described _) herdHand_spares
    (herdDoc_distinct _) herdApi_one (fun decl hd => by cases List.mem_singleton.1 hd; exact herdPath_clear) herd_unique herd_hands herd_plain
    (fun _ => herd_derived) (fun _ => herd_readable) (fun _ => herd_documented) rfl
    (fun i v _ hv m hm j => ⟨(herd_exact hv hm j).2, fun _ => (herd_exact hv hm j).1⟩)
  have plain : Request.Plain ⟨.put, "/owner".toList, fun _ _ => none, fun w => some (.str w),
      some (.obj [("user", .arr []), ("pets", .arr [])]), fun _ => True⟩ := by
    refine ⟨fun _ _ _ h => (nomatch h), fun _ j h => ?_, fun j h => ?_⟩
    · cases h; exact .str
    · cases h
      refine .obj (by decide) ?_
      simp only [List.mem_cons, List.not_mem_nil, or_false]
      rintro e (rfl | rfl) <;> exact .arr (by simp)
  refine ⟨all, ⟨_, plain, (all _ plain).2 ?_⟩, ?_, ?_⟩
  · refine ⟨herdPath, .head _, herdOp, [], .literal (s := "owner") .nil, rfl, .inl rfl,
      fun name place x hx => (nomatch hx), fun b hb => (nomatch hb), fun b hb => ?_⟩
    cases hb
    refine ⟨fun _ e => (nomatch e), fun j hj => ?_⟩
    cases hj
    refine ⟨_, rfl, ?_⟩
    exact owner_read _ _ nofun nofun
  · rintro req hp hb h
    obtain ⟨decl, hd, ps, bs, -, ho, su⟩ := (all req hp).1 h
    cases List.mem_singleton.1 hd
    have : ps = herdOp := by
      generalize req.method = m at ho
      cases m <;> cases ho
      rfl
    subst this
    obtain ⟨t, et, hr⟩ := (su.body _ rfl).2 _ hb
    cases et
    obtain ⟨es, ej, hf, -⟩ := readsBy_struct rfl rfl rfl hr
    cases ej
    exact absurd (hf.missing (field "pets" (.seq .vec (.named 1))) (by simp [readFields, rust, field])
      (by simp [rust, Field.key, field])) (by simp [CanMiss, rust, MayMiss, field])
  · obtain ⟨h1, -, h3, -⟩ := c118_placed _ _ _ _ (herdDoc_described false) (herdDoc_distinct _)
    obtain ⟨v, hv⟩ := h1 herdPath (List.mem_singleton.2 rfl)
    obtain ⟨op, -, hop⟩ := h3 _ _ .put herdOp hv rfl
    refine ⟨op, hop, fun x a b => ?_, fun x a once got => ?_⟩
    · exact c120_sent_partial x env serde (herdHand false) herdValues reason herdApi _ (herdDoc_described false) (herdDoc_distinct false)
        herd_unique (fun i => by cases i <;> rfl) herd_plain (fun _ => herd_derived)
        (fun _ => herd_faithful) rfl (fun _ _ _ hv j hj m hm => herd_accepts hv hj hm)
        (fun _ _ hr hb => herd_distinct hr hb) _ _ hop _
        ⟨none, _, rfl, .type (herd_written _ _ (by simp) (by simp))⟩
    · obtain ⟨desc, decl, hl, ha⟩ := c120_received_partial x env (rust false) (herdHand false) (herdReads false) reason herdApi _
        (herdDoc_described _) (herdDoc_distinct _) herd_unique herd_hands herd_plain (fun _ => herd_derived) (fun _ => herd_readable)
        (fun i v _ hv m hm j _ => (herd_exact hv hm j).1) _ _ hop a once got
      have : decl = .type (.named 3) := by
        obtain ⟨_, hm, e⟩ := lastOf_mem hl
        simp [herdOp] at hm
        rcases hm with rfl | rfl
        · cases e
        · simp only [OpProp.response?] at e
          split at e
          · cases e; rfl
          · cases e
      subst this
      generalize a.body = body at ha
      cases ha with
      | type h => exact ⟨_, rfl, h⟩

end Sample

/-- **C120** is false of impls that register schemas under the names of other types, although each type has a name of its own and the
schemas written by hand accept what is read by hand: the document takes a string for a pet, and the service does not. -/
theorem c120_is_false : ∃ (env : Env) (rd : Reader) (custom : Nat → Option (Impl Ty)) (hand : Nat → Option (Json → Prop))
    (reason : Nat → Option String) (api : Api) (d : Opg) (t : Ty) (v : Value) (j : Json),
    DescribesVia (impls env custom) reason api d ∧ d.ser.DistinctKeys ∧
    (∀ t t' name, LinkedVia (impls env custom) api.roots t → LinkedVia (impls env custom) api.roots t' →
      (impls env custom t).name = some name → (impls env custom t').name = some name → t.strip = t'.strip) ∧
    (∀ i, (hand i).isSome = (custom i).isSome) ∧ (∀ i im, custom i = some im → im.Plain) ∧
    (∀ i, ReachedVia (impls env custom) api.roots (.named i) → custom i = none → ∃ o input, Derived o env i input) ∧
    (∀ t, ReachedVia (impls env custom) api.roots t → ¬ ByHand hand t → Readable (docsVia env custom) rd t) ∧
    (∀ i v, ReachedVia (impls env custom) api.roots (.named i) → hand i = some v →
      ∀ m, SchemaVia (impls env custom) (.named i) m → ∀ j, j.Distinct → Accepts true d.ser (Ref.inline m).ser j → v j) ∧
    PlacedAt api d.ser t v ∧ j.Distinct ∧ Accepts true d.ser v j ∧ ¬ ReadsBy env rd hand t j := by
  obtain ⟨h1, -, h3, h4, -⟩ := c118_placed _ _ _ _ (herdDoc_described true) (herdDoc_distinct true)
  obtain ⟨item, hi⟩ := h1 herdPath (List.mem_singleton.2 rfl)
  obtain ⟨op, -, hop⟩ := h3 _ _ .put herdOp hi rfl
  obtain ⟨v, -, hv⟩ := h4 _ _ 200 none (.named 3) hop rfl
  refine ⟨env, rust false, herdHand true, herdReads true, reason, herdApi, herdDoc true, .named 3, v,
    .obj [("user", .arr []), ("pets", .arr [.str "Rex"])], herdDoc_described true, herdDoc_distinct true,
    herd_one, herd_hands, herd_plain, fun _ => herd_derived, fun _ => herd_readable,
    fun _ _ _ hv m hm j _ => (herd_exact hv hm j).1, hv, ?_, ?_, fun hr => ?_⟩
  · refine .obj (by decide) ?_
    simp only [List.mem_cons, List.not_mem_nil, or_false]
    rintro e (rfl | rfl)
    · exact .arr (by simp)
    · refine .arr fun y hy => ?_
      cases List.mem_singleton.1 hy
      exact .str
  · obtain ⟨r, rfl, ⟨cx, cx', hm⟩, -⟩ := c118_schemas _ _ _ _ (herdDoc_described true) (herdDoc_distinct true) _ v hv
    obtain ⟨_, hs, -⟩ := progReturns_mention_select.1 hm
    have hr : r = .link "Owner" := by
      rcases progReturns_select.1 hs with ⟨-, l, hl, rfl, -⟩ | ⟨h | h, -⟩
      · cases hl; rfl
      · cases h
      · cases h
    subst hr
    have owner : BMap.get "Owner" (herdDoc true).components.schemas = some ⟨none, .single ⟨false, .object
      ⟨[("pets", .inline ⟨none, .single ⟨false, .array (.link "Pet")⟩⟩), ("user", .link "User")], none, ["user", "pets"]⟩⟩⟩ := rfl
    have pet : BMap.get "Pet" (herdDoc true).components.schemas = some str := rfl
    have user : BMap.get "User" (herdDoc true).components.schemas = some ⟨none, .single ⟨false, .array .any⟩⟩ := rfl
    refine accepts_ser.2 (.link owner (.object (fun k hk => ?_) (fun k j r hj hr => ?_) nofun))
    · simpa [BMap.keys] using hk
    simp only [List.mem_cons, Prod.mk.injEq, List.not_mem_nil, or_false] at hj
    rcases hj with ⟨rfl, rfl⟩ | ⟨rfl, rfl⟩ <;> cases hr
    · exact .link user (.array nofun)
    · refine .inline (.array fun y hy => ?_)
      cases List.mem_singleton.1 hy
      exact .link pet (.string nofun)
  · obtain ⟨es, ej, -, h⟩ := readsBy_struct rfl rfl rfl hr
    cases ej
    cases h (field "pets" (.seq .vec (.named 1))) (by simp [readFields, rust, field]) (.arr [.str "Rex"])
      (by simp [rust, Field.key, field]) rfl with
    | scalar ht => exact ht
    | seq _ h =>
      obtain ⟨_, ej, -⟩ := readsBy_struct rfl rfl rfl (h _ (List.mem_singleton.2 rfl))
      cases ej

end Verif
