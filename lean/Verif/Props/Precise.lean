import Verif.Proof.Precise
import Verif.Props.ConformFalse
import Verif.Props.Zoo
/-!
# C79: accepted values are values of the type
-/

namespace Verif

open Sample

/-- **C79**, for precise types.  A program mentions some types, and the mentions return.  Each name is used by
reference for one type only; the derived types come out of the derive macro; all types reached are `Precise`.  Then
every JSON value accepted by a reference that a mention returned is one that serde writes for the mentioned type, up
to the order of the entries of structs, further entries of structs, and integers for floats.  This holds for both
readings of `oneOf`.  Missing: types that are not precise (the property is false of them, see below), the metadata
`nullable` and `variants` at the mention, ranges of integers, formats of strings and lengths of arrays. -/
theorem c79_precise_partial (x : Bool) (env : Env) (s : Serde) (calls : List Call) (rs : List Ref) (cx' : Components)
    (unique : NamesUnique env (rootsOf calls)) (mentions : ∀ c ∈ calls, c.isMention = true)
    (run : CallsReturn env Components.empty calls rs cx')
    (derived : ∀ i, Reached env (rootsOf calls) (.named i) → ∃ o input, Derived o env i input)
    (precise : ∀ t, Reached env (rootsOf calls) t → Precise env s t)
    (reg : List (String × Model)) (ext : ∀ n m, BMap.get n cx'.schemas = some m → BMap.get n reg = some m)
    (t : Ty) (inline : Bool) (p : Params) (r : Ref) (called : .mention t inline p ∈ calls)
    (nullable : p.nullable = none) (variants : p.variants = none)
    (mentioned : Mentions env t inline p r) (j : Json) (accepted : Valid x reg r j) :
    ∃ j', Ser env s t j' ∧ Covers env t j' j := by
  obtain ⟨G, expands⟩ := grounds_of_run unique mentions run derived ext
  have hmem : (t, !inline) ∈ rootsOf calls := by
    rw [rootsOf_eq]
    exact List.mem_filterMap.2 ⟨_, called, rfl⟩
  have E : Exacting x s (derivedSetting env (rootsOf calls)) reg :=
    ⟨G, fun t hr _ => precise t hr, fun t hr _ => (expands t hr).deep, fun _ _ _ h => nomatch h⟩
  obtain ⟨j', hs, hc⟩ := mention_admits G variants nullable mentioned
    ⟨.root hmem, fun h => .inl (by simp only at h; rw [← h]; exact hmem)⟩ (admits E (.root hmem)) accepted
  exact ⟨j', serBy_none.1 hs, hc⟩

/-- Names are unique in a finite list of types that contains all those asked for. -/
theorem namesUnique_of_closed {env : Env} {roots : List (Ty × Bool)} {l : List Ty} (hc : closedList env roots l = true)
    (h : (l.all fun t => l.all fun t' =>
      (typeName env t).isNone || !(typeName env t == typeName env t') || Ty.same t.strip t'.strip) = true) :
    NamesUnique env roots := by
  intro t t' n hl hl' hn hn'
  have := List.all_eq_true.1 (List.all_eq_true.1 h t (hl.mem_closed hc)) t' (hl'.mem_closed hc)
  simp [hn, hn'] at this
  exact Ty.eq_of_same _ _ this

namespace Sample

theorem diamond_precise {t} (h : Reached diamond (rootsOf diamondCalls) t) : Precise diamond serde t := by
  rcases diamond_reached h with rfl | rfl | rfl | rfl | rfl <;>
    simp [Precise, PreciseDecl, PreciseFields, diamond, struct, PlainFields, serialFields, field, containerAttrs]

/-- The hypotheses hold of a program with shared and boxed types, and it accepts a value with a further entry. -/
example (i : Int) : ∃ rs cx, CallsReturn diamond Components.empty diamondCalls rs cx ∧
    Valid true cx.schemas (.link "Right") (.obj [("more", .null), ("leaf", .obj [("n", .int i)])]) ∧
    ∀ j, Valid true cx.schemas (.link "Right") j →
      ∃ j', Ser diamond serde (.named 1) j' ∧ Covers diamond (.named 1) j' j := by
  refine ⟨_, _, .mention ⟨10, rfl⟩ (.mention ⟨10, rfl⟩ (.nil _)), ?_, ?_⟩
  · refine .link rfl (.object (by simp [BMap.keys, field]) ?_ (by simp))
    intro k j r hm hg
    simp only [List.mem_cons, Prod.mk.injEq, List.not_mem_nil, or_false] at hm
    rcases hm with ⟨rfl, rfl⟩ | ⟨rfl, rfl⟩
    · exact nomatch hg
    · obtain rfl : Ref.link "Leaf" = r := Option.some.inj hg
      refine .link rfl (.object (by simp [BMap.keys, field]) ?_ (by simp))
      intro k j r hm hg
      simp only [List.mem_singleton, Prod.mk.injEq] at hm
      obtain ⟨rfl, rfl⟩ := hm
      obtain rfl := Option.some.inj hg
      exact .inline .integer
  · exact fun j => c79_precise_partial true diamond serde diamondCalls _ _ diamond_unique (by simp [diamondCalls, Call.isMention])
      (.mention ⟨10, rfl⟩ (.mention ⟨10, rfl⟩ (.nil _))) (fun i _ => diamond_derived i) (fun _ => diamond_precise)
      _ (fun _ _ h => h) (.named 1) false {} _ (by simp [diamondCalls]) rfl rfl
      ⟨Components.empty, _, 10, rfl⟩ j

/-- `struct Park { color: Color, events: Vec<Event>, found: HashMap<String, Either>, code: Code, id: Id,
note: Option<String> }` -/
def parkInput : DeriveInput Ty := ⟨"Park", [], .struct (.named [fld "color" (.named 0), fld "events" (.seq .vec (.named 2)),
  fld "found" (.dict .hashMap (.named 4)), fld "code" (.named 5), fld "id" (.named 7), fld "note" (.option (.prim .string))])⟩
def park : Env := ⟨fun
  | 0 => color | 2 => event | 4 => eitherC | 5 => code | 6 => point | 7 => idC
  | _ => struct "Park" [field "color" (.named 0), field "events" (.seq .vec (.named 2)),
      field "found" (.dict .hashMap (.named 4)), field "code" (.named 5), field "id" (.named 7), field "note" (.option (.prim .string))], id⟩

theorem park_derived : ∀ i, ∃ o input, Derived o park i input
  | 0 => ⟨oracle, colorInput, _, rfl⟩
  | 1 => ⟨oracle, parkInput, _, rfl⟩
  | 2 => ⟨oracle, eventInput, _, rfl⟩
  | 3 => ⟨oracle, parkInput, _, rfl⟩
  | 4 => ⟨oracle, eitherInput, _, rfl⟩
  | 5 => ⟨oracle, codeInput, _, rfl⟩
  | 6 => ⟨oracle, pointInput, _, rfl⟩
  | 7 => ⟨oracle, idInput, _, rfl⟩
  | _ + 8 => ⟨oracle, parkInput, _, rfl⟩

def parkCalls : List Call := [.mention (.named 9) false {}]

def parkTypes : List Ty := [.named 9, .named 0, .named 2, .named 4, .named 5, .named 6, .named 7,
  .seq .vec (.named 2), .dict .hashMap (.named 4), .option (.prim .string), .prim .string, .prim .u32, .prim .i32, .prim .u64]

theorem park_closed : closedList park (rootsOf parkCalls) parkTypes = true := by decide +kernel

/-- `Code` is serialized by `serde_repr`. -/
def parkSerde : Serde := ⟨false, fun i => i == 5⟩

theorem park_precise {t} (h : t ∈ parkTypes) : Precise park parkSerde t := by
  simp only [parkTypes, List.mem_cons, List.not_mem_nil, or_false] at h
  have hp : ∀ m, HasSchema park (.named 6) m → ∃ d o, m = objectSchema d false o ∧
      "kind" ∉ BMap.keys o.properties ∧ "kind" ∉ o.required := by
    intro m hm
    obtain ⟨body, hb, _, hy⟩ := named_yields hm
    cases hb
    obtain ⟨o, ho, rfl⟩ := yields_objectModel (inl := false) (pred := fun f => f.attrs.inline) (fun f => by simp) hy
    refine ⟨_, o, rfl, fun h => ?_, fun h => ?_⟩
    · simpa [serialFields, field, Field.key] using objectOf_keys ho h
    · rw [ho.required] at h
      simp [serialFields, field, Field.key] at h
  rcases h with rfl | rfl | rfl | rfl | rfl | rfl | rfl | rfl | rfl | rfl | rfl | rfl | rfl | rfl <;>
    simp [Precise, PreciseDecl, PreciseFields, PreciseVariant, park, color, event, eitherC, code, point, idC, newtype, struct,
      container, containerAttrs, PlainFields, serialFields, field, variantAs, variantAttrs, writtenVariants, parkSerde, Field.key]
  all_goals exact hp

/-- The hypotheses hold of a program with most kinds of types. -/
example : ∃ rs cx, CallsReturn park Components.empty parkCalls rs cx ∧
    ∀ x j, Valid x cx.schemas (.link "Park") j → ∃ j', Ser park parkSerde (.named 9) j' ∧ Covers park (.named 9) j' j :=
  ⟨_, _, .mention ⟨10, rfl⟩ (.nil _), fun x j => c79_precise_partial x park parkSerde parkCalls _ _
    (namesUnique_of_closed park_closed (by decide +kernel)) (by simp [parkCalls, Call.isMention])
    (.mention ⟨10, rfl⟩ (.nil _)) (fun i _ => park_derived i) (fun _ h => park_precise (h.mem_closed park_closed))
    _ (fun _ _ h => h) (.named 9) false {} _ (by simp [parkCalls]) rfl rfl ⟨Components.empty, _, 10, rfl⟩ j⟩

end Sample

/-! ## C79 is false of the code in general -/

/-- Mentioning a type returns a reference that accepts a value which, up to further entries, order and integers for
floats, serde does not write for the type. -/
def Loose (env : Env) (s : Serde) (t : Ty) (j : Json) : Prop :=
  ∃ r cx, MentionReturns env t false {} Components.empty r cx ∧ Valid true cx.schemas r j ∧
    ¬ ∃ j', Ser env s t j' ∧ Covers env t j' j

/-- C79 is false: the documentation of a tuple accepts the empty array. -/
theorem c79_tuple_is_false : ∃ env s, Loose env s (.tuple [.prim .u8, .prim .string]) (.arr []) := by
  refine ⟨env, serde, _, _, ⟨10, rfl⟩, .inline (.array (by simp)), ?_⟩
  rintro ⟨j, hs, hc⟩
  cases hc with
  | refl => cases hs with | tuple hl => simp at hl

/-- C79 is false: the documentation of `()` accepts all strings. -/
theorem c79_unit_is_false : ∃ env s, ∀ t, Loose env s .unit (.str t) := by
  refine ⟨env, serde, fun t => ⟨_, _, ⟨10, rfl⟩, .inline (.string (fun _ h => nomatch h)), ?_⟩⟩
  rintro ⟨j, hs, hc⟩
  cases hc with
  | refl => cases hs

/-- If no entry of an object belongs to a field and there is no tag, the object only covers parts of itself. -/
theorem covers_same {env : Env} {i j} {es : List (String × Json)} (hk : ∀ f ∈ (env.decl i).allFields, f.key ∉ es.map Prod.fst)
    (hp : ∀ f ∈ (env.decl i).allFields, ∃ p, f.ty = .prim p) (ht : ∀ t, (env.decl i).attrs.tagType ≠ .internal t)
    (h : Covers env (.named i) j (.obj es)) : ∃ es', j = .obj es' ∧ ∀ e ∈ es', e ∈ es := by
  cases h with
  | refl => exact ⟨es, rfl, fun _ h => h⟩
  | newtype hf h =>
    obtain ⟨p, hp⟩ := hp _ hf
    rw [hp] at h
    cases h with
    | refl => exact ⟨es, rfl, fun _ h => h⟩
  | @struct _ es' _ y hm f hf h =>
    refine ⟨es', rfl, ?_⟩
    intro e he
    by_cases hy : y e = e.2
    · have := hm e he
      rw [hy] at this
      exact this
    · obtain ⟨h1, h2⟩ := hf e he hy
      exact absurd (List.mem_map.2 ⟨_, hm e he, rfl⟩) (h2 ▸ hk _ h1)
  | tagged _ h => exact absurd h (ht _)

/-- What is written for an enum. -/
theorem ser_enum {env : Env} {s : Serde} {i vs j} (hd : (env.decl i).data = .enum vs) (hr : s.asRepr i = false)
    (h : Ser env s (.named i) j) : ∃ v ∈ writtenVariants vs, ∃ c, tagJson (env.decl i).attrs.tagType v.key c = some j ∧
      (v.style = .newType → ∀ f rest, v.fields = f :: rest → f.attrs.skipSerializing = false →
        f.attrs.explicitModelType = none → ∃ y, c = some y ∧ Ser env s f.ty y) := by
  cases h with
  | struct hd' => rw [hd] at hd'; cases hd'
  | tupleStruct hd' => rw [hd] at hd'; cases hd'
  | transparent hd' => rw [hd] at hd'; cases hd'
  | newtypeStruct hd' => rw [hd] at hd'; cases hd'
  | explicitNewtype hd' => rw [hd] at hd'; cases hd'
  | repr _ h => rw [hr] at h; cases h
  | unitVariant hd' _ hv hu hj =>
    rw [hd] at hd'; cases hd'
    refine ⟨_, hv, _, hj, ?_⟩
    intro hst f rest hf hs
    rcases hu with hu | ⟨_, g, r, hg, hs'⟩
    · rw [hst] at hu; cases hu
    · rw [hf] at hg; cases hg; rw [hs] at hs'; cases hs'
  | newtypeVariant hd' _ hv hst hf hk he hs hj =>
    rw [hd] at hd'; cases hd'
    refine ⟨_, hv, _, hj, ?_⟩
    intro _ g rest hg _ hn
    rw [hf] at hg; cases hg
    exact ⟨_, rfl, hs hn⟩
  | tupleVariant hd' _ hv hst hk he hs hj =>
    rw [hd] at hd'; cases hd'
    exact ⟨_, hv, _, hj, fun h => by rw [hst] at h; cases h⟩
  | structVariant hd' _ hv hst hk he hs hj =>
    rw [hd] at hd'; cases hd'
    exact ⟨_, hv, _, hj, fun h => by rw [hst] at h; cases h⟩

/-- C79 is false: the documentation of an enum with data and without `tag` accepts objects with any keys. -/
theorem c79_external_is_false : ∃ env, Derived oracle env 0 mixed ∧
    Loose env serde (.named 0) (.obj [("nobody", .int 1)]) := by
  refine ⟨program [mixedC], ⟨_, rfl⟩, _, _, ⟨10, rfl⟩, ?_, ?_⟩
  · refine .link rfl (.object (by simp) (by simp) ?_)
    intro k j r hm _ hr
    simp only [List.mem_singleton, Prod.mk.injEq] at hm
    obtain ⟨rfl, rfl⟩ := hm
    obtain rfl := Option.some.inj hr
    refine .inline (.oneOf (pre := [_]) (post := []) rfl (.inline .integer) ?_)
    intro _ r' hr'
    simp only [List.append_nil, List.mem_singleton] at hr'
    subst hr'
    exact .inline (.type (fun h => nomatch h) (fun h => h))
  · rintro ⟨j, hs, hc⟩
    obtain ⟨es, rfl, hes⟩ := covers_same (by simp [Container.allFields, program, mixedC, container, variantAs, field, Field.key])
      (by simp [Container.allFields, program, mixedC, container, variantAs, field]) (by intro t h; exact nomatch h) hc
    obtain ⟨v, _, c, hj, _⟩ := ser_enum rfl rfl hs
    have hv : v.key = "A" ∨ v.key = "B" := by
      rename_i hv _
      simp [writtenVariants, variantAs, variantAttrs] at hv
      rcases hv with rfl | rfl
      · exact .inl rfl
      · exact .inr rfl
    cases c with
    | none => exact nomatch hj
    | some y =>
      obtain rfl : [(v.key, y)] = es := Json.obj.inj (Option.some.inj hj)
      have := hes (v.key, y) (by simp)
      simp only [List.mem_singleton, Prod.mk.injEq] at this
      rw [this.1] at hv
      simp at hv

/-- `#[serde(tag = "t", content = "c")] enum E { A(u8), B(String) }` -/
def Sample.adjacentN : DeriveInput Ty := ⟨"E", [attr "serde" [nv "tag" "t", nv "content" "c"]], .enum [
  var "A" (.unnamed [tfld (.prim .u8)]), var "B" (.unnamed [tfld (.prim .string)])]⟩
def Sample.adjacentNC : Container Ty := container "E"
  (fun a => { a with tagType := .adjacent "t" "c", modelType := .object }) (.enum [
    variantAs "A" "A" .newType [field "0" (.prim .u8)], variantAs "B" "B" .newType [field "0" (.prim .string)]])

/-- C79 is false: the documentation of an adjacently tagged enum accepts the tag of one variant with the content of
another. -/
theorem c79_adjacent_is_false : ∃ env, Derived oracle env 0 adjacentN ∧
    Loose env serde (.named 0) (.obj [("t", .str "A"), ("c", .str "x")]) := by
  refine ⟨program [adjacentNC], ⟨_, rfl⟩, _, _, ⟨10, rfl⟩, ?_, ?_⟩
  · refine .link rfl (.object ?_ ?_ (by simp))
    · intro k hk
      have hk' : k ∈ ["t", "c"] := hk
      simpa [BMap.keys] using hk'
    · intro k j r hm hg
      simp only [List.mem_cons, Prod.mk.injEq, List.not_mem_nil, or_false] at hm
      rcases hm with ⟨rfl, rfl⟩ | ⟨rfl, rfl⟩
      · obtain rfl := Option.some.inj hg
        refine .inline (.string ?_)
        intro vs h
        obtain rfl : ["A", "B"] = vs := Option.some.inj h
        simp
      · obtain rfl := Option.some.inj hg
        refine .inline (.oneOf (pre := [_]) (post := []) rfl (.inline (.string (fun _ h => nomatch h))) ?_)
        intro _ r' hr'
        simp only [List.append_nil, List.mem_singleton] at hr'
        subst hr'
        exact .inline (.type (fun h => nomatch h) (fun h => h))
  · rintro ⟨j, hs, hc⟩
    obtain ⟨es, rfl, hes⟩ := covers_same (by simp [Container.allFields, program, adjacentNC, container, variantAs, field, Field.key])
      (by simp [Container.allFields, program, adjacentNC, container, variantAs, field]) (by intro t h; exact nomatch h) hc
    obtain ⟨v, hv, c, hj, hn⟩ := ser_enum rfl rfl hs
    simp [writtenVariants, variantAs, variantAttrs] at hv
    rcases hv with rfl | rfl
    · obtain ⟨y, rfl, hy⟩ := hn rfl (field "0" (.prim .u8)) [] rfl rfl rfl
      obtain rfl : [("t", .str "A"), ("c", y)] = es := Json.obj.inj (Option.some.inj hj)
      have := hes ("c", y) (by simp)
      simp at this
      subst this
      cases hy with
      | prim h => obtain ⟨i, h⟩ := h; cases h
    · obtain ⟨y, rfl, hy⟩ := hn rfl (field "0" (.prim .string)) [] rfl rfl rfl
      obtain rfl : [("t", .str "B"), ("c", y)] = es := Json.obj.inj (Option.some.inj hj)
      have := hes ("t", .str "B") (by simp)
      simp at this

end Verif
