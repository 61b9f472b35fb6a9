import Verif.Proof.Narrow
import Verif.Props.Evolve
/-!
# C96: documents of types that ask for more
-/

namespace Verif

theorem seen_root {env : Env} {calls : List Call} {t i p} (h : .mention t i p ∈ calls) : Seen env (rootsOf calls) (t, !i) := by
  have hmem : (t, !i) ∈ rootsOf calls := by
    rw [rootsOf_eq]; exact List.mem_filterMap.2 ⟨_, h, rfl⟩
  exact ⟨.root hmem, fun h => .inl (by simp only at h; rw [← h]; exact hmem)⟩

/-- **C96**, in the inclusive reading of `oneOf`.  Two programs are given, of which the first asks for more: its structs
have the fields of the second, its enums have no other variants.  In each some types are mentioned, and each name is used
by reference for one type only.  Then a type mentioned in both is documented by references of which the first accepts no
value but those the second accepts.  Missing: enums of unit variants that get variants with data, tags that are also
names of fields, and the exclusive reading (in the first and the last the property is false, see below). -/
theorem c96_narrower_partial (env env' : Env) (narrows : env.Narrows env')
    (calls calls' : List Call) (rs rs' : List Ref) (cx cx' : Components)
    (unique : NamesUnique env (rootsOf calls)) (unique' : NamesUnique env' (rootsOf calls'))
    (mentions : ∀ c ∈ calls, c.isMention = true) (mentions' : ∀ c ∈ calls', c.isMention = true)
    (run : CallsReturn env Components.empty calls rs cx) (run' : CallsReturn env' Components.empty calls' rs' cx')
    (derived : ∀ i, Reached env (rootsOf calls) (.named i) → ∃ o input, Derived o env i input)
    (derived' : ∀ i, Reached env' (rootsOf calls') (.named i) → ∃ o input, Derived o env' i input)
    (t : Ty) (inline : Bool) (p p' : Params)
    (called : .mention t inline p ∈ calls) (called' : .mention t inline p' ∈ calls')
    (free : p.variants = none ∧ p'.variants = none) (nullable : p.nullable = p'.nullable)
    (r r' : Ref) (gives : Mentions env t inline p r) (gives' : Mentions env' t inline p' r')
    (j : Json) (accepted : Valid false cx.schemas r j) : Valid false cx'.schemas r' j := by
  have T := tidy_of_run unique mentions run (fun _ _ h => h)
  have T' := tidy_of_run unique' mentions' run' (fun _ _ h => h)
  have hs := seen_root (env := env) called
  have hs' := seen_root (env := env') called'
  exact sub_valid accepted (mention_sub T T' narrows free.1 free.2 nullable gives gives' hs hs'
    (below T T' narrows derived derived' (T.expands t hs.1) hs.1 hs'.1))

/-- **C96**, where both programs have the same fields and variants, in any order and documented in any words: the same
values are accepted.  Missing: as before. -/
theorem c96_same_partial (env env' : Env) (narrows : env.Narrows env') (widens : env'.Narrows env)
    (calls calls' : List Call) (rs rs' : List Ref) (cx cx' : Components)
    (unique : NamesUnique env (rootsOf calls)) (unique' : NamesUnique env' (rootsOf calls'))
    (mentions : ∀ c ∈ calls, c.isMention = true) (mentions' : ∀ c ∈ calls', c.isMention = true)
    (run : CallsReturn env Components.empty calls rs cx) (run' : CallsReturn env' Components.empty calls' rs' cx')
    (derived : ∀ i, Reached env (rootsOf calls) (.named i) → ∃ o input, Derived o env i input)
    (derived' : ∀ i, Reached env' (rootsOf calls') (.named i) → ∃ o input, Derived o env' i input)
    (t : Ty) (inline : Bool) (p p' : Params)
    (called : .mention t inline p ∈ calls) (called' : .mention t inline p' ∈ calls')
    (free : p.variants = none ∧ p'.variants = none) (nullable : p.nullable = p'.nullable)
    (r r' : Ref) (gives : Mentions env t inline p r) (gives' : Mentions env' t inline p' r') (j : Json) :
    Valid false cx.schemas r j ↔ Valid false cx'.schemas r' j :=
  ⟨c96_narrower_partial env env' narrows calls calls' rs rs' cx cx' unique unique' mentions mentions' run run' derived
    derived' t inline p p' called called' free nullable r r' gives gives' j,
   c96_narrower_partial env' env widens calls' calls rs' rs cx' cx unique' unique mentions' mentions run' run derived'
    derived t inline p' p called' called free.symm nullable.symm r' r gives' gives j⟩

/-- **C96**, in published documents: where both describe a value of one type, the document of the program that asks for
more accepts no value but those the other accepts.  The APIs may differ.  Missing: as before, and repeated keys (C81). -/
theorem c96_published_partial (env env' : Env) (narrows : env.Narrows env') (reason reason' : Nat → Option String)
    (api api' : Api) (d d' : Opg) (h : Describes env reason api d) (h' : Describes env' reason' api' d')
    (distinct : d.ser.DistinctKeys) (distinct' : d'.ser.DistinctKeys)
    (unique : NamesUnique env api.roots) (unique' : NamesUnique env' api'.roots)
    (derived : ∀ i, Reached env api.roots (.named i) → ∃ o input, Derived o env i input)
    (derived' : ∀ i, Reached env' api'.roots (.named i) → ∃ o input, Derived o env' i input)
    (t : Ty) (v v' : Value) (placed : PlacedAt api d.ser t v) (placed' : PlacedAt api' d'.ser t v')
    (j : Json) (accepted : Accepts false d.ser v j) : Accepts false d'.ser v' j := by
  obtain ⟨r, rfl, hm, hp⟩ := placed.mentioned h distinct
  obtain ⟨rs, sx, hr, es, -⟩ := h.registry
  obtain ⟨r', rfl, hm', hp'⟩ := placed'.mentioned h' distinct'
  obtain ⟨rs', sx', hr', es', -⟩ := h'.registry
  have := c96_narrower_partial env env' narrows _ _ rs rs' sx sx' unique unique' (callsOf_mentions _) (callsOf_mentions _)
    hr hr' derived derived' t false {} {} (mention_call hp) (mention_call hp') ⟨rfl, rfl⟩ rfl r r' hm hm' j
    (by rw [es]; exact accepts_ser.1 accepted)
  rw [es'] at this
  exact accepts_ser.2 this

namespace Sample

/-- The program `shop` in which `Book` has the field `note`, and before `Format` got its third variant. -/
def narrowShop : Env := program [book, cover, formatBefore, author]
/-- The program `shop` without the field `note`. -/
def wideShop : Env := program [bookBefore, cover, format, author]

theorem field_narrows_refl (f : Field Ty) : f.Narrows f := ⟨rfl, rfl, rfl, rfl, rfl, id⟩

theorem pointwise_narrows_refl : ∀ fs : List (Field Ty), Pointwise Field.Narrows fs fs
  | [] => .nil
  | f :: fs => .cons (field_narrows_refl f) (pointwise_narrows_refl fs)

theorem fields_narrow_refl {fs : List (Field Ty)} (h : ((serialFields fs).map Field.key).Nodup) : FieldsNarrow fs fs :=
  ⟨h, fun g hg => ⟨g, hg, field_narrows_refl g⟩⟩

theorem struct_narrows_refl {env : Env} {c : Container Ty} {fs : List (Field Ty)} (h : c.data = .struct .struct fs)
    (hn : ((serialFields fs).map Field.key).Nodup) : c.Narrows env c :=
  ⟨rfl, rfl, rfl, rfl, rfl, id, by rw [h]; exact .struct (fields_narrow_refl hn)⟩

theorem shop_narrows : narrowShop.Narrows wideShop
  | 0 => ⟨rfl, rfl, rfl, rfl, rfl, id, .struct ⟨by decide +kernel, fun g hg => ⟨g, by
      simp [serialFields, field] at hg ⊢
      rcases hg with rfl | rfl | rfl | rfl <;> simp, field_narrows_refl g⟩⟩⟩
  | 1 => ⟨rfl, rfl, rfl, rfl, rfl, id, .enum (fun v hv => ⟨v, hv, rfl, rfl, rfl, id,
      fun _ _ => fields_narrow_refl (by
        simp [writtenVariants, variantAs, variantAttrs] at hv
        rcases hv with rfl | rfl <;> exact .nil),
      fun _ => pointwise_narrows_refl _, fun _ h => nomatch h⟩) (by simp [variantAs])⟩
  | 2 => ⟨rfl, rfl, rfl, rfl, rfl, id, .enum (fun v hv => ⟨v, by
        simp [writtenVariants, variantAs, variantAttrs] at hv ⊢
        rcases hv with rfl | rfl <;> simp, rfl, rfl, rfl, id,
      fun _ _ => fields_narrow_refl (by
        simp [writtenVariants, variantAs, variantAttrs] at hv
        rcases hv with rfl | rfl <;> decide +kernel),
      fun _ => pointwise_narrows_refl _, fun t ht => by
        cases ht
        simp [writtenVariants, variantAs, variantAttrs] at hv
        rcases hv with rfl | rfl <;> simp [serialFields, field, Field.key]⟩) (by simp [variantAs])⟩
  | 3 => struct_narrows_refl rfl (by decide +kernel)
  | _ + 4 => struct_narrows_refl rfl (by decide +kernel)

def formatBeforeInput : DeriveInput Ty := ⟨"Format", [attr "serde" [nv "tag" "kind"]], .enum [
  var "Plain", var "Sized" (.named [fld "width" (.prim .f64)])]⟩
def bookBeforeInput : DeriveInput Ty := ⟨"Book", [], .struct (.named [fld "title" (.prim .string), fld "cover" (.named 1),
  fld "formats" (.seq .vec (.named 2)), fld "sold" (.dict .hashMap (.prim .bool))])⟩

theorem narrowShop_closed : closedList narrowShop (rootsOf shopCalls) shopTypes = true := by decide +kernel
theorem wideShop_closed : closedList wideShop (rootsOf shopCalls) shopTypes = true := by decide +kernel

theorem narrowShop_derived {i} (h : .named i ∈ shopTypes) : ∃ o input, Derived o narrowShop i input := by
  simp only [shopTypes, List.mem_cons, Ty.named.injEq, reduceCtorEq, List.not_mem_nil, or_false] at h
  rcases h with rfl | rfl | rfl | rfl
  · exact ⟨oracle, bookInput, _, rfl⟩
  · exact ⟨oracle, coverInput, _, rfl⟩
  · exact ⟨oracle, formatBeforeInput, _, rfl⟩
  · exact ⟨oracle, authorInput, _, rfl⟩

theorem wideShop_derived {i} (h : .named i ∈ shopTypes) : ∃ o input, Derived o wideShop i input := by
  simp only [shopTypes, List.mem_cons, Ty.named.injEq, reduceCtorEq, List.not_mem_nil, or_false] at h
  rcases h with rfl | rfl | rfl | rfl
  · exact ⟨oracle, bookBeforeInput, _, rfl⟩
  · exact ⟨oracle, coverInput, _, rfl⟩
  · exact ⟨oracle, formatInput, _, rfl⟩
  · exact ⟨oracle, authorInput, _, rfl⟩

/-- The hypotheses of C96 hold of two versions of a program: a field was dropped, and a variant was added. -/
example : ∃ rs rs' cx cx', CallsReturn narrowShop Components.empty shopCalls rs cx ∧
    CallsReturn wideShop Components.empty shopCalls rs' cx' ∧
    ∀ j, Valid false cx.schemas (.link "Book") j → Valid false cx'.schemas (.link "Book") j :=
  ⟨_, _, _, _, .mention ⟨10, rfl⟩ (.nil _), .mention ⟨10, rfl⟩ (.nil _),
    c96_narrower_partial narrowShop wideShop shop_narrows shopCalls shopCalls _ _ _ _
      (namesUnique_of_closed narrowShop_closed (by decide +kernel)) (namesUnique_of_closed wideShop_closed (by decide +kernel))
      (by simp [shopCalls, Call.isMention]) (by simp [shopCalls, Call.isMention])
      (.mention ⟨10, rfl⟩ (.nil _)) (.mention ⟨10, rfl⟩ (.nil _))
      (fun i h => narrowShop_derived (h.mem_closed narrowShop_closed))
      (fun i h => wideShop_derived (h.mem_closed wideShop_closed)) (.named 0) false {} {} (by simp [shopCalls])
      (by simp [shopCalls]) ⟨rfl, rfl⟩ rfl _ _ ⟨Components.empty, _, 10, rfl⟩ ⟨Components.empty, _, 10, rfl⟩⟩

def narrowDoc : Opg := (describeApi (⟨narrowShop, 10, reason⟩ : Ctx) shopApi).getD .empty
def wideDoc : Opg := (describeApi (⟨wideShop, 10, reason⟩ : Ctx) shopApi).getD .empty

theorem narrowDoc_described : Describes narrowShop reason shopApi narrowDoc := ⟨10, rfl⟩
theorem wideDoc_described : Describes wideShop reason shopApi wideDoc := ⟨10, rfl⟩

theorem versions_placed {env : Env} {d : Opg} (h : Describes env reason shopApi d) (hd : d.ser.DistinctKeys) :
    ∃ v, PlacedAt shopApi d.ser (.named 0) v := by
  obtain ⟨h1, -, h3, -, h5, -⟩ := c81_placed env reason shopApi d h hd
  obtain ⟨v, hv⟩ := h1 booksPath (List.mem_singleton.2 rfl)
  obtain ⟨op, -, hop⟩ := h3 _ _ .post addOp hv rfl
  obtain ⟨t, w, ht, -, hw⟩ := h5 _ _ _ hop rfl
  cases ht
  exact ⟨w, hw⟩

theorem narrowDoc_distinct : narrowDoc.ser.DistinctKeys := by
  refine c20_distinct_keys_partial _ (c25_described_documents _ _ _ _ narrowDoc_described ?_) ?_
  · intro r hr
    simp [Api.parts, Api.pathList, shopApi, Section.pathList, pathParts, booksPath, itemParts, addOp, opParts,
      PathSeg.parts, ResponseDecl.parts, BodyDecl.parts] at hr
  · refine ⟨?_, ?_⟩
    · show (List.map _ _).Nodup
      decide +kernel
    · exact ⟨⟨trivial, ⟨⟨trivial, trivial⟩, trivial⟩⟩, trivial⟩

theorem wideDoc_distinct : wideDoc.ser.DistinctKeys := by
  refine c20_distinct_keys_partial _ (c25_described_documents _ _ _ _ wideDoc_described ?_) ?_
  · intro r hr
    simp [Api.parts, Api.pathList, shopApi, Section.pathList, pathParts, booksPath, itemParts, addOp, opParts,
      PathSeg.parts, ResponseDecl.parts, BodyDecl.parts] at hr
  · refine ⟨?_, ?_⟩
    · show (List.map _ _).Nodup
      decide +kernel
    · exact ⟨⟨trivial, ⟨⟨trivial, trivial⟩, trivial⟩⟩, trivial⟩

theorem shopApi_roots : shopApi.roots = [(.named 0, true), (.named 3, true)] := by
  simp [Api.roots, Api.parts, Api.pathList, shopApi, Section.pathList, pathParts, booksPath, itemParts, addOp, opParts,
    PathSeg.parts, ResponseDecl.parts, BodyDecl.parts, callsOf, Part.call?, rootsOf]
theorem narrowApi_closed : closedList narrowShop shopApi.roots shopTypes = true := by rw [shopApi_roots]; decide +kernel
theorem wideApi_closed : closedList wideShop shopApi.roots shopTypes = true := by rw [shopApi_roots]; decide +kernel

/-- Likewise for the published documents of the two versions. -/
example : ∃ v v', PlacedAt shopApi narrowDoc.ser (.named 0) v ∧ PlacedAt shopApi wideDoc.ser (.named 0) v' ∧
    ∀ j, Accepts false narrowDoc.ser v j → Accepts false wideDoc.ser v' j := by
  obtain ⟨v, hv⟩ := versions_placed narrowDoc_described narrowDoc_distinct
  obtain ⟨v', hv'⟩ := versions_placed wideDoc_described wideDoc_distinct
  exact ⟨v, v', hv, hv', c96_published_partial narrowShop wideShop shop_narrows reason reason shopApi shopApi narrowDoc wideDoc
    narrowDoc_described wideDoc_described narrowDoc_distinct wideDoc_distinct
    (namesUnique_of_closed narrowApi_closed (by decide +kernel)) (namesUnique_of_closed wideApi_closed (by decide +kernel))
    (fun i h => narrowShop_derived (h.mem_closed narrowApi_closed)) (fun i h => wideShop_derived (h.mem_closed wideApi_closed))
    (.named 0) v v' hv hv'⟩

/-- `struct Author { born: u16, name: String }` -/
def bornAuthorInput : DeriveInput Ty := ⟨"Author", [], .struct (.named [fld "born" (.prim .u16), fld "name" (.prim .string)])⟩
def bornAuthor : Container Ty := struct "Author" [field "born" (.prim .u16), field "name" (.prim .string)]

theorem born_narrows : (program [authorBorn]).Narrows (program [bornAuthor])
  | 0 => ⟨rfl, rfl, rfl, rfl, rfl, id, .struct ⟨by decide +kernel, fun g hg => ⟨g, by
      simp [serialFields, field] at hg ⊢
      rcases hg with rfl | rfl <;> simp, field_narrows_refl g⟩⟩⟩
  | _ + 1 => struct_narrows_refl rfl (by decide +kernel)
theorem born_widens : (program [bornAuthor]).Narrows (program [authorBorn])
  | 0 => ⟨rfl, rfl, rfl, rfl, rfl, id, .struct ⟨by decide +kernel, fun g hg => ⟨g, by
      simp [serialFields, field] at hg ⊢
      rcases hg with rfl | rfl <;> simp, field_narrows_refl g⟩⟩⟩
  | _ + 1 => struct_narrows_refl rfl (by decide +kernel)

def bornTypes : List Ty := [.named 0, .prim .u16, .prim .string]
theorem authorBorn_closed : closedList (program [authorBorn]) (rootsOf shopCalls) bornTypes = true := by decide +kernel
theorem bornAuthor_closed : closedList (program [bornAuthor]) (rootsOf shopCalls) bornTypes = true := by decide +kernel
theorem born_derived {c : Container Ty} {input} (hc : Derived oracle (program [c]) 0 input) {i} (h : .named i ∈ bornTypes) :
    ∃ o input, Derived o (program [c]) i input := by
  simp only [bornTypes, List.mem_cons, Ty.named.injEq, reduceCtorEq, List.not_mem_nil, or_false] at h
  subst h
  exact ⟨_, _, hc⟩

/-- Of a struct with its fields in two orders, the same values are accepted. -/
example : ∃ rs rs' cx cx', CallsReturn (program [authorBorn]) Components.empty shopCalls rs cx ∧
    CallsReturn (program [bornAuthor]) Components.empty shopCalls rs' cx' ∧
    ∀ j, Valid false cx.schemas (.link "Author") j ↔ Valid false cx'.schemas (.link "Author") j :=
  ⟨_, _, _, _, .mention ⟨10, rfl⟩ (.nil _), .mention ⟨10, rfl⟩ (.nil _),
    c96_same_partial (program [authorBorn]) (program [bornAuthor]) born_narrows born_widens shopCalls shopCalls _ _ _ _
      (namesUnique_of_closed authorBorn_closed (by decide +kernel)) (namesUnique_of_closed bornAuthor_closed (by decide +kernel))
      (by simp [shopCalls, Call.isMention]) (by simp [shopCalls, Call.isMention])
      (.mention ⟨10, rfl⟩ (.nil _)) (.mention ⟨10, rfl⟩ (.nil _))
      (fun i h => born_derived (input := authorBornInput) ⟨_, rfl⟩ (h.mem_closed authorBorn_closed))
      (fun i h => born_derived (input := bornAuthorInput) ⟨_, rfl⟩ (h.mem_closed bornAuthor_closed)) (.named 0) false {} {}
      (by simp [shopCalls]) (by simp [shopCalls]) ⟨rfl, rfl⟩ rfl _ _ ⟨Components.empty, _, 10, rfl⟩
      ⟨Components.empty, _, 10, rfl⟩⟩

/-- `enum Cover { Hard, Soft, Other(String) }` -/
def coverMoreInput : DeriveInput Ty := ⟨"Cover", [], .enum [var "Hard", var "Soft", var "Other" (.unnamed [tfld (.prim .string)])]⟩
def coverMore : Container Ty := container "Cover" (fun a => { a with modelType := .dictionary }) (.enum [
  variantAs "Hard" "Hard" .unit [], variantAs "Soft" "Soft" .unit [], variantAs "Other" "Other" .newType [field "0" (.prim .string)]])

/-- `#[serde(untagged)] enum Id { Number(u32) }` and with a further variant `Code(u32)`. -/
def idOneInput : DeriveInput Ty := ⟨"Id", [attr "serde" [word "untagged"]], .enum [var "Number" (.unnamed [tfld (.prim .u32)])]⟩
def idTwoInput : DeriveInput Ty := ⟨"Id", [attr "serde" [word "untagged"]], .enum [var "Number" (.unnamed [tfld (.prim .u32)]),
  var "Code" (.unnamed [tfld (.prim .u32)])]⟩
def idNumber : Variant Ty := variantAs "Number" "Number" .newType [field "0" (.prim .u32)]
def idCode : Variant Ty := variantAs "Code" "Code" .newType [field "0" (.prim .u32)]
def idType (vs : List (Variant Ty)) : Container Ty :=
  container "Id" (fun a => { a with tagType := .none, modelType := .oneOf }) (.enum vs)

theorem id_narrows : (program [idType [idNumber]]).Narrows (program [idType [idNumber, idCode]])
  | 0 => ⟨rfl, rfl, rfl, rfl, rfl, id, .enum (fun v hv => ⟨v, by
      simp [writtenVariants, idNumber, variantAs, variantAttrs] at hv ⊢
      exact .inl hv, rfl, rfl, rfl, id, fun _ _ => fields_narrow_refl (by
        simp [writtenVariants, idNumber, variantAs, variantAttrs] at hv
        subst hv
        decide +kernel), fun _ => pointwise_narrows_refl _, fun _ h => nomatch h⟩) (by simp [idNumber, idCode, variantAs])⟩
  | _ + 1 => struct_narrows_refl rfl (by decide +kernel)

end Sample

open Sample in
/-- **C96** is false of the code if an enum of unit variants gets a variant with data: its other variants were accepted as
strings, and are no longer. -/
theorem c96_is_false : ∃ (vs ws : List (Variant Ty)) (env env' : Env) (input input' : DeriveInput Ty) (j : Json),
    (env.decl 0).data = .enum vs ∧ (env'.decl 0).data = .enum ws ∧ (∀ v ∈ vs, v ∈ ws) ∧
    Derived oracle env 0 input ∧ Derived oracle env' 0 input' ∧
    ∃ r r' cx cx', MentionReturns env (.named 0) false {} Components.empty r cx ∧
      MentionReturns env' (.named 0) false {} Components.empty r' cx' ∧
      Valid false cx.schemas r j ∧ ¬ Valid false cx'.schemas r' j := by
  refine ⟨_, _, program [cover], program [coverMore], coverInput, coverMoreInput, .str "Hard", rfl, rfl, ?_, ⟨_, rfl⟩,
    ⟨_, rfl⟩, _, _, _, _, ⟨10, rfl⟩, ⟨10, rfl⟩, .link rfl (.string ?_), not_valid_link rfl ?_⟩
  · intro v hv
    simp only [List.mem_cons, List.not_mem_nil, or_false] at hv ⊢
    rcases hv with rfl | rfl <;> simp
  · rintro vs h
    cases h
    simp [serialVariants, variantAs, variantAttrs]
  · exact not_valid_type (fun h => h) (fun h => nomatch h)

open Sample in
/-- **C96** is false of the code in the exclusive reading of `oneOf`: an untagged enum gets a further variant, and a value
that was accepted matches two alternatives. -/
theorem c96_is_false_exclusive : ∃ (env env' : Env) (input input' : DeriveInput Ty) (j : Json),
    env.Narrows env' ∧ Derived oracle env 0 input ∧ Derived oracle env' 0 input' ∧
    ∃ r r' cx cx', MentionReturns env (.named 0) false {} Components.empty r cx ∧
      MentionReturns env' (.named 0) false {} Components.empty r' cx' ∧
      Valid true cx.schemas r j ∧ ¬ Valid true cx'.schemas r' j := by
  refine ⟨program [idType [idNumber]], program [idType [idNumber, idCode]], idOneInput, idTwoInput, .int 1, id_narrows,
    ⟨_, rfl⟩, ⟨_, rfl⟩, _, _, _, _, ⟨10, rfl⟩, ⟨10, rfl⟩, .link rfl ?_, not_valid_link rfl ?_⟩
  · exact .oneOf (pre := []) (post := []) rfl (.inline .integer) (by simp)
  · exact InvalidModel.not_valid (.oneOfTwo (pre := []) (mid := []) (post := []) rfl rfl (.inline .integer) (.inline .integer))

end Verif
