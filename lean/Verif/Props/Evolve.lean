import Verif.Proof.Evolve
import Verif.Proof.Choice
import Verif.Props.ConformNeeds
import Verif.Props.PublishedReads
/-!
# C95: values of earlier versions
-/

namespace Verif

/-- **C95**, what is written: a value of the old version of a type is, as JSON, a value of the grown one. -/
theorem c95_old_values (s : Serde) (env env' : Env) (grown : env.Grows s env') (t : Ty) (j : Json)
    (written : Ser env s t j) : Ser env' s t j := ser_grows grown written

/-- **C95**, for types whose values match their documentation (C40).  The program `env` has grown to `env'`, which
mentions some types; then the references returned accept what was written for values of the old versions.  Missing: types
of the new program that are not faithful (C40), and the exclusive reading of `oneOf` (C41). -/
theorem c95_accepted_partial (s : Serde) (env env' : Env) (grown : env.Grows s env')
    (calls : List Call) (rs : List Ref) (cx' : Components)
    (unique : NamesUnique env' (rootsOf calls)) (mentions : ∀ c ∈ calls, c.isMention = true)
    (run : CallsReturn env' Components.empty calls rs cx')
    (derived : ∀ i, Reached env' (rootsOf calls) (.named i) → ∃ o input, Derived o env' i input)
    (faithful : ∀ t, Reached env' (rootsOf calls) t → Faithful env' s t) (finite : s.nonFinite = false)
    (t : Ty) (inline : Bool) (p : Params) (r : Ref) (called : .mention t inline p ∈ calls) (benign : p.Benign)
    (mentioned : Mentions env' t inline p r) (j : Json) (written : Ser env s t j) : Valid false cx'.schemas r j :=
  c40_conforms_partial env' s calls rs cx' unique mentions run derived faithful finite _ (fun _ _ h => h) t inline p r called
    benign mentioned j (ser_grows grown written)

/-- **C95**, in a published document: a client that sends values of the old version sends what the new document allows,
and what the new service reads.  Missing: as in C81 and C88. -/
theorem c95_old_clients_partial (s : Serde) (rd : Reader) (env env' : Env) (grown : env.Grows s env')
    (reason : Nat → Option String) (api : Api) (d : Opg)
    (h : Describes env' reason api d) (distinct : d.ser.DistinctKeys) (unique : NamesUnique env' api.roots)
    (derived : ∀ i, Reached env' api.roots (.named i) → ∃ o input, Derived o env' i input)
    (faithful : ∀ t, Reached env' api.roots t → Faithful env' s t) (finite : s.nonFinite = false)
    (readable : ∀ t, Reached env' api.roots t → Readable env' rd t)
    (t : Ty) (v : Value) (placed : PlacedAt api d.ser t v) (j : Json) (written : Ser env s t j) :
    Accepts false d.ser v j ∧ (j.Distinct → Reads env' rd t j) := by
  have ha := c81_accepts_partial env' s reason api d h distinct unique derived faithful finite t v placed j
    (ser_grows grown written)
  exact ⟨ha, fun hj => c88_requests_partial false env' rd reason api d h distinct unique derived readable t v placed j hj ha⟩

/-- What is written for a struct without flattened fields is an object with the names of its fields, and the tag. -/
theorem ser_struct_keys {s : Serde} {env : Env} {i : Nat} {fs : List (Field Ty)} {j : Json}
    (data : (env.decl i).data = .struct .struct fs)
    (plain : (env.decl i).attrs.transparent = false ∧ ∀ f ∈ serialFields fs, f.attrs.flatten = false)
    (written : Ser env s (.named i) j) : ∃ es, j = .obj es ∧
      ∀ k ∈ BMap.keys es, k ∈ (serialFields fs).map Field.key ∨ (env.decl i).attrs.tagType = .internal k := by
  cases written with
  | @struct _ _ ps hd ht hk he hs =>
    rw [data] at hd; cases hd
    refine ⟨_, rfl, fun k' hm => ?_⟩
    obtain ⟨⟨k, y⟩, hy, rfl⟩ := List.mem_map.1 hm
    rcases List.mem_append.1 hy with hy | hy
    · unfold structTag at hy
      split at hy
      · rename_i t ht
        simp only [List.mem_singleton, Prod.mk.injEq] at hy
        exact .inr (by rw [ht, hy.1])
      · cases hy
    · have hmem : ∀ p ∈ ps, p.1 ∈ serialFields fs := fun p hp => hk.mem (List.mem_map_of_mem hp)
      obtain ⟨p, hp, hpk, -⟩ := (mem_fieldEntries fun p hp => plain.2 _ (hmem p hp)).1 hy
      exact .inl (List.mem_map.2 ⟨p.1, hmem p hp, hpk⟩)
  | tupleStruct hd => rw [data] at hd; cases hd
  | transparent hd _ ht => rw [plain.1] at ht; cases ht
  | newtypeStruct hd => rw [data] at hd; cases hd
  | explicitNewtype hd => rw [data] at hd; cases hd
  | repr hd => rw [data] at hd; cases hd
  | unitVariant hd => rw [data] at hd; cases hd
  | newtypeVariant hd => rw [data] at hd; cases hd
  | tupleVariant hd => rw [data] at hd; cases hd
  | structVariant hd => rw [data] at hd; cases hd

/-- **C95** is false of other changes.  A struct gets a further field that is required: then its documentation accepts
no value of the old version, whatever else is registered. -/
theorem c95_required_rejects (s : Serde) (env env' : Env) (i : Nat) (fs fs' : List (Field Ty)) (m : Model)
    (old : (env.decl i).data = .struct .struct fs) (new : (env'.decl i).data = .struct .struct fs')
    (plain : (env.decl i).attrs.transparent = false ∧ ∀ f ∈ serialFields fs, f.attrs.flatten = false)
    (f : Field Ty) (hf : f ∈ serialFields fs') (required : f.attrs.optional = false)
    (further : f.key ∉ (serialFields fs).map Field.key ∧ (env.decl i).attrs.tagType ≠ .internal f.key)
    (schema : HasSchema env' (.named i) m) (excl : Bool) (reg : List (String × Model)) (j : Json)
    (written : Ser env s (.named i) j) : ¬ ValidModel excl reg m j := by
  intro hv
  obtain ⟨es, rfl, hk⟩ := ser_struct_keys old plain written
  rcases c40_struct_needs env' excl reg i fs' m new schema f hf required _ hv with ⟨h, -⟩ | ⟨es', h, hm⟩
  · cases h
  · cases h
    rcases hk _ hm with h | h
    · exact further.1 h
    · exact further.2 h

namespace Sample

/-- The program `shop` before: `Book` without the optional field `note`, `Format` without the variant `By`. -/
def bookBefore : Container Ty := struct "Book" [field "title" (.prim .string), field "cover" (.named 1),
  field "formats" (.seq .vec (.named 2)), field "sold" (.dict .hashMap (.prim .bool))]
def formatBefore : Container Ty := container "Format" (fun a => { a with tagType := .internal "kind", modelType := .oneOf })
  (.enum [variantAs "Plain" "Plain" .unit [], variantAs "Sized" "Sized" .struct [field "width" (.prim .f64)]])
def shopBefore : Env := program [bookBefore, cover, formatBefore, author]

theorem grows_refl (f : Field Ty) : f.Grows f := ⟨rfl, rfl, rfl, rfl, rfl, rfl, id⟩

theorem pointwise_grows_refl : ∀ fs : List (Field Ty), Pointwise Field.Grows fs fs
  | [] => .nil
  | f :: fs => .cons (grows_refl f) (pointwise_grows_refl fs)

theorem variant_grows_refl (v : Variant Ty) : v.Grows v :=
  ⟨rfl, rfl, rfl, by split; exact grown_of_pointwise (pointwise_grows_refl _); exact pointwise_grows_refl _⟩

theorem data_grows_refl (b : Bool) : ∀ d : Data Ty, d.Grows b d
  | .enum _ => .enum fun v hv => ⟨v, hv, variant_grows_refl v⟩
  | .struct _ _ => .fixed (pointwise_grows_refl _)

theorem shop_grows : shopBefore.Grows serde shop where
  decl
    | 0 => ⟨rfl, rfl, rfl, rfl, rfl, .struct rfl (.same (grows_refl _) (.same (grows_refl _) (.same (grows_refl _)
        (.same (grows_refl _) (.added (.inl rfl) .nil)))))⟩
    | 1 => ⟨rfl, rfl, rfl, rfl, rfl, data_grows_refl _ _⟩
    | 2 => ⟨rfl, rfl, rfl, rfl, rfl, .enum fun v hv => ⟨v, by
        simp only [List.mem_cons, List.not_mem_nil, or_false] at hv ⊢
        rcases hv with rfl | rfl <;> simp, variant_grows_refl v⟩⟩
    | 3 => ⟨rfl, rfl, rfl, rfl, rfl, data_grows_refl _ _⟩
    | _ + 4 => ⟨rfl, rfl, rfl, rfl, rfl, data_grows_refl _ _⟩
  repr i vs h := nomatch h

theorem shop_faithful {t} (h : t ∈ shopTypes) : Faithful shop serde t := by
  simp only [shopTypes, List.mem_cons, List.not_mem_nil, or_false] at h
  rcases h with rfl | rfl | rfl | rfl | rfl | rfl | rfl | rfl | rfl | rfl <;>
    simp [Faithful, FaithfulDecl, FaithfulVariant, shop, program, book, cover, format, author, struct,
      container, containerAttrs, PlainFields, serialFields, field, fieldAs, variantAs, variantAttrs, writtenVariants, serde,
      Field.key, Variant.key]
  · refine ⟨fun es h => ?_, fun m hm => ?_⟩
    · obtain ⟨es', he, hk⟩ := ser_struct_keys (env := shop) (i := 3) rfl ⟨rfl, by simp [serialFields, field]⟩ h
      cases he
      intro hm
      rcases hk _ hm with h | h
      · simp [serialFields, field, Field.key] at h
      · cases h
    · obtain ⟨d, o, rfl, h, _⟩ := author_object hm
      exact ⟨d, .inl ⟨o, rfl, h⟩⟩
  · intro m hm
    obtain ⟨td, _, rfl⟩ := yields_single (hasSchema_yields hm rfl)
    exact ⟨_, _, rfl⟩

/-- `{"title": .., "cover": "Hard", "formats": [{"kind": "Sized", "width": 1.5}], "sold": {}}` -/
def oldBook : Json := .obj [("title", .str "a"), ("cover", .str "Hard"),
  ("formats", .arr [.obj [("kind", .str "Sized"), ("width", .num "1.5")]]), ("sold", .obj [])]

theorem oldBook_written : Ser shopBefore serde (.named 0) oldBook := by
  refine .struct (ps := [(field "title" (.prim .string), .str "a"), (field "cover" (.named 1), .str "Hard"),
    (field "formats" (.seq .vec (.named 2)), .arr [.obj [("kind", .str "Sized"), ("width", .num "1.5")]]),
    (field "sold" (.dict .hashMap (.prim .bool)), .obj [])]) rfl rfl (.keep rfl (.keep rfl (.keep rfl (.keep rfl .nil))))
    (by simp [field]) ?_
  intro p hp _
  simp only [List.mem_cons, List.not_mem_nil, or_false] at hp
  rcases hp with rfl | rfl | rfl | rfl
  · exact .prim ⟨_, rfl⟩
  · exact .unitVariant (v := variantAs "Hard" "Hard" .unit []) rfl rfl (by simp [writtenVariants, variantAs, variantAttrs])
      (.inl rfl) rfl
  · refine .seq ?_
    simp only [List.mem_singleton]
    rintro x rfl
    refine .structVariant (v := variantAs "Sized" "Sized" .struct [field "width" (.prim .f64)]) rfl rfl
      (by simp [writtenVariants, variantAs, variantAttrs]) rfl (ps := [(field "width" (.prim .f64), .num "1.5")])
      (.keep rfl .nil) (by simp [field]) ?_ rfl
    simp only [List.mem_singleton]
    rintro p rfl _
    exact .prim (.inl ⟨_, rfl⟩)
  · exact .dict (by simp)

/-- The hypotheses of C95 hold of a program that got an optional field and a variant. -/
example : ∃ rs cx, CallsReturn shop Components.empty shopCalls rs cx ∧ Ser shopBefore serde (.named 0) oldBook ∧
    Ser shop serde (.named 0) oldBook ∧
    ∀ j, Ser shopBefore serde (.named 0) j → Valid false cx.schemas (.link "Book") j :=
  ⟨_, _, .mention ⟨10, rfl⟩ (.nil _), oldBook_written, c95_old_values serde shopBefore shop shop_grows _ _ oldBook_written,
    fun j => c95_accepted_partial serde shopBefore shop shop_grows shopCalls _ _
      (namesUnique_of_closed shop_closed (by decide +kernel)) (by simp [shopCalls, Call.isMention])
      (.mention ⟨10, rfl⟩ (.nil _)) (fun i h => shop_derived (h.mem_closed shop_closed))
      (fun t h => shop_faithful (h.mem_closed shop_closed)) rfl (.named 0) false {} _ (by simp [shopCalls]) ⟨by simp, rfl⟩
      ⟨Components.empty, _, 10, rfl⟩ j⟩

/-- Likewise for its published document. -/
example : ∃ v, PlacedAt shopApi shopDoc.ser (.named 0) v ∧ ∀ j, Ser shopBefore serde (.named 0) j →
    Accepts false shopDoc.ser v j ∧ (j.Distinct → Reads shop (rust true) (.named 0) j) := by
  obtain ⟨h1, -, h3, -, h5, -⟩ := c81_placed shop reason shopApi shopDoc shopDoc_described shopDoc_distinct
  obtain ⟨v, hv⟩ := h1 booksPath (List.mem_singleton.2 rfl)
  obtain ⟨op, -, hop⟩ := h3 _ _ .post addOp hv rfl
  obtain ⟨t, w, ht, -, hw⟩ := h5 _ _ _ hop rfl
  cases ht
  exact ⟨w, hw, fun j => c95_old_clients_partial serde (rust true) shopBefore shop shop_grows reason shopApi shopDoc
    shopDoc_described shopDoc_distinct (namesUnique_of_closed shopApi_closed (by decide +kernel))
    (fun i h => shop_derived (h.mem_closed shopApi_closed)) (fun t h => shop_faithful (h.mem_closed shopApi_closed)) rfl
    (fun t h => shop_readable (h.mem_closed shopApi_closed)) _ w hw j⟩

/-- `struct Author { name: String, born: u16 }` -/
def authorBornInput : DeriveInput Ty := ⟨"Author", [], .struct (.named [fld "name" (.prim .string), fld "born" (.prim .u16)])⟩
def authorBorn : Container Ty := struct "Author" [field "name" (.prim .string), field "born" (.prim .u16)]

theorem author_written (n : String) : Ser (program [author]) serde (.named 0) (.obj [("name", .str n)]) :=
  .struct (ps := [(field "name" (.prim .string), .str n)]) rfl rfl (.keep rfl .nil) (by simp [field])
    (by simp only [List.mem_singleton]; rintro p rfl _; exact .prim ⟨n, rfl⟩)

/-- The hypotheses of the negative part hold of a struct that got a required field. -/
example (reg) : ∃ m, HasSchema (program [authorBorn]) (.named 0) m ∧
    ∀ j, Ser (program [author]) serde (.named 0) j → ¬ ValidModel false reg m j :=
  ⟨_, ⟨Components.empty, _, 5, rfl⟩, fun j => c95_required_rejects serde (program [author]) (program [authorBorn]) 0
    [field "name" (.prim .string)] [field "name" (.prim .string), field "born" (.prim .u16)] _ rfl rfl
    ⟨rfl, by simp [serialFields, field]⟩ (field "born" (.prim .u16)) (by simp [serialFields, field]) rfl
    ⟨by simp [serialFields, field, Field.key], fun h => nomatch h⟩ ⟨Components.empty, _, 5, rfl⟩ false reg j⟩

end Sample

open Sample in
/-- **C95** is false of the code for other changes: after `Author` got a required field, a client that sends the authors
it knew sends what the document of the new version rejects. -/
theorem c95_is_false : ∃ (env env' : Env) (input input' : DeriveInput Ty) (j : Json),
    Derived oracle env 0 input ∧ Derived oracle env' 0 input' ∧ Ser env serde (.named 0) j ∧
    ∃ r cx, MentionReturns env' (.named 0) false {} Components.empty r cx ∧ ¬ Valid false cx.schemas r j := by
  refine ⟨program [author], program [authorBorn], authorInput, authorBornInput, _, ⟨_, rfl⟩, ⟨_, rfl⟩, author_written "a",
    _, _, ⟨10, rfl⟩, not_valid_link rfl ?_⟩
  exact c95_required_rejects serde (program [author]) (program [authorBorn]) 0
    [field "name" (.prim .string)] [field "name" (.prim .string), field "born" (.prim .u16)] _ rfl rfl
    ⟨rfl, by simp [serialFields, field]⟩ (field "born" (.prim .u16)) (by simp [serialFields, field]) rfl
    ⟨by simp [serialFields, field, Field.key], fun h => nomatch h⟩ ⟨Components.empty, _, 5, rfl⟩ false _ _ (author_written "a")

end Verif
