import Verif.Proof.UsedDoc
import Verif.Props.Published
/-!
# C99: every component of a document is used
-/

namespace Verif

/-- **C99**, for registries.  If no two types reached have one identifier and no struct reached has two written fields of one
key, then each component registered by mentions is linked from what the mentions return, directly or through other
components.  Missing: the two exceptions, with which components remain that nothing links to (below). -/
theorem c99_used_partial (env : Env) (calls : List Call) (rs : List Ref) (cx' : Components)
    (mentions : ∀ c ∈ calls, c.isMention = true) (run : CallsReturn env Components.empty calls rs cx')
    (idents : ∀ i j, Reached env (rootsOf calls) (.named i) → Reached env (rootsOf calls) (.named j) →
      (env.decl i).ident = (env.decl j).ident → i = j)
    (keys : ∀ i, Reached env (rootsOf calls) (.named i) → (env.decl i).DistinctKeys) :
    ∀ name ∈ BMap.keys cx'.schemas, UsedFrom cx'.schemas (rs.flatMap Ref.links) name := by
  obtain ⟨hd, hr⟩ := c01_links_resolve_from_empty env cx' calls rs mentions run
  refine used_all (roots := rootsOf calls) (named_calls run mentions (fun _ hx => hx) (fun _ hb => by cases hb)) hd
    (grounded_calls (idents_agree idents) run mentions (fun _ h => h) grounded_empty) idents keys ?_ ?_
  · intro l hl
    obtain ⟨r, h1, h2⟩ := List.mem_flatMap.1 hl
    exact hr r h1 l h2
  · rintro ⟨t, b⟩ hq
    obtain ⟨p, hc⟩ := root_call hq
    obtain ⟨r, h1, h2⟩ := calls_mention run hc
    rcases h2.answers with ⟨hb, name, hn, hl⟩ | ⟨hb, m, hm, hl⟩
    · exact .inl ⟨by simpa using hb, name, hn, List.mem_flatMap.2 ⟨r, h1, hl⟩⟩
    · exact .inr ⟨by simpa using hb, m, hm, fun l h => List.mem_flatMap.2 ⟨r, h1, hl l h⟩⟩

/-- **C99**.  In a written document without repeated keys, each component is referred to from `paths`, directly or through
components that are.  The types reached have to be of different identifiers, the written fields of a struct of different
keys, and each type of the description has to be written somewhere: one that is replaced by a later declaration of the
same response, parameter or method is not.  Missing: documents without these conditions, in which there may be components
that are not used (below). -/
theorem c99_document_partial (env : Env) (reason : Nat → Option String) (api : Api) (d : Opg)
    (h : Describes env reason api d) (distinct : d.ser.DistinctKeys)
    (placed : ∀ t b, (t, b) ∈ api.roots → ∃ v, PlacedAt api d.ser t v)
    (idents : ∀ i j, Reached env api.roots (.named i) → Reached env api.roots (.named j) →
      (env.decl i).ident = (env.decl j).ident → i = j)
    (keys : ∀ i, Reached env api.roots (.named i) → (env.decl i).DistinctKeys) :
    ∀ name ∈ BMap.keys d.components.schemas, d.ser.Uses name := by
  obtain ⟨rs, sx, run, es, -⟩ := h.registry
  obtain ⟨hd, hr⟩ := c01_links_resolve_from_empty env sx _ rs (callsOf_mentions _) run
  have hpl : ∀ q ∈ api.roots, ∃ r ∈ rs, Mentions env q.1 (!q.2) {} r ∧ q.2 = true ∧
      ∀ l ∈ r.links, ∃ paths, d.ser.at "paths" = some paths ∧ referencePrefix ++ l ∈ paths.refStrings := by
    rintro ⟨t, b⟩ hq
    obtain ⟨v, hv⟩ := placed t b hq
    obtain ⟨r, rfl, ⟨cx1, cx1', hm⟩, hp⟩ := hv.mentioned h distinct
    obtain ⟨_, _, he⟩ := roots_mem.1 hq
    cases he
    obtain ⟨r', h1, ⟨cx2, cx2', h2⟩⟩ := calls_mention run (mention_call hp)
    have : r = r' := (c05_context_independent env t cx1 cx2 cx1' cx2').2 _ _ _ _ hm h2
    subst this
    exact ⟨r, h1, ⟨_, _, h2⟩, rfl, fun l hl => hv.refStrings (Ref.links_written r hl)⟩
  let ls := (BMap.keys sx.schemas).filter fun n => match d.ser.at "paths" with
    | some paths => decide (referencePrefix ++ n ∈ paths.refStrings)
    | none => false
  have hls : ∀ l, l ∈ ls ↔ l ∈ BMap.keys sx.schemas ∧
      ∃ paths, d.ser.at "paths" = some paths ∧ referencePrefix ++ l ∈ paths.refStrings := by
    intro l
    simp only [ls, List.mem_filter]
    cases d.ser.at "paths" <;> simp
  intro name hn
  refine UsedFrom.uses (ls := ls) (fun l hl => ((hls l).1 hl).2) ?_
  rw [← es] at hn ⊢
  refine used_all (roots := api.roots) (named_calls run (callsOf_mentions _) (fun _ hx => hx) (fun _ hb => by cases hb)) hd
    (grounded_calls (idents_agree idents) run (callsOf_mentions _) (fun _ h => h) grounded_empty) idents keys
    (fun l hl => ((hls l).1 hl).1) ?_ name hn
  rintro ⟨t, b⟩ hq
  obtain ⟨r, h1, h2, h3, h4⟩ := hpl _ hq
  simp only at h3
  subst h3
  have hin : ∀ l ∈ r.links, l ∈ ls := fun l hl => (hls l).2 ⟨hr r h1 l hl, h4 l hl⟩
  rcases h2.answers with ⟨hb, name, hn, hl⟩ | ⟨hb, m, hm, hl⟩
  · exact .inl ⟨rfl, name, hn, hin _ hl⟩
  · exact .inr ⟨by simpa using hb, m, hm, fun l h => hin _ (hl l h)⟩

namespace Sample

theorem diamond_idents : ∀ i j, Reached diamond (rootsOf diamondCalls) (.named i) → Reached diamond (rootsOf diamondCalls) (.named j) →
    (diamond.decl i).ident = (diamond.decl j).ident → i = j := by
  intro i j hi hj
  rcases diamond_reached hi with h | h | h | h | h <;> cases h <;>
    rcases diamond_reached hj with h | h | h | h | h <;> cases h <;> decide

theorem diamond_keys : ∀ i, Reached diamond (rootsOf diamondCalls) (.named i) → (diamond.decl i).DistinctKeys := by
  intro i hi
  rcases diamond_reached hi with h | h | h | h | h <;> cases h <;> (show List.Nodup _; decide)

end Sample

open Sample

/-- `Leaf` is not mentioned, but used through `Left`. -/
example : ∃ rs cx', CallsReturn diamond Components.empty diamondCalls rs cx' ∧ rs.flatMap Ref.links = ["Left", "Right"] ∧
    BMap.keys cx'.schemas = ["Leaf", "Left", "Right"] ∧ UsedFrom cx'.schemas (rs.flatMap Ref.links) "Leaf" := by
  have run : CallsReturn diamond Components.empty diamondCalls _ _ := .mention ⟨10, rfl⟩ (.mention ⟨10, rfl⟩ (.nil _))
  exact ⟨_, _, run, rfl, rfl, c99_used_partial diamond diamondCalls _ _ (by simp [diamondCalls, Call.isMention]) run
    diamond_idents diamond_keys "Leaf" (by decide)⟩

theorem Sample.published_placed : ∀ t b, (t, b) ∈ publishedApi.roots → ∃ v, PlacedAt publishedApi published.ser t v := by
  obtain ⟨h1, h2, h3, h4, h5, -⟩ := c81_placed diamond reason publishedApi published published_described published_distinct
  obtain ⟨item, hi⟩ := h1 rightPath (by simp [Api.pathList, publishedApi, Section.pathList])
  obtain ⟨op, -, ho⟩ := h3 rightPath item .get rightOp hi rfl
  obtain ⟨right, -, hright⟩ := h4 rightOp op 200 none (.named 1) ho rfl
  obtain ⟨item', hi'⟩ := h2 rightOp op "onDone" "onDone" [donePath] donePath ho rfl List.mem_cons_self
  obtain ⟨op', -, ho'⟩ := h3 donePath item' .post _ hi' rfl
  obtain ⟨t, left, ht, -, hleft⟩ := h5 _ op' (.type (.named 0)) ho' rfl
  cases ht
  intro t b h
  rw [published_roots] at h
  simp [rootsOf, diamondCalls] at h
  rcases h with ⟨rfl, -⟩ | ⟨rfl, -⟩
  · exact ⟨_, hleft⟩
  · exact ⟨_, hright⟩

/-- The published document of a response of one type and a callback whose body is of the other. -/
example : BMap.keys published.components.schemas = ["Leaf", "Left", "Right"] ∧
    ∀ name ∈ ["Leaf", "Left", "Right"], published.ser.Uses name :=
  ⟨rfl, fun name hn => c99_document_partial diamond reason publishedApi published published_described published_distinct
    published_placed (published_roots ▸ diamond_idents) (published_roots ▸ diamond_keys) name hn⟩

/-! ## Components that are not used -/

/-- The names used are among `used` if the references in `paths` and in the components of these names are. -/
theorem not_uses {doc : Value} {name : String} (used : List String)
    (hp : ∀ paths, doc.at "paths" = some paths → ∀ s ∈ paths.refStrings, s ∈ used.map ("#/components/schemas/" ++ ·))
    (hc : ∀ n ∈ used, ∀ v, doc.component n = some v → ∀ s ∈ v.refStrings, s ∈ used.map ("#/components/schemas/" ++ ·))
    (hn : name ∉ used) : ¬ doc.Uses name := by
  have back : ∀ n, "#/components/schemas/" ++ n ∈ used.map ("#/components/schemas/" ++ ·) → n ∈ used := by
    intro n h
    obtain ⟨n', h1, h2⟩ := List.mem_map.1 h
    rw [← str_append_cancel h2]; exact h1
  intro h
  refine hn ?_
  induction h with
  | path h hr => exact back _ (hp _ h _ hr)
  | component _ hv hr ih => exact back _ (hc _ (Classical.byContradiction fun e => e (ih e)) _ hv _ hr)

namespace Sample

/-- `paths: { ("a"): { GET: { 200: .. } } }`, of which the responses are given. -/
def answering (rs : List Ty) : Api := [.paths [.mk [.literal "a"] [.operation .get (rs.map fun t => .response 200 none (.type t))]]]

/-- `struct Both { leaf: Leaf, #[serde(rename = "leaf")] n: u32 }` and `struct Leaf { n: u32 }`. -/
def bothInput : DeriveInput Ty := ⟨"Both", [], .struct (.named [fld "leaf" (.named 1),
  fld "n" (.prim .u32) [attr "serde" [nv "rename" "leaf"]]])⟩
def bothEnv : Env := ⟨fun
  | 0 => struct "Both" [field "leaf" (.named 1), fieldAs "n" "leaf" (.prim .u32) fun a => { a with name := ⟨"n", "leaf", true⟩ }]
  | _ => struct "Leaf" [field "n" (.prim .u32)], id⟩

/-- `mod a { struct Node { inner: b::Node } }`, `mod b { struct Node { leaf: Leaf } }`. -/
def nodeInput : DeriveInput Ty := ⟨"Node", [], .struct (.named [fld "inner" (.named 1)])⟩
def innerInput : DeriveInput Ty := ⟨"Node", [], .struct (.named [fld "leaf" (.named 2)])⟩
def nodeEnv : Env := ⟨fun
  | 0 => struct "Node" [field "inner" (.named 1)]
  | 1 => struct "Node" [field "leaf" (.named 2)]
  | _ => struct "Leaf" [field "n" (.prim .u32)], id⟩

end Sample

/-- C99 is false: of two fields written under one key the later one's schema replaces the earlier one's, whose type stays
registered. -/
theorem c99_is_false_fields : ∃ d, Derived oracle bothEnv 0 bothInput ∧ Derived oracle bothEnv 1 leafInput ∧
    Describes bothEnv reason (answering [.named 0]) d ∧ "Leaf" ∈ BMap.keys d.components.schemas ∧ ¬ d.ser.Uses "Leaf" := by
  refine ⟨_, ⟨_, rfl⟩, ⟨_, rfl⟩, ⟨10, rfl⟩, by decide +kernel, not_uses ["Both"] ?_ ?_ (by decide)⟩
  · intro paths h; cases h; decide +kernel
  · intro n hn v hv
    simp only [List.mem_singleton] at hn
    subst hn
    cases hv
    decide +kernel

/-- Of two types of one name, one inside the other, the outer one's schema replaces the inner one's, whose links are gone
with it. -/
theorem c99_is_false_names : ∃ d, Derived oracle nodeEnv 0 nodeInput ∧ Derived oracle nodeEnv 1 innerInput ∧
    Derived oracle nodeEnv 2 leafInput ∧
    Describes nodeEnv reason (answering [.named 0]) d ∧ "Leaf" ∈ BMap.keys d.components.schemas ∧ ¬ d.ser.Uses "Leaf" := by
  refine ⟨_, ⟨_, rfl⟩, ⟨_, rfl⟩, ⟨_, rfl⟩, ⟨10, rfl⟩, by decide +kernel, not_uses ["Node"] ?_ ?_ (by decide)⟩
  · intro paths h; cases h; decide +kernel
  · intro n hn v hv
    simp only [List.mem_singleton] at hn
    subst hn
    cases hv
    decide +kernel

/-- Of two responses of one status the later one replaces the earlier one, whose type stays registered. -/
theorem c99_is_false_replaced : ∃ d, Describes diamond reason (answering [.named 2, .prim .u32]) d ∧
    "Leaf" ∈ BMap.keys d.components.schemas ∧ ¬ d.ser.Uses "Leaf" := by
  refine ⟨_, ⟨10, rfl⟩, by decide +kernel, not_uses [] ?_ ?_ (by decide)⟩
  · intro paths h; cases h; decide +kernel
  · intro n hn; cases hn

end Verif
