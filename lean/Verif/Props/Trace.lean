import Verif.Proof.Trace
import Verif.Props.Size
/-!
# C98: how often schemas are generated
-/

namespace Verif

/-- **C98**, what is counted: mentions that return made the calls of one list of calls of `get_schema`, in this order. -/
theorem c98_calls (env : Env) (cx cx' : Components) (calls : List Call) (rs : List Ref)
    (mentions : ∀ c ∈ calls, ∃ t inline p, c = .mention t inline p) (run : CallsReturn env cx calls rs cx') :
    ∃ ts, Trace env (rootsOf calls) cx ts cx' ∧
      ∀ ts' cx'', Trace env (rootsOf calls) cx ts' cx'' → ts' = ts ∧ cx'' = cx' := by
  obtain ⟨ts, h⟩ := trace_calls run mentions
  exact ⟨ts, h, fun _ _ h' => h.unique h'⟩

/-- **C98**.  If no declaration reached has a copy of another type in its schema, mentioning types on an empty registry
calls `get_schema` of each derived type once at most, and exactly for the types that are then registered; other calls
are one for each node of the roots and of these declarations at most.  Types that need themselves are excluded: if each name
is used for one type they never return (C07), see `c98_unique_partial`.  Missing: copies, of which each calls `get_schema` again (below). -/
theorem c98_once_partial (env : Env) (calls : List Call) (rs : List Ref) (cx' : Components)
    (mentions : ∀ c ∈ calls, ∃ t inline p, c = .mention t inline p) (run : CallsReturn env Components.empty calls rs cx')
    (finite : ∀ t b, (t, b) ∈ rootsOf calls → Expands env t)
    (roots : ∀ t b, (t, b) ∈ rootsOf calls → (b = true ∧ t.linkable env = true) ∨ t.copied env = [])
    (noCopies : ∀ i, Reached env (rootsOf calls) (.named i) → (env.decl i).copied env = []) :
    ∃ ts, Trace env (rootsOf calls) Components.empty ts cx' ∧ (derivedOf ts).Nodup ∧
      (∀ i ∈ derivedOf ts, Reached env (rootsOf calls) (.named i)) ∧
      (∀ name, name ∈ BMap.keys cx'.schemas ↔ ∃ i ∈ derivedOf ts, name = (env.decl i).ident) ∧
      ts.length ≤ total (fun q => q.1.nodes) (rootsOf calls) + env.nodes (derivedOf ts) := by
  obtain ⟨ts, h⟩ := trace_calls run mentions
  have o := trace_once noCopies ts.length (rootsOf calls) (Nat.le_refl _) h
    (fun q hq => by
      obtain ⟨t, b⟩ := q
      unfold askCopied
      rcases roots t b hq with ⟨rfl, hl⟩ | hc
      · simp [hl]
      · simp only [hc]; split <;> rfl)
    (fun q hq => .root (b := q.2) hq) (fun q hq => finite q.1 q.2 hq)
  refine ⟨ts, h, o.nodup, ?_, ?_, o.length⟩
  · intro i hi
    obtain ⟨q, hq, hn⟩ := o.asked i hi
    have hr : Reached env (rootsOf calls) q.1 := .root (b := q.2) hq
    rcases hn with hn | hn
    · rw [← hn]; exact hr
    · exact hn.reached hr
  · intro name
    rw [o.names]
    simp [Components.empty, BMap.keys]

/-- **C98**, if each name is used by reference for one type only: all that is required of the types is that the mentions
return.  Missing: copies, and types of one name (`c98_is_false_names`). -/
theorem c98_unique_partial (env : Env) (calls : List Call) (rs : List Ref) (cx' : Components)
    (mentions : ∀ c ∈ calls, ∃ t inline p, c = .mention t inline p) (run : CallsReturn env Components.empty calls rs cx')
    (unique : NamesUnique env (rootsOf calls))
    (roots : ∀ t b, (t, b) ∈ rootsOf calls → (b = true ∧ t.linkable env = true) ∨ t.copied env = [])
    (noCopies : ∀ i, Reached env (rootsOf calls) (.named i) → (env.decl i).copied env = []) :
    ∃ ts, Trace env (rootsOf calls) Components.empty ts cx' ∧ (derivedOf ts).Nodup ∧
      (∀ i ∈ derivedOf ts, Reached env (rootsOf calls) (.named i)) ∧
      (∀ name, name ∈ BMap.keys cx'.schemas ↔ ∃ i ∈ derivedOf ts, name = (env.decl i).ident) ∧
      ts.length ≤ total (fun q => q.1.nodes) (rootsOf calls) + env.nodes (derivedOf ts) := by
  refine c98_once_partial env calls rs cx' mentions run (fun t b h => ?_) roots noCopies
  refine grounded_calls unique.agree run (fun c hc => ?_) (fun _ hx => hx) grounded_empty (t, b) h
  obtain ⟨t, i, p, rfl⟩ := mentions c hc
  rfl

theorem envNodes_le (env : Env) : ∀ (g l : List Nat), g.Nodup → (∀ i ∈ g, i ∈ l) → env.nodes g ≤ env.nodes l
  | [], _, _, _ => by simp [Env.nodes]
  | i :: g, l, hn, h => by
    rw [List.nodup_cons] at hn
    rw [envNodes_erase env (h i List.mem_cons_self)]
    have := envNodes_le env g (l.erase i) hn.2 fun j hj =>
      (List.mem_erase_of_ne (by rintro rfl; exact hn.1 hj)).2 (h j (List.mem_cons_of_mem _ hj))
    simp only [Env.nodes]
    omega

/-- **C98**, in terms of the program, whose declarations are `l`: no more calls than nodes, however often types refer to each
other.  Missing: copies. -/
theorem c98_linear_partial (env : Env) (calls : List Call) (rs : List Ref) (cx' : Components)
    (mentions : ∀ c ∈ calls, ∃ t inline p, c = .mention t inline p) (run : CallsReturn env Components.empty calls rs cx')
    (finite : ∀ t b, (t, b) ∈ rootsOf calls → Expands env t)
    (roots : ∀ t b, (t, b) ∈ rootsOf calls → (b = true ∧ t.linkable env = true) ∨ t.copied env = [])
    (l : List Nat) (all : ∀ i, Reached env (rootsOf calls) (.named i) → i ∈ l)
    (noCopies : ∀ i ∈ l, (env.decl i).copied env = []) (ts : List Ty)
    (trace : Trace env (rootsOf calls) Components.empty ts cx') :
    ts.length ≤ total (fun q => q.1.nodes) (rootsOf calls) + env.nodes l := by
  obtain ⟨ts', h, hn, hr, _, hl⟩ := c98_once_partial env calls rs cx' mentions run finite roots fun i hi => noCopies i (all i hi)
  obtain ⟨rfl, -⟩ := h.unique trace
  have := envNodes_le env _ l hn fun i hi => all i (hr i hi)
  omega

namespace Sample

/-- `Left` and `Right`, which have a `Leaf` and a `Box<Leaf>`: `get_schema` of `Leaf` is called once. -/
example : ∃ rs cx' ts, CallsReturn diamond Components.empty diamondCalls rs cx' ∧
    Trace diamond (rootsOf diamondCalls) Components.empty ts cx' ∧
    ts = [.named 0, .named 2, .prim .u32, .named 1] ∧ derivedOf ts = [0, 2, 1] ∧ (derivedOf ts).Nodup ∧
    ts.length ≤ 2 + diamond.nodes [0, 2, 1] := by
  have run : CallsReturn diamond Components.empty diamondCalls _ _ := .mention ⟨10, rfl⟩ (.mention ⟨10, rfl⟩ (.nil _))
  obtain ⟨ts, h, hn, _, hk, hl⟩ := c98_once_partial diamond diamondCalls _ _ (by simp [diamondCalls]) run
    (fun t b h => grounded_calls diamond_unique.agree run (by simp [diamondCalls, Call.isMention]) (fun _ h => h) grounded_empty (t, b) h)
    (by simp [diamondCalls, rootsOf]; decide)
    (fun i h => by rcases diamond_reached h with h | h | h | h | h <;> cases h <;> rfl)
  have t : ∃ cx', Trace diamond (rootsOf diamondCalls) Components.empty [.named 0, .named 2, .prim .u32, .named 1] cx' := by
    refine ⟨_, .new (name := "Left") (ts := [.named 2, .prim .u32]) (ts' := [.named 1]) rfl ?_ rfl
      (.new (name := "Leaf") (ts := [.prim .u32]) (ts' := []) rfl ?_ rfl
        (.inPlace (ts := []) (ts' := []) (.inr rfl) rfl (.nil _) (.nil _)) ⟨10, rfl⟩ (.nil _)) ⟨10, rfl⟩
      (.new (name := "Right") (ts := []) (ts' := []) rfl ?_ rfl (.known (name := "Leaf") rfl ?_ (.nil _)) ⟨10, rfl⟩ (.nil _))⟩ <;>
      decide
  obtain ⟨_, t⟩ := t
  obtain ⟨rfl, -⟩ := t.unique h
  exact ⟨_, _, _, run, h, rfl, rfl, hn, hl⟩

/-- The same from the run alone. -/
example : ∃ rs cx' ts, CallsReturn diamond Components.empty diamondCalls rs cx' ∧
    Trace diamond (rootsOf diamondCalls) Components.empty ts cx' ∧ (derivedOf ts).Nodup := by
  have run : CallsReturn diamond Components.empty diamondCalls _ _ := .mention ⟨10, rfl⟩ (.mention ⟨10, rfl⟩ (.nil _))
  obtain ⟨ts, h, hn, -⟩ := c98_unique_partial diamond diamondCalls _ _ (by simp [diamondCalls]) run diamond_unique
    (by simp [diamondCalls, rootsOf]; decide)
    (fun i h => by rcases diamond_reached h with h | h | h | h | h <;> cases h <;> rfl)
  exact ⟨_, _, _, run, h, hn⟩

/-- The calls for `Twin<Twin<..>>`. -/
def twinCalls : Nat → List Ty
  | 0 => [.named 0, .prim .bool, .prim .bool]
  | n + 1 => .named (n + 1) :: (twinCalls n ++ twinCalls n)

theorem twins_trace : ∀ (n : Nat) {b asks cx ts cx'}, Trace twins asks cx ts cx' →
    Trace twins ((.named n, b) :: asks) cx (twinCalls n ++ ts) cx'
  | 0, _, _, _, _, _, h =>
    .inPlace (.inr rfl) rfl (.inPlace (ts := []) (ts' := [.prim .bool]) (.inr rfl) rfl (.nil _)
      (.inPlace (ts := []) (ts' := []) (.inr rfl) rfl (.nil _) (.nil _))) h
  | n + 1, _, _, cx, _, _, h => by
    have := twins_trace n (b := true) (twins_trace n (b := true) (.nil (env := twins) cx))
    rw [List.append_nil] at this
    exact .inPlace (.inr rfl) rfl this h

theorem twinCalls_length : ∀ n : Nat, 2 ^ n ≤ (twinCalls n).length
  | 0 => by decide
  | n + 1 => by
    have := twinCalls_length n
    simp only [twinCalls, List.length_cons, List.length_append]
    omega

/-- The calls for `Side<Side<..>>`. -/
def sideCalls : Nat → List Ty
  | 0 => [.named 0, .prim .bool]
  | n + 1 => .named (n + 1) :: (sideCalls n ++ sideCalls n)

theorem sides_trace : ∀ (n : Nat) {asks cx ts cx'}, Trace sides asks cx ts cx' →
    Trace sides ((.named n, false) :: asks) cx (sideCalls n ++ ts) cx'
  | 0, _, _, _, _, h =>
    .inPlace (.inl rfl) rfl (.inPlace (ts := []) (ts' := []) (.inr rfl) rfl (.nil _) (.nil _)) h
  | n + 1, _, cx, _, _, h => by
    have := sides_trace n (sides_trace n (.nil (env := sides) cx))
    rw [List.append_nil] at this
    exact .inPlace (.inl rfl) rfl this h

theorem sideCalls_length : ∀ n : Nat, 2 ^ n ≤ (sideCalls n).length
  | 0 => by decide
  | n + 1 => by
    have := sideCalls_length n
    simp only [sideCalls, List.length_cons, List.length_append]
    omega

end Sample

open Sample in
/-- **C98** is false of the code with types that are written in place: no multiple of the size of the program bounds the
number of calls. -/
theorem c98_is_false (k : Nat) : ∃ (env : Env) (l : List Nat) (t : Ty) (cx' : Components) (ts : List Ty),
    (∀ i ∈ l, ∃ input, Derived oracle env i input) ∧ (∀ i, Reached env [(t, true)] (.named i) → i ∈ l) ∧
    (∃ r, MentionReturns env t false {} Components.empty r cx') ∧ Trace env [(t, true)] Components.empty ts cx' ∧
    k * env.nodes l < ts.length := by
  obtain ⟨n, hn⟩ := outgrows (k * 5)
  obtain ⟨m, hm, -⟩ := twins_large n
  refine ⟨twins, List.range (n + 1), .named n, Components.empty, twinCalls n ++ [], fun i _ => ⟨_, twins_derived i⟩, ?_, ?_,
    twins_trace n (.nil _), ?_⟩
  · intro i h
    rcases twins_reached h with ⟨j, hj, e⟩ | e
    · cases e; simp; omega
    · cases e
  · have hi : alwaysInline twins (.named n) = true := rfl
    exact ⟨.inline (m.applyParams {}), n + 2, by simp [mentionSchema, mentionWith, selectReference, hi, hm]⟩
  · rw [List.append_nil]
    have := nodes_range twins 5 (fun i => by cases i <;> exact Nat.le_refl _) (List.range (n + 1))
    rw [List.length_range] at this
    calc k * twins.nodes (List.range (n + 1)) ≤ k * (5 * (n + 1)) := Nat.mul_le_mul_left _ this
      _ = k * 5 * (n + 1) := by rw [Nat.mul_assoc]
      _ < 2 ^ n := hn
      _ ≤ _ := twinCalls_length n

open Sample in
/-- **C98** is false of the code even without `inline`, because of newtype variants of internally tagged enums. -/
theorem c98_is_false_tagged (k : Nat) : ∃ (env : Env) (l : List Nat) (t : Ty) (cx' : Components) (ts : List Ty),
    (∀ i ∈ l, ∃ input, Derived oracle env i input ∧ input.attrs ∈ [[], [attr "serde" [nv "tag" "at"]]]) ∧
    (∀ i, Reached env [(t, false)] (.named i) → i ∈ l) ∧ (∃ m, SchemaReturns env t Components.empty m cx') ∧
    Trace env [(t, false)] Components.empty ts cx' ∧ k * env.nodes l < ts.length := by
  obtain ⟨n, hn⟩ := outgrows (k * 14)
  obtain ⟨rs, hm, -⟩ := sides_large n
  refine ⟨sides, List.range (n + 2), .named (n + 1), Components.empty, sideCalls (n + 1) ++ [], fun i _ => sides_derived i, ?_,
    ⟨_, _, hm⟩, sides_trace (n + 1) (.nil _), ?_⟩
  · intro i h
    rcases sides_reached h with ⟨j, hj, e⟩ | e
    · cases e; simp; omega
    · cases e
  · rw [List.append_nil]
    have := nodes_range sides 7 (fun i => by
      cases i with
      | zero => decide
      | succ i => exact Nat.le_of_eq (by rfl)) (List.range (n + 2))
    rw [List.length_range] at this
    have h2 := sideCalls_length (n + 1)
    have h3 : 2 ^ n ≤ 2 ^ (n + 1) := Nat.pow_le_pow_right (by omega) (by omega)
    calc k * sides.nodes (List.range (n + 2)) ≤ k * (14 * (n + 1)) := Nat.mul_le_mul_left _ (by omega)
      _ = k * 14 * (n + 1) := by rw [Nat.mul_assoc]
      _ < 2 ^ n := hn
      _ ≤ 2 ^ (n + 1) := h3
      _ ≤ _ := h2

namespace Sample

/-- `struct Tree { branch: Branch }`, `struct Branch { knot: other::Branch, tree: Vec<Tree> }` and, in another module,
`struct Branch { n: bool }`. -/
def treeInput : DeriveInput Ty := ⟨"Tree", [], .struct (.named [fld "branch" (.named 1)])⟩
def branchInput : DeriveInput Ty :=
  ⟨"Branch", [], .struct (.named [fld "knot" (.named 2), fld "tree" (.seq .vec (.named 0))])⟩
def knotInput : DeriveInput Ty := ⟨"Branch", [], .struct (.named [fld "n" (.prim .bool)])⟩
def treeEnv : Env := program [struct "Tree" [field "branch" (.named 1)],
  struct "Branch" [field "knot" (.named 2), field "tree" (.seq .vec (.named 0))], struct "Branch" [field "n" (.prim .bool)]]

end Sample

open Sample in
/-- **C98** is false of types of one name, without copies: the schema of a type that needs itself is generated twice, before another
type has registered the name that ends the recursion. -/
theorem c98_is_false_names : Derived oracle treeEnv 0 treeInput ∧ Derived oracle treeEnv 1 branchInput ∧
    Derived oracle treeEnv 2 knotInput ∧ (∀ i, (treeEnv.decl i).copied treeEnv = []) ∧
    ∃ (r : Ref) (cx' : Components) (ts : List Ty), MentionReturns treeEnv (.named 0) false {} Components.empty r cx' ∧
      Trace treeEnv [(.named 0, true)] Components.empty ts cx' ∧ derivedOf ts = [0, 1, 2, 0] := by
  refine ⟨⟨_, rfl⟩, ⟨_, rfl⟩, ⟨_, rfl⟩, ?_, ?_⟩
  · intro i
    match i with
    | 0 | 1 | 2 => rfl
    | i + 3 => rfl
  · refine ⟨_, _, [.named 0, .named 1, .named 2, .prim .bool, .seq .vec (.named 0), .named 0], ⟨10, rfl⟩, ?_, rfl⟩
    refine .new (name := "Tree") (ts := [.named 1, .named 2, .prim .bool, .seq .vec (.named 0), .named 0]) (ts' := [])
      rfl (by decide +kernel) rfl ?_ ⟨10, rfl⟩ (.nil _)
    refine .new (name := "Branch") (ts := [.named 2, .prim .bool, .seq .vec (.named 0), .named 0]) (ts' := [])
      rfl (by decide +kernel) rfl ?_ ⟨10, rfl⟩ (.nil _)
    refine .new (name := "Branch") (ts := [.prim .bool]) (ts' := [.seq .vec (.named 0), .named 0])
      rfl (by decide +kernel) rfl (.inPlace (ts := []) (ts' := []) (.inr rfl) rfl (.nil _) (.nil _)) ⟨10, rfl⟩ ?_
    refine .inPlace (ts := [.named 0]) (ts' := []) (.inr rfl) rfl ?_ (.nil _)
    refine .new (name := "Tree") (ts := []) (ts' := []) rfl (by decide +kernel) rfl ?_ ⟨10, rfl⟩ (.nil _)
    exact .known (name := "Branch") rfl (by decide +kernel) (.nil _)

end Verif
