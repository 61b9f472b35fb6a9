import Verif.Proof.Size
import Verif.Proof.OpenApiApi
import Verif.Props.Generation
import Verif.Props.Zoo
import Verif.Props.Choice
import Verif.Props.Order
import Verif.Proof.Generic
/-!
# C97: how large documents are
-/

namespace Verif

/-- A number of nodes for each derived type: that of its schema. -/
theorem sizes_exist (env : Env) : ∃ S : Nat → Nat, (∀ i m, HasSchema env (.named i) m → m.ser.nodes = S i) := by
  classical
  refine ⟨fun i => if h : ∃ m, HasSchema env (.named i) m then h.choose.ser.nodes else 0, fun i m hm => ?_⟩
  have h : ∃ m, HasSchema env (.named i) m := ⟨m, hm⟩
  simp only [dif_pos h]
  obtain ⟨cx, cx', h1⟩ := hm
  obtain ⟨cx2, cx2', h2⟩ := h.choose_spec
  rw [(c05_context_independent env (.named i) cx cx2 cx' cx2').1 _ _ h1 h2]

/-- **C97**, the account.  The schema of a derived type has at most forty nodes for each node of its declaration,
besides the nodes of the schemas that are copied into it.  Every copy is one of: a type that is `#[opg(inline)]` or in an
`inline` place, the field of a newtype struct, the field of a newtype variant of an internally tagged enum. -/
theorem c97_account (env : Env) (S : Nat → Nat) (sizes : ∀ j m, HasSchema env (.named j) m → m.ser.nodes ≤ S j)
    (i : Nat) (m : Model) (h : HasSchema env (.named i) m) :
    m.ser.nodes ≤ 40 * (env.decl i).nodes + total S ((env.decl i).copied env) :=
  named_bound sizes h

/-- **C97**, the account for any type. -/
theorem c97_account_type (env : Env) (S : Nat → Nat) (sizes : ∀ j m, HasSchema env (.named j) m → m.ser.nodes ≤ S j)
    (t : Ty) (m : Model) (h : HasSchema env t m) : m.ser.nodes ≤ 40 * t.nodes + total S (t.copied env) := by
  obtain ⟨cx, cx', n, h⟩ := h
  have := schema_bound sizes n t cx m cx' h
  simp only [Model.ser, Value.nodes, Ty.bound] at *
  omega

theorem nodes_nullable (m : Model) : (m.applyParams { nullable := some true }).ser.nodes ≤ m.ser.nodes + 2 := by
  obtain ⟨d, data⟩ := m
  simp only [Model.ser, Value.nodes, Model.applyParams, Model.entries, nodesMap_append]
  have e : overrideOpt none d = d := rfl
  rw [e]
  cases data with
  | single t =>
    obtain ⟨n, td⟩ := t
    have : td.applyParams { nullable := some true } = td := by cases td <;> rfl
    have h := nodes_flag "nullable" true
    simp only [ModelData.applyParams, ModelType.applyParams, ModelData.entries, ModelType.entries, nodesMap_append, this]
    omega
  | _ => simp only [ModelData.applyParams]; omega

/-- What is referred to by name is a derived type, or the same with `null`. -/
theorem linked_core {env : Env} {roots : List (Ty × Bool)} : ∀ {t : Ty} {name : String} {m : Model},
    typeName env t = some name → HasSchema env t m → Reached env roots t →
    ∃ i m₀, name = (env.decl i).ident ∧ Reached env roots (.named i) ∧ HasSchema env (.named i) m₀ ∧
      (m = m₀ ∨ m = m₀.applyParams { nullable := some true })
  | .wrap w t, name, m, hn, ⟨cx, cx', n, h⟩, hr => by
    cases n with
    | zero => cases h
    | succ n => exact linked_core (t := t) hn ⟨cx, cx', n, h⟩ (.step hr ⟨_, rfl, by simp [ModelExpr.asked]; rfl⟩)
  | .option t, name, m, hn, ⟨cx, cx', n, h⟩, hr => by
    cases n with
    | zero => cases h
    | succ n =>
      unfold getSchema at h
      simp only [schemaExpr] at h
      unfold ModelExpr.eval at h
      cases ht : getSchema env n t cx with
      | none => rw [ht] at h; cases h
      | some q =>
        obtain ⟨m', c⟩ := q
        rw [ht] at h
        cases h
        obtain ⟨i, m₀, hi, hri, hs, hm⟩ := linked_core (t := t) hn ⟨_, _, n, ht⟩ (.step hr ⟨_, rfl, by simp [ModelExpr.asked]; rfl⟩)
        refine ⟨i, m₀, hi, hri, hs, .inr ?_⟩
        rcases hm with rfl | rfl
        · rfl
        · obtain ⟨d, data⟩ := m₀
          cases data with
          | single t => obtain ⟨n, td⟩ := t; cases td <;> rfl
          | _ => rfl
  | .named i, name, m, hn, h, hr => by
    refine ⟨i, m, ?_, hr, h, .inl rfl⟩
    simp only [typeName, Container.typeName] at hn
    split at hn
    · cases hn
    · cases hn; rfl

/-- **C97**, for components.  If no declaration reached has a copy of another type in its schema, each component is the
schema of a reached type of its name and has at most forty nodes for each node of its declaration, and two if the type
is also used as an option.  Missing: copies, with which documents may be exponentially larger than programs (below). -/
theorem c97_components_partial (env : Env) (calls : List Call) (rs : List Ref) (cx' : Components)
    (mentions : ∀ c ∈ calls, c.isMention = true) (run : CallsReturn env Components.empty calls rs cx')
    (noCopies : ∀ i, Reached env (rootsOf calls) (.named i) → (env.decl i).copied env = [])
    (name : String) (m : Model) (h : (name, m) ∈ cx'.schemas) :
    ∃ i, Reached env (rootsOf calls) (.named i) ∧ name = (env.decl i).ident ∧
      m.ser.nodes ≤ 40 * (env.decl i).nodes + 2 := by
  obtain ⟨t, hl, hn, hs⟩ := named_calls run mentions (fun _ hx => hx) (fun _ hb => by cases hb) _ h
  obtain ⟨S, hS⟩ := sizes_exist env
  obtain ⟨i, m₀, hi, hr, hs, hm⟩ := linked_core hn hs (linked_reached hl)
  refine ⟨i, hr, hi, ?_⟩
  have hb := c97_account env S (fun j m h => Nat.le_of_eq (hS j m h)) i m₀ hs
  rw [noCopies i hr] at hb
  simp only [total] at hb
  simp only at hm
  rcases hm with rfl | rfl
  · omega
  · have := nodes_nullable m₀; omega

theorem Container.nodes_pos (c : Container Ty) : 1 ≤ c.nodes := by
  unfold Container.nodes; split <;> omega

theorem envNodes_erase (env : Env) {l : List Nat} {i : Nat} (h : i ∈ l) :
    env.nodes l = (env.decl i).nodes + env.nodes (l.erase i) := by
  induction l with
  | nil => cases h
  | cons j l ih =>
    rw [List.erase_cons]
    split
    · rename_i e
      have : j = i := by simpa using e
      subst this
      rfl
    · rename_i e
      have hne : j ≠ i := by simpa using e
      have hi : i ∈ l := by
        rcases List.mem_cons.1 h with h | h
        · exact absurd h.symm hne
        · exact h
      simp only [Env.nodes, ih hi]
      omega

theorem total_by_names (env : Env) (k : Nat) (size : String × Model → Nat) : ∀ (es : List (String × Model)) (l : List Nat),
    (es.map Prod.fst).Nodup →
    (∀ b ∈ es, ∃ i ∈ l, b.1 = (env.decl i).ident ∧ size b ≤ k * (env.decl i).nodes) →
    total size es ≤ k * env.nodes l
  | [], l, _, _ => by simp [total]
  | b :: es, l, hn, h => by
    obtain ⟨i, hi, hb, hs⟩ := h b List.mem_cons_self
    rw [List.map_cons, List.nodup_cons] at hn
    have ih := total_by_names env k size es (l.erase i) hn.2 (fun b' hb' => by
      obtain ⟨j, hj, hn', hs'⟩ := h b' (List.mem_cons_of_mem _ hb')
      refine ⟨j, (List.mem_erase_of_ne ?_).2 hj, hn', hs'⟩
      rintro rfl
      refine hn.1 (List.mem_map.2 ⟨b', hb', ?_⟩)
      rw [hn', hb])
    rw [envNodes_erase env hi]
    simp only [total, Nat.mul_add]
    omega

/-- **C97**, for all the components together: the document is larger than the program by no more than a factor of 42,
however often types refer to each other.  `l` lists the declarations of the program.  Missing: copies. -/
theorem c97_total_partial (env : Env) (calls : List Call) (rs : List Ref) (cx' : Components)
    (mentions : ∀ c ∈ calls, c.isMention = true) (run : CallsReturn env Components.empty calls rs cx')
    (l : List Nat) (all : ∀ i, Reached env (rootsOf calls) (.named i) → i ∈ l)
    (noCopies : ∀ i ∈ l, (env.decl i).copied env = []) :
    total (fun b : String × Model => b.2.ser.nodes) cx'.schemas ≤ 42 * env.nodes l := by
  refine total_by_names env 42 _ cx'.schemas l ?_ ?_
  · exact BMap.nodup_keys (callsReturn_sorted run (by simp [Components.empty, BMap.Sorted]))
  · rintro ⟨name, m⟩ hb
    obtain ⟨i, hr, hi, hs⟩ := c97_components_partial env calls rs cx' mentions run (fun i hr => noCopies i (all i hr)) name m hb
    have := (env.decl i).nodes_pos
    exact ⟨i, all i hr, hi, by simp only; omega⟩

namespace Sample

/-- `User`, `Pet` and `Owner { user: User, pets: Vec<Pet> }` refer to each other by name; the three components have no
more nodes than 42 times those of the declarations. -/
example : ∃ rs cx', CallsReturn env Components.empty [.mention (.named 3) false {}] rs cx' ∧
    BMap.keys cx'.schemas = ["Owner", "Pet", "User"] ∧ env.nodes [0, 1, 3] = 18 ∧
    total (fun b : String × Model => b.2.ser.nodes) cx'.schemas ≤ 42 * 18 := by
  refine ⟨_, _, .mention ⟨10, rfl⟩ (.nil _), rfl, by rfl, ?_⟩
  exact c97_total_partial env [.mention (.named 3) false {}] _ _ (by simp [Call.isMention]) (.mention ⟨10, rfl⟩ (.nil _))
    [0, 1, 3] (fun i h => by
      have := h.mem_closed (l := [.named 3, .named 0, .seq .vec (.named 1), .named 1, .prim .u32, .option (.named 1),
        .seq .vec (.prim .string), .prim .string]) (by decide +kernel)
      simp only [List.mem_cons, List.mem_nil_iff, or_false, Ty.named.injEq, reduceCtorEq, false_or] at this ⊢
      omega)
    (by decide +kernel)

/-- `#[opg(inline)] struct Twin<T> { left: T, right: T }` at the types `bool`, `Twin<bool>`, `Twin<Twin<bool>>`, .. -/
def twinInput (t : Ty) : DeriveInput Ty :=
  ⟨"Twin", [attr "opg" [word "inline"]], .struct (.named [fld "left" t, fld "right" t])⟩
def twinType (t : Ty) : Container Ty :=
  container "Twin" (fun a => { a with inline := true }) (.struct .struct [field "left" t, field "right" t])
def nested (t : Ty) : Nat → Ty
  | 0 => t
  | n + 1 => .named n
def twins : Env := ⟨fun n => twinType (nested (.prim .bool) n), fun s => s⟩

theorem twins_derived (n : Nat) : Derived oracle twins n (twinInput (nested (.prim .bool) n)) := by
  obtain ⟨body, h⟩ : ∃ body, derive oracle (twinInput (.prim .bool)) = .code (twinType (.prim .bool)) body := ⟨_, rfl⟩
  have := derive_map (o := oracle) (fun _ => nested (.prim .bool) n) (twinInput (.prim .bool))
  rw [h] at this
  exact ⟨_, this⟩

theorem twins_large : ∀ n : Nat, ∃ m, getSchema twins (n + 2) (.named n) Components.empty = some (m, Components.empty) ∧
    2 ^ n ≤ m.ser.nodes
  | 0 => ⟨_, rfl, by decide +kernel⟩
  | n + 1 => by
    obtain ⟨m, hm, hn⟩ := twins_large n
    have hm' : getSchema twins (n + 1 + 1) (.named n) Components.empty = some (m, Components.empty) := hm
    refine ⟨⟨none, .single ⟨false, .object ⟨[("left", .inline m), ("right", .inline m)], none, ["left", "right"]⟩⟩⟩, ?_, ?_⟩
    · unfold getSchema
      have hb : schemaExpr twins (.named (n + 1)) = some (.single none false (.object [.mk "left" (.mention (.named n) false {}) true,
        .mk "right" (.mention (.named n) false {}) true])) := rfl
      have hp : ParamsExpr.eval twins {} = {} := rfl
      have hi : alwaysInline twins (.named n) = true := rfl
      rw [hb]
      simp [ModelExpr.eval, TypeExpr.eval, PropExpr.evalList, RefExpr.eval, mentionWith, selectReference, hi, hm', hp,
        applyParams_empty]
      rfl
    · simp [Model.ser, Model.entries, ModelData.entries, ModelType.entries, TypeDesc.entries, ModelObject.entries, entriesOf,
        optStr, flag, nonEmptyMap, nonEmptySeq, serProps, serOptRef, strs, Value.nodes, nodesMap, nodesSeq, Ref.ser] at hn ⊢
      omega

/-- The schema of `Twin<Twin<bool>>` has two copies of that of `Twin<bool>`, and no more nodes than these and forty for
each node of the declaration. -/
example (S : Nat → Nat) (sizes : ∀ j m, HasSchema twins (.named j) m → m.ser.nodes ≤ S j) :
    (twins.decl 1).copied twins = [0, 0] ∧ (twins.decl 1).nodes = 5 ∧
    ∃ m, HasSchema twins (.named 1) m ∧ m.ser.nodes ≤ 40 * 5 + (S 0 + (S 0 + 0)) := by
  obtain ⟨m, hm, -⟩ := twins_large 1
  exact ⟨rfl, rfl, m, ⟨_, _, _, hm⟩, c97_account twins S sizes 1 m ⟨_, _, _, hm⟩⟩

/-- `struct Leaf { n: bool }` and `#[serde(tag = "at")] enum Side<T> { Left(T), Right(T) }` at the types `Leaf`,
`Side<Leaf>`, .. -/
def sideInput (t : Ty) : DeriveInput Ty := ⟨"Side", [attr "serde" [nv "tag" "at"]],
  .enum [var "Left" (.unnamed [tfld t]), var "Right" (.unnamed [tfld t])]⟩
def sideType (t : Ty) : Container Ty :=
  container "Side" (fun a => { a with tagType := .internal "at", modelType := .oneOf })
    (.enum [variantAs "Left" "Left" .newType [field "0" t], variantAs "Right" "Right" .newType [field "0" t]])
def boolLeafInput : DeriveInput Ty := ⟨"Leaf", [], .struct (.named [fld "n" (.prim .bool)])⟩
def sides : Env := ⟨fun | 0 => struct "Leaf" [field "n" (.prim .bool)] | n + 1 => sideType (.named n), fun s => s⟩

theorem sides_derived : ∀ n : Nat, ∃ input, Derived oracle sides n input ∧ input.attrs ∈ [[], [attr "serde" [nv "tag" "at"]]]
  | 0 => ⟨boolLeafInput, ⟨_, rfl⟩, .head _⟩
  | n + 1 => by
    obtain ⟨body, h⟩ : ∃ body, derive oracle (sideInput (.prim .bool)) = .code (sideType (.prim .bool)) body := ⟨_, rfl⟩
    have := derive_map (o := oracle) (fun _ => Ty.named n) (sideInput (.prim .bool))
    rw [h] at this
    exact ⟨sideInput (.named n), ⟨_, this⟩, .tail _ (.head _)⟩

theorem sides_large : ∀ n : Nat, ∃ rs,
    getSchema sides (n + 3) (.named (n + 1)) Components.empty = some (⟨none, .oneOf rs⟩, Components.empty) ∧
    2 ^ n ≤ (⟨none, .oneOf rs⟩ : Model).ser.nodes
  | 0 => ⟨_, rfl, by decide +kernel⟩
  | n + 1 => by
    obtain ⟨rs, hm, hn⟩ := sides_large n
    refine ⟨[.inline ⟨none, .oneOf rs⟩, .inline ⟨none, .oneOf rs⟩], ?_, ?_⟩
    · have hb : schemaExpr sides (.named (n + 1 + 1)) = some (.oneOf none [
          .inline (.tagged (.getSchemaWithParams (.named (n + 1)) {}) "Side" "at" "Left" false),
          .inline (.tagged (.getSchemaWithParams (.named (n + 1)) {}) "Side" "at" "Right" false)]) := rfl
      have hp : ParamsExpr.eval sides {} = {} := rfl
      have hg : getSchema sides (n + 1 + 3) (.named (n + 1 + 1)) Components.empty =
        ModelExpr.eval sides (getSchema sides (n + 3)) (.oneOf none [
          .inline (.tagged (.getSchemaWithParams (.named (n + 1)) {}) "Side" "at" "Left" false),
          .inline (.tagged (.getSchemaWithParams (.named (n + 1)) {}) "Side" "at" "Right" false)]) Components.empty := rfl
      rw [hg]
      simp [ModelExpr.eval, RefExpr.eval, RefExpr.evalList, hm, hp, applyParams_empty, Model.tryMerge]
    · simp [Model.ser, Model.entries, ModelData.entries, entriesOf, optStr, Value.nodes, nodesMap, nodesSeq, Ref.ser,
        serRefs] at hn ⊢
      omega

theorem twins_reached {n : Nat} {b : Bool} {t : Ty} (h : Reached twins [(.named n, b)] t) :
    (∃ i, i ≤ n ∧ t = .named i) ∨ t = .prim .bool := by
  induction h with
  | root h => simp at h; exact .inl ⟨n, Nat.le_refl _, h.1⟩
  | step h ha ih =>
    obtain ⟨e, he, hm⟩ := ha
    rcases ih with ⟨i, hi, rfl⟩ | rfl
    · have hb : schemaExpr twins (.named i) = some (.single none false (.object [
          .mk "left" (.mention (nested (.prim .bool) i) false {}) true,
          .mk "right" (.mention (nested (.prim .bool) i) false {}) true])) := rfl
      rw [hb] at he
      cases he
      simp [ModelExpr.asked, TypeExpr.asked, PropExpr.askedList, RefExpr.asked] at hm
      rw [hm.1]
      cases i with
      | zero => exact .inr rfl
      | succ i => exact .inl ⟨i, by omega, rfl⟩
    · cases he
      cases hm

theorem sides_reached {n : Nat} {b : Bool} {t : Ty} (h : Reached sides [(.named (n + 1), b)] t) :
    (∃ i, i ≤ (n + 1) ∧ t = .named i) ∨ t = .prim .bool := by
  induction h with
  | root h => simp at h; exact .inl ⟨n + 1, Nat.le_refl _, h.1⟩
  | step h ha ih =>
    obtain ⟨e, he, hm⟩ := ha
    rcases ih with ⟨i, hi, rfl⟩ | rfl
    · cases i with
      | zero =>
        have hb : schemaExpr sides (.named 0) = some (.single none false (.object [
          .mk "n" (.mention (.prim .bool) false {}) true])) := rfl
        rw [hb] at he
        cases he
        simp [ModelExpr.asked, TypeExpr.asked, PropExpr.askedList, RefExpr.asked] at hm
        exact .inr hm.1
      | succ i =>
        have hb : schemaExpr sides (.named (i + 1)) = some (.oneOf none [
          .inline (.tagged (.getSchemaWithParams (.named i) {}) "Side" "at" "Left" false),
          .inline (.tagged (.getSchemaWithParams (.named i) {}) "Side" "at" "Right" false)]) := rfl
        rw [hb] at he
        cases he
        simp [ModelExpr.asked, RefExpr.askedList, RefExpr.asked] at hm
        exact .inl ⟨i, by omega, hm.1⟩
    · cases he
      cases hm

end Sample

/-- Powers of two outgrow multiples. -/
theorem outgrows (k : Nat) : ∃ n : Nat, k * (n + 1) < 2 ^ n := by
  refine ⟨4 * k, ?_⟩
  have h : 2 * k < 2 ^ (2 * k) := Nat.lt_two_pow_self
  have e : 2 ^ (4 * k) = 2 ^ (2 * k) * 2 ^ (2 * k) := by rw [← Nat.pow_add]; congr 1; omega
  have h2 : (2 * k + 1) * (2 * k + 1) ≤ 2 ^ (2 * k) * 2 ^ (2 * k) := Nat.mul_le_mul h h
  rw [e]
  have h3 : (2 * k + 1) * (2 * k + 1) = k * (4 * k + 1) + 3 * k + 1 := by
    simp only [Nat.mul_add, Nat.add_mul, Nat.mul_one, Nat.one_mul]
    have : 2 * k * (2 * k) = k * (4 * k) := by
      rw [Nat.mul_comm 2 k, Nat.mul_assoc]; congr 1; omega
    omega
  omega

theorem nodes_range (env : Env) (c : Nat) (h : ∀ i, (env.decl i).nodes ≤ c) (l : List Nat) : env.nodes l ≤ c * l.length := by
  induction l with
  | nil => simp [Env.nodes]
  | cons i l ih =>
    have := h i
    simp only [Env.nodes, List.length_cons, Nat.mul_add, Nat.mul_one]
    omega

open Sample in
/-- **C97** is false of the code with types that are written in place: there is no factor by which documents are larger
than programs at most.  The program has the declarations `l` and no others, all accepted by the macro. -/
theorem c97_is_false (k : Nat) : ∃ (env : Env) (l : List Nat) (t : Ty) (m : Model),
    (∀ i ∈ l, ∃ input, Derived oracle env i input) ∧ (∀ i, Reached env [(t, false)] (.named i) → i ∈ l) ∧
    HasSchema env t m ∧ k * env.nodes l < m.ser.nodes := by
  obtain ⟨n, hn⟩ := outgrows (k * 5)
  obtain ⟨m, hm, hl⟩ := twins_large n
  refine ⟨twins, List.range (n + 1), .named n, m, fun i _ => ⟨_, twins_derived i⟩, ?_, ⟨_, _, _, hm⟩, ?_⟩
  · have : ∀ t, Reached twins [(.named n, false)] t → (∃ i, i ≤ n ∧ t = .named i) ∨ t = .prim .bool := fun _ h => twins_reached h
    intro i h
    rcases this _ h with ⟨j, hj, e⟩ | e
    · cases e; simp; omega
    · cases e
  · have := nodes_range twins 5 (fun i => by cases i <;> exact Nat.le_refl _) (List.range (n + 1))
    rw [List.length_range] at this
    calc k * twins.nodes (List.range (n + 1)) ≤ k * (5 * (n + 1)) := Nat.mul_le_mul_left _ this
      _ = k * 5 * (n + 1) := by rw [Nat.mul_assoc]
      _ < 2 ^ n := hn
      _ ≤ _ := hl

open Sample in
/-- **C97** is false of the code even without `inline`: newtype variants of internally tagged enums are copied. -/
theorem c97_is_false_tagged (k : Nat) : ∃ (env : Env) (l : List Nat) (t : Ty) (m : Model),
    (∀ i ∈ l, ∃ input, Derived oracle env i input ∧ input.attrs ∈ [[], [attr "serde" [nv "tag" "at"]]]) ∧
    (∀ i, Reached env [(t, false)] (.named i) → i ∈ l) ∧ HasSchema env t m ∧ k * env.nodes l < m.ser.nodes := by
  obtain ⟨n, hn⟩ := outgrows (k * 14)
  obtain ⟨rs, hm, hl⟩ := sides_large n
  refine ⟨sides, List.range (n + 2), .named (n + 1), _, fun i _ => sides_derived i, ?_, ⟨_, _, _, hm⟩, ?_⟩
  · have : ∀ t, Reached sides [(.named (n + 1), false)] t → (∃ i, i ≤ n + 1 ∧ t = .named i) ∨ t = .prim .bool :=
      fun _ h => sides_reached h
    intro i h
    rcases this _ h with ⟨j, hj, e⟩ | e
    · cases e; simp; omega
    · cases e
  · have := nodes_range sides 7 (fun i => by
      cases i with
      | zero => decide
      | succ i => exact Nat.le_of_eq (by rfl)) (List.range (n + 2))
    rw [List.length_range] at this
    calc k * sides.nodes (List.range (n + 2)) ≤ k * (14 * (n + 1)) := Nat.mul_le_mul_left _ (by omega)
      _ = k * 14 * (n + 1) := by rw [Nat.mul_assoc]
      _ < 2 ^ n := hn
      _ ≤ _ := hl

end Verif
