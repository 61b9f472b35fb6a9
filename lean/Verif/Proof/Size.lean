import Verif.Spec.Size
import Verif.Spec.Shapes
import Verif.Model.Eval
import Verif.Base.BMap
/-!
# Sizes of schemas
-/

namespace Verif

theorem nodesMap_append (xs ys : List (Key × Value)) : nodesMap (xs ++ ys) = nodesMap xs + nodesMap ys := by
  induction xs with
  | nil => simp [nodesMap]
  | cons x xs ih => obtain ⟨k, v⟩ := x; simp only [List.cons_append, nodesMap, ih]; omega

theorem nodesSeq_strs (ss : List String) : nodesSeq (strs ss) = ss.length := by
  induction ss with
  | nil => rfl
  | cons s ss ih =>
    simp only [strs, List.map_cons, nodesSeq, Value.nodes, List.length_cons] at ih ⊢
    omega

theorem nodes_optStr (k : String) (s : Option String) : nodesMap (entriesOf [(k, optStr s)]) ≤ 2 := by
  cases s <;> simp [optStr, entriesOf, nodesMap, Value.nodes]

theorem nodes_flag (k : String) (b : Bool) : nodesMap (entriesOf [(k, flag b)]) ≤ 2 := by
  cases b <;> simp [flag, entriesOf, nodesMap, Value.nodes]

theorem entriesOf_append (xs ys : List (String × Option Value)) : entriesOf (xs ++ ys) = entriesOf xs ++ entriesOf ys := by
  induction xs with
  | nil => rfl
  | cons x xs ih => obtain ⟨k, v⟩ := x; cases v <;> simp [entriesOf, ih]

theorem nodes_entriesOf (k : String) (v : Option Value) (f : String × Option Value) (fs : List (String × Option Value)) :
    nodesMap (entriesOf ((k, v) :: f :: fs)) = nodesMap (entriesOf [(k, v)]) + nodesMap (entriesOf (f :: fs)) := by
  rw [← nodesMap_append, ← entriesOf_append]; rfl

/-! ## The operations on schemas -/

theorem nodes_override (k : String) (a b : Option String) :
    nodesMap (entriesOf [(k, optStr (overrideOpt a b))]) ≤ nodesMap (entriesOf [(k, optStr b)]) + 2 :=
  Nat.le_trans (nodes_optStr _ _) (Nat.le_add_left _ _)

theorem TypeDesc.nodes_apply (d : TypeDesc) (p : Params) (h : p.variants = none) :
    nodesMap (d.applyParams p).entries ≤ nodesMap d.entries + 4 := by
  have e : ∀ {α : Type} (x : Option α), overrideOpt none x = x := fun x => rfl
  cases d with
  | string v f ex =>
    have h1 := nodes_override "format" p.format f
    have h2 := nodes_override "example" p.ex ex
    simp only [TypeDesc.applyParams, TypeDesc.entries, h, e, nodesMap]
    simp only [nodes_entriesOf]
    omega
  | number f ex =>
    have h1 := nodes_override "format" p.format f
    have h2 := nodes_override "example" p.ex ex
    simp only [TypeDesc.applyParams, TypeDesc.entries, nodesMap]
    simp only [nodes_entriesOf]
    omega
  | integer f ex =>
    have h1 := nodes_override "format" p.format f
    have h2 := nodes_override "example" p.ex ex
    simp only [TypeDesc.applyParams, TypeDesc.entries, nodesMap]
    simp only [nodes_entriesOf]
    omega
  | _ => exact Nat.le_add_right _ _

theorem Model.nodes_apply (m : Model) (p : Params) (h : p.variants = none) :
    nodesMap (m.applyParams p).entries ≤ nodesMap m.entries + 8 := by
  obtain ⟨d, data⟩ := m
  have h1 := nodes_override "description" p.description d
  cases data with
  | single t =>
    obtain ⟨n, td⟩ := t
    have h2 := td.nodes_apply p h
    have h3 := fun b => nodes_flag "nullable" b
    cases hn : p.nullable with
    | none =>
      simp only [Model.applyParams, ModelData.applyParams, ModelType.applyParams, Model.entries, ModelData.entries,
        ModelType.entries, nodesMap_append, hn]
      omega
    | some b =>
      have := h3 b
      simp only [Model.applyParams, ModelData.applyParams, ModelType.applyParams, Model.entries, ModelData.entries,
        ModelType.entries, nodesMap_append, hn]
      omega
  | _ =>
    simp only [Model.applyParams, ModelData.applyParams, Model.entries, nodesMap_append]
    omega

theorem nodes_insert (k : String) (r : Ref) (ps : List (String × Ref)) :
    nodesMap (serProps (BMap.insert k r ps)) ≤ nodesMap (serProps ps) + (1 + r.ser.nodes) := by
  induction ps with
  | nil => simp [BMap.insert, serProps, nodesMap]
  | cons b ps ih =>
    obtain ⟨k', r'⟩ := b
    unfold BMap.insert
    split <;> simp only [serProps, nodesMap] at * <;> omega

theorem nodes_mergeProps (ps qs : List (String × Ref)) :
    nodesMap (serProps (mergeProps ps qs).2) ≤ nodesMap (serProps ps) + nodesMap (serProps qs) := by
  induction qs generalizing ps with
  | nil => simp [mergeProps, serProps, nodesMap]
  | cons b qs ih =>
    obtain ⟨k, r⟩ := b
    unfold mergeProps
    split
    · simp
    · have h1 := ih (BMap.insert k r ps)
      have h2 := nodes_insert k r ps
      simp only [serProps, nodesMap] at *
      omega

theorem nodes_nonEmptyMap (k : String) (es : List (Key × Value)) :
    nodesMap (entriesOf [(k, nonEmptyMap es)]) = if es = [] then 0 else 2 + nodesMap es := by
  cases es with
  | nil => simp [nonEmptyMap, entriesOf, nodesMap]
  | cons e es => simp [nonEmptyMap, entriesOf, nodesMap, Value.nodes]; omega

theorem nodes_nonEmptySeq (k : String) (es : List Value) :
    nodesMap (entriesOf [(k, nonEmptySeq es)]) = if es = [] then 0 else 2 + nodesSeq es := by
  cases es with
  | nil => simp [nonEmptySeq, entriesOf, nodesMap]
  | cons e es => simp [nonEmptySeq, entriesOf, nodesMap, Value.nodes]; omega

/-- An object has at most four nodes besides its properties and their names. -/
theorem ModelObject.nodes_le (ps : List (String × Ref)) (a : Option Ref) (req : List String) :
    nodesMap (ModelObject.entries ⟨ps, a, req⟩) ≤
      4 + nodesMap (serProps ps) + nodesMap (entriesOf [("additionalProperties", serOptRef a)]) + req.length := by
  have h := nodesSeq_strs req
  simp only [ModelObject.entries]
  simp only [nodes_entriesOf, nodes_nonEmptyMap, nodes_nonEmptySeq]
  split <;> split <;> omega

theorem ModelObject.nodes_ge (ps : List (String × Ref)) (a : Option Ref) (req : List String) :
    nodesMap (serProps ps) + nodesMap (entriesOf [("additionalProperties", serOptRef a)]) + req.length ≤
      nodesMap (ModelObject.entries ⟨ps, a, req⟩) := by
  have h := nodesSeq_strs req
  simp only [ModelObject.entries]
  simp only [nodes_entriesOf, nodes_nonEmptyMap, nodes_nonEmptySeq]
  split <;> rename_i h1 <;> split <;> rename_i h2
  · have : ps = [] := by cases ps with | nil => rfl | cons b _ => obtain ⟨_, _⟩ := b; simp [serProps] at h1
    subst this
    rw [h2, nodesSeq] at h
    simp only [serProps, nodesMap]; omega
  · rw [h1, nodesMap]; omega
  · rw [h2, nodesSeq] at h; omega
  · omega

/-- Merging the tag adds at most twenty nodes. -/
theorem Model.nodes_tag (m : Model) (ident tag name : String) (n : Bool) :
    nodesMap (m.tryMerge (internalTagModel ident tag name n)).2.entries ≤ nodesMap m.entries + 20 := by
  obtain ⟨d, data⟩ := m
  unfold Model.tryMerge
  split
  · rename_i d' n' o heq
    cases heq
    obtain ⟨ps, a, req⟩ := o
    have key : nodesMap (((ModelObject.mk ps a req).merge ⟨BMap.insert tag (.inline ⟨some (ident ++ " type variant"),
        .single ⟨false, .string (some [name]) none (some name)⟩⟩) [], none, [tag]⟩).2.entries) ≤
        nodesMap (ModelObject.entries ⟨ps, a, req⟩) + 20 := by
      have h1 := nodes_mergeProps ps (BMap.insert tag (.inline ⟨some (ident ++ " type variant"),
        .single ⟨false, .string (some [name]) none (some name)⟩⟩) [])
      have h2 := ModelObject.nodes_ge ps a req
      have e : nodesMap (serProps (BMap.insert tag (.inline ⟨some (ident ++ " type variant"),
        .single ⟨false, .string (some [name]) none (some name)⟩⟩) [])) = 11 := by
        simp [BMap.insert, serProps, nodesMap, Ref.ser, Value.nodes, Model.entries, ModelData.entries, ModelType.entries,
          TypeDesc.entries, entriesOf, optStr, flag, strs, nodesSeq]
      rw [e] at h1
      unfold ModelObject.merge
      split
      · rename_i e props hm
        simp only at hm
        rw [hm] at h1
        have h3 := ModelObject.nodes_le props a req
        simp only at h1 h3 ⊢
        omega
      · rename_i props hm
        simp only at hm
        rw [hm] at h1
        have h3 := ModelObject.nodes_le props a (req ++ [tag])
        simp only [List.length_append, List.length_singleton] at h1 h3 ⊢
        omega
    simp only [internalTagModel]
    simp only [Model.entries, ModelData.entries, ModelType.entries, TypeDesc.entries, nodesMap_append, nodesMap]
    omega
  · exact Nat.le_add_right _ _

/-! ## The generated code -/

/-- Whether a mention is a link. -/
def linksTo (env : Env) (t : Ty) (inline : Bool) : Bool := !alwaysInline env t && (typeName env t).isSome && !inline

mutual
/-- A bound on the size of the result of a piece of code, given bounds for the types it asks for. -/
def RefExpr.cost (env : Env) (B : Ty → Nat) : RefExpr Ty → Nat
  | .mention t inline _ => if linksTo env t inline then 3 else B t
  | .inline m => 1 + m.cost env B
  | .any => 1
def ModelExpr.cost (env : Env) (B : Ty → Nat) : ModelExpr Ty → Nat
  | .getSchema t => B t
  | .getSchemaWithParams t _ => B t
  | .single _ _ td => 4 + td.cost env B
  | .oneOf _ rs => 4 + RefExpr.costs env B rs
  | .tagged m .. => 20 + m.cost env B
def TypeExpr.cost (env : Env) (B : Ty → Nat) : TypeExpr Ty → Nat
  | .string none _ _ => 6
  | .string (some vs) _ _ => 8 + vs.length
  | .number .. => 6
  | .integer .. => 6
  | .boolean => 2
  | .array items => 3 + items.cost env B
  | .object entries => 6 + PropExpr.costs env B entries
  | .dictionary r => 7 + r.cost env B
def RefExpr.costs (env : Env) (B : Ty → Nat) : List (RefExpr Ty) → Nat
  | [] => 0
  | r :: rs => r.cost env B + RefExpr.costs env B rs
def PropExpr.costs (env : Env) (B : Ty → Nat) : List (PropExpr Ty) → Nat
  | [] => 0
  | .mk _ r _ :: rest => (2 + r.cost env B) + PropExpr.costs env B rest
end

theorem nodes_string (v : Option (List String)) (f ex : Option String) :
    nodesMap (TypeDesc.entries (.string v f ex)) ≤ 6 + (match v with | none => 0 | some vs => 2 + vs.length) := by
  have h1 := nodes_optStr "format" f
  have h2 := nodes_optStr "example" ex
  simp only [TypeDesc.entries, nodesMap, Value.nodes]
  rw [nodes_entriesOf, nodes_entriesOf "format"]
  cases v with
  | none => simp only [Option.map_none, entriesOf, nodesMap] at *; omega
  | some vs =>
    have := nodesSeq_strs vs
    simp only [Option.map_some, entriesOf, nodesMap, Value.nodes] at *; omega

theorem nodes_number (f ex : Option String) : nodesMap (TypeDesc.entries (.number f ex)) ≤ 6 := by
  have h1 := nodes_optStr "format" f
  have h2 := nodes_optStr "example" ex
  simp only [TypeDesc.entries, nodesMap, Value.nodes]
  rw [nodes_entriesOf]
  omega

theorem nodes_integer (f ex : Option String) : nodesMap (TypeDesc.entries (.integer f ex)) ≤ 6 := by
  have h1 := nodes_optStr "format" f
  have h2 := nodes_optStr "example" ex
  simp only [TypeDesc.entries, nodesMap, Value.nodes]
  rw [nodes_entriesOf]
  omega

section
variable {env : Env} {B : Ty → Nat} {rec : Ty → M Model}

theorem mention_cost (hB : ∀ t, 3 ≤ B t)
    (hrec : ∀ t cx m cx', rec t cx = some (m, cx') → nodesMap m.entries + 9 ≤ B t) {t : Ty} {i : Bool} {p : Params}
    (hp : p.variants = none) {cx cx' : Components} {r : Ref} (h : mentionWith env rec t i p cx = some (r, cx')) :
    r.ser.nodes ≤ if linksTo env t i then 3 else B t := by
  have key : ∀ cx1, selectReference env rec t i p cx = some (r, cx1) → r.ser.nodes ≤ if linksTo env t i then 3 else B t := by
    intro cx1 hs
    have inl : ∀ cx', (match rec t cx with | none => none | some (m, cx') => some (Ref.inline (m.applyParams p), cx')) =
        some (r, cx') → r.ser.nodes ≤ B t := by
      intro cx' h
      cases hr : rec t cx with
      | none => rw [hr] at h; cases h
      | some q =>
        obtain ⟨m, c⟩ := q
        rw [hr] at h
        cases h
        have h1 := hrec _ _ _ _ hr
        have h2 := m.nodes_apply p hp
        simp only [Ref.ser, Value.nodes]
        omega
    unfold selectReference at hs
    simp only at hs
    cases ha : alwaysInline env t with
    | true =>
      rw [ha] at hs
      simp only [linksTo, ha, Bool.not_true, Bool.false_and, Bool.false_eq_true, if_false]
      exact inl _ hs
    | false =>
      rw [ha] at hs
      cases ht : typeName env t with
      | none =>
        rw [ht] at hs
        simp only [linksTo, ha, ht, Option.isSome_none, Bool.and_false, Bool.false_and, Bool.false_eq_true, if_false]
        exact inl _ hs
      | some l =>
        rw [ht] at hs
        cases i with
        | true =>
          simp only [linksTo, Bool.not_true, Bool.and_false, Bool.false_eq_true, if_false]
          exact inl _ hs
        | false =>
          simp only [Bool.false_eq_true, if_false] at hs
          cases hs
          simp [linksTo, ha, ht, Ref.ser, Value.nodes, nodesMap]
  unfold mentionWith at h
  cases hs : selectReference env rec t i p cx with
  | none => rw [hs] at h; cases h
  | some q =>
    obtain ⟨r1, cx1⟩ := q
    rw [hs] at h
    have : r1 = r := by
      cases r1 with
      | link l =>
        simp only at h
        split at h
        · cases h; rfl
        · cases hr : rec t cx1 with
          | none => rw [hr] at h; cases h
          | some q => obtain ⟨m, c⟩ := q; rw [hr] at h; cases h; rfl
      | inline m => cases h; rfl
      | any => cases h; rfl
    subst this
    exact key _ hs

mutual
theorem RefExpr.eval_cost (hB : ∀ t, 3 ≤ B t)
    (hrec : ∀ t cx m cx', rec t cx = some (m, cx') → nodesMap m.entries + 9 ≤ B t) :
    ∀ (e : RefExpr Ty) {cx cx' : Components} {r : Ref}, e.eval env rec cx = some (r, cx') → r.ser.nodes ≤ e.cost env B
  | .mention t i p, cx, cx', r, h => by
    unfold RefExpr.eval at h
    exact mention_cost hB hrec (by rfl) h
  | .inline m, cx, cx', r, h => by
    unfold RefExpr.eval at h
    cases hm : m.eval env rec cx with
    | none => rw [hm] at h; cases h
    | some q =>
      obtain ⟨m', c⟩ := q
      rw [hm] at h; cases h
      have := ModelExpr.eval_cost hB hrec m hm
      simp only [Ref.ser, Value.nodes, RefExpr.cost]; omega
  | .any, cx, cx', r, h => by
    unfold RefExpr.eval at h
    cases h
    simp [Ref.ser, Value.nodes, nodesMap, RefExpr.cost]
theorem ModelExpr.eval_cost (hB : ∀ t, 3 ≤ B t)
    (hrec : ∀ t cx m cx', rec t cx = some (m, cx') → nodesMap m.entries + 9 ≤ B t) :
    ∀ (e : ModelExpr Ty) {cx cx' : Components} {m : Model}, e.eval env rec cx = some (m, cx') →
      nodesMap m.entries ≤ e.cost env B
  | .getSchema t, cx, cx', m, h => by
    unfold ModelExpr.eval at h
    have := hrec _ _ _ _ h
    simp only [ModelExpr.cost]; omega
  | .getSchemaWithParams t p, cx, cx', m, h => by
    unfold ModelExpr.eval at h
    cases hr : rec t cx with
    | none => rw [hr] at h; cases h
    | some q =>
      obtain ⟨m', c⟩ := q
      rw [hr] at h; cases h
      have h1 := hrec _ _ _ _ hr
      have h2 := m'.nodes_apply (p.eval env) (by rfl)
      simp only [ModelExpr.cost]; omega
  | .single d n td, cx, cx', m, h => by
    unfold ModelExpr.eval at h
    cases ht : td.eval env rec cx with
    | none => rw [ht] at h; cases h
    | some q =>
      obtain ⟨td', c⟩ := q
      rw [ht] at h; cases h
      have h1 := TypeExpr.eval_cost hB hrec td ht
      have h2 := nodes_optStr "description" d
      have h3 := nodes_flag "nullable" n
      simp only [ModelExpr.cost, Model.entries, ModelData.entries, ModelType.entries, nodesMap_append]
      omega
  | .oneOf d rs, cx, cx', m, h => by
    unfold ModelExpr.eval at h
    cases ht : RefExpr.evalList env rec rs cx with
    | none => rw [ht] at h; cases h
    | some q =>
      obtain ⟨rs', c⟩ := q
      rw [ht] at h; cases h
      have h1 := RefExpr.evalList_cost hB hrec rs ht
      have h2 := nodes_optStr "description" d
      simp only [ModelExpr.cost, Model.entries, ModelData.entries, nodesMap_append, nodesMap, Value.nodes]
      omega
  | .tagged e ident tag name n, cx, cx', m, h => by
    unfold ModelExpr.eval at h
    cases ht : e.eval env rec cx with
    | none => rw [ht] at h; cases h
    | some q =>
      obtain ⟨m', c⟩ := q
      rw [ht] at h; cases h
      have h1 := ModelExpr.eval_cost hB hrec e ht
      have h2 := m'.nodes_tag ident tag name n
      simp only [ModelExpr.cost]
      omega
theorem TypeExpr.eval_cost (hB : ∀ t, 3 ≤ B t)
    (hrec : ∀ t cx m cx', rec t cx = some (m, cx') → nodesMap m.entries + 9 ≤ B t) :
    ∀ (e : TypeExpr Ty) {cx cx' : Components} {td : TypeDesc}, e.eval env rec cx = some (td, cx') →
      nodesMap td.entries ≤ e.cost env B
  | .string v f ex, cx, cx', td, h => by
    unfold TypeExpr.eval at h
    cases h
    have := nodes_string v f (ex.map (Example.eval env))
    cases v <;> simp only [TypeExpr.cost] at * <;> omega
  | .number f ex, cx, cx', td, h => by
    unfold TypeExpr.eval at h
    cases h
    exact nodes_number _ _
  | .integer f ex, cx, cx', td, h => by
    unfold TypeExpr.eval at h
    cases h
    exact nodes_integer _ _
  | .boolean, cx, cx', td, h => by
    unfold TypeExpr.eval at h
    cases h
    simp [TypeDesc.entries, nodesMap, Value.nodes, TypeExpr.cost]
  | .array items, cx, cx', td, h => by
    unfold TypeExpr.eval at h
    cases ht : items.eval env rec cx with
    | none => rw [ht] at h; cases h
    | some q =>
      obtain ⟨r, c⟩ := q
      rw [ht] at h; cases h
      have h1 := RefExpr.eval_cost hB hrec items ht
      simp only [TypeExpr.cost, TypeDesc.entries, nodesMap, Value.nodes]
      omega
  | .object es, cx, cx', td, h => by
    unfold TypeExpr.eval at h
    cases ht : PropExpr.evalList env rec es [] [] cx with
    | none => rw [ht] at h; cases h
    | some q =>
      obtain ⟨⟨ps, req⟩, c⟩ := q
      rw [ht] at h; cases h
      have h1 := PropExpr.evalList_cost hB hrec es ht
      have h2 := ModelObject.nodes_le ps none req
      simp only [serProps, serOptRef, entriesOf, nodesMap, List.length_nil] at h1 h2
      simp only [TypeExpr.cost, TypeDesc.entries, nodesMap, Value.nodes]
      omega
  | .dictionary r, cx, cx', td, h => by
    unfold TypeExpr.eval at h
    cases ht : r.eval env rec cx with
    | none => rw [ht] at h; cases h
    | some q =>
      obtain ⟨r', c⟩ := q
      rw [ht] at h; cases h
      have h1 := RefExpr.eval_cost hB hrec r ht
      have h2 := ModelObject.nodes_le [] (some r') []
      simp only [serProps, serOptRef, entriesOf, nodesMap, List.length_nil] at h2
      simp only [TypeExpr.cost, TypeDesc.entries, nodesMap, Value.nodes]
      omega
theorem RefExpr.evalList_cost (hB : ∀ t, 3 ≤ B t)
    (hrec : ∀ t cx m cx', rec t cx = some (m, cx') → nodesMap m.entries + 9 ≤ B t) :
    ∀ (es : List (RefExpr Ty)) {cx cx' : Components} {rs : List Ref}, RefExpr.evalList env rec es cx = some (rs, cx') →
      nodesSeq (serRefs rs) ≤ RefExpr.costs env B es
  | [], cx, cx', rs, h => by
    unfold RefExpr.evalList at h
    cases h
    simp [serRefs, nodesSeq]
  | e :: es, cx, cx', rs, h => by
    unfold RefExpr.evalList at h
    cases ht : e.eval env rec cx with
    | none => rw [ht] at h; cases h
    | some q =>
      obtain ⟨r, c⟩ := q
      rw [ht] at h
      simp only at h
      cases ht2 : RefExpr.evalList env rec es c with
      | none => rw [ht2] at h; cases h
      | some q =>
        obtain ⟨rs', c'⟩ := q
        rw [ht2] at h; cases h
        have h1 := RefExpr.eval_cost hB hrec e ht
        have h2 := RefExpr.evalList_cost hB hrec es ht2
        simp only [RefExpr.costs, serRefs, nodesSeq]
        omega
theorem PropExpr.evalList_cost (hB : ∀ t, 3 ≤ B t)
    (hrec : ∀ t cx m cx', rec t cx = some (m, cx') → nodesMap m.entries + 9 ≤ B t) :
    ∀ (es : List (PropExpr Ty)) {ps ps' : List (String × Ref)} {req req' : List String} {cx cx' : Components},
      PropExpr.evalList env rec es ps req cx = some ((ps', req'), cx') →
      nodesMap (serProps ps') + req'.length ≤ nodesMap (serProps ps) + req.length + PropExpr.costs env B es
  | [], ps, ps', req, req', cx, cx', h => by
    unfold PropExpr.evalList at h
    cases h
    simp [PropExpr.costs]
  | .mk name e required :: es, ps, ps', req, req', cx, cx', h => by
    unfold PropExpr.evalList at h
    cases ht : e.eval env rec cx with
    | none => rw [ht] at h; cases h
    | some q =>
      obtain ⟨r, c⟩ := q
      rw [ht] at h
      have h1 := RefExpr.eval_cost hB hrec e ht
      have h2 := PropExpr.evalList_cost hB hrec es h
      have h3 := nodes_insert name r ps
      have h4 : (if required then req ++ [name] else req).length ≤ req.length + 1 := by
        split <;> simp
      simp only [PropExpr.costs]
      omega
end
end

/-! ## Types -/

theorem total_append {α : Type} (S : α → Nat) (xs ys : List α) : total S (xs ++ ys) = total S xs + total S ys := by
  induction xs with
  | nil => simp [total]
  | cons x xs ih => simp only [List.cons_append, total, ih]; omega

/-- The bound of a type: forty times its nodes and what it copies. -/
def Ty.bound (env : Env) (S : Nat → Nat) (t : Ty) : Nat := 40 * t.nodes + total S (t.copied env)

theorem Ty.nodes_pos (t : Ty) : 1 ≤ t.nodes := by cases t <;> simp [Ty.nodes]

theorem typeName_linkable (env : Env) : ∀ t : Ty, (typeName env t).isSome = t.linkable env
  | .wrap _ t => by simp only [typeName, Ty.linkable]; exact typeName_linkable env t
  | .option t => by simp only [typeName, Ty.linkable]; exact typeName_linkable env t
  | .named j => by simp only [typeName, Ty.linkable, Container.typeName]; cases (env.decl j).attrs.inline <;> rfl
  | .prim _ | .tuple _ | .seq _ _ | .dict _ _ | .unit | .uuid | .naiveDateTime | .dateTime | .naiveDate => by
    simp [typeName, Ty.linkable]

theorem links_linkable (env : Env) (t : Ty) (i : Bool) : linksTo env t i = (!i && t.linkable env) := by
  unfold linksTo
  rw [typeName_linkable]
  cases t with
  | named j => simp only [alwaysInline, Ty.linkable]; cases (env.decl j).attrs.inline <;> cases i <;> rfl
  | wrap w t => simp [alwaysInline, Bool.and_comm]
  | option t => simp [alwaysInline, Bool.and_comm]
  | _ => simp [alwaysInline, Ty.linkable]

section
variable {env : Env} {S : Nat → Nat}

theorem Ty.bound_ge (t : Ty) : 3 ≤ t.bound env S := by
  have := t.nodes_pos
  unfold Ty.bound; omega

/-- The cost of a mention by reference. -/
theorem mention_bound (t : Ty) (i : Bool) : (if linksTo env t i then 3 else t.bound env S) ≤
    40 * t.nodes + total S (if !i && t.linkable env then [] else t.copied env) := by
  rw [links_linkable]
  have := t.nodes_pos
  split
  · simp only [total]; omega
  · exact Nat.le_refl _

theorem members_bound (ts : List Ty) : RefExpr.costs env (Ty.bound env S) (ts.map fun t => .mention t false {}) ≤
    40 * nodesTypes ts + total S (copiedMembers env ts) := by
  induction ts with
  | nil => simp [RefExpr.costs, nodesTypes, copiedMembers, total]
  | cons t ts ih =>
    have h := mention_bound (env := env) (S := S) t false
    simp only [List.map_cons, RefExpr.costs, RefExpr.cost, nodesTypes, copiedMembers, total_append, Bool.not_false,
      Bool.true_and] at *
    omega

/-- The schema of a type is no larger than its bound. -/
theorem schema_bound (hS : ∀ i m, HasSchema env (.named i) m → m.ser.nodes ≤ S i) :
    ∀ (n : Nat) (t : Ty) (cx : Components) (m : Model) (cx' : Components), getSchema env n t cx = some (m, cx') →
      nodesMap m.entries + 9 ≤ t.bound env S
  | 0, _, _, _, _, h => by cases h
  | n + 1, t, cx, m, cx', h => by
    have ih := schema_bound hS n
    have by_cost : ∀ e, schemaExpr env t = some e → nodesMap m.entries ≤ e.cost env (Ty.bound env S) := by
      intro e he
      unfold getSchema at h
      rw [he] at h
      exact ModelExpr.eval_cost (fun t => t.bound_ge) ih e h
    match t with
    | .prim p =>
      have := by_cost _ rfl
      cases p <;> simp only [ModelExpr.cost, simpleExpr, Prim.schema, TypeExpr.cost, Ty.bound, Ty.nodes] at * <;> omega
    | .wrap w t =>
      have := ih t cx m cx' (by unfold getSchema at h; exact h)
      simp only [Ty.bound, Ty.nodes, Ty.copied] at *
      omega
    | .option t =>
      unfold getSchema at h
      simp only [schemaExpr] at h
      unfold ModelExpr.eval at h
      cases hr : getSchema env n t cx with
      | none => rw [hr] at h; cases h
      | some q =>
        obtain ⟨m', c⟩ := q
        rw [hr] at h
        have h1 := ih _ _ _ _ hr
        have h2 := m'.nodes_apply (ParamsExpr.eval env { nullable := some true }) (by rfl)
        cases h
        simp only [Ty.bound, Ty.nodes, Ty.copied] at *
        omega
    | .tuple ts =>
      have h1 := by_cost _ rfl
      have h2 := members_bound (env := env) (S := S) ts
      simp only [ModelExpr.cost, TypeExpr.cost, RefExpr.cost, Ty.bound, Ty.nodes, Ty.copied] at *
      omega
    | .seq k t =>
      have h1 := by_cost _ rfl
      have h2 := mention_bound (env := env) (S := S) t false
      simp only [ModelExpr.cost, TypeExpr.cost, RefExpr.cost, Ty.nodes, Bool.not_false, Bool.true_and] at *
      rw [Ty.bound]
      simp only [Ty.copied, Ty.nodes]
      omega
    | .dict k t =>
      have h1 := by_cost _ rfl
      have h2 := mention_bound (env := env) (S := S) t false
      simp only [ModelExpr.cost, TypeExpr.cost, RefExpr.cost, Ty.nodes, Bool.not_false, Bool.true_and] at *
      rw [Ty.bound]
      simp only [Ty.copied, Ty.nodes]
      omega
    | .unit | .uuid | .naiveDateTime | .dateTime | .naiveDate =>
      have := by_cost _ rfl
      simp only [ModelExpr.cost, TypeExpr.cost, Ty.bound, Ty.nodes] at *
      omega
    | .named i =>
      have := hS i m ⟨cx, cx', n + 1, h⟩
      simp only [Model.ser, Value.nodes, Ty.bound, Ty.nodes, Ty.copied, total] at *
      omega

/-! ## Declarations -/

theorem field_cost (p : ParamsExpr) (f : Field Ty) (i : Bool) :
    (fieldModelReference p f i).cost env (Ty.bound env S) ≤ 40 * f.ty.nodes + total S (f.copied env i) := by
  have hp := f.ty.nodes_pos
  unfold fieldModelReference Field.copied
  cases he : f.attrs.explicitModelType with
  | none =>
    simp only [RefExpr.cost, Option.isSome_none, Bool.false_eq_true, if_false]
    exact mention_bound f.ty i
  | some w =>
    cases w <;> simp [RefExpr.cost, newtypeModel, ModelExpr.cost, TypeExpr.cost, total] <;> omega

theorem object_cost (fs : List (Field Ty)) (pred : Field Ty → Bool) :
    (objectTypeDescription fs pred).cost env (Ty.bound env S) ≤
      6 + 40 * nodesFields fs + total S (fs.flatMap fun f => f.copied env (pred f)) := by
  unfold objectTypeDescription
  simp only [TypeExpr.cost]
  induction fs with
  | nil => simp only [List.filter_nil, List.map_nil, PropExpr.costs]; omega
  | cons f fs ih =>
    have h := field_cost (env := env) (S := S) f.attrs.params f (pred f)
    cases hs : f.attrs.skipSerializing <;>
      simp only [List.filter_cons, hs, Bool.not_true, Bool.not_false, Bool.false_eq_true, if_false, if_true, List.map_cons,
        PropExpr.costs, nodesFields, List.flatMap_cons, total_append] at * <;> omega

theorem tuple_cost (fs : List (Field Ty)) (pred : Field Ty → Bool) :
    (tupleTypeDescription fs pred).cost env (Ty.bound env S) ≤
      8 + 40 * nodesFields fs + total S (fs.flatMap fun f => f.copied env (pred f)) := by
  unfold tupleTypeDescription
  simp only [TypeExpr.cost, RefExpr.cost, ModelExpr.cost]
  induction fs with
  | nil => simp only [List.map_nil, RefExpr.costs]; omega
  | cons f fs ih =>
    have h := field_cost (env := env) (S := S) f.attrs.params f (pred f)
    simp only [List.map_cons, RefExpr.costs, nodesFields, List.flatMap_cons, total_append] at *
    omega

theorem total_field (f : Field Ty) (i : Bool) : total S (f.copied env i) ≤ total S (f.ty.copied env) := by
  unfold Field.copied
  split
  · exact Nat.zero_le _
  · split
    · exact Nat.zero_le _
    · exact Nat.le_refl _

theorem newtype_cost {v : Variant Ty} {r : RefExpr Ty} (hs : v.style = .newType) (h : newtypeVariantReference v = .ok r)
    (int : Bool) : r.cost env (Ty.bound env S) ≤ 40 * nodesFields v.fields + total S (v.copied env int) := by
  unfold newtypeVariantReference at h
  unfold Variant.copied
  rw [hs]
  split at h
  · cases h
  · rename_i f fs hf
    cases h
    have h1 := field_cost (env := env) (S := S) (f.attrs.params.or v.attrs.params) f v.attrs.inline
    have h2 := total_field (env := env) (S := S) f v.attrs.inline
    rw [hf]
    cases int <;> simp only [Bool.false_eq_true, if_false, if_true, nodesFields, List.flatMap_cons, total_append] <;> omega

theorem fields_copied {v : Variant Ty} (hs : v.style ≠ .newType) (int : Bool) :
    v.copied env int = v.fields.flatMap fun f => f.copied env (v.attrs.inline || f.attrs.inline) := by
  unfold Variant.copied
  split
  · rename_i h; exact absurd h hs
  · rfl

/-- A bound for the code of one alternative. -/
def altBound (env : Env) (S : Nat → Nat) (int : Bool) (v : Variant Ty) : Nat :=
  39 + 40 * nodesFields v.fields + total S (v.copied env int)

theorem untagged_cost {v : Variant Ty} {r : RefExpr Ty} (h : untaggedAlternative v = .ok r) (int : Bool) :
    r.cost env (Ty.bound env S) ≤ altBound env S int v := by
  unfold untaggedAlternative at h
  unfold altBound
  split at h
  · rename_i hs
    have := newtype_cost (env := env) (S := S) hs h int; omega
  · rename_i hs
    cases h
    rw [fields_copied (by rw [hs]; simp)]
    have := object_cost (env := env) (S := S) v.fields (fun f => v.attrs.inline || f.attrs.inline)
    simp only [RefExpr.cost, objectModel, ModelExpr.cost]; omega
  · cases h

theorem adjacent_cost {v : Variant Ty} {r : RefExpr Ty} (h : adjacentAlternative v = .ok r) (int : Bool) :
    r.cost env (Ty.bound env S) ≤ altBound env S int v := by
  unfold adjacentAlternative at h
  unfold altBound
  split at h
  · rename_i hs
    have := newtype_cost (env := env) (S := S) hs h int; omega
  · rename_i hs
    cases h
    rw [fields_copied (by rw [hs]; simp)]
    have := tuple_cost (env := env) (S := S) v.fields (fun f => v.attrs.inline || f.attrs.inline)
    simp only [RefExpr.cost, tupleModel, ModelExpr.cost]; omega
  · rename_i hs
    cases h
    rw [fields_copied (by rw [hs]; simp)]
    have := tuple_cost (env := env) (S := S) v.fields (fun f => v.attrs.inline || f.attrs.inline)
    have e : (fun f : Field Ty => f.attrs.inline || v.attrs.inline) = fun f => v.attrs.inline || f.attrs.inline := by
      funext f; rw [Bool.or_comm]
    rw [e]
    simp only [RefExpr.cost, tupleModel, ModelExpr.cost]; omega
  · cases h

theorem external_cost {v : Variant Ty} {r : RefExpr Ty} (h : externalAlternative v = .ok r) (int : Bool) :
    r.cost env (Ty.bound env S) ≤ altBound env S int v := by
  unfold externalAlternative at h
  unfold altBound
  split at h
  · cases h
    simp only [RefExpr.cost, ModelExpr.cost, TypeExpr.cost, List.length_singleton]; omega
  · rename_i hs
    have := newtype_cost (env := env) (S := S) hs h int; omega
  · rename_i hs
    cases h
    rw [fields_copied (by rw [hs]; simp)]
    have := tuple_cost (env := env) (S := S) v.fields (fun f => v.attrs.inline || f.attrs.inline)
    simp only [RefExpr.cost, tupleModel, ModelExpr.cost]; omega
  · rename_i hs
    cases h
    rw [fields_copied (by rw [hs]; simp)]
    have := object_cost (env := env) (S := S) v.fields (fun f => v.attrs.inline || f.attrs.inline)
    simp only [RefExpr.cost, objectModel, ModelExpr.cost]; omega

theorem internal_cost {c : Container Ty} {tag : String} {v : Variant Ty} {r : RefExpr Ty}
    (h : internalAlternative c tag v = .ok r) : r.cost env (Ty.bound env S) ≤ altBound env S true v := by
  unfold internalAlternative at h
  cases hi : internalInner v with
  | error e => rw [hi] at h; cases h
  | ok m =>
    rw [hi] at h
    cases h
    unfold altBound
    unfold internalInner at hi
    split at hi
    · cases hi
      simp only [RefExpr.cost, objectModel, ModelExpr.cost, objectTypeDescription, List.filter_nil, List.map_nil,
        TypeExpr.cost, PropExpr.costs]; omega
    · rename_i hs
      split at hi
      · cases hi
      · rename_i f fs hf
        cases hi
        simp only [RefExpr.cost, ModelExpr.cost, Variant.copied, hs, if_true, hf, nodesFields, List.flatMap_cons,
          total_append, Ty.bound]
        omega
    · rename_i hs
      cases hi
      rw [fields_copied (by rw [hs]; simp)]
      have := object_cost (env := env) (S := S) v.fields (fun f => v.attrs.inline || f.attrs.inline)
      simp only [RefExpr.cost, objectModel, ModelExpr.cost]; omega
    · cases hi

theorem variants_bound (int : Bool) (vs : List (Variant Ty)) :
    total (altBound env S int) (serialVariants vs) + (serialVariants vs).length ≤ 40 * nodesVariants vs + total S (vs.flatMap (Variant.copied env int)) := by
  induction vs with
  | nil => simp [serialVariants, total]
  | cons v vs ih =>
    unfold serialVariants at *
    cases hs : v.attrs.skipSerializing <;>
      simp only [List.filter_cons, hs, Bool.not_true, Bool.not_false, Bool.false_eq_true, if_false, if_true, total, List.length_cons,
        altBound, nodesVariants, List.flatMap_cons, total_append] at * <;> omega

theorem alternatives_cost {f : Variant Ty → Except MacroPanic (RefExpr Ty)} (int : Bool)
    (hf : ∀ v r, f v = .ok r → r.cost env (Ty.bound env S) ≤ altBound env S int v) :
    ∀ (vs : List (Variant Ty)) (rs : List (RefExpr Ty)), mapExcept f vs = .ok rs →
      RefExpr.costs env (Ty.bound env S) rs ≤ total (altBound env S int) vs
  | [], rs, h => by
    unfold mapExcept at h; cases h; simp [RefExpr.costs]
  | v :: vs, rs, h => by
    unfold mapExcept at h
    cases hv : f v with
    | error e => rw [hv] at h; cases h
    | ok r =>
      rw [hv] at h
      simp only at h
      cases hr : mapExcept f vs with
      | error e => rw [hr] at h; cases h
      | ok rs' =>
        rw [hr] at h
        cases h
        have h1 := hf _ _ hv
        have h2 := alternatives_cost int hf vs rs' hr
        simp only [RefExpr.costs, total]; omega

theorem length_bound (vs : List (Variant Ty)) : (serialVariants vs).length ≤ nodesVariants vs := by
  induction vs with
  | nil => simp [serialVariants]
  | cons v vs ih =>
    unfold serialVariants at *
    cases hs : v.attrs.skipSerializing <;>
      simp only [List.filter_cons, hs, Bool.not_true, Bool.not_false, Bool.false_eq_true, if_false, if_true,
        List.length_cons, nodesVariants] at * <;> omega

theorem repr_cost (vs : List (Variant Ty)) :
    RefExpr.costs env (Ty.bound env S) (vs.filterMap reprAlternative) ≤ 11 * vs.length := by
  induction vs with
  | nil => simp [RefExpr.costs]
  | cons v vs ih =>
    rw [List.filterMap_cons]
    cases hd : v.discriminant with
    | none => simp only [reprAlternative, hd, Option.map_none, List.length_cons] at *; omega
    | some d =>
      simp only [reprAlternative, hd, Option.map_some, List.length_cons, RefExpr.costs, RefExpr.cost, ModelExpr.cost,
        TypeExpr.cost] at *
      omega

theorem enum_cost {c : Container Ty} {vs : List (Variant Ty)} {e : ModelExpr Ty} (h : serializeEnum c vs = .ok e) :
    e.cost env (Ty.bound env S) + 1 ≤ 40 * (1 + nodesVariants vs) + total S (vs.flatMap (Variant.copied env c.internal)) := by
  have hl := length_bound vs
  have hb := variants_bound (env := env) (S := S) c.internal vs
  unfold serializeEnum at h
  split at h
  · cases h
    unfold serializeNewtypeEnum
    split
    · have := repr_cost (env := env) (S := S) (serialVariants vs)
      simp only [ModelExpr.cost]; omega
    · simp only [ModelExpr.cost, TypeExpr.cost, List.length_map]; omega
  · unfold serializeAdjacentEnum at h
    split at h
    · cases h
    · rename_i rs hr
      cases h
      have := alternatives_cost (env := env) (S := S) c.internal (fun v r h => adjacent_cost h _) _ _ hr
      simp only [ModelExpr.cost, TypeExpr.cost, PropExpr.costs, RefExpr.cost, List.length_map]; omega
  · unfold serializeExternalEnum at h
    split at h
    · cases h
    · rename_i rs hr
      cases h
      have := alternatives_cost (env := env) (S := S) c.internal (fun v r h => external_cost h _) _ _ hr
      simp only [ModelExpr.cost, TypeExpr.cost, RefExpr.cost]; omega
  · unfold serializeUntaggedEnum at h
    split at h
    · cases h
    · rename_i rs hr
      cases h
      have := alternatives_cost (env := env) (S := S) c.internal (fun v r h => untagged_cost h _) _ _ hr
      simp only [ModelExpr.cost]; omega
  · rename_i tag hm ht
    unfold serializeInternalEnum at h
    split at h
    · cases h
    · rename_i rs hr
      cases h
      have hi : c.internal = true := by unfold Container.internal; rw [ht]
      rw [hi] at hb ⊢
      have := alternatives_cost (env := env) (S := S) true (fun v r h => internal_cost h) _ _ hr
      simp only [ModelExpr.cost]; omega
  · cases h

theorem body_cost {c : Container Ty} {e : ModelExpr Ty} (h : serializeBody c = .ok e) :
    e.cost env (Ty.bound env S) + 1 ≤ 40 * c.nodes + total S (c.copied env) := by
  unfold serializeBody at h
  unfold Container.nodes Container.copied
  split at h
  · rename_i vs hd
    have := enum_cost (env := env) (S := S) h
    rw [hd]
    exact this
  · rename_i fs hd
    cases h
    rw [hd]
    have := object_cost (env := env) (S := S) fs (fun f => f.attrs.inline)
    simp only [serializeStruct, ModelExpr.cost]; omega
  · rename_i fs hd
    cases h
    rw [hd]
    have := tuple_cost (env := env) (S := S) fs (fun f => f.attrs.inline)
    simp only [serializeTupleStruct, ModelExpr.cost]; omega
  · rename_i fs hd
    rw [hd]
    cases fs with
    | nil => cases h
    | cons f fs =>
      simp only at h
      unfold serializeNewtypeStruct at h
      simp only at h
      cases he : c.attrs.explicitModelType with
      | none =>
        rw [he] at h
        cases h
        simp only [ModelExpr.cost, Option.isSome_none, Bool.false_eq_true, if_false, nodesFields, List.flatMap_cons,
          total_append, Ty.bound]
        omega
      | some w =>
        rw [he] at h
        cases w <;> first | cases h | skip
        all_goals simp [newtypeModel, ModelExpr.cost, TypeExpr.cost, total, nodesFields]; omega
  · cases h

/-- The schema of a derived type is no larger than its declaration and what is copied into it. -/
theorem named_bound (hS : ∀ i m, HasSchema env (.named i) m → m.ser.nodes ≤ S i) {i : Nat} {m : Model}
    (h : HasSchema env (.named i) m) : m.ser.nodes ≤ 40 * (env.decl i).nodes + total S ((env.decl i).copied env) := by
  obtain ⟨cx, cx', n, h⟩ := h
  cases n with
  | zero => cases h
  | succ n =>
    unfold getSchema at h
    simp only [schemaExpr] at h
    cases hb : serializeBody (env.decl i) with
    | error e => rw [hb] at h; cases h
    | ok e =>
      rw [hb] at h
      have h1 := ModelExpr.eval_cost (B := Ty.bound env S) (fun t => t.bound_ge) (schema_bound hS n) e h
      have h2 := body_cost (env := env) (S := S) hb
      simp only [Model.ser, Value.nodes]
      omega
end

end Verif
