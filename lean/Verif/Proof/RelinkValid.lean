import Verif.Proof.Relink
import Verif.Proof.TextsValid
import Verif.Proof.Derive
/-!
# Types under other names: values, calls and documents
-/

namespace Verif

variable {ρ σ : String → String}

/-! ## Schemas -/

mutual
theorem Ref.wordless_idem : ∀ r : Ref, r.wordless.wordless = r.wordless
  | .link n => rfl
  | .inline m => by simp only [Ref.wordless, m.wordless_idem]
  | .any => rfl
theorem Model.wordless_idem : ∀ m : Model, m.wordless.wordless = m.wordless
  | ⟨d, data⟩ => by simp only [Model.wordless, data.wordless_idem]
theorem ModelData.wordless_idem : ∀ d : ModelData, d.wordless.wordless = d.wordless
  | .single ⟨n, td⟩ => by simp only [ModelData.wordless, td.wordless_idem]
  | .oneOf rs => by simp only [ModelData.wordless, wordlessList_idem rs]
  | .allOf rs => by simp only [ModelData.wordless, wordlessList_idem rs]
  | .anyOf rs => by simp only [ModelData.wordless, wordlessList_idem rs]
theorem TypeDesc.wordless_idem : ∀ td : TypeDesc, td.wordless.wordless = td.wordless
  | .string v f e => rfl
  | .number f e => rfl
  | .integer f e => rfl
  | .boolean => rfl
  | .array r => by simp only [TypeDesc.wordless, r.wordless_idem]
  | .object ⟨ps, none, rq⟩ => by simp only [TypeDesc.wordless, wordlessProps_idem ps]
  | .object ⟨ps, some a, rq⟩ => by simp only [TypeDesc.wordless, wordlessProps_idem ps, a.wordless_idem]
theorem wordlessList_idem : ∀ rs : List Ref, Ref.wordlessList (Ref.wordlessList rs) = Ref.wordlessList rs
  | [] => rfl
  | r :: rs => by simp only [Ref.wordlessList, r.wordless_idem, wordlessList_idem rs]
theorem wordlessProps_idem : ∀ ps : List (String × Ref), Ref.wordlessProps (Ref.wordlessProps ps) = Ref.wordlessProps ps
  | [] => rfl
  | (k, r) :: ps => by simp only [Ref.wordlessProps, r.wordless_idem, wordlessProps_idem ps]
end

mutual
theorem Ref.wordless_relinked : ∀ r : Ref, (r.relinked ρ).wordless = r.wordless.relinked ρ
  | .link n => rfl
  | .inline m => by simp only [Ref.wordless, Ref.relinked, m.wordless_relinked]
  | .any => rfl
theorem Model.wordless_relinked : ∀ m : Model, (m.relinked ρ).wordless = m.wordless.relinked ρ
  | ⟨d, data⟩ => by simp only [Model.wordless, Model.relinked, data.wordless_relinked]
theorem ModelData.wordless_relinked : ∀ d : ModelData, (d.relinked ρ).wordless = d.wordless.relinked ρ
  | .single ⟨n, td⟩ => by simp only [ModelData.wordless, ModelData.relinked, td.wordless_relinked]
  | .oneOf rs => by simp only [ModelData.wordless, ModelData.relinked, wordlessList_relinked rs]
  | .allOf rs => by simp only [ModelData.wordless, ModelData.relinked, wordlessList_relinked rs]
  | .anyOf rs => by simp only [ModelData.wordless, ModelData.relinked, wordlessList_relinked rs]
theorem TypeDesc.wordless_relinked : ∀ td : TypeDesc, (td.relinked ρ).wordless = td.wordless.relinked ρ
  | .string v f e => rfl
  | .number f e => rfl
  | .integer f e => rfl
  | .boolean => rfl
  | .array r => by simp only [TypeDesc.wordless, TypeDesc.relinked, r.wordless_relinked]
  | .object ⟨ps, none, rq⟩ => by simp only [TypeDesc.wordless, TypeDesc.relinked, wordlessProps_relinked ps]
  | .object ⟨ps, some a, rq⟩ => by simp only [TypeDesc.wordless, TypeDesc.relinked, wordlessProps_relinked ps, a.wordless_relinked]
theorem wordlessList_relinked : ∀ rs : List Ref, Ref.wordlessList (Ref.relinkedList ρ rs) = Ref.relinkedList ρ (Ref.wordlessList rs)
  | [] => rfl
  | r :: rs => by simp only [Ref.wordlessList, Ref.relinkedList, r.wordless_relinked, wordlessList_relinked rs]
theorem wordlessProps_relinked : ∀ ps : List (String × Ref),
    Ref.wordlessProps (Ref.relinkedProps ρ ps) = Ref.relinkedProps ρ (Ref.wordlessProps ps)
  | [] => rfl
  | (k, r) :: ps => by simp only [Ref.wordlessProps, Ref.relinkedProps, r.wordless_relinked, wordlessProps_relinked ps]
end

mutual
theorem Ref.relinked_back (h : ∀ n, σ (ρ n) = n) : ∀ r : Ref, (r.relinked ρ).relinked σ = r
  | .link n => by simp only [Ref.relinked, h]
  | .inline m => by simp only [Ref.relinked, m.relinked_back h]
  | .any => rfl
theorem Model.relinked_back (h : ∀ n, σ (ρ n) = n) : ∀ m : Model, (m.relinked ρ).relinked σ = m
  | ⟨d, data⟩ => by simp only [Model.relinked, data.relinked_back h]
theorem ModelData.relinked_back (h : ∀ n, σ (ρ n) = n) : ∀ d : ModelData, (d.relinked ρ).relinked σ = d
  | .single ⟨n, td⟩ => by simp only [ModelData.relinked, td.relinked_back h]
  | .oneOf rs => by simp only [ModelData.relinked, relinkedList_back h rs]
  | .allOf rs => by simp only [ModelData.relinked, relinkedList_back h rs]
  | .anyOf rs => by simp only [ModelData.relinked, relinkedList_back h rs]
theorem TypeDesc.relinked_back (h : ∀ n, σ (ρ n) = n) : ∀ td : TypeDesc, (td.relinked ρ).relinked σ = td
  | .string v f e => rfl
  | .number f e => rfl
  | .integer f e => rfl
  | .boolean => rfl
  | .array r => by simp only [TypeDesc.relinked, r.relinked_back h]
  | .object ⟨ps, none, rq⟩ => by simp only [TypeDesc.relinked, relinkedProps_back h ps]
  | .object ⟨ps, some a, rq⟩ => by simp only [TypeDesc.relinked, relinkedProps_back h ps, a.relinked_back h]
theorem relinkedList_back (h : ∀ n, σ (ρ n) = n) : ∀ rs : List Ref, Ref.relinkedList σ (Ref.relinkedList ρ rs) = rs
  | [] => rfl
  | r :: rs => by simp only [Ref.relinkedList, r.relinked_back h, relinkedList_back h rs]
theorem relinkedProps_back (h : ∀ n, σ (ρ n) = n) : ∀ ps : List (String × Ref), Ref.relinkedProps σ (Ref.relinkedProps ρ ps) = ps
  | [] => rfl
  | (k, r) :: ps => by simp only [Ref.relinkedProps, r.relinked_back h, relinkedProps_back h ps]
end

/-! ## Values -/

variable {x : Bool} {reg reg' : List (String × Model)}

theorem relinked_prop {ps : List (String × Ref)} {k : String} : BMap.get k (Ref.relinkedProps ρ ps) = (BMap.get k ps).map (Ref.relinked ρ) := by
  rw [relinkedProps_eq]; exact get_values (Ref.relinked ρ) k ps

theorem single_relinked {d n td} : (⟨d, .single ⟨n, td⟩⟩ : Model).relinked ρ = ⟨d, .single ⟨n, td.relinked ρ⟩⟩ := rfl
theorem oneOf_relinked {d rs} : (⟨d, .oneOf rs⟩ : Model).relinked ρ = ⟨d, .oneOf (rs.map (Ref.relinked ρ))⟩ := by
  rw [← relinkedList_eq]; rfl
theorem anyOf_relinked {d rs} : (⟨d, .anyOf rs⟩ : Model).relinked ρ = ⟨d, .anyOf (rs.map (Ref.relinked ρ))⟩ := by
  rw [← relinkedList_eq]; rfl
theorem allOf_relinked {d rs} : (⟨d, .allOf rs⟩ : Model).relinked ρ = ⟨d, .allOf (rs.map (Ref.relinked ρ))⟩ := by
  rw [← relinkedList_eq]; rfl

theorem ofType_relinked {td : TypeDesc} {j : Json} : OfType (td.relinked ρ) j ↔ OfType td j := by
  cases td with
  | object o => rw [object_relinked]; cases j <;> exact Iff.rfl
  | _ => cases j <;> exact Iff.rfl

mutual
theorem relink_valid (R : ∀ n m, BMap.get n reg = some m → BMap.get (ρ n) reg' = some (m.relinked ρ)) {r j} :
    Valid x reg r j → Valid x reg' (r.relinked ρ) j
  | .any => .any
  | .link hg hv => .link (R _ _ hg) (relink_validModel R hv)
  | .inline hv => .inline (relink_validModel R hv)
theorem relink_validModel (R : ∀ n m, BMap.get n reg = some m → BMap.get (ρ n) reg' = some (m.relinked ρ)) {m j} :
    ValidModel x reg m j → ValidModel x reg' (m.relinked ρ) j
  | .null => .null
  | .string h => .string h
  | .number => .number
  | .numberInt => .numberInt
  | .integer => .integer
  | .boolean => .boolean
  | .array h => .array fun y hy => relink_valid R (h y hy)
  | .object hr hp ha => by
    rw [single_relinked, object_relinked]
    refine .object hr ?_ ?_
    · intro k v r' hm hg
      rw [relinked_prop] at hg
      obtain ⟨r, hr, rfl⟩ := Option.map_eq_some_iff.1 hg
      exact relink_valid R (hp k v r hm hr)
    · intro k v r' hm hg hh
      rw [relinked_prop, Option.map_eq_none_iff] at hg
      obtain ⟨r, hr, rfl⟩ := Option.map_eq_some_iff.1 hh
      exact relink_valid R (ha k v r hm hg hr)
  | .oneOf (pre := pre) (r := r) (post := post) he hv hx => by
    rw [oneOf_relinked]
    refine .oneOf (pre := pre.map (Ref.relinked ρ)) (r := r.relinked ρ) (post := post.map (Ref.relinked ρ))
      (by rw [he, List.map_append, List.map_cons]) (relink_valid R hv) ?_
    intro hx' q' hq'
    rw [← List.map_append] at hq'
    obtain ⟨q, hq, rfl⟩ := List.mem_map.1 hq'
    exact relink_invalid R (hx hx' q hq)
  | .anyOf h hv => by
    rw [anyOf_relinked]
    exact .anyOf (List.mem_map.2 ⟨_, h, rfl⟩) (relink_valid R hv)
  | .allOf h => by
    rw [allOf_relinked]
    refine .allOf fun q' hq' => ?_
    obtain ⟨q, hq, rfl⟩ := List.mem_map.1 hq'
    exact relink_valid R (h q hq)
theorem relink_invalid (R : ∀ n m, BMap.get n reg = some m → BMap.get (ρ n) reg' = some (m.relinked ρ)) {r j} :
    Invalid x reg r j → Invalid x reg' (r.relinked ρ) j
  | .link hg hv => .link (R _ _ hg) (relink_invalidModel R hv)
  | .inline hv => .inline (relink_invalidModel R hv)
theorem relink_invalidModel (R : ∀ n m, BMap.get n reg = some m → BMap.get (ρ n) reg' = some (m.relinked ρ)) {m j} :
    InvalidModel x reg m j → InvalidModel x reg' (m.relinked ρ) j
  | .type hn h => .type hn fun h' => h (ofType_relinked.1 h')
  | .string h => .string h
  | .item hm hv => .item hm (relink_invalid R hv)
  | .required h hk => by
    rw [single_relinked, object_relinked]
    exact .required h hk
  | .property h hg hv => by
    rw [single_relinked, object_relinked]
    exact .property h (by rw [relinked_prop, hg]; rfl) (relink_invalid R hv)
  | .additional h hg ha hv => by
    rw [single_relinked, object_relinked]
    exact .additional h (by rw [relinked_prop, hg]; rfl) (by rw [ha]; rfl) (relink_invalid R hv)
  | .oneOfNone h => by
    rw [oneOf_relinked]
    refine .oneOfNone fun q' hq' => ?_
    obtain ⟨q, hq, rfl⟩ := List.mem_map.1 hq'
    exact relink_invalid R (h q hq)
  | .oneOfTwo (pre := pre) (r := r) (mid := mid) (r' := r2) (post := post) he e hv hv' => by
    rw [oneOf_relinked]
    exact .oneOfTwo (pre := pre.map (Ref.relinked ρ)) (r := r.relinked ρ) (mid := mid.map (Ref.relinked ρ)) (r' := r2.relinked ρ)
      (post := post.map (Ref.relinked ρ)) he (by rw [e]; simp) (relink_valid R hv) (relink_valid R hv')
  | .anyOf h => by
    rw [anyOf_relinked]
    refine .anyOf fun q' hq' => ?_
    obtain ⟨q, hq, rfl⟩ := List.mem_map.1 hq'
    exact relink_invalid R (h q hq)
  | .allOf h hv => by
    rw [allOf_relinked]
    exact .allOf (List.mem_map.2 ⟨_, h, rfl⟩) (relink_invalid R hv)
end

theorem wordlessSchemas_idem (reg : List (String × Model)) : wordlessSchemas reg = wordlessSchemas (wordlessSchemas reg) := by
  simp only [wordlessSchemas, List.map_map]
  refine List.map_congr_left fun a _ => ?_
  simp only [Function.comp, Model.wordless_idem]

theorem get_wordless (n : String) (reg : List (String × Model)) :
    BMap.get n (wordlessSchemas reg) = (BMap.get n reg).map Model.wordless := get_values Model.wordless n reg

theorem values_relink (inj : ∀ a b, ρ a = ρ b → a = b) {cx cx' : Components} (h : Moved ρ cx cx') {r r' : Ref} (hr : RefRenamed ρ r r')
    (j : Json) : (Valid x cx.schemas r j ↔ Valid x cx'.schemas r' j) ∧ (Invalid x cx.schemas r j ↔ Invalid x cx'.schemas r' j) := by
  have R : ∀ n m, BMap.get n (wordlessSchemas cx.schemas) = some m →
      BMap.get (ρ n) (wordlessSchemas cx'.schemas) = some (m.relinked ρ) := by
    intro n m hm
    rw [get_wordless] at hm ⊢
    rw [h.get n]
    cases hg : BMap.get n cx.schemas with
    | none => rw [hg] at hm; cases hm
    | some m0 => rw [hg] at hm; cases hm; rfl
  obtain ⟨σ, hσ⟩ : ∃ σ : String → String, ∀ n, σ (ρ n) = n := by
    classical
    refine ⟨fun k => if h : ∃ n, ρ n = k then h.choose else k, fun n => ?_⟩
    have h : ∃ n', ρ n' = ρ n := ⟨n, rfl⟩
    simp only [h, dite_true]
    exact inj _ _ h.choose_spec
  have R' : ∀ n m, BMap.get n (wordlessSchemas cx'.schemas) = some m →
      BMap.get (σ n) (wordlessSchemas cx.schemas) = some (m.relinked σ) := by
    intro k m hm
    rw [get_wordless] at hm ⊢
    cases hg : BMap.get k cx'.schemas with
    | none => rw [hg] at hm; cases hm
    | some m0 =>
      rw [hg] at hm
      cases hm
      obtain ⟨n, rfl⟩ := h.image k m0 hg
      have := h.get n
      rw [hg] at this
      rw [hσ]
      cases hn : BMap.get n cx.schemas with
      | none => rw [hn] at this; cases this
      | some m1 =>
        rw [hn] at this
        simp only [Option.map_some, Option.some.injEq] at this ⊢
        rw [this, Model.relinked_back hσ]
  have hr : r.wordless.relinked ρ = r'.wordless := hr
  have hr' : r'.wordless.relinked σ = r.wordless := by rw [← hr, Ref.relinked_back hσ]
  have I := wordlessSchemas_idem
  refine ⟨⟨fun hv => ?_, fun hv => ?_⟩, ⟨fun hv => ?_, fun hv => ?_⟩⟩
  · have := relink_valid R (words_valid (I _) hv (r.wordless_idem).symm)
    rw [hr] at this
    exact words_valid (I _).symm this r'.wordless_idem
  · have := relink_valid R' (words_valid (I _) hv (r'.wordless_idem).symm)
    rw [hr'] at this
    exact words_valid (I _).symm this r.wordless_idem
  · have := relink_invalid R (words_invalid (I _) hv (r.wordless_idem).symm)
    rw [hr] at this
    exact words_invalid (I _).symm this r'.wordless_idem
  · have := relink_invalid R' (words_invalid (I _) hv (r'.wordless_idem).symm)
    rw [hr'] at this
    exact words_invalid (I _).symm this r.wordless_idem

/-! ## Calls -/

variable {env env' : Env}

theorem addModel_relink (inj : ∀ a b, ρ a = ρ b → a = b) {cx cx' : Components} (hc : Moved ρ cx cx') (n : String) (m : Model) :
    Moved ρ (cx.addModel n m) (cx'.addModel (ρ n) (m.relinked ρ)) := by
  unfold Components.addModel
  rw [hc.containsKey]
  split
  · exact hc
  · exact hc.insert inj n (Model.wordless_relinked m).symm

theorem security_relink {cx cx' : Components} (hc : Moved ρ cx cx') (n : String) (s : SecurityScheme) :
    (cx.mentionSecurityScheme n s).1 = (cx'.mentionSecurityScheme n s).1 ∧
    Moved ρ (cx.mentionSecurityScheme n s).2 (cx'.mentionSecurityScheme n s).2 := by
  unfold Components.mentionSecurityScheme
  rw [hc.security]
  split
  · exact ⟨rfl, hc⟩
  · exact ⟨rfl, hc.image, hc.get, rfl⟩

theorem calls_relink (inj : ∀ a b, ρ a = ρ b → a = b) (same : TypesRenamed ρ env env') {calls rs cx1 cx2}
    (run : CallsReturn env cx1 calls rs cx2) : ∀ {cx1'}, Moved ρ cx1 cx1' →
    ∃ rs' cx2', CallsReturn env' cx1' (calls.map (Call.relinked ρ)) rs' cx2' ∧ Pointwise (RefRenamed ρ) rs rs' ∧ Moved ρ cx2 cx2' := by
  induction run with
  | nil => intro cx1' hc; exact ⟨_, _, .nil _, .nil, hc⟩
  | @mention cx t i p r cx1 calls rs cx2 h hr ih =>
    intro cx1' hc
    obtain ⟨n, h⟩ := h
    have hs := mentionSchema_relink inj same n t i p hc
    rw [h] at hs
    generalize hy : mentionSchema env' n t i p cx1' = y at hs
    cases hs with
    | some h1 h2 =>
      obtain ⟨rs', cx2', a, b, c⟩ := ih h2
      exact ⟨_, _, .mention ⟨n, hy⟩ a, .cons h1 b, c⟩
  | @addModel cx n m calls rs cx2 hr ih =>
    intro cx1' hc
    obtain ⟨rs', cx2', a, b, c⟩ := ih (addModel_relink inj hc n m)
    exact ⟨_, _, .addModel a, b, c⟩
  | @security cx n s calls rs cx2 hr ih =>
    intro cx1' hc
    obtain ⟨rs', cx2', a, b, c⟩ := ih (security_relink hc n s).2
    exact ⟨_, _, .security a, b, c⟩

/-! ## Documents -/

theorem askTo_relink (inj : ∀ a b, ρ a = ρ b → a = b) (same : TypesRenamed ρ env env') (n : Nat) (reason : Nat → Option String) :
    AskTo true (RefRenamed ρ) (Moved ρ) (fun _ => True) (fun r => RefRenamed ρ r r) (⟨env, n, reason⟩ : Ctx) (⟨env', n, reason⟩ : Ctx) := by
  refine ⟨rfl, ?_, fun _ h => h, ?_, ?_⟩
  · intro t _ cx cx' hc r cx1 hr
    have h := mentionSchema_relink inj same n t false {} hc
    have e : mentionSchema env n t false {} cx = some (r, cx1) := hr
    rw [e] at h
    have e' : Mentioner.ask (⟨env', n, reason⟩ : Ctx) t cx' = mentionSchema env' n t false {} cx' := rfl
    rw [e']
    generalize mentionSchema env' n t false {} cx' = y at h ⊢
    cases h with
    | some h hc => exact ⟨h, hc⟩
  · intro m s cx cx' hc a cx1 hx
    have h := security_relink hc m s
    simp only [Option.some.injEq] at hx
    rw [hx] at h
    exact h
  · intro m s cx cx' hc
    exact ⟨hc.image, hc.get, congrArg (BMap.insert m s) hc.security⟩

theorem swapName_inj (a b m n : String) (h : swapName a b m = swapName a b n) : m = n := by
  unfold swapName at h
  repeat' split at h
  all_goals simp_all

/-! ## The macro -/

theorem container_renamed {o : Oracle} {i : DeriveInput Ty} {c : Container Ty} (x : String)
    (h : containerFromAst o i = some (some c, [])) : ∃ y, containerFromAst o { i with ident := x } =
      some (some { c with ident := x, attrs := { c.attrs with name := y } }, []) := by
  have e : containerAttrsFromAst o { i with ident := x } =
      ({ (containerAttrsFromAst o i).1 with name := (containerAttrsFromAst o { i with ident := x }).1.name }, (containerAttrsFromAst o i).2) := rfl
  refine ⟨(containerAttrsFromAst o { i with ident := x }).1.name, ?_⟩
  unfold containerFromAst at h ⊢
  obtain ⟨id, attrs, data⟩ := i
  rw [e]
  generalize (containerAttrsFromAst o ⟨x, attrs, data⟩).1.name = y
  generalize containerAttrsFromAst o ⟨id, attrs, data⟩ = ca at h ⊢
  obtain ⟨ca, errs⟩ := ca
  cases data with
  | union => simp at h
  | enum vs =>
    simp only at h ⊢
    split at h
    · rename_i hc
      rw [if_pos hc]
      cases hm : mapPanic (Variant.rename o.isUpper ca.renameRule) (variantsFromAst o vs).1 with
      | none => rw [hm] at h; cases h
      | some ws =>
        rw [hm] at h
        simp only [Option.some.injEq, Prod.mk.injEq] at h ⊢
        obtain ⟨rfl, h⟩ := h
        exact ⟨rfl, h⟩
    · simp at h
  | struct fs =>
    simp only at h ⊢
    cases hm : mapPanic (Field.rename ca.renameRule) (structFromAst o fs).1.2 with
    | none => rw [hm] at h; cases h
    | some ws =>
      rw [hm] at h
      simp only [Option.some.injEq, Prod.mk.injEq] at h ⊢
      obtain ⟨rfl, h⟩ := h
      exact ⟨rfl, h⟩

theorem derive_renamed {o : Oracle} {i : DeriveInput Ty} {c : Container Ty} {b : ModelExpr Ty} (x : String) (h : derive o i = .code c b) :
    ∃ y b', derive o { i with ident := x } = .code { c with ident := x, attrs := { c.attrs with name := y } } b' := by
  obtain ⟨h1, h2⟩ := derive_code h
  obtain ⟨y, e⟩ := container_renamed x h1
  have hb := body_renamed c x y
  rw [h2] at hb
  cases hs : serializeBody { c with ident := x, attrs := { c.attrs with name := y } } with
  | error p => rw [hs] at hb; cases hb
  | ok b' =>
    refine ⟨y, b', ?_⟩
    unfold derive
    rw [e]
    simp only [List.isEmpty_nil, if_true, hs]

end Verif
