import Verif.Spec.Impls
import Verif.Props.Samples
/-!
# C77: `impl_opg_model!` and the impls of the library
-/

namespace Verif

theorem readTypeIdents_iff (ts : List ImplTok) (xs : List String) :
    readTypeIdents ts = some xs ↔ xs ≠ [] ∧ ts = commaTokens xs := by
  induction xs generalizing ts with
  | nil =>
    simp only [ne_eq, not_true_eq_false, false_and, iff_false]
    intro h
    unfold readTypeIdents at h
    split at h
    · cases h
    · rw [Option.map_eq_some_iff] at h
      obtain ⟨_, _, h⟩ := h
      cases h
    · cases h
  | cons x xs ih =>
    simp only [ne_eq, reduceCtorEq, not_false_eq_true, true_and]
    constructor
    · intro h
      unfold readTypeIdents at h
      split at h
      · cases h; rfl
      · rw [Option.map_eq_some_iff] at h
        obtain ⟨ys, hy, h⟩ := h
        cases h
        obtain ⟨hne, rfl⟩ := (ih _).mp hy
        cases xs with
        | nil => exact absurd rfl hne
        | cons y ys => rfl
      · cases h
    · rintro rfl
      cases xs with
      | nil => rfl
      | cons y ys =>
        have := (ih (commaTokens (y :: ys))).mpr ⟨by simp, rfl⟩
        simp only [commaTokens, readTypeIdents] at this ⊢
        simp [this]

theorem kindExpr_iff (k : String) (f : Option LitTok) (e : ModelExpr String) :
    kindExpr k f = some e ↔ ∃ kind : SimpleKind, k = kind.keyword ∧ (kind = .boolean → f = none) ∧
      e = (ImplForm.leaf kind f true).schema := by
  have key : kindExpr k f =
      if k = "string" then some (ImplForm.leaf .string f true).schema
      else if k = "number" then some (ImplForm.leaf .number f true).schema
      else if k = "integer" then some (ImplForm.leaf .integer f true).schema
      else if k = "boolean" ∧ f = none then some (ImplForm.leaf .boolean f true).schema
      else none := by
    unfold kindExpr
    cases f with
    | none =>
      simp only [readType, readLeaf, optLit, readVariants]
      repeat' split
      all_goals simp_all [ImplForm.schema]
      all_goals grind
    | some l =>
      simp only [readType, readLeaf, optLit]
      cases l <;>
      · simp [readVariants, LitTok.val, Val.display]
        repeat' split
        all_goals simp_all [ImplForm.schema, LitTok.display]
        all_goals grind
  rw [key]
  constructor
  · intro h
    split at h
    · cases h; subst k; exact ⟨.string, rfl, nofun, rfl⟩
    · split at h
      · cases h; subst k; exact ⟨.number, rfl, nofun, rfl⟩
      · split at h
        · cases h; subst k; exact ⟨.integer, rfl, nofun, rfl⟩
        · split at h
          · rename_i hk
            cases h; obtain ⟨rfl, rfl⟩ := hk; exact ⟨.boolean, rfl, fun _ => rfl, rfl⟩
          · cases h
  · rintro ⟨kind, rfl, hb, rfl⟩
    cases kind <;> simp_all [SimpleKind.keyword]

theorem implGives_unique {f : ImplForm} {self} {c c' : ImplCode} (h : f.Gives self c) (h' : f.Gives self c') : c = c' := by
  obtain ⟨a, b, d, e, g, i⟩ := h
  obtain ⟨a', b', d', e', g', i'⟩ := h'
  cases c; cases c'
  simp only at a a' b b' d d' e e' g g' i i'
  rw [a, b, d, e, g, i, a', b', d', e', g', i']

theorem expandKind_iff (kind : String) (args : Option (List ImplTok)) (self : List ImplTok) (hs : self ≠ []) (c : ImplCode) :
    expandKind kind args self = some c ↔ ∃ k f i, (ImplForm.leaf k f i).Fits self ∧ (ImplForm.leaf k f i).Gives self c ∧
      (ImplForm.leaf k f i).tokens = .ident kind :: (match args with | none => [] | some ts => [.group .paren ts]) := by
  have fits : ∀ (k : SimpleKind) f i, (k = .boolean → f = none) ↔ (ImplForm.leaf k f i).Fits self := by
    intro k f i
    cases k <;> simp [ImplForm.Fits, hs]
  constructor
  · intro h
    unfold expandKind at h
    split at h
    all_goals first
      | cases h; done
      | (rw [Option.map_eq_some_iff] at h
         obtain ⟨e, he, rfl⟩ := h
         obtain ⟨k, rfl, hb, rfl⟩ := (kindExpr_iff _ _ _).mp he
         first
           | exact ⟨k, none, false, (fits _ _ _).mp hb, ⟨rfl, rfl, rfl, by cases k <;> rfl, rfl, rfl⟩, rfl⟩
           | exact ⟨k, some _, false, (fits _ _ _).mp hb, ⟨rfl, rfl, rfl, by cases k <;> rfl, rfl, rfl⟩, rfl⟩
           | exact ⟨k, none, true, (fits _ _ _).mp hb, ⟨rfl, rfl, rfl, by cases k <;> rfl, rfl, rfl⟩, rfl⟩
           | exact ⟨k, some _, true, (fits _ _ _).mp hb, ⟨rfl, rfl, rfl, by cases k <;> rfl, rfl, rfl⟩, rfl⟩)
  · rintro ⟨k, f, i, hf, hg, ht⟩
    have hb := (fits _ _ _).mpr hf
    have he : kindExpr k.keyword f = some (ImplForm.leaf k f true).schema := (kindExpr_iff _ _ _).mpr ⟨k, rfl, hb, rfl⟩
    cases args with
    | none =>
      cases f <;> cases i <;> simp only [ImplForm.tokens, List.cons.injEq, ImplTok.ident.injEq, reduceCtorEq, and_false, and_true] at ht
      subst ht
      simp only [expandKind, he, Option.map_some, Option.some.injEq]
      exact implGives_unique ⟨rfl, rfl, rfl, by cases k <;> rfl, rfl, rfl⟩ hg
    | some ts =>
      cases f <;> cases i <;> simp only [ImplForm.tokens, List.cons.injEq, ImplTok.ident.injEq, ImplTok.group.injEq, reduceCtorEq, and_false, and_true, true_and] at ht
      all_goals
        obtain ⟨rfl, rfl⟩ := ht
        simp only [expandKind, he, Option.map_some, Option.some.injEq]
        exact implGives_unique ⟨rfl, rfl, rfl, by cases k <;> rfl, rfl, rfl⟩ hg

theorem SimpleKind.keyword_not_generic (k : SimpleKind) : k.keyword ≠ "generic_simple" ∧ k.keyword ≠ "generic_tuple" ∧
    k.keyword ≠ "generic_array" ∧ k.keyword ≠ "generic_dictionary" := by
  cases k <;> decide

theorem expandRules_iff (kind : String) (args : Option (List ImplTok)) (self : List ImplTok) (hs : self ≠ []) (c : ImplCode) :
    expandRules kind args self = some c ↔ ∃ f : ImplForm, f.Fits self ∧ f.Gives self c ∧
      f.tokens = .ident kind :: (match args with | none => [] | some ts => [.group .paren ts]) := by
  constructor
  · intro h
    have leaf : expandKind kind args self = some c → ∃ f : ImplForm, f.Fits self ∧ f.Gives self c ∧
        f.tokens = .ident kind :: (match args with | none => [] | some ts => [.group .paren ts]) := by
      intro h
      obtain ⟨k, f, i, h⟩ := (expandKind_iff _ _ _ hs _).mp h
      exact ⟨_, h⟩
    unfold expandRules at h
    split at h
    · cases h; exact ⟨.wrapper true none, hs, ⟨rfl, rfl, rfl, rfl, rfl, rfl⟩, rfl⟩
    · cases h; exact ⟨.wrapper true (some _), hs, ⟨rfl, rfl, rfl, rfl, rfl, rfl⟩, rfl⟩
    · cases h; exact ⟨.wrapper false none, hs, ⟨rfl, rfl, rfl, rfl, rfl, rfl⟩, rfl⟩
    · cases h; exact ⟨.wrapper false (some _), hs, ⟨rfl, rfl, rfl, rfl, rfl, rfl⟩, rfl⟩
    · split at h
      · rename_i hx
        cases h
        obtain ⟨hne, rfl⟩ := (readTypeIdents_iff _ _).mp hx
        refine ⟨.tuple _, ⟨hne, rfl⟩, ⟨rfl, ?_, rfl, rfl, rfl, rfl⟩, rfl⟩
        simp [tupleImpl, ImplForm.bounds, Function.comp_def]
      · exact leaf h
    · cases h; exact ⟨.sequence, hs, ⟨rfl, rfl, rfl, rfl, rfl, rfl⟩, rfl⟩
    · cases h; exact ⟨.dictionary, hs, ⟨rfl, rfl, rfl, rfl, rfl, rfl⟩, rfl⟩
    · exact leaf h
  · rintro ⟨f, hf, hg, ht⟩
    cases f with
    | leaf k f i =>
      have hk := (expandKind_iff kind args self hs c).mpr ⟨k, f, i, hf, hg, ht⟩
      have : kind = k.keyword := by
        cases f <;> cases i <;> simp only [ImplForm.tokens, List.cons.injEq, ImplTok.ident.injEq] at ht <;> exact ht.1.symm
      have hne := k.keyword_not_generic
      rw [← this] at hne
      unfold expandRules
      split <;> first | exact hk | exact absurd rfl hne.1 | exact absurd rfl hne.2.1 | exact absurd rfl hne.2.2.1 | exact absurd rfl hne.2.2.2
    | tuple xs =>
      obtain ⟨hne, rfl⟩ := hf
      cases args <;> simp only [ImplForm.tokens, List.cons.injEq, ImplTok.ident.injEq, reduceCtorEq, and_false, and_true] at ht
      subst ht
      simp only [expandRules, (readTypeIdents_iff _ _).mpr ⟨hne, rfl⟩, Option.some.injEq]
      refine implGives_unique ⟨rfl, ?_, rfl, rfl, rfl, rfl⟩ hg
      simp [tupleImpl, ImplForm.bounds, Function.comp_def]
    | sequence =>
      cases args <;> simp only [ImplForm.tokens, List.cons.injEq, ImplTok.ident.injEq, reduceCtorEq, and_false, and_true] at ht
      subst ht
      exact congrArg some (implGives_unique ⟨rfl, rfl, rfl, rfl, rfl, rfl⟩ hg)
    | dictionary =>
      cases args <;> simp only [ImplForm.tokens, List.cons.injEq, ImplTok.ident.injEq, reduceCtorEq, and_false, and_true] at ht
      subst ht
      exact congrArg some (implGives_unique ⟨rfl, rfl, rfl, rfl, rfl, rfl⟩ hg)
    | wrapper n r =>
      cases args <;> cases n <;> cases r <;>
        simp only [ImplForm.tokens, List.cons.injEq, ImplTok.ident.injEq, ImplTok.group.injEq, reduceCtorEq, and_false, and_true, true_and] at ht
      · subst ht
        exact congrArg some (implGives_unique ⟨rfl, rfl, rfl, rfl, rfl, rfl⟩ hg)
      all_goals
        obtain ⟨rfl, rfl⟩ := ht
        exact congrArg some (implGives_unique ⟨rfl, rfl, rfl, rfl, rfl, rfl⟩ hg)

/-- C77, part 1: `impl_opg_model!` accepts exactly the invocations of the documented forms, and expands each of them to the
impl its form stands for. -/
theorem c77_accepts (ts : List ImplTok) (c : ImplCode) :
    expandImpl ts = some c ↔ ∃ (f : ImplForm) (self : List ImplTok),
      ts = f.tokens ++ .punct ":" :: self ∧ f.Fits self ∧ f.Gives self c := by
  have fits_ne : ∀ (f : ImplForm) self, f.Fits self → self ≠ [] := by
    intro f self h
    unfold ImplForm.Fits at h
    split at h
    · rw [h.2]; simp
    · exact h.2
    · exact h
  constructor
  · intro h
    unfold expandImpl at h
    split at h
    · rename_i kind self
      cases self with
      | nil => cases h
      | cons a as =>
        obtain ⟨f, hf, hg, ht⟩ := (expandRules_iff _ _ _ (by simp) _).mp h
        exact ⟨f, a :: as, by rw [ht]; rfl, hf, hg⟩
    · rename_i kind args self
      cases self with
      | nil => cases h
      | cons a as =>
        obtain ⟨f, hf, hg, ht⟩ := (expandRules_iff _ _ _ (by simp) _).mp h
        exact ⟨f, a :: as, by rw [ht]; rfl, hf, hg⟩
    · cases h
  · rintro ⟨f, self, rfl, hf, hg⟩
    have hs := fits_ne f self hf
    have hself : nonEmpty self = some self := by cases self <;> simp_all [nonEmpty]
    have shape : (∃ kind, f.tokens = [.ident kind]) ∨ ∃ kind args, f.tokens = [.ident kind, .group .paren args] := by
      unfold ImplForm.tokens
      split <;> first | exact .inl ⟨_, rfl⟩ | exact .inr ⟨_, _, rfl⟩
    rcases shape with ⟨kind, hk⟩ | ⟨kind, args, hk⟩
    · rw [hk]
      simp only [List.cons_append, List.nil_append, expandImpl, hself, Option.bind_some]
      exact (expandRules_iff _ _ _ hs _).mpr ⟨f, hf, hg, hk⟩
    · rw [hk]
      simp only [List.cons_append, List.nil_append, expandImpl, hself, Option.bind_some]
      exact (expandRules_iff _ _ _ hs _).mpr ⟨f, hf, hg, hk⟩

/-- The code of a form. -/
def formCode (f : ImplForm) (self : List ImplTok) : ImplCode :=
  ⟨match f with | .dictionary => ["K", "T"] | f => f.bounds.map Prod.fst, f.bounds, self, f.schema,
    if f.alwaysInline then none else some "T", f.alwaysInline⟩

theorem formCode_gives (f : ImplForm) (self : List ImplTok) : f.Gives self (formCode f self) := ⟨rfl, rfl, rfl, rfl, rfl, rfl⟩

theorem expandImpl_form {f : ImplForm} {self : List ImplTok} (h : f.Fits self) :
    expandImpl (f.tokens ++ .punct ":" :: self) = some (formCode f self) :=
  (c77_accepts _ _).mpr ⟨f, self, rfl, h, formCode_gives f self⟩

/-- `impl_opg_model!(integer(always_inline, "money"): Money)` -/
example : ∃ c, expandImpl [.ident "integer", .group .paren [.ident "always_inline", .punct ",", .lit (.str "money")], .punct ":",
    .ident "Money"] = some c ∧ c.body = .single none false (.integer (some "money") none) ∧ c.inline = true :=
  ⟨_, expandImpl_form (f := .leaf .integer (some (.str "money")) true) (self := [.ident "Money"]) (by simp [ImplForm.Fits]), rfl, rfl⟩
/-- Rejected: `boolean(always_inline, "x"): Flag` and `generic_tuple: Pair`. -/
example : (expandImpl [.ident "boolean", .group .paren [.ident "always_inline", .punct ",", .lit (.str "x")], .punct ":",
    .ident "Flag"]).isNone := by decide +kernel
example : (expandImpl [.ident "generic_tuple", .punct ":", .ident "Pair"]).isNone := by decide +kernel

/-! ## Scoping -/

/-- C77 is false of the form without `always_inline`: its code refers to a type `T` that the impl does not declare
(`impl_opg_model!(string: Name)`). -/
theorem c77_is_false : ∃ (ts : List ImplTok) (c : ImplCode), expandImpl ts = some c ∧ ¬c.Scoped := by
  refine ⟨_, _, expandImpl_form (f := .leaf .string none false) (self := [.ident "Name"]) (by simp [ImplForm.Fits]), ?_⟩
  intro h
  exact nomatch (h "T" (.inr rfl)).1

/-- C77, part 2, for all forms but the one of `c77_is_false`: the methods of the impl name only its type parameters, which
are bounded.  Missing: `kind: Type` and `kind("format"): Type`, whose expansion is scoped for no type. -/
theorem c77_scoped_partial (f : ImplForm) (self : List ImplTok) (c : ImplCode) (h : f.Gives self c) :
    c.Scoped ↔ ∀ k l, f ≠ .leaf k l false := by
  obtain ⟨hs, hp, hb, he, hn, hi⟩ := h
  constructor
  · rintro hsc k l rfl
    have := (hsc "T" (.inr hn)).1
    rw [hp] at this
    exact nomatch this
  · intro hf x hx
    unfold ImplCode.Names at hx
    rw [hp, hb]
    rw [he, hn] at hx
    cases f with
    | leaf k l i =>
      cases i with
      | false => exact absurd rfl (hf k l)
      | true => cases k <;> simp [ImplForm.schema, ModelExpr.asked, TypeExpr.asked, ImplForm.alwaysInline] at hx
    | wrapper n r =>
      have : x = "T" := by
        cases n <;> simp [ImplForm.schema, ModelExpr.asked, ImplForm.alwaysInline] at hx
        · rcases hx with hx | hx <;> simp_all
        · rcases hx with hx | hx <;> simp_all
      subst this
      cases r <;> simp [ImplForm.bounds]
    | tuple xs =>
      have : x ∈ xs := by
        simp only [ImplForm.schema, ModelExpr.asked, ImplForm.alwaysInline, TypeExpr.asked, RefExpr.asked, if_true, reduceCtorEq,
          or_false] at hx
        obtain ⟨b, hx⟩ := hx
        clear hp hb he hn hi hf
        induction xs with
        | nil => cases hx
        | cons y ys ih =>
          simp only [List.map_cons, RefExpr.askedList, RefExpr.asked, List.cons_append, List.nil_append, List.mem_cons, Prod.mk.injEq] at hx
          rcases hx with ⟨rfl, _⟩ | hx
          · exact .head _
          · exact .tail _ (ih hx)
      refine ⟨by simp [ImplForm.bounds, this], ["OpgModel"], ?_, .head _⟩
      exact List.mem_map.mpr ⟨x, this, rfl⟩
    | sequence =>
      have : x = "T" := by
        simpa [ImplForm.schema, ModelExpr.asked, ImplForm.alwaysInline, TypeExpr.asked, RefExpr.asked] using hx
      subst this
      simp [ImplForm.bounds]
    | dictionary =>
      have : x = "T" := by
        simpa [ImplForm.schema, ModelExpr.asked, ImplForm.alwaysInline, TypeExpr.asked, RefExpr.asked] using hx
      subst this
      simp [ImplForm.bounds]

/-! ## The impls of the library -/

mutual
/-- A rendering of tokens (to tell them apart). -/
def ImplTok.text : ImplTok → String
  | .ident s => s
  | .lit l => l.display
  | .punct s => s
  | .group _ ts => "(" ++ ImplTok.texts ts ++ ")"
def ImplTok.texts : List ImplTok → String
  | [] => ""
  | t :: ts => t.text ++ " " ++ ImplTok.texts ts
end

theorem libImpls_all : libUses.all (fun ts => (expandImpl ts).isSome) = true := by decide +kernel

theorem libImpls_nodup : (libImpls.map fun c => ImplTok.texts c.self).Nodup := by decide +kernel

theorem libImpls_unique {c c' : ImplCode} (h : c ∈ libImpls) (h' : c' ∈ libImpls) (hs : c.self = c'.self) : c = c' := by
  have := libImpls_nodup
  revert this h h'
  generalize libImpls = l
  intro h h' this
  induction l with
  | nil => cases h
  | cons a l ih =>
    simp only [List.map_cons, List.nodup_cons, List.mem_map, not_exists, not_and] at this
    rcases List.mem_cons.mp h with rfl | h1 <;> rcases List.mem_cons.mp h' with rfl | h2
    · rfl
    · exact absurd (by rw [hs]) (this.1 _ h2)
    · exact absurd (by rw [hs]) (this.1 _ h1)
    · exact ih h1 h2 this.2

/-- C77, part 3: every built-in type has exactly one impl written by the macro, and that impl is the one whose schema, name
and inlining the model assumes. -/
theorem c77_builtin (env : Env) (t : Ty) (self : List ImplTok) (ht : t.head = some self) (size : t.SizeOk) :
    ∃ c ∈ libImpls, c.self = self ∧ (∀ c' ∈ libImpls, c'.self = self → c' = c) ∧
      c.body.subst t.args = schemaExpr env t ∧
      typeName env t = c.nameOf.bind (fun x => (t.args x).bind (typeName env)) ∧
      alwaysInline env t = c.inline := by
  have pick : ∀ (i : Nat) (f : ImplForm), f.Fits self → libUses[i]? = some (f.tokens ++ .punct ":" :: self) →
      f.schema.subst t.args = schemaExpr env t →
      typeName env t = (if f.alwaysInline then none else some "T").bind (fun x => (t.args x).bind (typeName env)) →
      alwaysInline env t = f.alwaysInline →
      ∃ c ∈ libImpls, c.self = self ∧ (∀ c' ∈ libImpls, c'.self = self → c' = c) ∧
        c.body.subst t.args = schemaExpr env t ∧
        typeName env t = c.nameOf.bind (fun x => (t.args x).bind (typeName env)) ∧
        alwaysInline env t = c.inline := by
    intro i f hf hm h1 h2 h3
    have hc : formCode f self ∈ libImpls := List.mem_filterMap.mpr ⟨_, List.mem_of_getElem? hm, expandImpl_form hf⟩
    exact ⟨_, hc, rfl, fun c' hc' hs' => libImpls_unique hc' hc hs', h1, h2, h3⟩
  cases t with
  | prim p =>
    cases ht
    cases p with
    | char => exact pick 0 (.leaf .string (some (.str "char")) true) (List.cons_ne_nil _ _) rfl rfl rfl rfl
    | str => exact pick 1 (.leaf .string none true) (List.cons_ne_nil _ _) rfl rfl rfl rfl
    | string => exact pick 2 (.leaf .string none true) (List.cons_ne_nil _ _) rfl rfl rfl rfl
    | i8 => exact pick 3 (.leaf .integer (some (.str "int8")) true) (List.cons_ne_nil _ _) rfl rfl rfl rfl
    | u8 => exact pick 4 (.leaf .integer (some (.str "uint8")) true) (List.cons_ne_nil _ _) rfl rfl rfl rfl
    | i16 => exact pick 5 (.leaf .integer (some (.str "int16")) true) (List.cons_ne_nil _ _) rfl rfl rfl rfl
    | u16 => exact pick 6 (.leaf .integer (some (.str "uint16")) true) (List.cons_ne_nil _ _) rfl rfl rfl rfl
    | i32 => exact pick 7 (.leaf .integer (some (.str "int32")) true) (List.cons_ne_nil _ _) rfl rfl rfl rfl
    | u32 => exact pick 8 (.leaf .integer (some (.str "uint32")) true) (List.cons_ne_nil _ _) rfl rfl rfl rfl
    | i64 => exact pick 9 (.leaf .integer (some (.str "int64")) true) (List.cons_ne_nil _ _) rfl rfl rfl rfl
    | u64 => exact pick 10 (.leaf .integer (some (.str "uint64")) true) (List.cons_ne_nil _ _) rfl rfl rfl rfl
    | isize => exact pick 11 (.leaf .integer none true) (List.cons_ne_nil _ _) rfl rfl rfl rfl
    | usize => exact pick 12 (.leaf .integer none true) (List.cons_ne_nil _ _) rfl rfl rfl rfl
    | f32 => exact pick 13 (.leaf .number (some (.str "float")) true) (List.cons_ne_nil _ _) rfl rfl rfl rfl
    | f64 => exact pick 14 (.leaf .number (some (.str "double")) true) (List.cons_ne_nil _ _) rfl rfl rfl rfl
    | bool => exact pick 15 (.leaf .boolean none true) ⟨rfl, List.cons_ne_nil _ _⟩ rfl rfl rfl rfl
    | atomicI8 => exact pick 16 (.leaf .integer (some (.str "int8")) true) (List.cons_ne_nil _ _) rfl rfl rfl rfl
    | atomicU8 => exact pick 17 (.leaf .integer (some (.str "uint8")) true) (List.cons_ne_nil _ _) rfl rfl rfl rfl
    | atomicI16 => exact pick 18 (.leaf .integer (some (.str "int16")) true) (List.cons_ne_nil _ _) rfl rfl rfl rfl
    | atomicU16 => exact pick 19 (.leaf .integer (some (.str "uint16")) true) (List.cons_ne_nil _ _) rfl rfl rfl rfl
    | atomicI32 => exact pick 20 (.leaf .integer (some (.str "int32")) true) (List.cons_ne_nil _ _) rfl rfl rfl rfl
    | atomicU32 => exact pick 21 (.leaf .integer (some (.str "uint32")) true) (List.cons_ne_nil _ _) rfl rfl rfl rfl
    | atomicI64 => exact pick 22 (.leaf .integer (some (.str "int64")) true) (List.cons_ne_nil _ _) rfl rfl rfl rfl
    | atomicU64 => exact pick 23 (.leaf .integer (some (.str "uint64")) true) (List.cons_ne_nil _ _) rfl rfl rfl rfl
    | atomicIsize => exact pick 24 (.leaf .integer none true) (List.cons_ne_nil _ _) rfl rfl rfl rfl
    | atomicUsize => exact pick 25 (.leaf .integer none true) (List.cons_ne_nil _ _) rfl rfl rfl rfl
    | atomicBool => exact pick 26 (.leaf .boolean none true) ⟨rfl, List.cons_ne_nil _ _⟩ rfl rfl rfl rfl
  | wrap w t =>
    cases w <;> cases ht
    · exact pick 27 (.wrapper false (some "Sized")) (List.cons_ne_nil _ _) rfl rfl rfl rfl
    · exact pick 28 (.wrapper false (some "Sized")) (List.cons_ne_nil _ _) rfl rfl rfl rfl
    · exact pick 29 (.wrapper false (some "Sized")) (List.cons_ne_nil _ _) rfl rfl rfl rfl
    · exact pick 30 (.wrapper false (some "Sized")) (List.cons_ne_nil _ _) rfl rfl rfl rfl
    · exact pick 31 (.wrapper false (some "Sized")) (List.cons_ne_nil _ _) rfl rfl rfl rfl
    · exact pick 32 (.wrapper false (some "Sized")) (List.cons_ne_nil _ _) rfl rfl rfl rfl
    · exact pick 33 (.wrapper false (some "Sized")) (List.cons_ne_nil _ _) rfl rfl rfl rfl
    · exact pick 35 (.wrapper false none) (List.cons_ne_nil _ _) rfl rfl rfl rfl
  | option t =>
    cases ht
    exact pick 34 (.wrapper true none) (List.cons_ne_nil _ _) rfl rfl rfl rfl
  | dict k t =>
    cases k <;> cases ht
    · exact pick 42 .dictionary (List.cons_ne_nil _ _) rfl rfl rfl rfl
    · exact pick 43 .dictionary (List.cons_ne_nil _ _) rfl rfl rfl rfl
  | seq k t =>
    cases k with
    | slice => cases ht; exact pick 36 .sequence (List.cons_ne_nil _ _) rfl rfl rfl rfl
    | vec => cases ht; exact pick 37 .sequence (List.cons_ne_nil _ _) rfl rfl rfl rfl
    | hashSet => cases ht; exact pick 38 .sequence (List.cons_ne_nil _ _) rfl rfl rfl rfl
    | linkedList => cases ht; exact pick 39 .sequence (List.cons_ne_nil _ _) rfl rfl rfl rfl
    | vecDeque => cases ht; exact pick 40 .sequence (List.cons_ne_nil _ _) rfl rfl rfl rfl
    | binaryHeap => cases ht; exact pick 41 .sequence (List.cons_ne_nil _ _) rfl rfl rfl rfl
    | array n =>
      cases ht
      refine pick (52 + n) .sequence (List.cons_ne_nil _ _) ?_ rfl rfl rfl
      obtain ⟨h1, h2⟩ := size
      have : libUses = libUses.take 53 ++ (List.range' 1 32).map arrayUse := rfl
      have hl : (libUses.take 53).length = 53 := rfl
      rw [this, List.getElem?_append_right (by omega), hl, List.getElem?_map, List.getElem?_range' (by omega)]
      have : 1 + 1 * (52 + n - 53) = n := by omega
      rw [this]
      rfl
  | tuple ts =>
    cases ht
    obtain ⟨h1, h2⟩ := size
    match ts, h1, h2 with
    | [t1, t2], _, _ => exact pick 44 (.tuple (tupleParams 2)) ⟨nofun, rfl⟩ rfl rfl rfl rfl
    | [t1, t2, t3], _, _ => exact pick 45 (.tuple (tupleParams 3)) ⟨nofun, rfl⟩ rfl rfl rfl rfl
    | [t1, t2, t3, t4], _, _ => exact pick 46 (.tuple (tupleParams 4)) ⟨nofun, rfl⟩ rfl rfl rfl rfl
    | [t1, t2, t3, t4, t5], _, _ => exact pick 47 (.tuple (tupleParams 5)) ⟨nofun, rfl⟩ rfl rfl rfl rfl
    | [t1, t2, t3, t4, t5, t6], _, _ => exact pick 48 (.tuple (tupleParams 6)) ⟨nofun, rfl⟩ rfl rfl rfl rfl
    | [t1, t2, t3, t4, t5, t6, t7], _, _ => exact pick 49 (.tuple (tupleParams 7)) ⟨nofun, rfl⟩ rfl rfl rfl rfl
    | [t1, t2, t3, t4, t5, t6, t7, t8], _, _ => exact pick 50 (.tuple (tupleParams 8)) ⟨nofun, rfl⟩ rfl rfl rfl rfl
    | [t1, t2, t3, t4, t5, t6, t7, t8, t9], _, _ => exact pick 51 (.tuple (tupleParams 9)) ⟨nofun, rfl⟩ rfl rfl rfl rfl
    | [t1, t2, t3, t4, t5, t6, t7, t8, t9, t10], _, _ => exact pick 52 (.tuple (tupleParams 10)) ⟨nofun, rfl⟩ rfl rfl rfl rfl
    | _ :: _ :: _ :: _ :: _ :: _ :: _ :: _ :: _ :: _ :: _ :: _, _, h => exact absurd h (by simp)
  | unit => cases ht
  | uuid => cases ht
  | naiveDateTime => cases ht
  | dateTime => cases ht
  | naiveDate => cases ht
  | named i => cases ht

/-- Types `c77_builtin` applies to: `Vec<Option<T>>`, `(u8, String)`, `[bool; 32]`. -/
example (t : Ty) : ∃ self, (Ty.seq .vec (.option t)).head = some self ∧ (Ty.seq .vec (.option t)).SizeOk := ⟨_, rfl, trivial⟩
example : ∃ self, (Ty.tuple [.prim .u8, .prim .string]).head = some self ∧ (Ty.tuple [.prim .u8, .prim .string]).SizeOk :=
  ⟨_, rfl, by decide, by decide⟩
example : ∃ self, (Ty.seq (.array 32) (.prim .bool)).head = some self ∧ (Ty.seq (.array 32) (.prim .bool)).SizeOk :=
  ⟨_, rfl, by decide, by decide⟩

theorem intersperse_length {α : Type} (a : α) : ∀ xs : List α, (xs.intersperse a).length = 2 * xs.length - 1
  | [] => rfl
  | [_] => rfl
  | _ :: y :: ys => by
    have := intersperse_length a (y :: ys)
    rw [List.intersperse_cons_cons]
    simp only [List.length_cons] at this ⊢
    omega

/-- How many tokens are inside the parentheses of a tuple, and the size of an array. -/
def ImplCode.tupleSize (c : ImplCode) : Option Nat := match c.self with | [.group .paren ts] => some ts.length | _ => none
def ImplCode.arraySize (c : ImplCode) : Option Nat :=
  match c.self with | [.group .bracket [_, _, .lit (.num n)]] => some n | _ => none

theorem libImpls_tuples : ∀ c ∈ libImpls, ∀ n ∈ c.tupleSize, n = 2 ∨ (3 ≤ n ∧ n ≤ 19) := by decide +kernel
theorem libImpls_arrays : ∀ c ∈ libImpls, ∀ n ∈ c.arraySize, 1 ≤ n ∧ n ≤ 32 := by decide +kernel

/-- C77, part 4: the tuples with an impl are those of two to ten components (besides `(T,)`), and the arrays with an impl are
those of one to thirty-two elements. -/
theorem c77_limits (t : Ty) (self : List ImplTok) (ht : t.head = some self) :
    (∃ c ∈ libImpls, c.self = self) ↔ t.SizeOk := by
  constructor
  · rintro ⟨c, hc, rfl⟩
    cases t with
    | tuple ts =>
      have hs : [ImplTok.group .paren (((tupleParams ts.length).map ImplTok.ident).intersperse (.punct ","))] = c.self := Option.some.inj ht
      have := libImpls_tuples c hc (((tupleParams ts.length).map ImplTok.ident).intersperse (.punct ",")).length (by simp [ImplCode.tupleSize, ← hs])
      simp only [intersperse_length, tupleParams, List.length_map, List.length_range'] at this
      show 2 ≤ ts.length ∧ ts.length ≤ 10
      omega
    | seq k t =>
      cases k with
      | array n =>
        have hs : [ImplTok.group .bracket [.ident "T", .punct ";", .lit (.num n)]] = c.self := Option.some.inj ht
        exact libImpls_arrays c hc n (by simp [ImplCode.arraySize, ← hs])
      | _ => trivial
    | _ => trivial
  · intro h
    obtain ⟨c, hc, hs, _⟩ := c77_builtin Sample.env t self ht h
    exact ⟨c, hc, hs⟩

/-- No impl for arrays of 33 elements or for tuples of eleven components. -/
example (t : Ty) : ¬(Ty.seq (.array 33) t).SizeOk := fun h => absurd h.2 (by decide)
example : ¬(Ty.tuple (List.replicate 11 (.prim .u8))).SizeOk := fun h => absurd h.2 (by decide)

end Verif
