import Verif.Proof.Errors
import Verif.Props.Samples
/-!
# Attribute parsing and the outcome of the derive macro (C42, C48 - C53)
-/

namespace Verif

variable {o : Oracle} {τ : Type}

/-! ## C53: errors -/

theorem derive_errors (o : Oracle) (input : DeriveInput τ) (hp : ∀ p, derive o input ≠ .panic p) :
    (recordedErrors o input = [] ↔ ∃ c body, derive o input = .code c body) ∧
    (recordedErrors o input ≠ [] ↔ derive o input = .errors (recordedErrors o input)) ∧
    (∀ es, derive o input = .errors es → es = recordedErrors o input ∧ es ≠ []) := by
  revert hp
  unfold derive
  split
  · intro hp; exact absurd rfl (hp _)
  · rename_i errs h
    have hn := containerFromAst_none h
    rw [containerFromAst_errs h] at hn
    rw [containerFromAst_errs h]
    simp [List.isEmpty_iff, hn, eq_comm (a := recordedErrors o input)]
  · rename_i c errs h
    rw [containerFromAst_errs h]
    by_cases he : recordedErrors o input = []
    · simp only [he, List.isEmpty_nil, if_true]
      split
      · intro hp; exact absurd rfl (hp _)
      · simp
    · simp [List.isEmpty_iff, he, eq_comm (a := recordedErrors o input)]

/-- C53.  Every item has exactly one list of mistakes. -/
theorem c53_mistakes (o : Oracle) (input : DeriveInput τ) :
    ∃ es, InputProblems o input es ∧ ∀ es', InputProblems o input es' → es' = es := by
  simp only [inputProblems_iff]
  exact ⟨_, rfl, fun _ h => h.symm⟩

/-- C53.  If the macro does not panic it generates code iff the item has no mistakes, and otherwise reports exactly
its mistakes, in order. -/
theorem c53_errors (o : Oracle) (input : DeriveInput τ) (hp : ∀ p, derive o input ≠ .panic p) :
    (InputProblems o input [] ↔ ∃ c body, derive o input = .code c body) ∧
    (∀ es, derive o input = .errors es ↔ InputProblems o input es ∧ es ≠ []) := by
  obtain ⟨h1, h2, h3⟩ := derive_errors o input hp
  simp only [inputProblems_iff]
  refine ⟨h1, fun es => ⟨fun h => ?_, ?_⟩⟩
  · obtain ⟨rfl, hn⟩ := h3 es h; exact ⟨rfl, hn⟩
  · rintro ⟨rfl, hn⟩; exact h2.1 hn

/-- C53.  Code is never generated for an item with mistakes. -/
theorem c53_no_code (o : Oracle) (input : DeriveInput τ) (e es) (h : InputProblems o input (e :: es)) (c body) :
    derive o input ≠ .code c body := by
  intro hc
  have := derive_code_errs hc
  rw [inputProblems_iff.1 h] at this
  cases this

/-- The mistakes of `#[opg(foo)] #[serde(rename)] struct S { #[opg(inline, inline)] a: () }`: the unknown word and the
repetition; `serde(rename)` without a value is not one. -/
example : InputProblems Sample.oracle (⟨"S", [⟨"opg", .list [.item (.path "foo")]⟩, ⟨"serde", .list [.item (.path "rename")]⟩],
      .struct (.named [⟨some "a", [⟨"opg", .list [.item (.path "inline"), .item (.path "inline")]⟩], ()⟩])⟩ : DeriveInput Unit)
    [.unknownWord "foo", .duplicate "inline"] := by
  refine ⟨[.unknownWord "foo"], [], [.duplicate "inline"], ⟨[.unknownWord "foo"], ?_, rfl⟩, .struct _ (by simp),
    .struct _ _ ⟨[_], .cons ⟨[.duplicate "inline"], ?_, rfl⟩ .nil, rfl⟩, rfl⟩
  · refine .faulty (.common (.word "foo" (by decide) (by decide))) (.other ?_ ?_ (.done _))
    · intro k v h
      rw [← containerAction_set] at h
      simp [containerAction] at h
    · intro e h
      rw [← containerAction_error (kind := .namedStruct)] at h
      simp [containerAction] at h
  · exact .first (FieldGives.common .inline) (by simp) (.again (FieldGives.common .inline) (by simp) (.done _))

/-- Two errors on one item: both are reported, container first. -/
example : derive Sample.oracle (⟨"S", [⟨"opg", .list [.item (.path "foo")]⟩],
      .struct (.named [⟨some "a", [⟨"opg", .list [.item (.path "bar")]⟩], ()⟩])⟩ : DeriveInput Unit)
    = .errors [.unknownWord "foo", .unknownWord "bar"] := rfl

/-- Everything recorded anywhere prevents code from being generated. -/
theorem no_code_of_error {input : DeriveInput τ} {e : DErr} (h : e ∈ recordedErrors o input) (c body) :
    derive o input ≠ .code c body := by
  intro hc
  rw [derive_code_errs hc] at h
  cases h

theorem recorded_container {input : DeriveInput τ} {e} (h : e ∈ (containerAttrsFromAst o input).2) :
    e ∈ recordedErrors o input := List.mem_append.2 (.inl h)

/-- An error of a variant is recorded, unless the inconsistent discriminants are reported instead. -/
theorem recorded_variant {input : DeriveInput τ} {v e} (hv : v ∈ input.data.variants) (h : e ∈ variantErrors o v) :
    e ∈ recordedErrors o input ∨ .inconsistentDiscriminants ∈ recordedErrors o input := by
  unfold recordedErrors
  cases hd : input.data with
  | union => rw [hd] at hv; cases hv
  | struct fs => rw [hd] at hv; cases hv
  | enum vs =>
    rw [hd] at hv
    simp only
    split
    · left; exact List.mem_append.2 (.inr (List.mem_flatMap.2 ⟨v, hv, h⟩))
    · right; simp

theorem recorded_field {input : DeriveInput τ} {f e} (hf : f ∈ input.data.structFields) (h : e ∈ fieldErrors o f) :
    e ∈ recordedErrors o input := by
  unfold recordedErrors
  cases hd : input.data with
  | union => rw [hd] at hf; cases hf
  | enum vs => rw [hd] at hf; cases hf
  | struct fs =>
    rw [hd] at hf
    exact List.mem_append.2 (.inr (List.mem_flatMap.2 ⟨f, hf, h⟩))

/-- An error of the container, of a variant, or of a field of either means no code. -/
theorem no_code_of {input : DeriveInput τ}
    (h : (∃ e, e ∈ (containerAttrsFromAst o input).2) ∨
      (∃ v ∈ input.data.variants, (∃ e, e ∈ (variantAttrsFromAst o v.ident v.attrs).2) ∨
        ∃ f ∈ v.fields.list, ∃ e, e ∈ fieldErrors o f) ∨
      (∃ f ∈ input.data.structFields, ∃ e, e ∈ fieldErrors o f)) (c body) :
    derive o input ≠ .code c body := by
  rcases h with ⟨e, he⟩ | ⟨v, hv, h⟩ | ⟨f, hf, e, he⟩
  · exact no_code_of_error (recorded_container he) c body
  · have : ∃ e, e ∈ variantErrors o v := by
      rcases h with ⟨e, he⟩ | ⟨f, hf, e, he⟩
      · exact ⟨e, List.mem_append.2 (.inl he)⟩
      · exact ⟨e, List.mem_append.2 (.inr (List.mem_flatMap.2 ⟨f, hf, he⟩))⟩
    obtain ⟨e, he⟩ := this
    rcases recorded_variant hv he with h | h
    · exact no_code_of_error h c body
    · exact no_code_of_error h c body
  · exact no_code_of_error (recorded_field hf he) c body

/-! ## C48: duplicates -/

/-- C48, on a field: the second occurrence is reported under the attribute's name. -/
theorem c48_field (o : Oracle) (i : Nat) (ident : Option String) (attrs : List Attribute) (pre mid post x y k v w)
    (h : itemsOf attrs = some (pre ++ x :: mid ++ y :: post)) (hx : FieldGives o x.1 x.2 k v)
    (hy : FieldGives o y.1 y.2 k w) : DErr.duplicate k.symbol ∈ (fieldAttrsFromAst o i ident attrs).2 :=
  List.mem_append.2 (.inl (runAttrs_dup (fun _ _ _ _ => fieldAction_set) h hx hy))

/-- C48, on a variant. -/
theorem c48_variant (o : Oracle) (ident : String) (attrs : List Attribute) (pre mid post x y k v w)
    (h : itemsOf attrs = some (pre ++ x :: mid ++ y :: post)) (hx : VariantGives o x.1 x.2 k v)
    (hy : VariantGives o y.1 y.2 k w) : DErr.duplicate k.symbol ∈ (variantAttrsFromAst o ident attrs).2 :=
  List.mem_append.2 (.inl (runAttrs_dup (fun _ _ _ _ => variantAction_set) h hx hy))

/-- C48, on a container. -/
theorem c48_container (o : Oracle) (input : DeriveInput τ) (pre mid post x y k v w)
    (h : itemsOf input.attrs = some (pre ++ x :: mid ++ y :: post))
    (hx : ContainerGives o input.data.kind x.1 x.2 k v) (hy : ContainerGives o input.data.kind y.1 y.2 k w) :
    DErr.duplicate k.symbol ∈ (containerAttrsFromAst o input).2 :=
  List.mem_append.2 (.inl (List.mem_append.2 (.inl (runAttrs_dup (fun _ _ _ _ => containerAction_set) h hx hy))))

theorem Duplicated.field {f : SynField τ} (h : Duplicated (FieldGives o) f.attrs) : ∃ e, e ∈ fieldErrors o f := by
  obtain ⟨pre, x, mid, y, post, hi, ⟨k, v, w, hx, hy⟩ | ⟨p, q, t, u, rfl, rfl, hp, hq⟩⟩ := h
  · exact ⟨_, c48_field o 0 f.ident f.attrs pre mid post x y k v w hi hx hy⟩
  · exact ⟨_, List.mem_append.2 (.inr (runAttrs_two_flags hi (fieldAction_type hp) (fieldAction_type hq)))⟩

theorem Duplicated.variant {v : SynVariant τ} (h : Duplicated (VariantGives o) v.attrs) :
    ∃ e, e ∈ (variantAttrsFromAst o v.ident v.attrs).2 := by
  obtain ⟨pre, x, mid, y, post, hi, ⟨k, v', w, hx, hy⟩ | ⟨p, q, t, u, rfl, rfl, hp, hq⟩⟩ := h
  · exact ⟨_, c48_variant o v.ident v.attrs pre mid post x y k v' w hi hx hy⟩
  · exact ⟨_, List.mem_append.2 (.inr (runAttrs_two_flags hi (variantAction_type hp) (variantAction_type hq)))⟩

theorem Duplicated.container {input : DeriveInput τ} (h : Duplicated (ContainerGives o input.data.kind) input.attrs) :
    ∃ e, e ∈ (containerAttrsFromAst o input).2 := by
  obtain ⟨pre, x, mid, y, post, hi, ⟨k, v, w, hx, hy⟩ | ⟨p, q, t, u, rfl, rfl, hp, hq⟩⟩ := h
  · exact ⟨_, c48_container o input pre mid post x y k v w hi hx hy⟩
  · exact ⟨_, List.mem_append.2 (.inl (List.mem_append.2 (.inr
      (runAttrs_two_flags hi (containerAction_type hp) (containerAction_type hq)))))⟩

/-- C48.  A recognised attribute given twice on the container, on a variant or on a field: no code is generated. -/
theorem c48_duplicates_rejected (o : Oracle) (input : DeriveInput τ)
    (h : Duplicated (ContainerGives o input.data.kind) input.attrs ∨
      (∃ v ∈ input.data.variants, Duplicated (VariantGives o) v.attrs ∨
        ∃ f ∈ v.fields.list, Duplicated (FieldGives o) f.attrs) ∨
      (∃ f ∈ input.data.structFields, Duplicated (FieldGives o) f.attrs)) (c body) :
    derive o input ≠ .code c body := by
  apply no_code_of
  rcases h with h | ⟨v, hv, h⟩ | ⟨f, hf, h⟩
  · exact .inl h.container
  · refine .inr (.inl ⟨v, hv, ?_⟩)
    rcases h with h | ⟨f, hf, h⟩
    · exact .inl h.variant
    · exact .inr ⟨f, hf, h.field⟩
  · exact .inr (.inr ⟨f, hf, h.field⟩)

/-- `#[opg(inline)] #[opg("doc", inline)]` on a field. -/
example : Duplicated (FieldGives o) [⟨"opg", .list [.item (.path "inline")]⟩,
    ⟨"opg", .list [.lit (.str "doc"), .item (.path "inline")]⟩] :=
  ⟨[], (.opg, .item (.path "inline")), [(.opg, .lit (.str "doc"))], (.opg, .item (.path "inline")), [], rfl,
    .inl ⟨.inline, .unit, .unit, .common .inline, .common .inline⟩⟩

/-- `#[opg(string, integer)]`. -/
example : Duplicated (ContainerGives o .enum) [⟨"opg", .list [.item (.path "string"), .item (.path "integer")]⟩] :=
  ⟨[], _, [], _, [], rfl, .inr ⟨"string", "integer", .string, .integer, rfl, rfl, by decide, by decide⟩⟩

/-! ## C49: unknown attributes -/

theorem Rejected.field {f : SynField τ} (h : Rejected o ["optional", "nullable"] f.attrs) : ∃ e, e ∈ fieldErrors o f := by
  obtain ⟨items, hi, m, hm, hr⟩ := h
  obtain ⟨e, he⟩ := fieldAction_rejected hr
  exact ⟨e, List.mem_append.2 (.inl (runAttrs_rejected hi hm he))⟩

theorem Rejected.variant {v : SynVariant τ} (h : Rejected o [] v.attrs) :
    ∃ e, e ∈ (variantAttrsFromAst o v.ident v.attrs).2 := by
  obtain ⟨items, hi, m, hm, hr⟩ := h
  obtain ⟨e, he⟩ := variantAction_rejected hr
  exact ⟨e, List.mem_append.2 (.inl (runAttrs_rejected hi hm he))⟩

theorem Rejected.container {input : DeriveInput τ} (h : Rejected o ["nullable"] input.attrs) :
    ∃ e, e ∈ (containerAttrsFromAst o input).2 := by
  obtain ⟨items, hi, m, hm, hr⟩ := h
  obtain ⟨e, he⟩ := containerAction_rejected hr
  exact ⟨e, List.mem_append.2 (.inl (List.mem_append.2 (.inl (runAttrs_rejected hi hm he))))⟩

/-- C49, first half.  An `opg(..)` item not understood on that kind of item: no code is generated. -/
theorem c49_unknown_opg_rejected (o : Oracle) (input : DeriveInput τ)
    (h : Rejected o ["nullable"] input.attrs ∨
      (∃ v ∈ input.data.variants, Rejected o [] v.attrs ∨
        ∃ f ∈ v.fields.list, Rejected o ["optional", "nullable"] f.attrs) ∨
      (∃ f ∈ input.data.structFields, Rejected o ["optional", "nullable"] f.attrs)) (c body) :
    derive o input ≠ .code c body := by
  apply no_code_of
  rcases h with h | ⟨v, hv, h⟩ | ⟨f, hf, h⟩
  · exact .inl h.container
  · refine .inr (.inl ⟨v, hv, ?_⟩)
    rcases h with h | ⟨f, hf, h⟩
    · exact .inl h.variant
    · exact .inr ⟨f, hf, h.field⟩
  · exact .inr (.inr ⟨f, hf, h.field⟩)

/-- `#[opg(inlined)]`; and `nullable` is not for variants. -/
example : Rejected o ["nullable"] [⟨"opg", .list [.item (.path "inlined")]⟩] ∧
    Rejected o [] [⟨"opg", .list [.item (.path "nullable")]⟩] :=
  ⟨⟨_, rfl, _, List.mem_singleton.2 rfl, .word _ (by decide) (by decide)⟩,
   ⟨_, rfl, _, List.mem_singleton.2 rfl, .word _ (by decide) (by decide)⟩⟩

/-- C49, second half.  Attributes of other macros and `serde(..)` items with other names, anywhere in the item,
do not change the outcome in any way: neither code, nor errors, nor panics. -/
theorem c49_unknown_serde_ignored (o : Oracle) (i j : DeriveInput τ)
    (h : InputRel (Extended containerSerdeNames) (Extended variantSerdeNames) (Extended fieldSerdeNames) i j) :
    derive o j = derive o i := by
  apply derive_of_containerFromAst
  refine containerFromAst_congr ErrPred.any ?_ ?_ ?_ h trivial
  · intro kind as as' hr _ _
    exact hr.run fun m hm => containerAction_serde_unknown hm
  · intro id as as' hr _
    unfold variantAttrsFromAst
    rw [hr.run fun m hm => variantAction_serde_unknown hm]
  · intro i id as as' hr _
    unfold fieldAttrsFromAst
    rw [hr.run fun m hm => fieldAction_serde_unknown hm]

/-- `#[serde(default)]` and a doc comment. -/
example : Extended fieldSerdeNames [⟨"serde", .list [.item (.path "skip")]⟩]
    [⟨"serde", .list [.item (.path "default"), .item (.path "skip")]⟩] :=
  .unknown [] [(.serde, .item (.path "skip"))] (.item (.path "default")) rfl rfl (by
    intro n hn; cases hn; decide)
example : Extended containerSerdeNames [⟨"serde", .list [.item (.path "untagged")]⟩]
    [⟨"doc", .other⟩, ⟨"serde", .list [.item (.path "untagged")]⟩] := .foreign [] _ _ (by decide)

/-! ## C50: order and grouping -/

/-- C50.  If an item is accepted, then writing the attribute items of the container, of its variants and of its
fields in any other order and grouping gives the same code. -/
theorem c50_order_irrelevant (o : Oracle) (i j : DeriveInput τ) (h : InputRel Reordered Reordered Reordered i j)
    (c body) (hc : derive o i = .code c body) : derive o j = .code c body := by
  rw [← hc]
  apply derive_of_containerFromAst
  refine containerFromAst_congr ErrPred.nil ?_ ?_ ?_ h (derive_code_errs hc)
  · rintro kind as as' ⟨items, items', hi, hi', hp⟩ he hf
    exact runAttrs_perm hi hi' hp he hf
  · rintro id as as' ⟨items, items', hi, hi', hp⟩ he
    simp only [variantAttrsFromAst, List.append_eq_nil_iff] at he ⊢
    rw [runAttrs_perm hi hi' hp he.1 he.2]
  · rintro i id as as' ⟨items, items', hi, hi', hp⟩ he
    simp only [fieldAttrsFromAst, List.append_eq_nil_iff] at he ⊢
    rw [runAttrs_perm hi hi' hp he.1 he.2]

/-- `#[serde(rename = "x")] #[opg(inline, "doc")]` and `#[opg("doc")] #[opg(inline)] #[serde(rename = "x")]`. -/
example : Reordered
    [⟨"serde", .list [.item (.nameValue "rename" (.str "x"))]⟩, ⟨"opg", .list [.item (.path "inline"), .lit (.str "doc")]⟩]
    [⟨"opg", .list [.lit (.str "doc")]⟩, ⟨"opg", .list [.item (.path "inline")]⟩,
     ⟨"serde", .list [.item (.nameValue "rename" (.str "x"))]⟩] :=
  ⟨_, _, rfl, rfl, by
    refine List.Perm.trans (List.Perm.swap _ _ _) ?_
    refine List.Perm.trans (List.Perm.cons _ (List.Perm.swap _ _ _)) ?_
    exact List.Perm.swap _ _ _⟩

/-! ## C51: tagging -/

/-- C51.  For an accepted item the tagging is the one the attributes ask for, and only that one. -/
theorem c51_tagging (o : Oracle) (input : DeriveInput τ) (c body) (hc : derive o input = .code c body) :
    ∀ t, Tagging (ContainerGives o input.data.kind) input.attrs t ↔ c.attrs.tagType = t := by
  have he := containerErrors_nil (derive_code_errs hc)
  obtain ⟨_, ⟨b, hat⟩, _⟩ := container_cases (derive_code hc).1
  have ht := tagging he
  intro t
  rw [hat]
  constructor
  · intro h; exact Tagging.unique he ht h
  · rintro rfl; exact ht

/-- C51, shapes.  The generated schema of an enum: a string (or `oneOf` of integers with `repr`) if all variants
are units, in which case it cannot be untagged; otherwise `oneOf`, an object or a dictionary, by the tagging. -/
theorem c51_shape (o : Oracle) (input : DeriveInput τ) (vs) (hd : input.data = .enum vs) (c body)
    (hc : derive o input = .code c body) :
    (¬ HasData vs → ¬ Tagging (ContainerGives o .enum) input.attrs .none ∧
      ((∃ d ns ex, body = .single d false (.string (some ns) none ex)) ∨ ∃ d rs, body = .oneOf d rs)) ∧
    (HasData vs →
      (Tagging (ContainerGives o .enum) input.attrs .none → ∃ d rs, body = .oneOf d rs) ∧
      (∀ t, Tagging (ContainerGives o .enum) input.attrs (.internal t) → ∃ d rs, body = .oneOf d rs) ∧
      (Tagging (ContainerGives o .enum) input.attrs .external → ∃ d b r, body = .single d b (.dictionary r)) ∧
      (∀ t cn, Tagging (ContainerGives o .enum) input.attrs (.adjacent t cn) →
        ∃ d b r s, body = .single d b (.object [.mk t r true, .mk cn s true]))) := by
  have ht := c51_tagging o input c body hc
  rw [hd] at ht
  simp only [SynData.kind] at ht
  obtain ⟨hcon, hbody⟩ := derive_code hc
  obtain ⟨_, ⟨b, hat⟩, h⟩ := container_cases hcon
  obtain ⟨hmt1, hmt2⟩ := modelType_enum hd (containerAttrs_nil (derive_code_errs hc)).1
  rcases h with ⟨fs, _, _, hd', _⟩ | ⟨vs', ws, hd', hcd, _⟩
  · rw [hd] at hd'; cases hd'
  · rw [hd] at hd'; cases hd'
    have htag : c.attrs.tagType = (containerAttrsFromAst o input).1.tagType := by rw [hat]
    have hmt : c.attrs.modelType = (containerAttrsFromAst o input).1.modelType := by rw [hat]
    rw [← hmt, ← htag] at hmt1 hmt2
    simp only [serializeBody, hcd, serializeEnum] at hbody
    constructor
    · intro hn
      obtain ⟨h1, h2⟩ := hmt1 hn
      refine ⟨fun h => h2 ((ht _).1 h), ?_⟩
      rw [h1] at hbody
      simp only [Except.ok.injEq] at hbody
      subst hbody
      unfold serializeNewtypeEnum
      split
      · exact .inr ⟨_, _, rfl⟩
      · exact .inl ⟨_, _, _, rfl⟩
    · intro hn
      have h1 := hmt2 hn
      refine ⟨fun h => ?_, fun t h => ?_, fun h => ?_, fun t cn h => ?_⟩
      · rw [(ht _).1 h] at h1 hbody
        rw [h1] at hbody
        simp only [serializeUntaggedEnum] at hbody
        split at hbody
        · cases hbody
        · cases hbody; exact ⟨_, _, rfl⟩
      · rw [(ht _).1 h] at h1 hbody
        rw [h1] at hbody
        simp only [serializeInternalEnum] at hbody
        split at hbody
        · cases hbody
        · cases hbody; exact ⟨_, _, rfl⟩
      · rw [(ht _).1 h] at h1 hbody
        rw [h1] at hbody
        simp only [serializeExternalEnum] at hbody
        split at hbody
        · cases hbody
        · cases hbody; exact ⟨_, _, _, rfl⟩
      · rw [(ht _).1 h] at h1 hbody
        rw [h1] at hbody
        simp only [serializeAdjacentEnum] at hbody
        split at hbody
        · cases hbody
        · cases hbody; exact ⟨_, _, _, _, rfl⟩

/-- `#[serde(tag = "t")] enum E { A { x: () } }` is accepted and internally tagged. -/
example : ∃ c body, derive Sample.oracle (⟨"E", [⟨"serde", .list [.item (.nameValue "tag" (.str "t"))]⟩],
    .enum [⟨"A", [], .named [⟨some "x", [], ()⟩], none⟩]⟩ : DeriveInput Unit) = .code c body ∧
    c.attrs.tagType = .internal "t" := ⟨_, _, rfl, rfl⟩

/-! ## C52: panics -/

/-- C52 is false: each of these inputs makes the macro panic. -/
theorem c52_is_false :
    -- `#[serde(untagged)] enum E { A(u8, u8) }`
    derive Sample.oracle (⟨"E", [⟨"serde", .list [.item (.path "untagged")]⟩],
      .enum [⟨"A", [], .unnamed [⟨none, [], ()⟩, ⟨none, [], ()⟩], none⟩]⟩ : DeriveInput Unit) = .panic .untaggedVariant ∧
    -- `#[serde(tag = "t", content = "c")] enum E { A(u8), B }`
    derive Sample.oracle (⟨"E", [⟨"serde", .list [.item (.nameValue "tag" (.str "t")),
        .item (.nameValue "content" (.str "c"))]⟩],
      .enum [⟨"A", [], .unnamed [⟨none, [], ()⟩], none⟩, ⟨"B", [], .unit, none⟩]⟩ : DeriveInput Unit)
        = .panic .adjacentVariant ∧
    -- `#[serde(tag = "t")] enum E { A(u8, u8) }` (rejected by serde too)
    derive Sample.oracle (⟨"E", [⟨"serde", .list [.item (.nameValue "tag" (.str "t"))]⟩],
      .enum [⟨"A", [], .unnamed [⟨none, [], ()⟩, ⟨none, [], ()⟩], none⟩]⟩ : DeriveInput Unit) = .panic .internalVariant ∧
    -- `#[opg(any)] struct N(u8)`
    derive Sample.oracle (⟨"N", [⟨"opg", .list [.item (.path "any")]⟩],
      .struct (.unnamed [⟨none, [], ()⟩])⟩ : DeriveInput Unit) = .panic .anyNewtype ∧
    -- `#[serde(rename_all = "camelCase")] struct S { __: u8 }`
    derive Sample.oracle (⟨"S", [⟨"serde", .list [.item (.nameValue "rename_all" (.str "camelCase"))]⟩],
      .struct (.named [⟨some "__", [], ()⟩])⟩ : DeriveInput Unit) = .panic .caseConversion :=
  ⟨rfl, rfl, rfl, rfl, rfl⟩

/-- C52, exactly: the macro panics iff some name cannot be converted, or the item has no mistakes and
the shape is one the generator does not support.  In particular the panics in `ParsingContext::check`, on unit
structs, on missing fields and on inconsistent enum shapes are unreachable. -/
theorem c52_panics_iff (o : Oracle) (input : DeriveInput τ) :
    (∃ p, derive o input = .panic p) ↔
      NameFails o input ∨ (InputProblems o input [] ∧ Unsupported o input) := by
  rw [inputProblems_iff]
  constructor
  · rintro ⟨p, h⟩
    unfold derive at h
    split at h
    · rename_i hn; exact .inl (containerFromAst_panics.1 hn)
    · rename_i errs hn
      have := containerFromAst_none hn
      simp [this] at h
    · rename_i c errs hn
      split at h
      · rename_i he
        rw [List.isEmpty_iff] at he
        subst he
        split at h
        · rename_i p' hp
          exact .inr ⟨(containerFromAst_errs hn).symm, (serializeBody_panics hn).1 ⟨_, hp⟩⟩
        · cases h
      · cases h
  · rintro (h | ⟨he, hu⟩)
    · refine ⟨.caseConversion, ?_⟩
      unfold derive
      rw [containerFromAst_panics.2 h]
    · unfold derive
      split
      · exact ⟨_, rfl⟩
      · rename_i errs hn
        have := containerFromAst_none hn
        rw [containerFromAst_errs hn] at this
        exact absurd he this
      · rename_i c errs hn
        have := containerFromAst_errs hn
        rw [he] at this
        subst this
        obtain ⟨p, hp⟩ := (serializeBody_panics hn).2 hu
        simp [hp]

/-- C52 for items with names that start with an ASCII character after underscores and of a supported shape: code
or a non-empty list of errors. -/
theorem c52_no_panic_partial (o : Oracle) (input : DeriveInput τ)
    (hv : ∀ v ∈ input.data.variants, (∃ c, (unraw v.ident).toList.head? = some c ∧ c.toNat < 128) ∧
      ∀ f ∈ v.fields.list, ∀ i, f.ident = some i →
        ∃ c, (unraw i).toList.find? (fun c => c ≠ '_') = some c ∧ c.toNat < 128)
    (hf : ∀ f ∈ input.data.structFields, ∀ i, f.ident = some i →
        ∃ c, (unraw i).toList.find? (fun c => c ≠ '_') = some c ∧ c.toNat < 128)
    (hs : ¬ Unsupported o input) :
    (∃ c body, derive o input = .code c body) ∨ ∃ e es, derive o input = .errors (e :: es) := by
  have hp : ¬ ∃ p, derive o input = .panic p := by
    rw [c52_panics_iff]
    rintro (h | h)
    · have hff : ∀ f : SynField τ, (∀ i, f.ident = some i →
          ∃ c, (unraw i).toList.find? (fun c => c ≠ '_') = some c ∧ c.toNat < 128) → ¬ FieldNameFails o f := by
        rintro f hf ⟨_, i, hi, h⟩
        obtain ⟨c, hc, hlt⟩ := hf i hi
        have := h c hc
        omega
      unfold NameFails at h
      split at h <;> rename_i hd
      · exact h
      · obtain ⟨_, f, hm, h⟩ := h
        exact hff f (hf f (by rw [hd]; exact hm)) h
      · obtain ⟨_, v, hm, ⟨_, _, h⟩ | ⟨_, f, hm', h⟩⟩ := h
        · obtain ⟨⟨c, hc, hlt⟩, _⟩ := hv v (by rw [hd]; exact hm)
          have := h c hc
          omega
        · exact hff f ((hv v (by rw [hd]; exact hm)).2 f hm') h
    · exact hs h.2
  cases h : derive o input with
  | panic p => exact absurd ⟨p, h⟩ hp
  | code c body => exact .inl ⟨c, body, rfl⟩
  | errors es =>
    have := (derive_errors o input (by rintro p hp'; exact hp ⟨p, hp'⟩)).2.2 es h
    cases es with
    | nil => exact absurd rfl this.2
    | cons e es => exact .inr ⟨e, es, rfl⟩

/-- The hypotheses hold of `#[serde(untagged)] enum E { A { id: () }, #[serde(skip)] B }`. -/
example : ∃ c body, derive Sample.oracle (⟨"E", [⟨"serde", .list [.item (.path "untagged")]⟩],
    .enum [⟨"A", [], .named [⟨some "id", [], ()⟩], none⟩, ⟨"B", [⟨"serde", .list [.item (.path "skip")]⟩], .unit, none⟩]⟩ :
    DeriveInput Unit) = .code c body := ⟨_, _, rfl⟩

/-! ## C42: names -/

theorem trimRaw_iff (cs ds : List Char) : trimRaw cs = ds ↔
    (∃ n : Nat, cs = (List.replicate n ['r', '#']).flatten ++ ds) ∧ ¬ ['r', '#'] <+: ds := by
  constructor
  · rintro rfl
    fun_induction trimRaw cs with
    | case1 rest ih =>
      obtain ⟨⟨n, hn⟩, hp⟩ := ih
      refine ⟨⟨n + 1, ?_⟩, hp⟩
      rw [List.replicate_succ, List.flatten_cons, List.append_assoc, ← hn]
      rfl
    | case2 cs h =>
      refine ⟨⟨0, rfl⟩, ?_⟩
      rintro ⟨r, hr⟩
      exact h r hr.symm
  · rintro ⟨⟨n, rfl⟩, hp⟩
    induction n with
    | zero =>
      simp only [List.replicate_zero, List.flatten_nil, List.nil_append]
      unfold trimRaw
      split
      · rename_i rest; exact absurd ⟨rest, rfl⟩ hp
      · rfl
    | succ n ih =>
      rw [List.replicate_succ, List.flatten_cons, List.append_assoc]
      simpa [trimRaw] using ih

/-- C42: the identifier without its `r#` prefix (any number of them) and nothing else. -/
theorem c42_raw_prefix (ident s : String) : unraw ident = s ↔
    (∃ n : Nat, ident.toList = (List.replicate n ['r', '#']).flatten ++ s.toList) ∧ ¬ ['r', '#'] <+: s.toList := by
  rw [← trimRaw_iff]
  unfold unraw
  constructor
  · rintro rfl; simp
  · intro h; rw [h]; simp

/-- `r#type` is `type`; `raw` and `t#r#` are unchanged. -/
example : unraw "r#type" = "type" ∧ unraw "raw" = "raw" ∧ unraw "t#r#" = "t#r#" := by decide

theorem fields_named {rule : RenameRule} {k : Nat} {fs : List (SynField τ)} {fs' : List (Field τ)}
    (he : ∀ f ∈ fs, fieldErrors o f = [])
    (hm : mapPanic (Field.rename rule) (fieldsFromAst o k fs).1 = some fs') :
    fs'.length = fs.length ∧ ∀ (i : Nat) f, fs[i]? = some f → ∃ f' : Field τ, fs'[i]? = some f' ∧ f'.ty = f.ty ∧
      FieldSerializedAs o rule (k + i) f f'.attrs.name.serialized := by
  obtain ⟨hl, hg⟩ := mapPanic_some hm
  obtain ⟨hl', hg'⟩ := fieldsFromAst_get (o := o) k fs
  refine ⟨hl.trans hl', fun i f hf => ?_⟩
  obtain ⟨f', hf', hr⟩ := hg i _ (by rw [hg' i, hf]; rfl)
  refine ⟨f', hf', ?_⟩
  simp only [Field.rename, Option.map_eq_some_iff] at hr
  obtain ⟨n, hn, rfl⟩ := hr
  exact ⟨rfl, fieldAttrs_name (he f (List.mem_of_getElem? hf)) hn⟩

theorem struct_named {rule : RenameRule} {fs : SynFields τ} {fs' : List (Field τ)}
    (he : ∀ f ∈ fs.list, fieldErrors o f = [])
    (hm : mapPanic (Field.rename rule) (structFromAst o fs).1.2 = some fs') :
    fs'.length = fs.list.length ∧ ∀ (i : Nat) f, fs.list[i]? = some f → ∃ f' : Field τ, fs'[i]? = some f' ∧ f'.ty = f.ty ∧
      FieldSerializedAs o rule i f f'.attrs.name.serialized := by
  cases fs with
  | named fs => have := fields_named (k := 0) he hm; simpa [SynFields.list] using this
  | unnamed fs => have := fields_named (k := 0) he hm; simpa [SynFields.list] using this
  | unit => simp only [structFromAst, mapPanic, Option.some.injEq] at hm; subst hm; simp [SynFields.list]

/-- C42 for structs.  Field by field: the explicit name, else the converted identifier under the container's
rule. -/
theorem c42_struct_fields (o : Oracle) (input : DeriveInput τ) (fs) (hd : input.data = .struct fs) (c body)
    (hc : derive o input = .code c body) :
    ∃ rule style fs', RuleOf (ContainerGives o input.data.kind) input.attrs rule ∧ c.data = .struct style fs' ∧
      fs'.length = fs.list.length ∧ ∀ (i : Nat) f, fs.list[i]? = some f → ∃ f' : Field τ, fs'[i]? = some f' ∧ f'.ty = f.ty ∧
        FieldSerializedAs o rule i f f'.attrs.name.serialized := by
  obtain ⟨hcon, _⟩ := derive_code hc
  have he := derive_code_errs hc
  obtain ⟨_, _, h⟩ := container_cases hcon
  rcases h with ⟨fs₂, style, fs', hd', hcd, _, hm⟩ | ⟨vs', ws, hd', hcd, _⟩
  · rw [hd] at hd'; cases hd'
    exact ⟨_, style, fs', ruleOf_container (containerErrors_nil he), hcd, struct_named (recorded_fields he hd) hm⟩
  · rw [hd] at hd'; cases hd'

/-- C42 for enums.  Variants are named by the container's rule, the fields of each variant by the variant's own
rule. -/
theorem c42_enum (o : Oracle) (input : DeriveInput τ) (vs) (hd : input.data = .enum vs) (c body)
    (hc : derive o input = .code c body) :
    ∃ rule vs', RuleOf (ContainerGives o .enum) input.attrs rule ∧ c.data = .enum vs' ∧
      vs'.length = vs.length ∧ ∀ (i : Nat) v, vs[i]? = some v → ∃ v' : Variant τ, vs'[i]? = some v' ∧
        VariantSerializedAs o rule v v'.attrs.name.serialized ∧
        ∃ vrule, RuleOf (VariantGives o) v.attrs vrule ∧ v'.fields.length = v.fields.list.length ∧
          ∀ (k : Nat) f, v.fields.list[k]? = some f → ∃ f' : Field τ, v'.fields[k]? = some f' ∧ f'.ty = f.ty ∧
            FieldSerializedAs o vrule k f f'.attrs.name.serialized := by
  obtain ⟨hcon, _⟩ := derive_code hc
  have he := derive_code_errs hc
  obtain ⟨_, _, h⟩ := container_cases hcon
  rcases h with ⟨fs₂, style, fs', hd', hcd, _, hm⟩ | ⟨vs₂, ws, hd', hcd, hm⟩
  · rw [hd] at hd'; cases hd'
  · rw [hd] at hd'; cases hd'
    have hr := ruleOf_container (containerErrors_nil he)
    rw [hd] at hr
    obtain ⟨hl, hg⟩ := mapPanic_some hm
    refine ⟨_, ws, hr, hcd, hl, fun i v hv => ?_⟩
    obtain ⟨v', hv', hren⟩ := hg i v hv
    have hve := variantErrors_nil ((recorded_variants he hd).2 v (List.mem_of_getElem? hv))
    obtain ⟨_, _, ⟨n, hn, hat⟩, _, hm'⟩ := variant_source hren
    refine ⟨v', hv', ?_, _, ruleOf_variant hve.1, struct_named hve.2 hm'⟩
    rw [hat]
    exact variantAttrs_name hve.1 hn

/-- The explicit name is unique where it is given, so it wins. -/
theorem c42_explicit_wins (o : Oracle) (f : SynField τ) (rule : RenameRule) (i : Nat) (s t : String)
    (he : fieldErrors o f = []) (hs : Gives (FieldGives o) f.attrs .rename (.str s))
    (ht : FieldSerializedAs o rule i f t) : t = s := by
  have hg := fun v => runAttrs_vals (fun src m k v => fieldAction_set (o := o)) (fieldErrors_nil he)
    (k := .rename) (v := v)
  rcases ht with ht | ⟨hn, _⟩
  · have := ((hg _).2 ht).symm.trans ((hg _).2 hs)
    simpa using this
  · exact absurd hs (hn _)

/-- Likewise on variants. -/
theorem c42_explicit_wins_variant (o : Oracle) (v : SynVariant τ) (rule : RenameRule) (s t : String)
    (he : variantErrors o v = []) (hs : Gives (VariantGives o) v.attrs .rename (.str s))
    (ht : VariantSerializedAs o rule v t) : t = s := by
  have hg := fun x => runAttrs_vals (fun src m k v => variantAction_set (o := o)) (variantErrors_nil he).1
    (k := .rename) (v := x)
  rcases ht with ht | ⟨hn, _⟩
  · have := ((hg _).2 ht).symm.trans ((hg _).2 hs)
    simpa using this
  · exact absurd hs (hn _)

/-- `#[serde(rename_all = "UPPERCASE")] struct S { r#type: (), #[serde(rename(serialize = "x"))] b: () }`. -/
example : ∃ c body, derive Sample.oracle (⟨"S", [⟨"serde", .list [.item (.nameValue "rename_all" (.str "UPPERCASE"))]⟩],
    .struct (.named [⟨some "r#type", [], ()⟩,
      ⟨some "b", [⟨"serde", .list [.item (.list "rename" [.item (.nameValue "serialize" (.str "x"))])]⟩], ()⟩])⟩ :
    DeriveInput Unit) = .code c body ∧
    (match c.data with
     | .struct _ fs => fs.map fun f => f.attrs.name.serialized
     | _ => []) = ["TYPE", "x"] := ⟨_, _, rfl, rfl⟩

end Verif
