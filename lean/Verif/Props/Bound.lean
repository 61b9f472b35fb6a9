import Verif.Proof.Bound
import Verif.Proof.TypeDecl
import Verif.Props.DeriveMore
/-!
# Bounds of the generated impl (C54, C55)
-/

namespace Verif

/-! ## C54 -/

/-- C54: the generated impl has the generic parameters of the item without their defaults, and its `where` clause is the
one of the item followed by `T: OpgModel` for the type parameters `T` that occur in a serialized field, in the order of
their declaration, and by `T::Assoc: OpgModel` for the serialized fields of that form, in order. -/
theorem c54_bounds (c : Container SynType) (g : Generics) :
    Pointwise WithoutDefault g.params (buildGenerics c g).params ∧
    ∃ (xs : List String) (us : List SynType), (buildGenerics c g).preds = g.preds ++ xs.map (fun x => .bound (.var x)) ++ us.map .bound ∧
      xs.Sublist g.typeParams ∧
      (∀ x, x ∈ xs ↔ x ∈ g.typeParams ∧ ∃ f, FieldSerialized c f ∧ Occurs x f.ty) ∧
      ∃ uss, us = uss.flatten ∧ Pointwise (fun f (l : List SynType) =>
        (∃ u, l = [u] ∧ AssociatedOf g.typeParams f.ty u) ∨ (l = [] ∧ ∀ u, ¬ AssociatedOf g.typeParams f.ty u))
        c.serializedFields uss := by
  refine ⟨?_, _, _, ?_, List.filter_sublist (p := fun x => x ∈ c.relevantFields.flatMap fun f => visitType g.typeParams f.ty), ?_,
    c.serializedFields.map fun f => visitAssociated g.typeParams f.ty, rfl, ?_⟩
  · show Pointwise WithoutDefault g.params g.withoutDefault.params
    unfold Generics.withoutDefault
    simp only
    induction g.params with
    | nil => exact .nil
    | cons p ps ih => refine .cons ?_ ih; cases p <;> constructor
  · show g.preds ++ _ = _
    simp only [typeParams_withoutDefault, List.map_append, List.map_map, relevantFields_eq, List.append_assoc]
    rfl
  · intro x
    simp only [List.mem_filter, decide_eq_true_eq, List.mem_flatMap]
    constructor
    · rintro ⟨hx, f, hf, h⟩
      exact ⟨hx, f, mem_relevantFields.1 hf, (mem_visitType hx _).1 h⟩
    · rintro ⟨hx, f, hf, h⟩
      exact ⟨hx, f, mem_relevantFields.2 hf, (mem_visitType hx _).2 h⟩
  · induction c.serializedFields with
    | nil => exact .nil
    | cons f fs ih =>
      refine .cons ?_ ih
      cases hl : visitAssociated g.typeParams f.ty with
      | nil =>
        refine .inr ⟨hl, fun u hu => ?_⟩
        have := mem_visitAssociated.2 hu
        rw [hl] at this
        cases this
      | cons u us =>
        have hu : u ∈ visitAssociated g.typeParams f.ty := by rw [hl]; exact List.mem_cons_self
        have := visitAssociated_length g.typeParams f.ty
        rw [hl] at this
        cases us with
        | nil => exact .inl ⟨u, hl, mem_visitAssociated.1 hu⟩
        | cons _ _ => simp at this

namespace Sample

/-- `Name<args>` -/
def ty (name : String) (args : List SynType := []) : SynType := .path none false [⟨name, args.map .type⟩]

/-- `struct S<A, B = u8, C, D> where D: Clone { a: Vec<Option<C>>, b: PhantomData<B>, c: A::Item, d: D }`,
`d` skipped -/
def generic : DeriveInput SynType := ⟨"S", [], .struct (.named [⟨some "a", [], ty "Vec" [ty "Option" [ty "C"]]⟩,
  ⟨some "b", [], ty "PhantomData" [ty "B"]⟩, ⟨some "c", [], .path none false [⟨"A", []⟩, ⟨"Item", []⟩]⟩,
  ⟨some "d", [attr "serde" [.item (.path "skip_serializing")]], ty "D"⟩])⟩

def genericParams : Generics := ⟨[.type ⟨"A", [], none⟩, .type ⟨"B", [], some (ty "u8")⟩, .type ⟨"C", [], none⟩,
  .type ⟨"D", [], none⟩], [.given "D: Clone"]⟩

end Sample

open Sample

example : ∃ c body, derive oracle generic = .code c body ∧ (buildGenerics c genericParams).preds =
    [.given "D: Clone", .bound (ty "C"), .bound (.path none false [⟨"A", []⟩, ⟨"Item", []⟩])] :=
  ⟨_, _, rfl, rfl⟩

/-! ## C55 -/

/-- C55 is false: a skipped field of a tuple struct is documented all the same, but its type parameters are not bounded
(`struct S<T>(u32, #[serde(skip_serializing)] T)`). -/
theorem c55_is_false : ∃ (o : Oracle) (input : DeriveInput SynType) (g : Generics) (c : Container SynType)
    (body : ModelExpr SynType) (t : SynType) (byRef : Bool) (x : String),
    derive o input = .code c body ∧ (t, byRef) ∈ body.asked ∧ x ∈ g.typeParams ∧ Occurs x t ∧
    WherePred.bound (.var x) ∉ (buildGenerics c g).preds := by
  refine ⟨oracle, ⟨"S", [], .struct (.unnamed [⟨none, [], ty "u32"⟩,
    ⟨none, [attr "serde" [.item (.path "skip_serializing")]], ty "T"⟩])⟩, ⟨[.type ⟨"T", [], none⟩], []⟩, _, _, ty "T", true, "T",
    rfl, .tail _ (.head _), by decide, .bare _ _ (by decide), ?_⟩
  change WherePred.bound (.var "T") ∉ []
  simp

/-- C55 if no field of a tuple (or newtype) struct or variant is skipped, nor a field of an adjacently tagged struct
variant: every type parameter that occurs in a type the generated code asks for is bounded.  Missing: such skipped fields
(`c55_is_false`). -/
theorem c55_mentioned_are_bounded_partial (o : Oracle) (input : DeriveInput SynType) (g : Generics) (c : Container SynType)
    (body : ModelExpr SynType) (hc : derive o input = .code c body)
    (positional : ∀ f, FieldPositional c f → f.attrs.skipSerializing = false)
    (t : SynType) (byRef : Bool) (asked : (t, byRef) ∈ body.asked) (x : String) (hx : x ∈ g.typeParams) (occurs : Occurs x t) :
    WherePred.bound (.var x) ∈ (buildGenerics c g).preds := by
  have hb : serializeBody c = .ok body := by
    unfold derive at hc
    split at hc
    · cases hc
    · split at hc <;> cases hc
    · split at hc
      · split at hc
        · cases hc
        · cases hc; assumption
      · cases hc
  obtain ⟨f, e, hf⟩ := serializeBody_asks hb asked
  have hs : FieldSerialized c f := by
    rcases hf with hf | hf
    · exact hf
    · have hk := positional f hf
      cases hf with
      | struct hd hf _ => exact .struct hd hf hk
      | variant hd hv hvs hf _ => exact .variant hd hv hvs hf hk
  obtain ⟨-, xs, us, hp, -, hmem, -⟩ := c54_bounds c g
  rw [hp]
  refine List.mem_append_left _ (List.mem_append_right _ (List.mem_map.2 ⟨x, (hmem x).2 ⟨hx, f, hs, ?_⟩, rfl⟩))
  have e : t = f.ty := e
  rw [← e]
  exact occurs

example : ∃ c body, derive oracle generic = .code c body ∧ (∀ f, FieldPositional c f → f.attrs.skipSerializing = false) ∧
    (ty "Vec" [ty "Option" [ty "C"]], true) ∈ body.asked ∧ Occurs "C" (ty "Vec" [ty "Option" [ty "C"]]) := by
  refine ⟨_, _, rfl, fun f hf => ?_, .head _, ?_⟩
  · cases hf with
    | struct hd _ h =>
      injection hd with hd _
      subst hd
      rcases h with h | h <;> cases h
    | variant hd => cases hd
  · exact .arg (by decide) (.head _) (.head _) (.type (.arg (by decide) (.head _) (.head _) (.type (.bare _ _ (by decide)))))

/-- C55, exactly: a type parameter is bounded if and only if it occurs in a serialized field.  (Bounds of the form
`T: OpgModel` written by the author are texts in the model, so they are excluded here.) -/
theorem c55_exact (c : Container SynType) (g : Generics) (given : ∀ t, WherePred.bound t ∉ g.preds) (x : String)
    (hx : x ∈ g.typeParams) :
    WherePred.bound (.var x) ∈ (buildGenerics c g).preds ↔ ∃ f, FieldSerialized c f ∧ Occurs x f.ty := by
  obtain ⟨-, xs, us, hp, -, hmem, uss, rfl, hu⟩ := c54_bounds c g
  rw [hp]
  simp only [List.mem_append, List.mem_map]
  constructor
  · rintro ((h | ⟨y, hy, e⟩) | ⟨u, hm, e⟩)
    · exact absurd h (given _)
    · simp only [WherePred.bound.injEq, SynType.var, SynType.path.injEq, List.cons.injEq, SynSeg.mk.injEq, and_true,
        true_and] at e
      obtain rfl := e
      exact ((hmem y).1 hy).2
    · cases e
      obtain ⟨l, hl, hul⟩ := List.mem_flatten.1 hm
      clear hp hm
      generalize c.serializedFields = fs at hu
      induction hu with
      | nil => cases hl
      | @cons a b as bs h t ih =>
        rcases List.mem_cons.1 hl with rfl | hl
        · rcases h with ⟨u, rfl, hu⟩ | ⟨rfl, -⟩
          · simp only [List.mem_singleton] at hul
            subst hul
            generalize a.ty = ty at hu
            generalize hv : SynType.var x = v at hu
            induction hu with
            | path h long => cases hv; exact absurd rfl long
            | group _ ih => exact ih hv
          · cases hul
        · exact ih hl
  · rintro ⟨f, hf, ho⟩
    exact .inl (.inr ⟨x, (hmem x).2 ⟨hx, f, hf, ho⟩, rfl⟩)

/-- It holds of the struct above: `C` is bounded, `D`, which occurs in a skipped field only, is not. -/
example : ∃ c body, derive oracle generic = .code c body ∧
    (WherePred.bound (.var "C") ∈ (buildGenerics c genericParams).preds) ∧
    (∀ t, WherePred.bound t ∉ genericParams.preds) :=
  ⟨_, _, rfl, by exact .tail _ (.head _), by simp [genericParams]⟩

end Verif
