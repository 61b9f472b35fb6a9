import Verif.Proof.EvolveMixed
import Verif.Props.Evolve
import Verif.Props.HandReads
/-!
# C95: values of earlier versions, in programs with hand written impls
-/

namespace Verif

/-- **C95**, in a program some of whose values are written by hand: a value of the old version of a type is, as JSON, a value of the grown
one. -/
theorem c95_mixed_values (s : Serde) (env env' : Env) (hand hand' : Nat → Option (Json → Prop))
    (grown : env.GrowsBy s hand env' hand') (t : Ty) (j : Json) (written : SerBy env s hand t j) : SerBy env' s hand' t j :=
  serBy_grows grown written

/-- **C95**, in a published document of a program with hand written impls: a client that sends values of the old version sends what the new
document allows, and what the new service reads.  The impls that document types may change as well.  Missing: as in C119 and C120. -/
theorem c95_mixed_partial (s : Serde) (rd : Reader) (env env' : Env) (hand hand' : Nat → Option (Json → Prop))
    (grown : env.GrowsBy s hand env' hand') (custom : Nat → Option (Impl Ty)) (read : Nat → Option (Json → Prop))
    (reason : Nat → Option String) (api : Api) (d : Opg) (h : DescribesVia (impls env' custom) reason api d)
    (distinct : d.ser.DistinctKeys) (unique : NamesUniqueVia (impls env' custom) api.roots)
    (hands : ∀ i, (hand' i).isSome = (custom i).isSome ∧ (read i).isSome = (custom i).isSome)
    (plain : ∀ i im, custom i = some im → im.Plain)
    (derived : ∀ i, ReachedVia (impls env' custom) api.roots (.named i) → custom i = none → ∃ o input, Derived o env' i input)
    (faithful : ∀ t, ReachedVia (impls env' custom) api.roots t → ¬ ByHand hand' t →
      Faithful (docsVia env' custom) (s.writesBy hand') t)
    (finite : s.nonFinite = false)
    (readable : ∀ t, ReachedVia (impls env' custom) api.roots t → ¬ ByHand read t → Readable (docsVia env' custom) rd t)
    (accepts : ∀ i v, ReachedVia (impls env' custom) api.roots (.named i) → hand' i = some v → ∀ j, v j →
      ∀ m, SchemaVia (impls env' custom) (.named i) m → Accepts false d.ser (Ref.inline m).ser j)
    (reads : ∀ i v, ReachedVia (impls env' custom) api.roots (.named i) → read i = some v →
      ∀ m, SchemaVia (impls env' custom) (.named i) m → ∀ j, j.Distinct → Accepts false d.ser (Ref.inline m).ser j → v j)
    (t : Ty) (v : Value) (placed : PlacedAt api d.ser t v) (j : Json) (written : SerBy env s hand t j) :
    Accepts false d.ser v j ∧ (j.Distinct → ReadsBy env' rd read t j) := by
  have ha := c119_accepts_partial env' s custom hand' reason api d h distinct unique (fun i => (hands i).1) plain derived faithful finite
    accepts t v placed j (serBy_grows grown written)
  exact ⟨ha, fun hj => c120_read_partial false env' rd custom read reason api d h distinct unique (fun i => (hands i).2) plain derived
    readable reads t v placed j hj ha⟩

namespace Sample

/-- The program `drawing` before: `#[serde(tag = "kind")] enum Action { Draw { figure: Figure } }`. -/
def actionBefore : Container Ty := container "Action" (fun a => { a with tagType := .internal "kind", modelType := .oneOf })
  (.enum [variantAs "Draw" "Draw" .struct [field "figure" (.named 1)]])
def drawingBefore : Env := ⟨fun i => match i with | 0 => actionBefore | _ => figure, fun s => s⟩

/-- Figures were written as one of two strings. -/
def sketchBefore : Nat → Option (Json → Prop)
  | 1 => some fun j => j = .str "circle" ∨ j = .str "square"
  | _ => none

theorem sketch_grows : drawingBefore.GrowsBy serde sketchBefore drawing sketchValues where
  decl
    | 0, _ => ⟨rfl, rfl, rfl, rfl, rfl, .enum fun v hv => ⟨v, by
        cases List.mem_singleton.1 hv; exact .head _, variant_grows_refl v⟩⟩
    | _ + 1, _ => ⟨rfl, rfl, rfl, rfl, rfl, data_grows_refl _ _⟩
  repr i vs _ h := nomatch h
  derived
    | 0, _ => rfl
    | _ + 2, _ => rfl
  byHand
    | 1, v, h => by
      cases h
      exact ⟨_, rfl, fun j hj => hj.elim (fun e => ⟨_, e⟩) fun e => ⟨_, e⟩⟩

theorem sketch_str {m} (hm : SchemaVia (impls drawing sketchHand) (.named 1) m) : m = str := by
  obtain ⟨cx, cx', hm⟩ := hm
  obtain ⟨n, hm⟩ := progReturns_iff.1 hm
  have hm : (Prog.ret str : Prog Ty Model).exec _ _ = _ := hm
  cases hm
  rfl

/-- The hypotheses hold of a program in which an enum got a variant, and a type written by hand further values. -/
example : ∃ v, PlacedAt sketchApi sketchDoc.ser (.named 0) v ∧
    (∀ j, SerBy drawingBefore serde sketchBefore (.named 0) j →
      Accepts false sketchDoc.ser v j ∧ (j.Distinct → ReadsBy drawing (rust false) sketchValues (.named 0) j)) ∧
    SerBy drawingBefore serde sketchBefore (.named 0) (.obj [("kind", .str "Draw"), ("figure", .str "circle")]) := by
  obtain ⟨h1, -, h3, h4, -⟩ := c118_placed _ _ _ _ sketchDoc_described sketchDoc_distinct
  obtain ⟨item, hi⟩ := h1 sketchPath (List.mem_singleton.2 rfl)
  obtain ⟨op, -, hop⟩ := h3 _ _ .get sketchOp hi rfl
  obtain ⟨v, -, hv⟩ := h4 _ _ 200 none (.named 0) hop rfl
  refine ⟨v, hv, fun j => ?_, ?_⟩
  · refine c95_mixed_partial serde (rust false) drawingBefore drawing sketchBefore sketchValues sketch_grows sketchHand sketchValues reason
      sketchApi _ sketchDoc_described sketchDoc_distinct sketch_unique
      (fun i => by match i with | 0 => exact ⟨rfl, rfl⟩ | 1 => exact ⟨rfl, rfl⟩ | _ + 2 => exact ⟨rfl, rfl⟩) sketch_plain
      (fun i _ _ => ⟨_, drawing_derived i⟩) ?_ rfl ?_ ?_ ?_ (.named 0) v hv j
    · intro t h hb
      rcases sketch_reached h with rfl | rfl
      · simp [Faithful, FaithfulDecl, FaithfulVariant, docsVia, drawing, action, container, variantAs, variantAttrs, PlainFields,
          serialFields, writtenVariants, field, containerAttrs, Field.key, Variant.key]
      · exact absurd ⟨1, _, rfl, rfl⟩ hb
    · intro t h hb
      rcases sketch_reached h with rfl | rfl
      · simp [Readable, ReadableDecl, ReadableVariant, ReadableFields, docsVia, drawing, action, container, variantAs, variantAttrs,
          PlainFields, serialFields, writtenVariants, field, containerAttrs, Field.key, Variant.key, rust]
      · exact absurd ⟨1, _, rfl, rfl⟩ hb
    · intro i v _ hv j hj m hm
      match i, hv with
      | 1, hv =>
        cases hv
        obtain ⟨t, rfl⟩ := hj
        cases sketch_str hm
        exact accepts_ser.2 (.inline (.string nofun))
    · intro i v _ hv m hm j _ ha
      match i, hv with
      | 1, hv =>
        cases hv
        cases sketch_str hm
        cases accepts_ser.1 ha with
        | inline h => cases h with
          | string => exact ⟨_, rfl⟩
  · exact .structVariant (v := variantAs "Draw" "Draw" .struct [field "figure" (.named 1)]) rfl rfl rfl
      (by simp [writtenVariants, variantAs, variantAttrs]) rfl
      (ps := [(field "figure" (.named 1), .str "circle")]) (.keep rfl .nil) (by simp [field])
      (by simp only [List.mem_singleton]; rintro p rfl _; exact .byHand (i := 1) rfl (.inl rfl)) rfl

end Sample

end Verif
