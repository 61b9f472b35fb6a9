import Verif.Props.Api
import Verif.Proof.TypeDecl
/-!
# Described APIs and types, continued (C58, C62–C64)
-/

namespace Verif

open Sample

/-! ## C58: `info` -/

/-- C58 for `info`: the section given last, as a whole; without one, empty texts. -/
theorem c58_info (env : Env) (reason : Nat → Option String) (api : Api) (d : Opg) (h : Describes env reason api d) :
    (∀ ps, lastOf Section.info? api = some ps → InfoOf ps d.info) ∧
    (lastOf Section.info? api = none → d.info.title = "" ∧ d.info.version = "" ∧ d.info.description = none) := by
  obtain ⟨c, rfl, rfl, s⟩ := h.step
  have := s.info
  constructor
  · intro ps hps
    rw [hps] at this
    obtain ⟨i, hi, h⟩ := this
    cases hi
    exact h
  · intro hn
    rw [hn] at this
    have : d.info = Opg.empty.info := Option.some.inj this
    rw [this]
    exact ⟨rfl, rfl, rfl⟩

example : lastOf Section.info? api = some [.title "T", .version "1"] ∧ apiDoc.info.title = "T" := ⟨rfl, rfl⟩

/-! ## C62 -/

/-- C62 is false of types with generic arguments: `Vec<a::B>` declares the parameter `b>`. -/
theorem c62_is_false : ∃ (env : Env) (reason : Nat → Option String) (d : Opg),
    Describes env reason [.paths [.mk [.bare (.mk false [("Vec", [.mk false [("a", []), ("B", [])]])]) (.prim .u32)] []]] d ∧
    d.paths.map (fun p => UrlPath.render p.1) = ["/{b>}"] :=
  ⟨env, reason, _, ⟨10, rfl⟩, rfl⟩

/-- C62 is false of types whose name starts with a letter outside ASCII: the description panics. -/
theorem c62_is_false_not_ascii (env : Env) (reason : Nat → Option String) (t : Ty) :
    ¬ ∃ d, Describes env reason [.paths [.mk [.bare (.mk false [("Été", [])]) t] []]] d := by
  rintro ⟨d, h⟩
  obtain ⟨pv, -, hp, -⟩ := (c57_order env reason _ d h).1.get (i := 0) rfl
  obtain ⟨e, -, hs⟩ := hp.get (i := 0) rfl
  cases hs with
  | bare hb =>
    have e : bareName (TypePath.print (.mk false [("Été", [])])) = none := by decide +kernel
    rw [e] at hb
    cases hb

/-- The parameter name of a segment given as a type path whose last segment has no generic arguments. -/
theorem c62_name (leading : Bool) (init : List (String × List TypePath)) (name : String) (colon : ':' ∉ name.toList)
    (ascii : ∃ c cs, name.toList = c :: cs ∧ c.toNat < 128) :
    bareName (TypePath.print (.mk leading (init ++ [(name, [])]))) = some (firstLowered name) := by
  obtain ⟨c, cs, e, hc⟩ := ascii
  unfold bareName firstLowered
  rw [afterColon_print leading init name colon, e]
  simp [hc, asciiLowerChar_eq]

/-- C62 for type paths whose last segment has no generic arguments (earlier segments may have some): wherever such a
segment stands in a path of a described document, also under callbacks, it declares the parameter named by the last
path segment with its first letter lowered.  `colon` holds of every Rust identifier.  Missing: generic arguments
(`c62_is_false`); and names that start with a letter outside ASCII, for which there is no document
(`c62_is_false_not_ascii`). -/
theorem c62_bare_segment_partial (env : Env) (reason : Nat → Option String) (api : Api) (d : Opg)
    (h : Describes env reason api d) (decl : PathDecl) (p : UrlPath) (v : PathValue) (hi : ItemIn api d decl (p, v))
    (i : Nat) (leading : Bool) (init : List (String × List TypePath)) (name : String) (t : Ty)
    (seg : decl.segments[i]? = some (.bare (.mk leading (init ++ [(name, [])])) t)) (colon : ':' ∉ name.toList) :
    p[i]? = some (.parameter (firstLowered name)) ∧ BMap.get (firstLowered name) v.parameters ≠ none := by
  have io := c58_path_item env reason api d h decl p v hi
  obtain ⟨e, he, hs⟩ := io.path.get seg
  cases hs with
  | bare hb =>
    have hn : ∃ c cs, name.toList = c :: cs ∧ c.toNat < 128 := by
      unfold bareName at hb
      rw [afterColon_print leading init name colon] at hb
      cases hl : name.toList with
      | nil => rw [hl] at hb; cases hb
      | cons c cs =>
        rw [hl] at hb
        simp only at hb
        split at hb
        · exact ⟨c, cs, rfl, ‹_›⟩
        · cases hb
    have key := c62_name leading init name colon hn
    rw [key] at hb
    cases hb
    refine ⟨he, fun hnone => ?_⟩
    cases hl : lastOf (ParamDecl.named? (firstLowered name)) (decl.props.flatMap ItemProp.paramList) with
    | some pd =>
      obtain ⟨x, hx, -⟩ := io.parameters _ pd hl
      rw [hx] at hnone
      cases hnone
    | none =>
      have ht := io.template _ hl
      cases hs : lastOf (PathSeg.typeOf? (firstLowered name)) decl.segments with
      | some t' =>
        rw [hs] at ht
        obtain ⟨x, hx, -⟩ := ht
        rw [hx] at hnone
        cases hnone
      | none =>
        have := (lastOf_none.1 hs) _ (List.mem_of_getElem? seg)
        simp [PathSeg.typeOf?, PathSeg.param?, key] at this

example : ∃ v, ItemIn api apiDoc (.mk [.literal "pets", .bare (.mk false [("models", []), ("PetId", [])]) (.prim .u32)] [])
    ([.path "pets", .parameter "petId"], v) ∧ ':' ∉ "PetId".toList ∧ firstLowered "PetId" = "petId" :=
  ⟨_, .top (i := 2) rfl rfl, by decide +kernel, by decide +kernel⟩

/-! ## C63 -/

/-- C63: `describe_type!` produces the model its input spells out. -/
theorem c63_describe_type (t : TypeDecl) : SpellsModel t t.model := t.spells

/-- C63: and there is only one such model. -/
theorem c63_describe_type_unique (t : TypeDecl) (m : Model) (h : SpellsModel t m) : m = t.model := t.unique m h

/-- C63 for objects: their properties are those declared, the last per name, and `required` lists the names marked so,
in order. -/
theorem c63_object (d : Option String) (ps : List PropDecl) : ∃ o : ModelObject,
    (TypeDecl.object d ps).model = ⟨d, .single ⟨false, .object o⟩⟩ ∧ o.additional = none ∧
    o.required = (ps.filter PropDecl.required).map PropDecl.name ∧
    ∀ name, BMap.get name o.properties = (lastOf (PropDecl.named? name) ps).map fun p => p.value.ref := by
  refine ⟨⟨describeProperties ps [], none, describeRequired ps⟩, rfl, rfl, describeRequired_eq ps, fun name => ?_⟩
  show BMap.get name (describeProperties ps []) = _
  rw [get_describeProperties]
  cases lastOf (PropDecl.named? name) ps <;> rfl

example : ∃ o : ModelObject, (TypeDecl.object (some "d") [.mk "a" true (.link "A"), .mk "b" false (.inline (.boolean none)),
      .mk "a" false (.inline (.array none (.inline (.string none (some "uuid") none none))))]).model =
      ⟨some "d", .single ⟨false, .object o⟩⟩ ∧ o.required = ["a"] ∧ BMap.keys o.properties = ["a", "b"] ∧
    BMap.get "a" o.properties =
      some (.inline ⟨none, .single ⟨false, .array (.inline ⟨none, .single ⟨false, .string none (some "uuid") none⟩⟩)⟩⟩) :=
  ⟨_, rfl, rfl, rfl, rfl⟩

/-! ## C64: example -/

namespace Sample

def diamondApi : Api := [.paths [.mk [.literal "a"] [.operation .get
  [.response 200 none (.type (.named 0)), .response 400 none (.type (.named 1))]]]]
def diamondApi' : Api := [.paths [.mk [.literal "a"] [.operation .get [.response 200 none (.type (.named 1))]]],
  .paths [.mk [.literal "b"] [.operation .post [.body (.type (.named 0))]]]]

end Sample

theorem Sample.diamond_mentions : diamondApi.mentions = [.named 0, .named 1] ∧ diamondApi'.mentions = [.named 1, .named 0] := by
  constructor <;> simp [Api.mentions, Api.parts, Api.pathList, diamondApi, diamondApi', Section.pathList, pathParts, itemParts, opParts,
    PathSeg.parts, ResponseDecl.parts, BodyDecl.parts]

/-- The hypotheses of `c64_order_independent` hold of two different descriptions. -/
example : (∃ d d', Describes diamond reason diamondApi d ∧ Describes diamond reason diamondApi' d' ∧
      BMap.keys d.components.schemas = ["Leaf", "Left", "Right"]) ∧
    NamesConsistent diamond (diamondApi.mentions.map fun t => (t, true)) ∧
    ∀ t, t ∈ diamondApi.mentions ↔ t ∈ diamondApi'.mentions := by
  refine ⟨⟨_, _, ⟨10, rfl⟩, ⟨10, rfl⟩, rfl⟩, ?_, fun t => ?_⟩
  · rw [diamond_mentions.1]; exact diamond_unique.consistent
  · rw [diamond_mentions.1, diamond_mentions.2]
    simp [or_comm]

end Verif
