import Verif.Props.Derive
/-!
# Tags, nullability and newtypes (C32, C33, C36, C38, C39, C66)
-/

namespace Verif

variable {o : Oracle} {env : Env}

namespace Sample

/-- The program consisting of the given parsed items (types 0, 1, ..); any further type is `Pet`. -/
def program (cs : List (Container Ty)) : Env := ⟨fun i => cs[i]?.getD (decl 1), fun s => s⟩

/-- Parsed fields and variants, with their serialized names. -/
def fieldAs (source name : String) (ty : Ty) (f : FieldAttrs → FieldAttrs := id) : Field Ty :=
  ⟨f { (field source ty).attrs with name := ⟨source, name, false⟩ }, ty⟩
def variantAs (source name : String) (style : StructStyle) (fs : List (Field Ty)) (f : VariantAttrs → VariantAttrs := id)
    (d : Option String := none) : Variant Ty :=
  ⟨source, f { variantAttrs source with name := ⟨source, name, false⟩ }, style, fs, d⟩
def container (name : String) (f : ContainerAttrs → ContainerAttrs) (data : Data Ty) : Container Ty :=
  ⟨name, f (containerAttrs name), data⟩

/-- Attributes `#[path(items)]`. -/
def attr (path : String) (items : List NestedMeta) : Attribute := ⟨path, .list items⟩
def word (p : String) : NestedMeta := .item (.path p)
def nv (p s : String) : NestedMeta := .item (.nameValue p (.str s))
def fld (name : String) (ty : Ty) (attrs : List Attribute := []) : SynField Ty := ⟨some name, attrs, ty⟩
def tfld (ty : Ty) (attrs : List Attribute := []) : SynField Ty := ⟨none, attrs, ty⟩
def var (name : String) (fields : SynFields Ty := .unit) (attrs : List Attribute := []) : SynVariant Ty :=
  ⟨name, attrs, fields, none⟩
def varD (name : String) (d : String) : SynVariant Ty := ⟨name, [], .unit, some d⟩

end Sample

open Sample

/-! ## Non-vacuity of C27, C29, C30, C31 -/

/-- `#[serde(rename_all = "camelCase")] struct S { user_id: u32, #[serde(skip)] tmp: String,
#[opg(optional)] nick_name: Option<String> }` -/
def Sample.s27 : DeriveInput Ty := ⟨"S", [attr "serde" [nv "rename_all" "camelCase"]], .struct (.named [
  fld "user_id" (.prim .u32), fld "tmp" (.prim .string) [attr "serde" [word "skip"]],
  fld "nick_name" (.option (.prim .string)) [attr "opg" [word "optional"]]])⟩

def Sample.s27c : Container Ty := container "S" (fun a => { a with renameRule := .camelCase }) (.struct .struct [
  fieldAs "user_id" "userId" (.prim .u32), fieldAs "tmp" "tmp" (.prim .string) (fun f => { f with skipSerializing := true }),
  fieldAs "nick_name" "nickName" (.option (.prim .string)) (fun f => { f with optional := true })])

example : Derived oracle (program [s27c]) 0 s27 ∧ HasSchema (program [s27c]) (.named 0)
    (objectSchema none false ⟨[("nickName", .inline ⟨none, .single ⟨true, .string none none none⟩⟩),
      ("userId", .inline ⟨none, .single ⟨false, .integer (some "uint32") none⟩⟩)], none, ["userId"]⟩) :=
  ⟨⟨_, rfl⟩, Components.empty, _, 5, rfl⟩

/-- `#[serde(rename_all = "lowercase")] enum E { Red, #[serde(skip)] Green, #[serde(rename = "BLUE")] Blue }` -/
def Sample.e29 : DeriveInput Ty := ⟨"E", [attr "serde" [nv "rename_all" "lowercase"]], .enum [
  var "Red", var "Green" .unit [attr "serde" [word "skip"]], var "Blue" .unit [attr "serde" [nv "rename" "BLUE"]]]⟩

def Sample.e29c : Container Ty := container "E" (fun a => { a with renameRule := .lowerCase, modelType := .newType }) (.enum [
  variantAs "Red" "red" .unit [], variantAs "Green" "green" .unit [] (fun v => { v with skipSerializing := true }),
  variantAs "Blue" "BLUE" .unit [] (fun v => { v with name := ⟨"Blue", "BLUE", true⟩ })])

example : Derived oracle (program [e29c]) 0 e29 ∧ HasSchema (program [e29c]) (.named 0) (stringEnum none ["red", "BLUE"]) :=
  ⟨⟨_, rfl⟩, Components.empty, _, 5, rfl⟩

/-- `#[repr(u8)] enum E { A = 1, B = 2 }` -/
def Sample.e30 : DeriveInput Ty := ⟨"E", [attr "repr" [word "u8"]], .enum [varD "A" "1", varD "B" "2"]⟩

def Sample.e30c : Container Ty := container "E" (fun a => { a with hasRepr := true, modelType := .newType }) (.enum [
  variantAs "A" "A" .unit [] id (some "1"), variantAs "B" "B" .unit [] id (some "2")])

example : Derived oracle (program [e30c]) 0 e30 ∧ HasSchema (program [e30c]) (.named 0)
    ⟨none, .oneOf [.inline (integerSchema "A variant" "1"), .inline (integerSchema "B variant" "2")]⟩ :=
  ⟨⟨_, rfl⟩, Components.empty, _, 5, rfl⟩

/-- `#[repr(u8)] enum E { A, B }` -/
def Sample.e30' : DeriveInput Ty := ⟨"E", [attr "repr" [word "u8"]], .enum [var "A", var "B"]⟩

def Sample.e30c' : Container Ty := container "E" (fun a => { a with hasRepr := true, modelType := .newType }) (.enum [
  variantAs "A" "A" .unit [], variantAs "B" "B" .unit []])

/-- C30 is false: an accepted repr enum with two variants whose schema has no alternative at all. -/
theorem c30_is_false : ∃ env, Derived oracle env 0 e30' ∧
    Gives (ContainerGives oracle .enum) e30'.attrs .repr .unit ∧
    HasSchema env (.named 0) ⟨none, .oneOf []⟩ :=
  ⟨program [e30c'], ⟨_, rfl⟩, ⟨_, rfl, _, List.mem_singleton.2 rfl, .repr _⟩, Components.empty, _, 5, rfl⟩

/-- Type 1 is `Pet`; `enum E { A(Pet), B { x: bool }, #[serde(skip)] C(u8) }` with the given attributes. -/
def Sample.e31 (attrs : List Attribute) : DeriveInput Ty := ⟨"E", attrs, .enum [
  var "A" (.unnamed [tfld (.named 1)]), var "B" (.named [fld "x" (.prim .bool)]),
  var "C" (.unnamed [tfld (.prim .u8)]) [attr "serde" [word "skip"]]]⟩

def Sample.e31c (t : TagType) (mt : MModelType) : Container Ty :=
  container "E" (fun a => { a with tagType := t, modelType := mt }) (.enum [
    variantAs "A" "A" .newType [field "0" (.named 1)], variantAs "B" "B" .struct [field "x" (.prim .bool)],
    variantAs "C" "C" .newType [field "0" (.prim .u8)] (fun v => { v with skipSerializing := true })])

example : Derived oracle (program [e31c .none .oneOf]) 0 (e31 [attr "serde" [word "untagged"]]) ∧
    HasSchema (program [e31c .none .oneOf]) (.named 0)
      ⟨none, .oneOf [.link "Pet", .inline (objectSchema none false
        ⟨[("x", .inline ⟨none, .single ⟨false, .boolean⟩⟩)], none, ["x"]⟩)]⟩ :=
  ⟨⟨_, rfl⟩, Components.empty, _, 5, rfl⟩

example : Derived oracle (program [e31c .external .dictionary]) 0 (e31 []) ∧
    HasSchema (program [e31c .external .dictionary]) (.named 0) (objectSchema none false ⟨[], some (.inline
      ⟨none, .oneOf [.link "Pet", .inline (objectSchema none false
        ⟨[("x", .inline ⟨none, .single ⟨false, .boolean⟩⟩)], none, ["x"]⟩)]⟩), []⟩) :=
  ⟨⟨_, rfl⟩, Components.empty, _, 5, rfl⟩

/-! ## C32: internal tags -/

/-- `#[serde(tag = "kind")] enum E { A(String), B { kind: bool } }` -/
def Sample.e32 : DeriveInput Ty := ⟨"E", [attr "serde" [nv "tag" "kind"]], .enum [
    var "A" (.unnamed [tfld (.prim .string)]), var "B" (.named [fld "kind" (.prim .bool)])]⟩

def Sample.e32c : Container Ty := container "E" (fun a => { a with tagType := .internal "kind", modelType := .oneOf }) (.enum [
    variantAs "A" "A" .newType [field "0" (.prim .string)], variantAs "B" "B" .struct [field "kind" (.prim .bool)]])

/-- C32 is false.  The newtype variant `A(String)` is documented as a plain string, without the tag; and in
`B { kind: bool }` the tag property is the field's boolean. -/
theorem c32_is_false : ∃ env m₁ m₂, Derived oracle env 0 e32 ∧
    Tagging (ContainerGives oracle .enum) e32.attrs (.internal "kind") ∧
    HasSchema env (.named 0) ⟨none, .oneOf [.inline m₁, .inline m₂]⟩ ∧
    (¬ ∃ v, HasTag "kind" v (.inline m₁)) ∧ (¬ ∃ v, HasTag "kind" v (.inline m₂)) := by
  have hd : Derived oracle (program [e32c]) 0 e32 := ⟨_, rfl⟩
  refine ⟨program [e32c], str, objectSchema none false ⟨[("kind", .inline ⟨none, .single ⟨false, .boolean⟩⟩)], none, ["kind"]⟩,
    hd, (hd.parsed.tag (.internal "kind")).1 rfl, ⟨Components.empty, _, 5, rfl⟩, ?_, ?_⟩
  · rintro ⟨v, d, n, ob, d', h, _⟩; cases h
  · rintro ⟨v, d, n, ob, d', h, _, hg⟩
    cases h
    cases hg

theorem Tagged.hasTag {tag description value : String} {m₀ m d n ob} (h : Tagged tag description value m₀ m)
    (ho : m₀ = objectSchema d n ob) (hn : tag ∉ BMap.keys ob.properties) : HasTag tag value (.inline m) := by
  cases h with
  | added d' n' ob' h' hn' hm =>
    rw [hm]
    exact ⟨_, _, _, some description, rfl, by simp, by simp [BMap.get_insert]⟩
  | clash d' n' ob' h' hn' hm =>
    rw [ho] at h'
    cases h'
    exact absurd hn' hn
  | notObject h' hm => exact absurd ho (h' _ _ _)

/-- C32 for unit variants, for struct variants without a field serialized under the name of the tag, and for
newtype variants whose inner schema is an object without such a property.  Missing: the other newtype and struct
variants, for which it is false (`c32_is_false`). -/
theorem c32_internal_tag_partial (i : Nat) (input : DeriveInput Ty) (vs) (hd : Derived o env i input)
    (hi : input.data = .enum vs) (hu : HasData vs) (t)
    (ht : Tagging (ContainerGives o .enum) input.attrs (.internal t)) (m) (hs : HasSchema env (.named i) m) :
    ∃ rule vs' rs, RuleOf (ContainerGives o .enum) input.attrs rule ∧ Pointwise (VariantParsed o rule) vs vs' ∧
      m = ⟨(env.decl i).attrs.description, .oneOf rs⟩ ∧
      Pointwise (fun v r => v.style ≠ .tuple ∧
        (v.style = .unit → HasTag t v.key r) ∧
        (v.style = .struct → (∀ f ∈ serialFields v.fields, f.key ≠ t) → HasTag t v.key r) ∧
        (v.style = .newType → ∀ f ∈ v.fields.head?, ∃ m₀, HasSchema env f.ty m₀ ∧
          ∀ d n ob, m₀ = objectSchema d n ob → t ∉ BMap.keys ob.properties → HasTag t v.key r))
        (vs'.filter fun v => !v.attrs.skipSerializing) rs := by
  obtain ⟨rule, vs', ms, hr, hp, rfl, hms⟩ := c31_internal i input vs hd hi hu t ht m hs
  refine ⟨rule, vs', ms.map .inline, hr, hp, rfl, ?_⟩
  have key : ∀ {l : List (Variant Ty)} {ms}, Pointwise (fun v m => ∃ m₀, InternalContent env v m₀ ∧
        Tagged t (input.ident ++ " type variant") v.key m₀ m) l ms →
      Pointwise (fun v r => v.style ≠ .tuple ∧
        (v.style = .unit → HasTag t v.key r) ∧
        (v.style = .struct → (∀ f ∈ serialFields v.fields, f.key ≠ t) → HasTag t v.key r) ∧
        (v.style = .newType → ∀ f ∈ v.fields.head?, ∃ m₀, HasSchema env f.ty m₀ ∧
          ∀ d n ob, m₀ = objectSchema d n ob → t ∉ BMap.keys ob.properties → HasTag t v.key r)) l (ms.map .inline) := by
    intro l ms h
    induction h with
    | nil => exact .nil
    | cons h _ ih =>
      refine .cons ?_ ih
      rename_i v m _ _ _
      obtain ⟨m₀, hc, htag⟩ := h
      unfold InternalContent at hc
      refine ⟨?_, ?_, ?_, ?_⟩
      · intro hst; rw [hst] at hc; exact hc
      · intro hst; rw [hst] at hc; exact htag.hasTag hc (by simp [BMap.keys])
      · intro hst hf
        rw [hst] at hc
        obtain ⟨ob, hob, rfl⟩ := hc
        refine htag.hasTag rfl ?_
        rw [hob.names]
        rintro ⟨f, hf1, hf2⟩
        exact hf f hf1 hf2
      · intro hst f hf
        rw [hst] at hc
        obtain ⟨f', rest, m₁, hfs, hsc, rfl⟩ := hc
        rw [hfs] at hf
        simp only [List.head?_cons, Option.mem_def, Option.some.injEq] at hf
        subst hf
        refine ⟨m₁, hsc, ?_⟩
        rintro d n ob rfl hn
        exact htag.hasTag (d := overrideOpt (f'.docIn env v.attrs).description d) (ob := ob) rfl hn
  exact key hms

/-- `#[serde(tag = "kind")] enum E { A(Pet), B, #[serde(skip)] C(u8) }`. -/
def Sample.e32' : DeriveInput Ty := ⟨"E", [attr "serde" [nv "tag" "kind"]], .enum [
    var "A" (.unnamed [tfld (.named 1)]), var "B",
    var "C" (.unnamed [tfld (.prim .u8)]) [attr "serde" [word "skip"]]]⟩

def Sample.e32c' : Container Ty := container "E" (fun a => { a with tagType := .internal "kind", modelType := .oneOf }) (.enum [
    variantAs "A" "A" .newType [field "0" (.named 1)], variantAs "B" "B" .unit [],
    variantAs "C" "C" .newType [field "0" (.prim .u8)] (fun v => { v with skipSerializing := true })])

example : Derived oracle (program [e32c']) 0 e32' ∧ HasSchema (program [e32c']) (.named 0) ⟨none, .oneOf
    [.inline (objectSchema none false ⟨[("kind", .inline (stringEnum (some "E type variant") ["A"])),
       ("name", .inline str)], none, ["name", "kind"]⟩),
     .inline (objectSchema none false ⟨[("kind", .inline (stringEnum (some "E type variant") ["B"]))], none, ["kind"]⟩)]⟩ :=
  ⟨⟨_, rfl⟩, Components.empty, _, 5, rfl⟩

/-! ## C33: adjacent tags -/

/-- C33 for enums with data.  Missing: enums with unit variants only, for which it is false (`c33_is_false`). -/
theorem c33_adjacent_partial (i : Nat) (input : DeriveInput Ty) (vs) (hd : Derived o env i input)
    (hi : input.data = .enum vs) (hu : HasData vs) (t cn) (hne : t ≠ cn)
    (ht : Tagging (ContainerGives o .enum) input.attrs (.adjacent t cn)) (m) (hs : HasSchema env (.named i) m) :
    ∃ rule names d n ob d₁ d₂ alternatives, RuleOf (ContainerGives o .enum) input.attrs rule ∧
      SerializedNames o rule vs names ∧ m = objectSchema d n ob ∧ ob.additional = none ∧
      (∀ k, k ∈ BMap.keys ob.properties ↔ k = t ∨ k = cn) ∧ ob.required = [t, cn] ∧
      BMap.get t ob.properties = some (.inline (stringEnum d₁ names)) ∧
      BMap.get cn ob.properties = some (.inline ⟨d₂, .oneOf alternatives⟩) ∧ alternatives.length = names.length := by
  obtain ⟨rule, vs', rs, hr, hp, rfl, hrs⟩ := c31_adjacent i input vs hd hi hu t cn ht m hs
  refine ⟨rule, _, _, _, _, some (input.ident ++ " type variant"), (env.decl i).attrs.description, rs, hr,
    serializedNames hp, rfl, rfl, ?_, rfl, ?_, ?_, ?_⟩
  · intro k
    rw [BMap.mem_keys_insert, BMap.mem_keys_insert]
    simp [BMap.keys, or_comm]
  · rw [BMap.get_insert, if_neg hne, BMap.get_insert, if_pos rfl]; rfl
  · rw [BMap.get_insert, if_pos rfl]
  · rw [List.length_map]; exact hrs.length_eq

def Sample.e33 : DeriveInput Ty := ⟨"E", [attr "serde" [nv "tag" "t", nv "content" "c"]], .enum [var "A", var "B"]⟩

def Sample.e33c : Container Ty := container "E" (fun a => { a with tagType := .adjacent "t" "c", modelType := .newType })
  (.enum [variantAs "A" "A" .unit [], variantAs "B" "B" .unit []])

/-- C33 is false: `#[serde(tag = "t", content = "c")] enum E { A, B }` is documented as a string. -/
theorem c33_is_false : ∃ env, Derived oracle env 0 e33 ∧
    Tagging (ContainerGives oracle .enum) e33.attrs (.adjacent "t" "c") ∧
    HasSchema env (.named 0) (stringEnum none ["A", "B"]) := by
  have hd : Derived oracle (program [e33c]) 0 e33 := ⟨_, rfl⟩
  exact ⟨program [e33c], hd, (hd.parsed.tag (.adjacent "t" "c")).1 rfl, Components.empty, _, 5, rfl⟩

def Sample.e33' : DeriveInput Ty := e31 [attr "serde" [nv "tag" "t", nv "content" "c"]]

example : Derived oracle (program [e31c (.adjacent "t" "c") .object]) 0 e33' ∧
    HasSchema (program [e31c (.adjacent "t" "c") .object]) (.named 0) (objectSchema none false ⟨[
      ("c", .inline ⟨none, .oneOf [.link "Pet", .inline (tupleSchema none false
        [.inline ⟨none, .single ⟨false, .boolean⟩⟩])]⟩),
      ("t", .inline (stringEnum (some "E type variant") ["A", "B"]))], none, ["t", "c"]⟩) :=
  ⟨⟨_, rfl⟩, Components.empty, _, 5, rfl⟩

/-! ## C36: `Option` -/

theorem option_schema {t m} (h : HasSchema env (.option t) m) :
    ∃ m₀, HasSchema env t m₀ ∧ m = m₀.applyParams { nullable := some true } := by
  obtain ⟨cx, cx', h⟩ := h
  exact yields_getSchemaWithParams (h.yields rfl)

/-- C36 for types with a plain (not `oneOf`) schema: the schema of `Option<T>` is that of `T` made nullable.
Missing: `oneOf` schemas and references by name, for which it is false (`c36_is_false`). -/
theorem c36_option_partial (t : Ty) (m) (h : HasSchema env (.option t) m) :
    ∃ m₀, HasSchema env t m₀ ∧
      (∀ d n td, m₀ = ⟨d, .single ⟨n, td⟩⟩ → m = ⟨d, .single ⟨true, td⟩⟩) ∧
      ((∀ d n td, m₀ ≠ ⟨d, .single ⟨n, td⟩⟩) → m = m₀) := by
  obtain ⟨m₀, h₀, rfl⟩ := option_schema h
  refine ⟨m₀, h₀, ?_, ?_⟩
  · rintro d n td rfl
    cases td <;> rfl
  · intro hn
    obtain ⟨d, data⟩ := m₀
    cases data with
    | single t => obtain ⟨n, td⟩ := t; exact absurd rfl (hn d n td)
    | _ => rfl

/-- C36 is false: the schema of `Option<E>` for an untagged enum `E` is not nullable; and a struct field of type
`Option<Pet>` is a plain link to a schema `Pet` that need not be nullable. -/
theorem c36_is_false :
    (∃ env m, HasSchema env (.option (.named 0)) m ∧ ¬ IsNullable m) ∧
    (∃ env cx m, MentionReturns env (.option (.named 1)) false {} cx (.link "Pet") cx ∧
      BMap.get "Pet" cx.schemas = some m ∧ HasSchema env (.named 1) m ∧ ¬ IsNullable m) := by
  constructor
  · refine ⟨program [e31c .none .oneOf],
      ⟨none, .oneOf [.link "Pet", .inline (objectSchema none false
        ⟨[("x", .inline ⟨none, .single ⟨false, .boolean⟩⟩)], none, ["x"]⟩)]⟩, ⟨Components.empty, _, 6, rfl⟩, ?_⟩
    rintro ⟨d, td, h⟩; cases h
  · refine ⟨Sample.env, ⟨[("Pet", petModel)], []⟩, petModel, ⟨5, rfl⟩, rfl, ⟨Components.empty, _, 5, rfl⟩, ?_⟩
    rintro ⟨d, td, h⟩; cases h

example : HasSchema Sample.env (.option (.prim .u32)) ⟨none, .single ⟨true, .integer (some "uint32") none⟩⟩ :=
  ⟨Components.empty, _, 3, rfl⟩

/-! ## C38: newtypes -/

theorem newtype_schema {i input f c t} (hd : Derived o env i input) (hi : input.data = .struct (.unnamed [f]))
    {m} (hs : HasSchema env (.named i) m) (hc : c = env.decl i) (ht : c.attrs.explicitModelType = t) :
    ∃ rule f', FieldParsed o rule 0 f f' ∧ RuleOf (ContainerGives o .otherStruct) input.attrs rule ∧
      c.data = .struct .newType [f'] ∧
      match t with
      | none => ∃ m₀, HasSchema env f'.ty m₀ ∧ m = m₀.applyParams (f'.docOf env c.attrs)
      | some t => t ≠ .any ∧ m = explicitModel t c.attrs.nullable (f'.docOf env c.attrs) := by
  subst hc
  obtain ⟨body, hb, hy⟩ := hd.yields hs
  obtain ⟨rule, hr, h⟩ := hd.parsed.data
  rw [hi] at h hr
  obtain ⟨style, fs', hcd, hp⟩ := h
  have hl := hp.length
  simp only [SynFields.list, List.length_singleton] at hl
  obtain ⟨f', rfl⟩ := List.length_eq_one_iff.1 hl
  have hst : style = .newType := by
    have := hp.style
    cases this with
    | newType => rfl
    | tuple _ h => simp at h
  subst hst
  refine ⟨rule, f', hp.fields 0 f f' rfl rfl, hr, hcd, ?_⟩
  simp only [serializeBody, hcd, serializeNewtypeStruct] at hb
  rw [ht] at hb
  split at hb
  · cases hb
  · rename_i t' hne
    cases hb
    refine ⟨fun h => hne (by rw [h]), ?_⟩
    rw [yields_newtypeModel hy, fieldParams_or_container]
  · cases hb
    obtain ⟨m₀, h₀, rfl⟩ := yields_getSchemaWithParams hy
    exact ⟨m₀, h₀, by rw [fieldParams_or_container]⟩

theorem core_applyParams (m : Model) (p : Params) (hv : p.variants = none) : (m.applyParams p).core = m.core := by
  obtain ⟨d, data⟩ := m
  cases data with
  | single t => obtain ⟨n, td⟩ := t; cases td <;> simp [Model.applyParams, ModelData.applyParams, ModelType.applyParams, TypeDesc.applyParams, Model.core, hv, overrideOpt]
  | _ => rfl

theorem overrideOpt_eq {α : Type} (a b : Option α) : overrideOpt a b = a.or b := by cases a <;> rfl

theorem parts_applyParams (m : Model) (p : Params) :
    (m.applyParams p).description = p.description.or m.description ∧
    (m.applyParams p).format? = m.format?.map (p.format.or ·) ∧
    (m.applyParams p).example? = m.example?.map (p.ex.or ·) ∧
    (m.applyParams p).nullableOf? = m.nullableOf?.map (p.nullable.getD ·) := by
  obtain ⟨d, data⟩ := m
  refine ⟨overrideOpt_eq .., ?_⟩
  cases data with
  | single t =>
    obtain ⟨n, td⟩ := t
    refine ⟨?_, ?_, ?_⟩
    · cases td <;> simp [Model.applyParams, ModelData.applyParams, ModelType.applyParams, TypeDesc.applyParams, Model.format?, overrideOpt_eq]
    · cases td <;> simp [Model.applyParams, ModelData.applyParams, ModelType.applyParams, TypeDesc.applyParams, Model.example?, overrideOpt_eq]
    · simp only [Model.applyParams, ModelData.applyParams, ModelType.applyParams, Model.nullableOf?]
      cases p.nullable <;> rfl
  | _ => exact ⟨rfl, rfl, rfl⟩

/-- C38.  A newtype struct without explicit type: description, format and example come from the field, else from
the container, else from the inner schema; nullability from the field or the inner schema; the rest is the inner
schema's. -/
theorem c38_newtype (i : Nat) (input : DeriveInput Ty) (f) (hd : Derived o env i input)
    (hi : input.data = .struct (.unnamed [f])) (ht : ∀ t, ¬ GivesType input.attrs t) (m)
    (hs : HasSchema env (.named i) m) :
    ∃ rule f' m₀, FieldParsed o rule 0 f f' ∧ HasSchema env f.ty m₀ ∧
      m.description = (f'.attrs.description.or (env.decl i).attrs.description).or m₀.description ∧
      m.format? = m₀.format?.map ((f'.attrs.format.or (env.decl i).attrs.format).or ·) ∧
      m.example? = m₀.example?.map (((f'.attrs.ex.or (env.decl i).attrs.ex).map (Example.text env)).or ·) ∧
      m.nullableOf? = m₀.nullableOf?.map (f'.attrs.nullable || ·) ∧
      m.core = m₀.core := by
  have hex : (env.decl i).attrs.explicitModelType = none := by
    rw [Option.eq_none_iff_forall_ne_some]
    intro t h
    exact ht t ((hd.parsed.doc.explicit t).1 h)
  obtain ⟨rule, f', hf, _, _, m₀, h₀, rfl⟩ := newtype_schema hd hi hs rfl hex
  obtain ⟨h1, h2, h3, h4⟩ := parts_applyParams m₀ (f'.docOf env (env.decl i).attrs)
  refine ⟨rule, f', m₀, hf, hf.ty ▸ h₀, h1, h2, h3, ?_, core_applyParams _ _ rfl⟩
  rw [h4]
  congr
  funext n
  simp only [Field.docOf]
  cases f'.attrs.nullable <;> rfl

/-- A chain of newtype structs without explicit types, outermost first, down to type `t`. -/
inductive NewtypeChain (o : Oracle) (env : Env) : List (FieldAttrs × ContainerAttrs) → Ty → Ty → Prop
  | base (t) : NewtypeChain o env [] t t
  | step {l i input f f' rule t} (hd : Derived o env i input) (hi : input.data = .struct (.unnamed [f]))
      (ht : ∀ t, ¬ GivesType input.attrs t) (hf : FieldParsed o rule 0 f f')
      (hc : (env.decl i).data = .struct .newType [f']) (h : NewtypeChain o env l f.ty t) :
      NewtypeChain o env ((f'.attrs, (env.decl i).attrs) :: l) (.named i) t

/-- C38 at any depth: each piece of metadata is the outermost one given, field before container. -/
theorem c38_chain (l t₀ t) (h : NewtypeChain o env l t₀ t) (m) (hs : HasSchema env t₀ m) :
    ∃ m₀, HasSchema env t m₀ ∧
      m.description = (l.findSome? fun a => a.1.description.or a.2.description).or m₀.description ∧
      m.format? = m₀.format?.map ((l.findSome? fun a => a.1.format.or a.2.format).or ·) ∧
      m.example? = m₀.example?.map ((l.findSome? fun a => (a.1.ex.or a.2.ex).map (Example.text env)).or ·) ∧
      m.nullableOf? = m₀.nullableOf?.map (l.any (fun a => a.1.nullable) || ·) ∧
      m.core = m₀.core := by
  induction h generalizing m with
  | base t => exact ⟨m, hs, rfl, by simp, by simp, by simp, rfl⟩
  | step hd hi ht hf hc h ih =>
    rename_i l i input f f' rule t
    have hex : (env.decl i).attrs.explicitModelType = none := by
      rw [Option.eq_none_iff_forall_ne_some]
      intro t h
      exact ht t ((hd.parsed.doc.explicit t).1 h)
    obtain ⟨rule', f'', hf', _, hc', m₁, h₁, rfl⟩ := newtype_schema hd hi hs rfl hex
    rw [hc] at hc'
    cases hc'
    obtain ⟨m₀, h₀, i1, i2, i3, i4, i5⟩ := ih m₁ (hf'.ty ▸ h₁)
    obtain ⟨h1, h2, h3, h4⟩ := parts_applyParams m₁ (f'.docOf env (env.decl i).attrs)
    have e : ∀ {α : Type} (a : Option α) (b : Option α), (match a with | some x => some x | none => b) = a.or b := by
      intro α a b; cases a <;> rfl
    have e' : ∀ {α : Type} (x : Option (Option α)) (a b : Option α),
        (x.map (b.or ·)).map (a.or ·) = x.map ((a.or b).or ·) := by
      intro α x a b; cases x <;> simp [Option.or_assoc]
    refine ⟨m₀, h₀, ?_, ?_, ?_, ?_, ?_⟩
    · rw [h1, i1, List.findSome?_cons, ← Option.or_assoc]
      congr 1
      simp only [Field.docOf]
      cases f'.attrs.description.or (env.decl i).attrs.description <;> rfl
    · rw [h2, i2, e', List.findSome?_cons]
      congr 1; funext x; congr 1
      simp only [Field.docOf]
      cases f'.attrs.format.or (env.decl i).attrs.format <;> rfl
    · rw [h3, i3, e', List.findSome?_cons]
      congr 1; funext x; congr 1
      simp only [Field.docOf]
      cases f'.attrs.ex.or (env.decl i).attrs.ex <;> rfl
    · rw [h4, i4]
      cases m₀.nullableOf? with
      | none => rfl
      | some b =>
        simp only [Option.map_some, Field.docOf, List.any_cons, Bool.or_assoc]
        cases f'.attrs.nullable <;> rfl
    · rw [core_applyParams _ _ rfl, i5]

/-- `#[opg("outer")] struct A(B); #[opg(format = "hex")] struct B(#[opg("inner", nullable)] String)`. -/
def Sample.n38 : DeriveInput Ty := ⟨"A", [attr "opg" [.lit (.str "outer")]], .struct (.unnamed [tfld (.named 1)])⟩
def Sample.n38' : DeriveInput Ty := ⟨"B", [attr "opg" [nv "format" "hex"]],
    .struct (.unnamed [tfld (.prim .string) [attr "opg" [.lit (.str "inner"), word "nullable"]]])⟩

def Sample.n38c : Container Ty :=
  container "A" (fun a => { a with description := some "outer", modelType := .newType }) (.struct .newType [field "0" (.named 1)])
def Sample.n38c' : Container Ty := container "B" (fun a => { a with format := some "hex", modelType := .newType })
  (.struct .newType [fieldAs "0" "0" (.prim .string) fun f => { f with description := some "inner", nullable := true }])

example : HasSchema (program [n38c, n38c']) (.named 0) ⟨some "outer", .single ⟨true, .string none (some "hex") none⟩⟩ ∧
    ∃ l, l.length = 2 ∧ NewtypeChain oracle (program [n38c, n38c']) l (.named 0) (.prim .string) := by
  have da : Derived oracle (program [n38c, n38c']) 0 n38 := ⟨_, rfl⟩
  have db : Derived oracle (program [n38c, n38c']) 1 n38' := ⟨_, rfl⟩
  have sa : HasSchema (program [n38c, n38c']) (.named 0) ⟨some "outer", .single ⟨true, .string none (some "hex") none⟩⟩ :=
    ⟨Components.empty, _, 5, rfl⟩
  have sb : HasSchema (program [n38c, n38c']) (.named 1) ⟨some "inner", .single ⟨true, .string none (some "hex") none⟩⟩ :=
    ⟨Components.empty, _, 5, rfl⟩
  obtain ⟨ra, fa, ha1, _, ha2, _⟩ := newtype_schema (t := none) da rfl sa rfl rfl
  obtain ⟨rb, fb, hb1, _, hb2, _⟩ := newtype_schema (t := none) db rfl sb rfl rfl
  refine ⟨sa, _, rfl, .step da rfl ?_ ha1 ha2 (.step db rfl ?_ hb1 hb2 (.base _))⟩
  · intro t ht
    have := (da.parsed.doc.explicit t).2 ht
    cases this
  · intro t ht
    have := (db.parsed.doc.explicit t).2 ht
    cases this

/-! ## C66: explicit types and tuple structs -/

/-- C66, explicit type on a newtype struct: that type, with the field's or container's metadata, whatever the
inner type is. -/
theorem c66_explicit_newtype (i : Nat) (input : DeriveInput Ty) (f) (hd : Derived o env i input)
    (hi : input.data = .struct (.unnamed [f])) (t) (ht : GivesType input.attrs t) (m)
    (hs : HasSchema env (.named i) m) :
    ∃ rule f', FieldParsed o rule 0 f f' ∧ t ≠ .any ∧
      m = explicitModel t (env.decl i).attrs.nullable (f'.docOf env (env.decl i).attrs) := by
  obtain ⟨rule, f', hf, _, _, h1, h2⟩ := newtype_schema hd hi hs rfl ((hd.parsed.doc.explicit t).2 ht)
  exact ⟨rule, f', hf, h1, h2⟩

/-- C66, tuple structs: an array whose items are one of the fields' references, all fields in order. -/
theorem c66_tuple_struct (i : Nat) (input : DeriveInput Ty) (fs) (hl : fs.length ≠ 1) (hd : Derived o env i input)
    (hi : input.data = .struct (.unnamed fs)) (m) (hs : HasSchema env (.named i) m) :
    ∃ rule fs' rs, FieldsParsed o rule (.unnamed fs) .tuple fs' ∧ RefsOf env false fs' rs ∧
      m = tupleSchema (env.decl i).attrs.description (env.decl i).attrs.nullable rs := by
  obtain ⟨body, hb, hy⟩ := hd.yields hs
  obtain ⟨rule, hr, h⟩ := hd.parsed.data
  rw [hi] at h
  obtain ⟨style, fs', hcd, hp⟩ := h
  have hst : style = .tuple := by
    have := hp.style
    cases this with
    | newType => simp at hl
    | tuple _ h => rfl
  subst hst
  simp only [serializeBody, hcd, Except.ok.injEq] at hb
  subst hb
  obtain ⟨rs, hrs, rfl⟩ := yields_tupleModel (inl := false) (fun _ => rfl) hy
  exact ⟨rule, fs', rs, hp, hrs, rfl⟩

/-- `#[opg(integer)] struct A(#[opg("doc")] String); struct B(String, A);` -/
def Sample.n66 : DeriveInput Ty :=
  ⟨"A", [attr "opg" [word "integer"]], .struct (.unnamed [tfld (.prim .string) [attr "opg" [.lit (.str "doc")]]])⟩
def Sample.t66 : DeriveInput Ty := ⟨"B", [], .struct (.unnamed [tfld (.prim .string), tfld (.named 0)])⟩

def Sample.n66c : Container Ty := container "A" (fun a => { a with explicitModelType := some .integer, modelType := .newType })
  (.struct .newType [fieldAs "0" "0" (.prim .string) fun f => { f with description := some "doc" }])
def Sample.t66c : Container Ty := container "B" (fun a => { a with modelType := .newType })
  (.struct .tuple [field "0" (.prim .string), field "1" (.named 0)])

example : Derived oracle (program [n66c, t66c]) 0 n66 ∧ Derived oracle (program [n66c, t66c]) 1 t66 ∧
    HasSchema (program [n66c, t66c]) (.named 0) ⟨some "doc", .single ⟨false, .integer none none⟩⟩ ∧
    HasSchema (program [n66c, t66c]) (.named 1) (tupleSchema none false [.inline str, .link "A"]) :=
  ⟨⟨_, rfl⟩, ⟨_, rfl⟩, ⟨Components.empty, _, 5, rfl⟩, ⟨Components.empty, _, 5, rfl⟩⟩

/-! ## C39: nullable containers -/

/-- C39 for named-field structs, tuple structs, newtype structs with an explicit type, externally and adjacently
tagged data enums.  Missing: newtype structs without explicit type, unit enums, untagged and internally tagged
enums, for which it is false (`c39_is_false`). -/
theorem c39_nullable_partial (i : Nat) (input : DeriveInput Ty) (hd : Derived o env i input)
    (hn : Gives (ContainerGives o input.data.kind) input.attrs .nullable .unit) (m) (hs : HasSchema env (.named i) m)
    (hk : (∃ fs, input.data = .struct (.named fs)) ∨
      (∃ fs, input.data = .struct (.unnamed fs) ∧ (fs.length ≠ 1 ∨ ∃ t, GivesType input.attrs t)) ∨
      (∃ vs, input.data = .enum vs ∧ HasData vs ∧ (Tagging (ContainerGives o .enum) input.attrs .external ∨
        ∃ t c, Tagging (ContainerGives o .enum) input.attrs (.adjacent t c)))) : IsNullable m := by
  have hnull := hd.parsed.nullable.2 hn
  rcases hk with ⟨fs, hi⟩ | ⟨fs, hi, hk⟩ | ⟨vs, hi, hu, ht | ⟨t, c, ht⟩⟩
  · obtain ⟨_, _, _, _, rfl⟩ := c27_struct i input fs hd hi m hs
    rw [hnull]; exact ⟨_, _, rfl⟩
  · by_cases hl : fs.length = 1
    · obtain ⟨f, rfl⟩ := List.length_eq_one_iff.1 hl
      obtain ⟨t, ht⟩ := hk.resolve_left (by simp)
      obtain ⟨_, _, _, _, rfl⟩ := c66_explicit_newtype i input f hd hi t ht m hs
      rw [hnull]; exact ⟨_, _, rfl⟩
    · obtain ⟨_, _, _, _, _, rfl⟩ := c66_tuple_struct i input fs hl hd hi m hs
      rw [hnull]; exact ⟨_, _, rfl⟩
  · obtain ⟨_, _, _, _, _, rfl, _⟩ := c31_external i input vs hd hi hu ht m hs
    rw [hnull]; exact ⟨_, _, rfl⟩
  · obtain ⟨_, _, _, _, _, rfl, _⟩ := c31_adjacent i input vs hd hi hu t c ht m hs
    rw [hnull]; exact ⟨_, _, rfl⟩

def Sample.a39 : DeriveInput Ty := ⟨"A", [attr "opg" [word "nullable"]], .struct (.unnamed [tfld (.prim .string)])⟩
def Sample.b39 : DeriveInput Ty := ⟨"B", [attr "opg" [word "nullable"]], .enum [var "X"]⟩
def Sample.c39 : DeriveInput Ty := ⟨"C", [attr "opg" [word "nullable"], attr "serde" [word "untagged"]],
  .enum [var "X" (.unnamed [tfld (.prim .string)])]⟩
def Sample.d39 : DeriveInput Ty := ⟨"D", [attr "opg" [word "nullable"]], .struct (.named [fld "x" (.prim .string)])⟩
def Sample.p39 : Env := program [
  container "A" (fun a => { a with nullable := true, modelType := .newType }) (.struct .newType [field "0" (.prim .string)]),
  container "B" (fun a => { a with nullable := true, modelType := .newType }) (.enum [variantAs "X" "X" .unit []]),
  container "C" (fun a => { a with nullable := true, tagType := .none, modelType := .oneOf })
    (.enum [variantAs "X" "X" .newType [field "0" (.prim .string)]]),
  container "D" (fun a => { a with nullable := true }) (.struct .struct [field "x" (.prim .string)])]

/-- C39 is false for `#[opg(nullable)] struct A(String)`, `#[opg(nullable)] enum B { X }` and
`#[opg(nullable)] #[serde(untagged)] enum C { X(String) }`. -/
theorem c39_is_false : ∃ env m₀ m₁ m₂, Derived oracle env 0 a39 ∧ Derived oracle env 1 b39 ∧
    Derived oracle env 2 c39 ∧ (env.decl 0).attrs.nullable = true ∧ (env.decl 1).attrs.nullable = true ∧
    (env.decl 2).attrs.nullable = true ∧ HasSchema env (.named 0) m₀ ∧ HasSchema env (.named 1) m₁ ∧
    HasSchema env (.named 2) m₂ ∧ ¬ IsNullable m₀ ∧ ¬ IsNullable m₁ ∧ ¬ IsNullable m₂ := by
  refine ⟨p39, str, stringEnum none ["X"], ⟨none, .oneOf [.inline str]⟩, ⟨_, rfl⟩, ⟨_, rfl⟩, ⟨_, rfl⟩, rfl, rfl, rfl,
    ⟨Components.empty, _, 5, rfl⟩, ⟨Components.empty, _, 5, rfl⟩,
    ⟨Components.empty, _, 5, rfl⟩, ?_, ?_, ?_⟩ <;> (rintro ⟨d, td, h⟩; cases h)

/-- The hypotheses of the partial theorem hold of `#[opg(nullable)] struct D { x: String }`. -/
example : Derived oracle p39 3 d39 ∧ (∃ fs, d39.data = .struct (.named fs)) ∧
    (p39.decl 3).attrs.nullable = true ∧
    HasSchema p39 (.named 3) (objectSchema none true ⟨[("x", .inline str)], none, ["x"]⟩) :=
  ⟨⟨_, rfl⟩, ⟨_, rfl⟩, rfl, Components.empty, _, 5, rfl⟩

end Verif
