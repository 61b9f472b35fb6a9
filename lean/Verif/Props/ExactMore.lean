import Verif.Proof.Published
import Verif.Props.DeriveMore
import Verif.Props.Registry
import Verif.Props.Formats
import Verif.Proof.TypeDecl
import Verif.Props.Object
import Verif.Props.Api
/-!
# What happens where a property fails (C12, C18, C36, C39, C60, C61, C62, C71, C72)

For properties that the code does not have in general, the exact behaviour in the remaining cases.
-/

namespace Verif

open Sample

variable {o : Oracle} {env : Env}

/-- C12, exactly: there is no dangling link iff `verify_schemas` accepts and the links inside inline schemas, which it
does not look at, are registered. -/
theorem c12_exact (cx : Components) : cx.NoDangling ↔ cx.verifySchemas = .ok () ∧
    ∀ name m, (name, m) ∈ cx.schemas → ∀ sub, Ref.inline sub ∈ m.directRefs → ∀ l ∈ sub.links, l ∈ BMap.keys cx.schemas := by
  constructor
  · intro h
    refine ⟨(c11_verify_direct cx).1.2 fun name m hm l hl => h name m hm l ?_, fun name m hm sub hs l hl => h name m hm l ?_⟩
    · obtain ⟨r, hr, hf⟩ := List.mem_filterMap.1 hl
      rw [Model.links_eq]
      refine List.mem_flatMap.2 ⟨r, hr, ?_⟩
      cases r with
      | link l' => cases hf; exact List.mem_singleton.2 rfl
      | _ => cases hf
    · rw [Model.links_eq]
      exact List.mem_flatMap.2 ⟨_, hs, by rw [Ref.links]; exact hl⟩
  · rintro ⟨h, hi⟩ name m hm l hl
    rw [Model.links_eq] at hl
    obtain ⟨r, hr, hl⟩ := List.mem_flatMap.1 hl
    cases r with
    | link l' =>
      simp only [Ref.links, List.mem_singleton] at hl; subst hl
      exact (c11_verify_direct cx).1.1 h name m hm l (List.mem_filterMap.2 ⟨_, hr, rfl⟩)
    | inline sub => rw [Ref.links] at hl; exact hi name m hm sub hr l hl
    | any => simp [Ref.links] at hl

/-- C36, exactly: the schema of `Option<T>` is nullable iff that of `T` is not a `oneOf`, `allOf` or `anyOf`. -/
theorem c36_exact (t : Ty) (m) (h : HasSchema env (.option t) m) :
    ∃ m₀, HasSchema env t m₀ ∧ (IsNullable m ↔ ∃ ty, m₀.data = .single ty) := by
  obtain ⟨m₀, h₀, h1, h2⟩ := c36_option_partial t m h
  refine ⟨m₀, h₀, ?_, ?_⟩
  · rintro ⟨d, td, rfl⟩
    obtain ⟨d', data⟩ := m₀
    cases data with
    | single ty => exact ⟨ty, rfl⟩
    | _ => have := h2 (by simp); cases this
  · rintro ⟨⟨n, td⟩, hs⟩
    obtain ⟨d', data⟩ := m₀
    cases hs
    exact ⟨d', td, h1 d' n td rfl⟩

theorem isNullable_iff (m : Model) : IsNullable m ↔ m.nullableOf? = some true := by
  obtain ⟨d, data⟩ := m
  constructor
  · rintro ⟨d', td, h⟩; cases h; rfl
  · intro h
    cases data with
    | single t =>
      obtain ⟨n, td⟩ := t
      simp only [Model.nullableOf?, Option.some.injEq] at h
      subst h
      exact ⟨d, td, rfl⟩
    | _ => simp [Model.nullableOf?] at h

/-- C39, the other shapes: `nullable` on an enum with unit variants only, or on an untagged or internally tagged enum,
is without effect, the schema is not nullable; on a newtype struct without explicit type as well, the schema is nullable
iff the inner one is or `nullable` is written on the field (and the inner one can be). -/
theorem c39_other_shapes (i : Nat) (input : DeriveInput Ty) (hd : Derived o env i input) (m) (hs : HasSchema env (.named i) m) :
    (∀ vs, input.data = .enum vs → ¬ HasData vs → ¬ IsNullable m) ∧
    (∀ vs, input.data = .enum vs → HasData vs → (Tagging (ContainerGives o .enum) input.attrs .none ∨
      ∃ t, Tagging (ContainerGives o .enum) input.attrs (.internal t)) → ¬ IsNullable m) ∧
    (∀ f, input.data = .struct (.unnamed [f]) → (∀ t, ¬ GivesType input.attrs t) →
      ∃ rule f' m₀, FieldParsed o rule 0 f f' ∧ HasSchema env f.ty m₀ ∧
        (IsNullable m ↔ IsNullable m₀ ∨ (f'.attrs.nullable = true ∧ ∃ ty, m₀.data = .single ty))) := by
  refine ⟨?_, ?_, ?_⟩
  · intro vs hi hu hn
    by_cases hr : Gives (ContainerGives o .enum) input.attrs .repr .unit
    · obtain ⟨_, _, _, _, rfl⟩ := c30_repr_exact i input vs hd hi hu hr m hs
      obtain ⟨d, td, h⟩ := hn
      cases h
    · obtain ⟨_, _, _, _, rfl⟩ := c29_unit_enum i input vs hd hi hu hr m hs
      obtain ⟨d, td, h⟩ := hn
      cases h
  · rintro vs hi hu (ht | ⟨t, ht⟩) hn
    · obtain ⟨_, _, _, _, _, rfl, _⟩ := c31_untagged i input vs hd hi hu ht m hs
      obtain ⟨d, td, h⟩ := hn
      cases h
    · obtain ⟨_, _, _, _, _, rfl, _⟩ := c31_internal i input vs hd hi hu t ht m hs
      obtain ⟨d, td, h⟩ := hn
      cases h
  · intro f hi ht
    obtain ⟨rule, f', m₀, hf, h₀, -, -, -, hn, -⟩ := c38_newtype i input f hd hi ht m hs
    refine ⟨rule, f', m₀, hf, h₀, ?_⟩
    rw [isNullable_iff, isNullable_iff, hn]
    obtain ⟨d, data⟩ := m₀
    cases data with
    | single ty =>
      obtain ⟨n, td⟩ := ty
      cases hf' : f'.attrs.nullable <;> simp [Model.nullableOf?]
    | _ => simp [Model.nullableOf?]

/-- The shapes of C39 are all there are: every accepted input is one of them. -/
theorem c39_shapes (i : Nat) (input : DeriveInput Ty) (hd : Derived o env i input) :
    (∃ fs, input.data = .struct (.named fs)) ∨
    (∃ fs, input.data = .struct (.unnamed fs) ∧ (fs.length ≠ 1 ∨ ∃ t, GivesType input.attrs t)) ∨
    (∃ vs, input.data = .enum vs ∧ HasData vs ∧ (Tagging (ContainerGives o .enum) input.attrs .external ∨
        ∃ t c, Tagging (ContainerGives o .enum) input.attrs (.adjacent t c))) ∨
    (∃ vs, input.data = .enum vs ∧ ¬ HasData vs) ∨
    (∃ vs, input.data = .enum vs ∧ HasData vs ∧ (Tagging (ContainerGives o .enum) input.attrs .none ∨
        ∃ t, Tagging (ContainerGives o .enum) input.attrs (.internal t))) ∨
    (∃ f, input.data = .struct (.unnamed [f]) ∧ ∀ t, ¬ GivesType input.attrs t) := by
  obtain ⟨body, hc⟩ := hd.accepted
  cases hi : input.data with
  | struct fs =>
    cases fs with
    | named fs => exact .inl ⟨fs, rfl⟩
    | unnamed fs =>
      by_cases hg : ∃ t, GivesType input.attrs t
      · exact .inr (.inl ⟨fs, rfl, .inr hg⟩)
      · by_cases hl : fs.length = 1
        · obtain ⟨f, rfl⟩ := List.length_eq_one_iff.1 hl
          exact .inr (.inr (.inr (.inr (.inr ⟨f, rfl, fun t ht => hg ⟨t, ht⟩⟩))))
        · exact .inr (.inl ⟨fs, rfl, .inl hl⟩)
    | unit =>
      exfalso
      obtain ⟨rule, -, h⟩ := hd.parsed.data
      rw [hi] at h
      obtain ⟨style, fs', hcd, hp⟩ := h
      have := hp.style
      cases this
      have hb : serializeBody (env.decl i) = .ok body := by
        unfold derive at hc
        split at hc
        · cases hc
        · split at hc <;> cases hc
        · split at hc
          · split at hc
            · cases hc
            · cases hc; assumption
          · cases hc
      rw [serializeBody, hcd] at hb
      cases hb
  | enum vs =>
    obtain ⟨rule, vs', -, -, -, -, -, h3⟩ := hd.enum hi
    by_cases hu : HasData vs
    · cases ht : (env.decl i).attrs.tagType with
      | none => exact .inr (.inr (.inr (.inr (.inl ⟨vs, rfl, hu, .inl ((h3 _).2 ht)⟩))))
      | internal t => exact .inr (.inr (.inr (.inr (.inl ⟨vs, rfl, hu, .inr ⟨t, (h3 _).2 ht⟩⟩))))
      | external => exact .inr (.inr (.inl ⟨vs, rfl, hu, .inl ((h3 _).2 ht)⟩))
      | adjacent t c => exact .inr (.inr (.inl ⟨vs, rfl, hu, .inr ⟨t, c, (h3 _).2 ht⟩⟩))
    · exact .inr (.inr (.inr (.inl ⟨vs, rfl, hu⟩)))
  | union =>
    exfalso
    obtain ⟨rule, -, h⟩ := hd.parsed.data
    rw [hi] at h
    exact h

/-- C61, the other callbacks: one whose name is a string literal is written without paths. -/
theorem c61_literal (env : Env) (reason : Nat → Option String) (api : Api) (d : Opg) (h : Describes env reason api d)
    (ps : List OpProp) (o : Operation) (ho : OpIn api d ps o) (name : String) (decl : CallbackDecl)
    (hd : lastOf (CallbackDecl.named? name) (ps.flatMap OpProp.callbackList) = some decl) (hi : ¬ decl.IsIdent) :
    BMap.get name o.callbacks = some ⟨[]⟩ := by
  cases hg : BMap.get name o.callbacks with
  | none => rw [((c58_operation env reason api d h ps o ho).callbacks name).1 hg] at hd; cases hd
  | some c =>
    have := h.composed.callbacks ho hd hg
    cases decl with
    | literal n ds =>
      obtain ⟨paths⟩ := c
      have : paths = [] := this
      rw [this]
    | ident n ds => exact absurd trivial hi

/-- C60, exactly: all names in the security requirements of a described document are registered iff those given as
string literals are. -/
theorem c60_exact (env : Env) (reason : Nat → Option String) (api : Api) (d : Opg) (h : Describes env reason api d) :
    (∀ ps o, OpIn api d ps o → ∀ m ∈ o.security, ∀ b ∈ m, b.1 ∈ BMap.keys d.components.securitySchemes) ↔
    (∀ ps o, OpIn api d ps o → ∀ alt ∈ ps.flatMap OpProp.securityList, ∀ s ∈ alt, ¬ s.IsScheme →
      s.name ∈ BMap.keys d.components.securitySchemes) := by
  constructor
  · intro hk ps o ho alt ha s hs _
    obtain ⟨hp, -⟩ := c57_operation_order env reason api d h ps o ho
    obtain ⟨i, hi⟩ := List.getElem?_of_mem ha
    obtain ⟨m, hm, ao⟩ := hp.get hi
    exact hk ps o ho m (List.mem_of_getElem? hm) (s.name, []) (BMap.mem_of_get ((ao.names s.name).2 ⟨s, hs, rfl⟩))
  · intro hk ps o ho m hm b hb
    obtain ⟨hp, -⟩ := c57_operation_order env reason api d h ps o ho
    obtain ⟨alt, ha, ao⟩ := hp.mem_rightP hm
    have hg : (BMap.get b.1 m).isSome := BMap.get_isSome_iff.2 (List.mem_map.2 ⟨b, hb, rfl⟩)
    obtain ⟨v, hv⟩ := Option.isSome_iff_exists.1 hg
    have hv' := ao.scopes _ _ hv
    subst hv'
    obtain ⟨s, hs, hn⟩ := (ao.names b.1).1 hv
    rw [← hn]
    cases s with
    | literal n sc => exact hk ps o ho alt ha _ hs (fun f => f)
    | scheme n sch sc =>
      have hpart : Part.scheme n sch ∈ api.parts := by
        refine ho.parts h.composed _ ?_
        have key : ∀ (l : List OpProp), alt ∈ l.flatMap OpProp.securityList → Part.scheme n sch ∈ opParts l := by
          intro l
          induction l with
          | nil => intro h; cases h
          | cons a l ih =>
            intro hl
            rw [List.flatMap_cons] at hl
            rcases List.mem_append.1 hl with hx | hx
            · cases a with
              | security alts =>
                rw [opParts]
                exact List.mem_append_left _ (List.mem_flatMap.2 ⟨alt, hx, List.mem_flatMap.2 ⟨_, hs, List.mem_singleton.2 rfl⟩⟩)
              | _ => cases hx
            · cases a <;> rw [opParts] <;> first | exact ih hx | exact List.mem_append_right _ (ih hx)
        exact key ps ha
      rw [← BMap.containsKey_iff]
      unfold BMap.containsKey
      obtain ⟨h1, h2⟩ := c58_security_schemes env reason api d h n
      show (BMap.get n _).isSome = true
      cases hl : lastOf (SchemeDecl.named? n) (api.flatMap Section.schemeList) with
      | some decl => obtain ⟨s', hs', -⟩ := h1 decl hl; rw [hs']; rfl
      | none =>
        rw [h2 hl, List.findSome?_isSome_iff]
        exact ⟨_, hpart, by simp [Part.scheme?]⟩

/-- C62, exactly: the parameter of a segment given as a type is named by what follows the last colon of the text of the
type, with its first letter lowered; there is none (the program panics) iff that is empty or does not start in ASCII. -/
theorem c62_exact (full : String) :
    ∃ before name, full.toList = before ++ name ∧ ':' ∉ name ∧ (before = [] ∨ before.getLast? = some ':') ∧
      bareName full = (match name with
        | [] => none
        | c :: cs => if c.toNat < 128 then some (firstLowered (String.ofList (c :: cs))) else none) := by
  have key : ∀ cs : List Char, ∃ before, cs = before ++ afterColon cs ∧ ':' ∉ afterColon cs ∧
      (before = [] ∨ before.getLast? = some ':') := by
    intro cs
    induction cs with
    | nil => exact ⟨[], rfl, by simp [afterColon], .inl rfl⟩
    | cons c cs ih =>
      obtain ⟨before, h1, h2, h3⟩ := ih
      by_cases hc : ':' ∈ cs
      · refine ⟨c :: before, ?_, ?_, .inr ?_⟩
        · rw [afterColon, if_pos hc, List.cons_append, ← h1]
        · rw [afterColon, if_pos hc]; exact h2
        · rcases h3 with rfl | h3
          · rw [List.nil_append] at h1; rw [h1] at hc; exact absurd hc h2
          · rw [List.getLast?_cons, h3]; rfl
      · by_cases e : c = ':'
        · refine ⟨[c], ?_, ?_, .inr (by rw [e]; rfl)⟩
          · rw [afterColon, if_neg hc, if_pos e]; rfl
          · rw [afterColon, if_neg hc, if_pos e]; exact hc
        · refine ⟨[], ?_, ?_, .inl rfl⟩
          · rw [afterColon, if_neg hc, if_neg e]; rfl
          · rw [afterColon, if_neg hc, if_neg e]
            simp only [List.mem_cons, not_or]
            exact ⟨fun x => e x.symm, hc⟩
  obtain ⟨before, h1, h2, h3⟩ := key full.toList
  refine ⟨before, _, h1, h2, h3, ?_⟩
  unfold bareName
  cases afterColon full.toList with
  | nil => rfl
  | cons c cs => simp [firstLowered, asciiLowerChar_eq]

/-- C72, the other fields: the property of a field (the last of its name) without explicit type, whose type has a
component and which is not marked `inline`, is the bare reference, whatever documentation the field has; that of a field
with the explicit type `any` is `{}`. -/
theorem c72_other_fields (i : Nat) (input : DeriveInput Ty) (fs) (hd : Derived o env i input)
    (hi : input.data = .struct (.named fs)) (m) (hs : HasSchema env (.named i) m) :
    ∃ fs' obj, (env.decl i).data = .struct .struct fs' ∧
      m = objectSchema (env.decl i).attrs.description (env.decl i).attrs.nullable obj ∧
      ∀ pre f post, serialFields fs' = pre ++ f :: post → (∀ g ∈ post, g.key ≠ f.key) →
        (∀ name, f.attrs.explicitModelType = none → typeName env f.ty = some name → f.attrs.inline = false →
          BMap.get f.key obj.properties = some (.link name)) ∧
        (f.attrs.explicitModelType = some .any → BMap.get f.key obj.properties = some .any) := by
  obtain ⟨fs', obj, hcd, ho, rfl⟩ := c27_struct i input fs hd hi m hs
  refine ⟨fs', obj, hcd, rfl, ?_⟩
  intro pre f post hser hlast
  have hk : f.key ∈ BMap.keys obj.properties := (ho.names f.key).2 ⟨f, by rw [hser]; simp, rfl⟩
  rw [← BMap.get_isSome_iff] at hk
  obtain ⟨r, hr⟩ := Option.isSome_iff_exists.1 hk
  obtain ⟨pre', f', post', hser', hkey, hlast', href⟩ := ho.refs f.key r hr
  have : f' = f := by
    rw [hser] at hser'
    clear hser
    revert hser'
    clear hr hk ho hcd href
    induction pre generalizing pre' with
    | nil =>
      intro h
      cases pre' with
      | nil => exact (List.cons.inj h).1.symm
      | cons a as =>
        have := (List.cons.inj h).2
        exact absurd hkey (hlast f' (by rw [this]; simp))
    | cons a as ih =>
      intro h
      cases pre' with
      | nil =>
        have := (List.cons.inj h).2
        exact absurd rfl (hlast' f (by rw [← this]; simp))
      | cons b bs => exact ih bs (List.cons.inj h).2
  subst this
  unfold FieldRef at href
  rw [hr]
  constructor
  · intro name hn ht hinl
    rw [hn] at href
    obtain ⟨cx, cx', hm⟩ := href
    rw [mentionReturns_iff] at hm
    rcases hm with ⟨l, hl, e, -⟩ | ⟨hl, -⟩
    · obtain ⟨-, h2⟩ := linkName_some hl
      rw [ht] at h2
      cases h2
      rw [e]
    · simp [linkName, ht, hinl] at hl
  · intro hany
    rw [hany] at href
    rw [href]

/-- C71, exactly: the example of a schema is one of its values if and only if there is none, or the schema is a string
whose allowed values, if they are listed, include it. -/
theorem c71_exact (td : TypeDesc) : ExampleFits td ↔
    ∀ e, td.exampleText = some e → ∃ allowed format, td = .string allowed format (some e) ∧ ∀ vs, allowed = some vs → e ∈ vs := by
  constructor
  · intro h e he
    have := h e he
    cases td with
    | string v f e' => cases he; cases this with | string hv => exact ⟨_, _, rfl, hv⟩
    | number f e' => cases this
    | integer f e' => cases this
    | _ => cases he
  · intro h e he
    obtain ⟨v, f, rfl, hv⟩ := h e he
    exact .string hv

/-- The property of the last field of its name. -/
theorem last_field_ref {fs : List (Field Ty)} {inl obj} (ho : ObjectOf env inl fs obj) {pre f post}
    (hser : serialFields fs = pre ++ f :: post) (hlast : ∀ g ∈ post, g.key ≠ f.key) :
    ∃ r, BMap.get f.key obj.properties = some r ∧ FieldRef env (f.doc env) (inl || f.attrs.inline) f r := by
  have hk : f.key ∈ BMap.keys obj.properties := (ho.names f.key).2 ⟨f, by rw [hser]; simp, rfl⟩
  rw [← BMap.get_isSome_iff] at hk
  obtain ⟨r, hr⟩ := Option.isSome_iff_exists.1 hk
  obtain ⟨pre', f', post', hser', hkey, hlast', href⟩ := ho.refs f.key r hr
  have : f' = f := by
    rw [hser] at hser'
    clear hser
    revert hser'
    clear hr hk ho href
    induction pre generalizing pre' with
    | nil =>
      intro h
      cases pre' with
      | nil => exact (List.cons.inj h).1.symm
      | cons a as =>
        have := (List.cons.inj h).2
        exact absurd hkey (hlast f' (by rw [this]; simp))
    | cons a as ih =>
      intro h
      cases pre' with
      | nil =>
        have := (List.cons.inj h).2
        exact absurd rfl (hlast' f (by rw [← this]; simp))
      | cons b bs => exact ih bs (List.cons.inj h).2
  subst this
  exact ⟨r, hr, href⟩

/-- A field is documented as an integer or a number: it says so, or its type, below `Option` and pointers, is one of
Rust's numbers. -/
def Numeric (f : Field Ty) : Prop :=
  f.attrs.explicitModelType = some .integer ∨ f.attrs.explicitModelType = some .number ∨
  (f.attrs.explicitModelType = none ∧ ∃ p : Prim, Around (.prim p) f.ty ∧ (p.schema.1 = .integer ∨ p.schema.1 = .number))

theorem around_unnamed {p : Prim} {t} (h : Around (.prim p) t) : typeName env t = none := by
  induction h with
  | here => rfl
  | wrap _ ih => exact ih
  | option _ ih => exact ih

/-- C71 is false of every example given for an integer or a number: in the schema of a struct with such a field (the
last of its name) some example is not a value of the schema it stands in. -/
theorem c71_numbers (i : Nat) (input : DeriveInput Ty) (fs) (hd : Derived o env i input)
    (hi : input.data = .struct (.named fs)) (m) (hs : HasSchema env (.named i) m) :
    ∃ fs', (env.decl i).data = .struct .struct fs' ∧
      ∀ pre f post, serialFields fs' = pre ++ f :: post → (∀ g ∈ post, g.key ≠ f.key) → f.attrs.ex ≠ none → Numeric f →
        ∃ td ∈ m.scalars, ¬ ExampleFits td := by
  obtain ⟨fs', obj, hcd, ho, rfl⟩ := c27_struct i input fs hd hi m hs
  refine ⟨fs', hcd, ?_⟩
  intro pre f post hser hlast hex hnum
  obtain ⟨r, hr, href⟩ := last_field_ref ho hser hlast
  obtain ⟨e, he⟩ := Option.ne_none_iff_exists'.1 hex
  have bad : ∀ td m', (∃ fm, td = .integer fm (some (e.text env)) ∨ td = .number fm (some (e.text env))) →
      ScalarSchema m' td → r = .inline m' → ∃ td ∈ (objectSchema (env.decl i).attrs.description
        (env.decl i).attrs.nullable obj).scalars, ¬ ExampleFits td := by
    rintro td m' ⟨fm, htd⟩ hm' hr'
    obtain ⟨d, n, rfl⟩ := hm'
    refine ⟨td, ?_, ?_⟩
    · have hp := BMap.mem_of_get hr
      obtain ⟨ps, ad, rq⟩ := obj
      simp only [objectSchema, Model.scalars, ModelData.scalars, ModelType.scalars, TypeDesc.scalars]
      refine List.mem_append_left _ (propsScalars_mem.2 ⟨_, hp, ?_⟩)
      subst hr'
      rcases htd with h | h <;> rw [h] <;>
        simp [Ref.scalars, Model.scalars, ModelData.scalars, ModelType.scalars, TypeDesc.scalars]
    · rw [c71_exact]
      intro h
      obtain ⟨v, f', h', -⟩ := h (e.text env) (by rcases htd with h | h <;> rw [h] <;> rfl)
      rcases htd with h | h <;> rw [h] at h' <;> cases h'
  have hdoc : (f.doc env).ex = some (e.text env) := by simp [Field.doc, he]
  unfold FieldRef at href
  rcases hnum with h | h | ⟨h, p, ha, hp⟩
  · rw [h] at href
    exact bad (.integer (f.doc env).format (f.doc env).ex) _ ⟨_, by rw [hdoc]; exact .inl rfl⟩ ⟨_, _, rfl⟩ href
  · rw [h] at href
    exact bad (.number (f.doc env).format (f.doc env).ex) _ ⟨_, by rw [hdoc]; exact .inr rfl⟩ ⟨_, _, rfl⟩ href
  · rw [h] at href
    obtain ⟨cx, cx', hm⟩ := href
    rw [mentionReturns_iff] at hm
    rcases hm with ⟨l, hl, -⟩ | ⟨-, m', hm', rfl⟩
    · obtain ⟨-, h2⟩ := linkName_some hl
      rw [around_unnamed ha] at h2
      cases h2
    · obtain ⟨d, n, rfl⟩ := prim_schema ha ⟨_, _, hm'⟩
      refine bad ((primDesc p).applyParams (f.doc env)) _ ?_ ⟨_, _, rfl⟩ rfl
      cases p <;> simp [Prim.schema] at hp <;> simp [primDesc, Prim.schema, TypeDesc.applyParams, hdoc, overrideOpt]

/-- An input whose only field is an integer with an example. -/
example : ∃ m, Derived oracle (only accountInput) 0 accountInput ∧ HasSchema (only accountInput) (.named 0) m ∧
    ∃ td ∈ m.scalars, ¬ ExampleFits td := by
  refine ⟨_, ⟨_, rfl⟩, ⟨Components.empty, _, 5, rfl⟩, ?_⟩
  obtain ⟨fs', hd, h⟩ := c71_numbers (o := oracle) (env := only accountInput) 0 accountInput _ ⟨_, rfl⟩ (by rfl) _
    ⟨Components.empty, _, 5, rfl⟩
  cases hd
  exact h [] _ [] rfl (by simp) nofun (.inr (.inr ⟨rfl, .u32, .here, .inl rfl⟩))

/-- The hypotheses of the theorems above hold of concrete inputs. -/
example : (∃ m, HasSchema p39 (.named 0) m ∧ a39.data = .struct (.unnamed [tfld (.prim .string)]) ∧
      Derived oracle p39 0 a39) ∧
    (∃ m, HasSchema (program [holder]) (.named 0) m ∧ Derived oracle (program [holder]) 0 holderInput) :=
  ⟨⟨_, ⟨Components.empty, _, 5, rfl⟩, rfl, ⟨_, rfl⟩⟩, ⟨_, ⟨Components.empty, _, 5, rfl⟩, ⟨_, rfl⟩⟩⟩

example : bareName "Vec<a::B>" = some "b>" ∧ bareName "x::" = none := by constructor <;> decide +kernel

/-- C18, exactly: a failed merge leaves the receiver as it is iff the first property of the argument is one of the receiver's. -/
theorem c18_exact (o a : ModelObject) (ha : a.PropsSorted) (h : (o.merge a).1 ≠ .ok ()) :
    (o.merge a).2 = o ↔ ∃ k r rest, a.properties = (k, r) :: rest ∧ k ∈ BMap.keys o.properties := by
  obtain ⟨-, -, hp, -, hf⟩ := c18_failed_merge_partial o a ha h
  refine ⟨fun e => ?_, fun ⟨k, r, rest, e, hk⟩ => hf k r rest e hk⟩
  cases hl : a.properties with
  | nil => exact absurd (by simp [ModelObject.merge, hl, mergeProps]) h
  | cons b rest =>
    obtain ⟨k, r⟩ := b
    refine ⟨k, r, rest, rfl, ?_⟩
    by_cases hk : k ∈ BMap.keys o.properties
    · exact hk
    · rw [e, hl] at hp
      simp only [List.takeWhile_cons, hk, not_false_eq_true, decide_true, if_true] at hp
      have hg : (BMap.get k o.properties).isSome := by
        rw [hp, BMap.get_insertAll, Option.isSome_or, Bool.or_eq_true, BMap.get_isSome_iff]
        exact .inl (List.mem_map.2 ⟨(k, r), by simp, rfl⟩)
      exact BMap.get_isSome_iff.1 hg

/-- Both cases occur. -/
example : (∃ o a : ModelObject, a.PropsSorted ∧ (o.merge a).1 ≠ .ok () ∧ (o.merge a).2 = o) ∧
    ∃ o a : ModelObject, a.PropsSorted ∧ (o.merge a).1 ≠ .ok () ∧ (o.merge a).2 ≠ o := by
  have h1 : ModelObject.PropsSorted ⟨[("b", .any), ("c", .any)], none, []⟩ := by unfold ModelObject.PropsSorted BMap.Sorted; decide
  have h2 : ModelObject.PropsSorted ⟨[("a", .any), ("b", .any)], none, []⟩ := by unfold ModelObject.PropsSorted BMap.Sorted; decide
  refine ⟨⟨⟨[("b", .any)], none, []⟩, _, h1, nofun, ?_⟩, ⟨⟨[("b", .any)], none, []⟩, _, h2, nofun, ?_⟩⟩
  · rw [c18_exact _ _ h1 (by intro h; cases h)]
    exact ⟨_, _, _, rfl, by simp [BMap.keys]⟩
  · rw [Ne, c18_exact _ _ h2 (by intro h; cases h)]
    rintro ⟨k, r, rest, e, hk⟩
    cases e
    simp [BMap.keys] at hk

/-- C61, exactly: the paths of a callback are kept iff its name is written as an identifier, or it has none. -/
theorem c61_exact (env : Env) (reason : Nat → Option String) (api : Api) (d : Opg) (h : Describes env reason api d)
    (ps : List OpProp) (o : Operation) (ho : OpIn api d ps o) (name : String) (decl : CallbackDecl)
    (hd : lastOf (CallbackDecl.named? name) (ps.flatMap OpProp.callbackList) = some decl) :
    (∃ c, BMap.get name o.callbacks = some c ∧
      Pointwise (fun x pv => ItemIn api d x pv ∧ Pointwise SegOf x.segments pv.1) decl.paths c.paths) ↔
      decl.IsIdent ∨ decl.paths = [] := by
  constructor
  · rintro ⟨c, hc, hp⟩
    by_cases hi : decl.IsIdent
    · exact .inl hi
    · rw [c61_literal env reason api d h ps o ho name decl hd hi] at hc
      cases hc
      generalize decl.paths = l at hp ⊢
      cases hp
      exact .inr rfl
  · rintro (hi | he)
    · exact c61_callbacks_partial env reason api d h ps o ho name decl hd hi
    · by_cases hi : decl.IsIdent
      · exact c61_callbacks_partial env reason api d h ps o ho name decl hd hi
      · exact ⟨_, c61_literal env reason api d h ps o ho name decl hd hi, by rw [he]; exact .nil⟩

/-- The path of the callback of C61's witness is not kept. -/
example : ∃ (api : Api) (d : Opg) (ps : List OpProp) (o : Operation) (decl : CallbackDecl), Describes Sample.env reason api d ∧ OpIn api d ps o ∧
    lastOf (CallbackDecl.named? "onDone") (ps.flatMap OpProp.callbackList) = some decl ∧ ¬ decl.IsIdent ∧ decl.paths ≠ [] :=
  ⟨[.paths [.mk [.literal "a"] [.operation .get [.callbacks [.literal "onDone" [callbackPath]]]]]], _,
    [.callbacks [.literal "onDone" [callbackPath]]], _, .literal "onDone" [callbackPath], ⟨10, rfl⟩,
    .mk (m := .get) (.top (i := 0) rfl rfl) rfl rfl, rfl, fun h => h, nofun⟩

/-- C72, exactly: the property of a field (the last of its name) is an inline schema that shows the field's documentation iff the field
has an explicit type other than `any`, or none and is marked `inline` or of a type without a component. -/
theorem c72_exact (i : Nat) (input : DeriveInput Ty) (fs) (hd : Derived o env i input)
    (hi : input.data = .struct (.named fs)) (m) (hs : HasSchema env (.named i) m) :
    ∃ fs' obj, (env.decl i).data = .struct .struct fs' ∧
      m = objectSchema (env.decl i).attrs.description (env.decl i).attrs.nullable obj ∧
      ∀ pre f post, serialFields fs' = pre ++ f :: post → (∀ g ∈ post, g.key ≠ f.key) →
        ((∃ m', BMap.get f.key obj.properties = some (.inline m') ∧ Shows (f.doc env) m') ↔
          f.attrs.explicitModelType ≠ some .any ∧
          (f.attrs.explicitModelType ≠ none ∨ typeName env f.ty = none ∨ f.attrs.inline = true)) := by
  obtain ⟨fs', obj, hc, hm, h⟩ := c72_field_partial i input fs hd hi m hs
  obtain ⟨fs₂, obj₂, hc₂, hm₂, h₂⟩ := c72_other_fields i input fs hd hi m hs
  rw [hc] at hc₂
  cases hc₂
  rw [hm] at hm₂
  cases hm₂
  refine ⟨fs', obj, hc, hm, fun pre f post hser hlast => ⟨?_, fun ⟨h1, h3⟩ => h pre f post hser hlast h1 h3⟩⟩
  rintro ⟨m', hg, -⟩
  obtain ⟨ha, hb⟩ := h₂ pre f post hser hlast
  refine ⟨fun e => ?_, ?_⟩
  · rw [hb e] at hg; cases hg
  · cases he : f.attrs.explicitModelType with
    | some t => exact .inl nofun
    | none =>
      cases hn : typeName env f.ty with
      | none => exact .inr (.inl rfl)
      | some name =>
        cases hin : f.attrs.inline with
        | true => exact .inr (.inr rfl)
        | false => rw [ha name he hn hin] at hg; cases hg

example : ∃ m, HasSchema (program [holder]) (.named 0) m ∧ Derived oracle (program [holder]) 0 holderInput ∧
    ∃ fs, holderInput.data = .struct (.named fs) := ⟨_, ⟨Components.empty, _, 5, rfl⟩, ⟨_, rfl⟩, _, rfl⟩

end Verif
