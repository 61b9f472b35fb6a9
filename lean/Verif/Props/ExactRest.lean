import Verif.Props.ExactMore
import Verif.Props.Api
/-!
# Exact criteria: repr enums, tags, template parameters (C30, C32, C33, C56)
-/

namespace Verif

open Sample

variable {o : Oracle} {env : Env}

/-- C30, the criterion: a `repr` enum has as many alternatives as variants that are not skipped exactly if each of
these has an explicit discriminant. -/
theorem c30_exact (i : Nat) (input : DeriveInput Ty) (vs) (hd : Derived o env i input)
    (hi : input.data = .enum vs) (hu : ¬ HasData vs)
    (hr : Gives (ContainerGives o .enum) input.attrs .repr .unit) (m) (hs : HasSchema env (.named i) m) :
    ∃ rule vs' rs, RuleOf (ContainerGives o .enum) input.attrs rule ∧ Pointwise (VariantParsed o rule) vs vs' ∧
      m = ⟨(env.decl i).attrs.description, .oneOf rs⟩ ∧
      (rs.length = (vs'.filter fun v => !v.attrs.skipSerializing).length ↔
        ∀ v ∈ vs', v.attrs.skipSerializing = false → v.discriminant.isSome) := by
  obtain ⟨rule, vs', h1, h2, rfl⟩ := c30_repr_exact i input vs hd hi hu hr m hs
  refine ⟨rule, vs', _, h1, h2, rfl, ?_⟩
  rw [List.length_filterMap_eq_countP]
  rw [List.countP_eq_length]
  simp only [List.mem_filter, Option.isSome_map, and_imp, Bool.not_eq_true']

/-- C32, the criterion: an alternative of an internally tagged enum carries its tag exactly if its content is an object
that has no property of that name, or one that says the same. -/
theorem c32_exact (i : Nat) (input : DeriveInput Ty) (vs) (hd : Derived o env i input)
    (hi : input.data = .enum vs) (hu : HasData vs) (t)
    (ht : Tagging (ContainerGives o .enum) input.attrs (.internal t)) (m) (hs : HasSchema env (.named i) m) :
    ∃ rule vs' rs, RuleOf (ContainerGives o .enum) input.attrs rule ∧ Pointwise (VariantParsed o rule) vs vs' ∧
      m = ⟨(env.decl i).attrs.description, .oneOf rs⟩ ∧
      Pointwise (fun v r => ∃ m₀, InternalContent env v m₀ ∧
        (HasTag t v.key r ↔ (∃ d n ob, m₀ = objectSchema d n ob ∧ t ∉ BMap.keys ob.properties) ∨ HasTag t v.key (.inline m₀)))
        (vs'.filter fun v => !v.attrs.skipSerializing) rs := by
  obtain ⟨rule, vs', ms, hr, hp, rfl, hms⟩ := c31_internal i input vs hd hi hu t ht m hs
  refine ⟨rule, vs', ms.map .inline, hr, hp, rfl, ?_⟩
  clear hp hs
  generalize (vs'.filter fun v => !v.attrs.skipSerializing) = l at hms
  induction hms with
  | nil => exact .nil
  | cons h _ ih =>
    refine .cons ?_ ih
    obtain ⟨m₀, hc, htag⟩ := h
    refine ⟨m₀, hc, fun h => ?_, ?_⟩
    · cases htag with
      | added d n ob h1 h2 _ => exact .inl ⟨d, n, ob, h1, h2⟩
      | clash d n ob _ _ hm => exact .inr (hm ▸ h)
      | notObject _ hm => exact .inr (hm ▸ h)
    · rintro (⟨d, n, ob, h1, h2⟩ | h)
      · exact htag.hasTag h1 h2
      · cases htag with
        | added d n ob h1 h2 _ => exact Tagged.hasTag (.added d n ob h1 h2 ‹_›) h1 h2
        | clash d n ob _ _ hm => exact hm ▸ h
        | notObject _ hm => exact hm ▸ h

/-- The hypotheses hold of the enums of C32: with `A(String)` the criterion fails, with `A(Pet)` it holds. -/
example : (Derived oracle (program [e32c]) 0 e32 ∧ Tagging (ContainerGives oracle .enum) e32.attrs (.internal "kind") ∧
      HasSchema (program [e32c]) (.prim .string) str ∧ ∀ d n ob, str ≠ objectSchema d n ob) ∧
    Derived oracle (program [e32c']) 0 e32' ∧ Tagging (ContainerGives oracle .enum) e32'.attrs (.internal "kind") := by
  have h1 : Derived oracle (program [e32c]) 0 e32 := ⟨_, rfl⟩
  have h2 : Derived oracle (program [e32c']) 0 e32' := ⟨_, rfl⟩
  exact ⟨⟨h1, (h1.parsed.tag (.internal "kind")).1 rfl, ⟨Components.empty, _, 5, rfl⟩, fun d n ob h => by cases h⟩,
    h2, (h2.parsed.tag (.internal "kind")).1 rfl⟩

/-- C33, the criterion: the schema of an adjacently tagged enum without `repr` is an object with the properties tag and
content exactly if the enum has data; otherwise it is a string with the names of the variants. -/
theorem c33_exact (i : Nat) (input : DeriveInput Ty) (vs) (hd : Derived o env i input)
    (hi : input.data = .enum vs) (t cn) (hne : t ≠ cn)
    (hr : ¬ Gives (ContainerGives o .enum) input.attrs .repr .unit)
    (ht : Tagging (ContainerGives o .enum) input.attrs (.adjacent t cn)) (m) (hs : HasSchema env (.named i) m) :
    ((∃ d n ob, m = objectSchema d n ob ∧ ∀ k, k ∈ BMap.keys ob.properties ↔ k = t ∨ k = cn) ↔ HasData vs) ∧
    (¬ HasData vs → ∃ rule names, RuleOf (ContainerGives o .enum) input.attrs rule ∧ SerializedNames o rule vs names ∧
      m = stringEnum (env.decl i).attrs.description names) := by
  refine ⟨⟨?_, fun hu => ?_⟩, fun hu => c29_unit_enum i input vs hd hi hu hr m hs⟩
  · rintro ⟨d, n, ob, rfl, -⟩
    apply Classical.byContradiction
    intro hu
    obtain ⟨_, _, _, _, h⟩ := c29_unit_enum i input vs hd hi hu hr _ hs
    cases h
  · obtain ⟨_, _, d, n, ob, _, _, _, _, _, h1, _, h2, _⟩ := c33_adjacent_partial i input vs hd hi hu t cn hne ht m hs
    exact ⟨d, n, ob, h1, h2⟩

/-- C56, the criterion: a template parameter is written as a required path parameter exactly if the path declares no
parameter of that name. -/
theorem c56_exact (env : Env) (reason : Nat → Option String) (api : Api) (d : Opg)
    (h : Describes env reason api d) (decl : PathDecl) (p : UrlPath) (v : PathValue) (hi : ItemIn api d decl (p, v))
    (name : String) (hn : .parameter name ∈ p) :
    (∃ param, BMap.get name v.parameters = some param ∧ param.parameterIn = .path ∧ param.required = true) ↔
      ∀ x ∈ decl.props.flatMap ItemProp.paramList, x.name ≠ name := by
  constructor
  · rintro ⟨param, hg, hin, -⟩
    have io := c58_path_item env reason api d h decl p v hi
    cases hl : lastOf (ParamDecl.named? name) (decl.props.flatMap ItemProp.paramList) with
    | none =>
      intro x hx e
      have := lastOf_none.1 hl x hx
      simp [ParamDecl.named?, e] at this
    | some x =>
      obtain ⟨q, hq, po⟩ := io.parameters name x hl
      rw [hg] at hq
      cases hq
      have := po.place
      rw [hin] at this
      cases x <;> cases this
  · intro hd
    obtain ⟨param, t, h1, h2, h3, -⟩ := c56_template_parameters_partial env reason api d h decl p v hi name hn hd
    exact ⟨param, h1, h2, h3⟩

/-- The sample path has a template parameter and declares none of that name. -/
example : ItemIn api apiDoc usersPath ([.path "users", .parameter "id"], usersItem) ∧
    ∀ x ∈ usersPath.props.flatMap ItemProp.paramList, x.name ≠ "id" := by
  refine ⟨users_in, ?_⟩
  decide

end Verif
