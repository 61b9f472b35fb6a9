import Verif.Proof.Shapes
import Verif.Proof.Parsed
import Verif.Props.Samples
/-!
# Shapes of the schemas of derived types (C27, C29 - C33, C36, C38, C39, C65)

`env.decl i` is the container the macro parsed; by C65 each of its attributes is what was written in the source.
-/

namespace Verif

variable {o : Oracle} {τ : Type} {env : Env}

/-- C65.  Accepted items: every parsed attribute of the container, of each variant and of each field is exactly
what was written, in the position where it was written. -/
theorem c65_parsed (o : Oracle) (input : DeriveInput τ) (c body) (hc : derive o input = .code c body) :
    ContainerParsed o input c := container_parsed hc

/-- A source file: the derived types are those the macro accepted. -/
structure Derived (o : Oracle) (env : Env) (i : Nat) (input : DeriveInput Ty) : Prop where
  accepted : ∃ body, derive o input = .code (env.decl i) body

theorem Derived.parsed {i input} (h : Derived o env i input) : ContainerParsed o input (env.decl i) := by
  obtain ⟨body, h⟩ := h.accepted
  exact container_parsed h

theorem Derived.yields {i input m} (h : Derived o env i input) (hs : HasSchema env (.named i) m) :
    ∃ body, serializeBody (env.decl i) = .ok body ∧ body.Yields env m := by
  obtain ⟨body, h⟩ := h.accepted
  obtain ⟨cx, cx', hs⟩ := hs
  have hb := (derive_code h).2
  exact ⟨body, hb, hs.yields (by simp only [schemaExpr, hb])⟩

/-! ## C27: structs -/

/-- C27, on the parsed struct (also with repeated names: the last field of a name wins). -/
theorem c27_struct (i : Nat) (input : DeriveInput Ty) (fs) (hd : Derived o env i input)
    (hi : input.data = .struct (.named fs)) (m) (hs : HasSchema env (.named i) m) :
    ∃ fs' obj, (env.decl i).data = .struct .struct fs' ∧ ObjectOf env false fs' obj ∧
      m = objectSchema (env.decl i).attrs.description (env.decl i).attrs.nullable obj := by
  obtain ⟨body, hb, hy⟩ := hd.yields hs
  obtain ⟨rule, _, h⟩ := hd.parsed.data
  rw [hi] at h
  obtain ⟨style, fs', hcd, hp⟩ := h
  cases hp.style
  refine ⟨fs', ?_⟩
  simp only [serializeBody, hcd, Except.ok.injEq] at hb
  subst hb
  obtain ⟨obj, ho, rfl⟩ := yields_objectModel (inl := false) (fun _ => rfl) hy
  exact ⟨obj, hcd, ho, rfl⟩

/-- C27, in terms of the source.  The object has a property `s` iff some field that is not skipped is serialized
as `s`; `s` is required iff moreover such a field has no `skip_serializing_if` and is not marked `optional`. -/
theorem c27_source (i : Nat) (input : DeriveInput Ty) (fs) (hd : Derived o env i input)
    (hi : input.data = .struct (.named fs)) (m) (hs : HasSchema env (.named i) m) :
    ∃ rule obj d n, RuleOf (ContainerGives o .namedStruct) input.attrs rule ∧ m = objectSchema d n obj ∧
      obj.additional = none ∧
      (∀ s, s ∈ BMap.keys obj.properties ↔ ∃ (k : Nat) (f : SynField Ty), fs[k]? = some f ∧
        ¬ Gives (FieldGives o) f.attrs .skipSerializing .unit ∧ FieldSerializedAs o rule k f s) ∧
      (∀ s, s ∈ obj.required ↔ ∃ (k : Nat) (f : SynField Ty), fs[k]? = some f ∧
        ¬ Gives (FieldGives o) f.attrs .skipSerializing .unit ∧
        ¬ Gives (FieldGives o) f.attrs .skipSerializingIf .unit ∧ ¬ Gives (FieldGives o) f.attrs .optional .unit ∧
        FieldSerializedAs o rule k f s) := by
  obtain ⟨fs', obj, hcd, ho, rfl⟩ := c27_struct i input fs hd hi m hs
  obtain ⟨rule, hr, h⟩ := hd.parsed.data
  rw [hi] at h hr
  obtain ⟨style, fs'', hcd', hp⟩ := h
  rw [hcd] at hcd'
  cases hcd'
  have key : ∀ P : Field Ty → Prop, (∃ f' ∈ fs', P f') ↔
      ∃ (k : Nat) (f : SynField Ty), fs[k]? = some f ∧ ∃ f', FieldParsed o rule k f f' ∧ fs'[k]? = some f' ∧ P f' := by
    intro P
    constructor
    · rintro ⟨f', hf', h⟩
      obtain ⟨k, hk⟩ := List.mem_iff_getElem?.1 hf'
      have hlt := (List.getElem?_eq_some_iff.1 hk).1
      rw [hp.length] at hlt
      exact ⟨k, _, List.getElem?_eq_getElem hlt, f', hp.fields k _ _ (List.getElem?_eq_getElem hlt) hk, hk, h⟩
    · rintro ⟨k, f, _, f', _, hk, h⟩
      exact ⟨f', List.mem_of_getElem? hk, h⟩
  have get : ∀ {k : Nat} {f}, fs[k]? = some f → ∃ f', FieldParsed o rule k f f' ∧ fs'[k]? = some f' := by
    intro k f hk
    have hlt := (List.getElem?_eq_some_iff.1 hk).1
    have hlt' : k < fs'.length := by rw [hp.length]; exact hlt
    exact ⟨_, hp.fields k _ _ hk (List.getElem?_eq_getElem hlt'), List.getElem?_eq_getElem hlt'⟩
  refine ⟨rule, obj, _, _, hr, rfl, ho.additional, fun s => ?_, fun s => ?_⟩
  · rw [ho.names]
    have := key (fun f' => f'.attrs.skipSerializing = false ∧ f'.key = s)
    simp only [serialFields, List.mem_filter, Bool.not_eq_true', and_assoc, this]
    constructor
    · rintro ⟨k, f, hk, f', hf', hk', h1, h2⟩
      exact ⟨k, f, hk, by rw [← hf'.skip, h1]; decide, (hf'.name s).1 h2⟩
    · rintro ⟨k, f, hk, h1, h2⟩
      obtain ⟨f', hf', hk'⟩ := get hk
      exact ⟨k, f, hk, f', hf', hk', by rw [← hf'.skip] at h1; simpa using h1, (hf'.name s).2 h2⟩
  · rw [ho.required]
    have := key (fun f' => f'.attrs.skipSerializing = false ∧ f'.attrs.optional = false ∧ f'.key = s)
    simp only [List.mem_map, serialFields, List.mem_filter, Bool.not_eq_true', and_assoc, this]
    constructor
    · rintro ⟨k, f, hk, f', hf', hk', h1, h3, h2⟩
      have h4 := hf'.optional
      rw [h3] at h4
      simp only [Bool.false_eq_true, false_iff, not_or] at h4
      exact ⟨k, f, hk, by rw [← hf'.skip, h1]; decide, h4.1, h4.2, (hf'.name s).1 h2⟩
    · rintro ⟨k, f, hk, h1, h3, h4, h2⟩
      obtain ⟨f', hf', hk'⟩ := get hk
      refine ⟨k, f, hk, f', hf', hk', by rw [← hf'.skip] at h1; simpa using h1, ?_, (hf'.name s).2 h2⟩
      have h5 := hf'.optional
      simp only [h3, h4, or_self, iff_false, Bool.not_eq_true] at h5
      exact h5

end Verif

namespace Verif

variable {o : Oracle} {env : Env}

/-! ## Enums -/

theorem Derived.enum {i input vs} (hd : Derived o env i input) (hi : input.data = .enum vs) :
    ∃ rule vs', RuleOf (ContainerGives o .enum) input.attrs rule ∧ (env.decl i).data = .enum vs' ∧
      Pointwise (VariantParsed o rule) vs vs' ∧
      (¬ HasData vs → (env.decl i).attrs.modelType = .newType) ∧
      (HasData vs → (env.decl i).attrs.modelType =
        match (env.decl i).attrs.tagType with
        | .none => .oneOf
        | .internal _ => .oneOf
        | .external => .dictionary
        | .adjacent _ _ => .object) ∧
      ∀ t, Tagging (ContainerGives o .enum) input.attrs t ↔ (env.decl i).attrs.tagType = t := by
  have hp := hd.parsed
  obtain ⟨rule, hr, h⟩ := hp.data
  rw [hi] at h hr
  obtain ⟨vs', hcd, hvs⟩ := h
  obtain ⟨body, hc⟩ := hd.accepted
  obtain ⟨_, ⟨b, ha⟩, _⟩ := container_cases (derive_code hc).1
  obtain ⟨h1, h2⟩ := modelType_enum hi (containerAttrs_nil (derive_code_errs hc)).1
  have htag : (env.decl i).attrs.tagType = (containerAttrsFromAst o input).1.tagType := by rw [ha]
  have hmt : (env.decl i).attrs.modelType = (containerAttrsFromAst o input).1.modelType := by rw [ha]
  refine ⟨rule, vs', hr, hcd, hvs, ?_, ?_, ?_⟩
  · intro h; rw [hmt]; exact (h1 h).1
  · intro h; rw [hmt, htag]; exact h2 h
  · intro t
    have := (hp.tag t).symm
    rw [hi] at this
    exact this

theorem serializedNames {rule : RenameRule} {vs : List (SynVariant Ty)} {vs'} (h : Pointwise (VariantParsed o rule) vs vs') :
    SerializedNames o rule vs ((serialVariants vs').map Variant.key) := by
  induction h with
  | nil => exact .nil
  | cons h _ ih =>
    rename_i v v' vs vs' _
    simp only [serialVariants, List.filter_cons]
    have hs := h.skip
    cases hb : v'.attrs.skipSerializing
    · simp only [hb, Bool.not_false, if_true, List.map_cons, Bool.false_eq_true, false_iff] at hs ⊢
      exact .cons hs ((h.name _).1 rfl) ih
    · simp only [hb, Bool.not_true, Bool.false_eq_true, if_false, true_iff] at hs ⊢
      exact .skip hs ih

/-- C29.  All variants are units and there is no `repr`: a string whose values are the serialized names of the
variants that are not skipped, in order, the first being the example. -/
theorem c29_unit_enum (i : Nat) (input : DeriveInput Ty) (vs) (hd : Derived o env i input)
    (hi : input.data = .enum vs) (hu : ¬ HasData vs)
    (hr : ¬ Gives (ContainerGives o .enum) input.attrs .repr .unit) (m) (hs : HasSchema env (.named i) m) :
    ∃ rule names, RuleOf (ContainerGives o .enum) input.attrs rule ∧ SerializedNames o rule vs names ∧
      m = stringEnum (env.decl i).attrs.description names := by
  obtain ⟨body, hb, hy⟩ := hd.yields hs
  obtain ⟨rule, vs', hrule, hcd, hvs, h1, _, _⟩ := hd.enum hi
  have hrep := hd.parsed.repr
  rw [hi] at hrep
  have hrep : (env.decl i).attrs.hasRepr = false := by
    rw [Bool.eq_false_iff]; exact fun h => hr (hrep.1 h)
  refine ⟨rule, _, hrule, serializedNames hvs, ?_⟩
  simp only [serializeBody, hcd, serializeEnum, h1 hu, serializeNewtypeEnum, hrep, Bool.false_eq_true, if_false,
    Except.ok.injEq] at hb
  subst hb
  obtain ⟨td, htd, rfl⟩ := yields_single hy
  rw [yields_string htd]
  simp only [stringEnum]
  congr
  cases (serialVariants vs') <;> rfl

/-- C30, exactly.  With `repr`: one integer alternative per variant that is not skipped *and has an explicit
discriminant*, in order, with the discriminant as example. -/
theorem c30_repr_exact (i : Nat) (input : DeriveInput Ty) (vs) (hd : Derived o env i input)
    (hi : input.data = .enum vs) (hu : ¬ HasData vs)
    (hr : Gives (ContainerGives o .enum) input.attrs .repr .unit) (m) (hs : HasSchema env (.named i) m) :
    ∃ rule vs', RuleOf (ContainerGives o .enum) input.attrs rule ∧ Pointwise (VariantParsed o rule) vs vs' ∧
      m = ⟨(env.decl i).attrs.description, .oneOf (((vs'.filter fun v => !v.attrs.skipSerializing).filterMap fun v =>
        v.discriminant.map fun d => .inline (integerSchema (v.key ++ " variant") d)))⟩ := by
  obtain ⟨body, hb, hy⟩ := hd.yields hs
  obtain ⟨rule, vs', hrule, hcd, hvs, h1, _, _⟩ := hd.enum hi
  have hrep := hd.parsed.repr
  rw [hi] at hrep
  refine ⟨rule, vs', hrule, hvs, ?_⟩
  simp only [serializeBody, hcd, serializeEnum, h1 hu, serializeNewtypeEnum, hrep.2 hr, if_true,
    Except.ok.injEq] at hb
  subst hb
  obtain ⟨rs, hrs, rfl⟩ := yields_oneOf hy
  congr
  unfold serialVariants at hrs
  generalize (vs'.filter fun v => !v.attrs.skipSerializing) = l at hrs
  clear hcd hvs hy hs
  induction l generalizing rs with
  | nil => cases hrs; rfl
  | cons v l ih =>
    simp only [List.filterMap_cons, reprAlternative] at hrs ⊢
    cases hdisc : v.discriminant with
    | none => simp only [hdisc, Option.map_none] at hrs ⊢; exact ih _ hrs
    | some d =>
      simp only [hdisc, Option.map_some] at hrs ⊢
      cases hrs with
      | cons h t =>
        obtain ⟨m, hm, rfl⟩ := yields_inline h
        obtain ⟨td, htd, rfl⟩ := yields_single hm
        rw [yields_integer htd, ih _ t]
        rfl

/-- C30 where the discriminants are written out: one alternative per variant that is not skipped.
Missing: enums with implicit discriminants, for which it is false (`c30_is_false`). -/
theorem c30_repr_partial (i : Nat) (input : DeriveInput Ty) (vs) (hd : Derived o env i input)
    (hi : input.data = .enum vs) (hu : ¬ HasData vs)
    (hr : Gives (ContainerGives o .enum) input.attrs .repr .unit)
    (hx : ∀ v ∈ vs, v.discriminant.isSome) (m) (hs : HasSchema env (.named i) m) :
    ∃ rule vs' rs, RuleOf (ContainerGives o .enum) input.attrs rule ∧ Pointwise (VariantParsed o rule) vs vs' ∧
      m = ⟨(env.decl i).attrs.description, .oneOf rs⟩ ∧
      Pointwise (fun v r => ∃ d, v.discriminant = some d ∧ r = .inline (integerSchema (v.key ++ " variant") d))
        (vs'.filter fun v => !v.attrs.skipSerializing) rs := by
  obtain ⟨rule, vs', hrule, hvs, rfl⟩ := c30_repr_exact i input vs hd hi hu hr m hs
  refine ⟨rule, vs', _, hrule, hvs, rfl, ?_⟩
  have hx' : ∀ v ∈ vs', v.discriminant.isSome := by
    clear hi hu hs
    induction hvs with
    | nil => simp
    | cons h _ ih =>
      intro v hv
      rcases List.mem_cons.1 hv with rfl | hv
      · rw [h.discriminant]; exact hx _ (List.mem_cons_self ..)
      · exact ih (fun w hw => hx w (List.mem_cons_of_mem _ hw)) v hv
  have hx' : ∀ v ∈ vs'.filter fun v => !v.attrs.skipSerializing, v.discriminant.isSome :=
    fun v hv => hx' v (List.mem_filter.1 hv).1
  generalize (vs'.filter fun v => !v.attrs.skipSerializing) = l at hx'
  induction l with
  | nil => exact .nil
  | cons v l ih =>
    have := hx' v (List.mem_cons_self ..)
    obtain ⟨d, hdd⟩ := Option.isSome_iff_exists.1 this
    simp only [List.filterMap_cons, hdd, Option.map_some]
    exact .cons ⟨d, hdd, rfl⟩ (ih fun w hw => hx' w (List.mem_cons_of_mem _ hw))

/-! ## C31: data enums -/

/-- C31, untagged. -/
theorem c31_untagged (i : Nat) (input : DeriveInput Ty) (vs) (hd : Derived o env i input)
    (hi : input.data = .enum vs) (hu : HasData vs) (ht : Tagging (ContainerGives o .enum) input.attrs .none)
    (m) (hs : HasSchema env (.named i) m) :
    ∃ rule vs' rs, RuleOf (ContainerGives o .enum) input.attrs rule ∧ Pointwise (VariantParsed o rule) vs vs' ∧
      m = ⟨(env.decl i).attrs.description, .oneOf rs⟩ ∧
      Pointwise (VariantContent env) (vs'.filter fun v => !v.attrs.skipSerializing) rs := by
  obtain ⟨body, hb, hy⟩ := hd.yields hs
  obtain ⟨rule, vs', hrule, hcd, hvs, _, h2, h3⟩ := hd.enum hi
  have h2 := h2 hu
  rw [(h3 _).1 ht] at h2
  simp only [serializeBody, hcd, serializeEnum, h2, (h3 _).1 ht, serializeUntaggedEnum] at hb
  split at hb
  · cases hb
  · rename_i es hes
    cases hb
    obtain ⟨rs, hrs, rfl⟩ := yields_oneOf hy
    exact ⟨rule, vs', rs, hrule, hvs, rfl, variants_yield hes hrs fun v e r h h' => (yields_untagged h h').2⟩

/-- C31, externally tagged: a map to one of the alternatives. -/
theorem c31_external (i : Nat) (input : DeriveInput Ty) (vs) (hd : Derived o env i input)
    (hi : input.data = .enum vs) (hu : HasData vs) (ht : Tagging (ContainerGives o .enum) input.attrs .external)
    (m) (hs : HasSchema env (.named i) m) :
    ∃ rule vs' rs, RuleOf (ContainerGives o .enum) input.attrs rule ∧ Pointwise (VariantParsed o rule) vs vs' ∧
      m = objectSchema (env.decl i).attrs.description (env.decl i).attrs.nullable
        ⟨[], some (.inline ⟨(env.decl i).attrs.description, .oneOf rs⟩), []⟩ ∧
      Pointwise (VariantContent env) (vs'.filter fun v => !v.attrs.skipSerializing) rs := by
  obtain ⟨body, hb, hy⟩ := hd.yields hs
  obtain ⟨rule, vs', hrule, hcd, hvs, _, h2, h3⟩ := hd.enum hi
  have h2 := h2 hu
  rw [(h3 _).1 ht] at h2
  simp only [serializeBody, hcd, serializeEnum, h2, (h3 _).1 ht, serializeExternalEnum] at hb
  split at hb
  · cases hb
  · rename_i es hes
    cases hb
    obtain ⟨td, htd, rfl⟩ := yields_single hy
    obtain ⟨r, hr, rfl⟩ := yields_dictionary htd
    obtain ⟨m, hm, rfl⟩ := yields_inline hr
    obtain ⟨rs, hrs, rfl⟩ := yields_oneOf hm
    exact ⟨rule, vs', rs, hrule, hvs, rfl, variants_yield hes hrs fun v e r h h' => yields_external h h'⟩

/-- C31, adjacently tagged. -/
theorem c31_adjacent (i : Nat) (input : DeriveInput Ty) (vs) (hd : Derived o env i input)
    (hi : input.data = .enum vs) (hu : HasData vs) (t cn)
    (ht : Tagging (ContainerGives o .enum) input.attrs (.adjacent t cn)) (m) (hs : HasSchema env (.named i) m) :
    ∃ rule vs' rs, RuleOf (ContainerGives o .enum) input.attrs rule ∧ Pointwise (VariantParsed o rule) vs vs' ∧
      m = objectSchema (env.decl i).attrs.description (env.decl i).attrs.nullable
        ⟨BMap.insert cn (.inline ⟨(env.decl i).attrs.description, .oneOf rs⟩)
          (BMap.insert t (.inline (stringEnum (some (input.ident ++ " type variant"))
            ((vs'.filter fun v => !v.attrs.skipSerializing).map Variant.key))) []), none, [t, cn]⟩ ∧
      Pointwise (AdjacentContent env) (vs'.filter fun v => !v.attrs.skipSerializing) rs := by
  obtain ⟨body, hb, hy⟩ := hd.yields hs
  obtain ⟨rule, vs', hrule, hcd, hvs, _, h2, h3⟩ := hd.enum hi
  have h2 := h2 hu
  rw [(h3 _).1 ht] at h2
  simp only [serializeBody, hcd, serializeEnum, h2, (h3 _).1 ht, serializeAdjacentEnum] at hb
  split at hb
  · cases hb
  · rename_i es hes
    cases hb
    obtain ⟨td, htd, rfl⟩ := yields_single hy
    obtain ⟨rs', hrs', rfl⟩ := yields_object htd
    cases hrs' with
    | cons hx ht1 =>
    cases ht1 with
    | cons hz ht2 =>
    cases ht2
    obtain ⟨m1, hm1, rfl⟩ := yields_inline hx
    obtain ⟨td1, htd1, rfl⟩ := yields_single hm1
    obtain ⟨m2, hm2, rfl⟩ := yields_inline hz
    obtain ⟨rs, hrs, rfl⟩ := yields_oneOf hm2
    refine ⟨rule, vs', rs, hrule, hvs, ?_, variants_yield hes hrs fun v e r h h' => yields_adjacent h h'⟩
    rw [yields_string htd1, hd.parsed.ident]
    have : ∀ l : List String, (l.head?.map Example.lit).map (Example.eval env) = l.head? := by
      intro l; cases l <;> rfl
    rw [this]
    rfl

/-- C31, internally tagged: every alternative is an object or the inner schema, see C32 for the tag. -/
theorem c31_internal (i : Nat) (input : DeriveInput Ty) (vs) (hd : Derived o env i input)
    (hi : input.data = .enum vs) (hu : HasData vs) (t)
    (ht : Tagging (ContainerGives o .enum) input.attrs (.internal t)) (m) (hs : HasSchema env (.named i) m) :
    ∃ rule vs' ms, RuleOf (ContainerGives o .enum) input.attrs rule ∧ Pointwise (VariantParsed o rule) vs vs' ∧
      m = ⟨(env.decl i).attrs.description, .oneOf (ms.map .inline)⟩ ∧
      Pointwise (fun v m => ∃ m₀, InternalContent env v m₀ ∧ Tagged t (input.ident ++ " type variant") v.key m₀ m)
        (vs'.filter fun v => !v.attrs.skipSerializing) ms := by
  obtain ⟨body, hb, hy⟩ := hd.yields hs
  obtain ⟨rule, vs', hrule, hcd, hvs, _, h2, h3⟩ := hd.enum hi
  have h2 := h2 hu
  rw [(h3 _).1 ht] at h2
  simp only [serializeBody, hcd, serializeEnum, h2, (h3 _).1 ht, serializeInternalEnum] at hb
  split at hb
  · cases hb
  · rename_i es hes
    cases hb
    obtain ⟨rs, hrs, rfl⟩ := yields_oneOf hy
    have := variants_yield hes hrs fun v e r h h' => yields_internal h h'
    obtain ⟨ms, rfl, hms⟩ := this.inlines
    refine ⟨rule, vs', ms, hrule, hvs, rfl, hms.imp ?_⟩
    rintro v m ⟨m₀, h, rfl⟩
    exact ⟨m₀, h, hd.parsed.ident ▸ tagged_tryMerge m₀ ..⟩

end Verif
