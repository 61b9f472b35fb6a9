import Verif.Spec.Parsed
import Verif.Proof.DerivePanic
/-!
# What parsing computes
-/

namespace Verif

variable {o : Oracle} {τ : Type}

/-- The form of the values of each attribute. -/
def AttrKey.Fits : AttrKey → AVal → Prop
  | .rename, v => ∃ s, v = .str s
  | .tag, v => ∃ s, v = .str s
  | .content, v => ∃ s, v = .str s
  | .description, v => ∃ s, v = .str s
  | .format, v => ∃ s, v = .str s
  | .renameAll, v => ∃ s, v = .rule s
  | .ex, v => ∃ s, v = .ex s
  | _, v => v = .unit

theorem commonGives_fits {src m k v} (h : CommonGives o src m k v) : k.Fits v := by
  cases h <;> first | rfl | exact ⟨_, rfl⟩
theorem containerGives_fits {kind src m k v} (h : ContainerGives o kind src m k v) : k.Fits v := by
  cases h <;> first | exact commonGives_fits ‹_› | rfl | exact ⟨_, rfl⟩
theorem variantGives_fits {src m k v} (h : VariantGives o src m k v) : k.Fits v := by
  cases h <;> first | exact commonGives_fits ‹_› | rfl | exact ⟨_, rfl⟩
theorem fieldGives_fits {src m k v} (h : FieldGives o src m k v) : k.Fits v := by
  cases h <;> first | exact commonGives_fits ‹_› | rfl | exact ⟨_, rfl⟩

section
variable {act : AttrFrom → NestedMeta → Action} {g : AttrFrom → NestedMeta → AttrKey → AVal → Prop}
  (hg : ∀ src m k v, act src m = .set k v ↔ g src m k v)
  (hf : ∀ src m k v, g src m k v → k.Fits v)
  {attrs : List Attribute} (he : (runAttrs act attrs).errs = [])
include hg hf he

theorem vals_fits {k v} (h : (runAttrs act attrs).vals k = some v) : k.Fits v := by
  obtain ⟨items, _, x, _, h⟩ := (runAttrs_vals hg he).1 h
  exact hf _ _ _ _ h

theorem has_iff {k} (hk : ∀ v, k.Fits v → v = .unit) :
    (runAttrs act attrs).has k = true ↔ Gives g attrs k .unit := by
  rw [← runAttrs_vals hg he, Acc.has]
  cases h : (runAttrs act attrs).vals k with
  | none => simp
  | some v => simp [hk v (vals_fits hg hf he h)]

theorem str_iff {k} (hk : ∀ v, k.Fits v → ∃ s, v = .str s) (s : String) :
    (runAttrs act attrs).str k = some s ↔ Gives g attrs k (.str s) := by
  rw [← runAttrs_vals hg he, Acc.str]
  cases h : (runAttrs act attrs).vals k with
  | none => simp
  | some v => obtain ⟨s', rfl⟩ := hk v (vals_fits hg hf he h); simp [AVal.asStr]

theorem exv_iff (e : Example) : (runAttrs act attrs).exv = some e ↔ Gives g attrs .ex (.ex e) := by
  rw [← runAttrs_vals hg he, Acc.exv]
  cases h : (runAttrs act attrs).vals .ex with
  | none => simp
  | some v => obtain ⟨s', rfl⟩ := vals_fits hg hf he h; simp [AVal.asEx]

theorem doc_parsed (ht : (atMostOne (runAttrs act attrs).flags).2 = [])
    (hw : ∀ src m t, act src m = .flag t ↔ src = .opg ∧ ∃ p, m = .item (.path p) ∧ (p, t) ∈ typeWords) :
    DocParsed g attrs ((runAttrs act attrs).str .description) ((runAttrs act attrs).str .format)
      (runAttrs act attrs).exv ((runAttrs act attrs).has .inline) (atMostOne (runAttrs act attrs).flags).1 where
  description := str_iff hg hf he fun _ h => h
  format := str_iff hg hf he fun _ h => h
  ex := exv_iff hg hf he
  inline := has_iff hg hf he fun _ h => h
  explicit := fun _ => flags_type he ht hw
end

theorem gives_unique {act : AttrFrom → NestedMeta → Action} {g : AttrFrom → NestedMeta → AttrKey → AVal → Prop}
    (hg : ∀ src m k v, act src m = .set k v ↔ g src m k v) {attrs k v w} (he : (runAttrs act attrs).errs = [])
    (h : Gives g attrs k v) (h' : Gives g attrs k w) : v = w := by
  rw [← runAttrs_vals hg he] at h h'
  rw [h] at h'
  exact Option.some.inj h'

theorem fieldSerializedAs_unique {rule : RenameRule} {i : Nat} {f : SynField τ} {s s'}
    (he : (runAttrs (fieldAction o) f.attrs).errs = []) (h : FieldSerializedAs o rule i f s)
    (h' : FieldSerializedAs o rule i f s') : s = s' := by
  rcases h with h | ⟨h, hs⟩ <;> rcases h' with h' | ⟨h', hs'⟩
  · exact AVal.str.inj (gives_unique (fun _ _ _ _ => fieldAction_set) he h h')
  · exact absurd h (h' _)
  · exact absurd h' (h _)
  · rw [hs] at hs'; exact Option.some.inj hs'

theorem variantSerializedAs_unique {rule : RenameRule} {f : SynVariant τ} {s s'}
    (he : (runAttrs (variantAction o) f.attrs).errs = []) (h : VariantSerializedAs o rule f s)
    (h' : VariantSerializedAs o rule f s') : s = s' := by
  rcases h with h | ⟨h, hs⟩ <;> rcases h' with h' | ⟨h', hs'⟩
  · exact AVal.str.inj (gives_unique (fun _ _ _ _ => variantAction_set) he h h')
  · exact absurd h (h' _)
  · exact absurd h' (h _)
  · rw [hs] at hs'; exact Option.some.inj hs'

theorem field_parsed {rule : RenameRule} {i : Nat} {f : SynField τ} {f' : Field τ} (h : fieldErrors o f = [])
    (hr : Field.rename rule ⟨(fieldAttrsFromAst o i f.ident f.attrs).1, f.ty⟩ = some f') :
    FieldParsed o rule i f f' := by
  have he := fieldErrors_nil h
  have ht : (atMostOne (runAttrs (fieldAction o) f.attrs).flags).2 = [] := by
    simp only [fieldErrors, fieldAttrsFromAst, List.append_eq_nil_iff] at h
    exact h.2
  simp only [Field.rename, Option.map_eq_some_iff] at hr
  obtain ⟨n, hn, rfl⟩ := hr
  have hg := fun src m k v => fieldAction_set (o := o) (src := src) (m := m) (k := k) (v := v)
  have hf := fun src m k v => fieldGives_fits (o := o) (src := src) (m := m) (k := k) (v := v)
  refine ⟨rfl, fun s => ⟨fun hs => hs ▸ fieldAttrs_name h hn, fun hs =>
    fieldSerializedAs_unique he (fieldAttrs_name h hn) hs⟩, has_iff hg hf he fun _ h => h, ?_, has_iff hg hf he fun _ h => h,
    doc_parsed hg hf he ht fun _ _ _ => fieldAction_flag⟩
  rw [← has_iff hg hf he (k := .skipSerializingIf) fun _ h => h, ← has_iff hg hf he (k := .optional) fun _ h => h,
    ← Bool.or_eq_true]
  rfl

theorem fields_parsed {rule : RenameRule} {fs : SynFields τ} {fs' : List (Field τ)}
    (he : ∀ f ∈ fs.list, fieldErrors o f = [])
    (hm : mapPanic (Field.rename rule) (structFromAst o fs).1.2 = some fs') :
    FieldsParsed o rule fs (structFromAst o fs).1.1 fs' := by
  have key : ∀ l : List (SynField τ), (∀ f ∈ l, fieldErrors o f = []) →
      mapPanic (Field.rename rule) (fieldsFromAst o 0 l).1 = some fs' →
      fs'.length = l.length ∧ ∀ (i : Nat) f f', l[i]? = some f → fs'[i]? = some f' → FieldParsed o rule i f f' := by
    intro l he hm
    obtain ⟨hl, hg⟩ := mapPanic_some hm
    obtain ⟨hl', hg'⟩ := fieldsFromAst_get (o := o) 0 l
    refine ⟨hl.trans hl', fun i f f' hf hf' => ?_⟩
    obtain ⟨f'', hf'', hr⟩ := hg i _ (by rw [hg' i, hf]; rfl)
    rw [hf'] at hf''
    cases hf''
    rw [Nat.zero_add] at hr
    exact field_parsed (he f (List.mem_of_getElem? hf)) hr
  cases fs with
  | named fs => obtain ⟨h1, h2⟩ := key fs he hm; exact ⟨.named fs, h1, h2⟩
  | unit =>
    simp only [structFromAst, mapPanic, Option.some.injEq] at hm
    subst hm
    exact ⟨.unit, rfl, fun i f f' h => by simp [SynFields.list] at h⟩
  | unnamed fs =>
    obtain ⟨h1, h2⟩ := key fs he hm
    refine ⟨?_, h1, h2⟩
    simp only [structFromAst]
    split
    · rename_i hl
      obtain ⟨f, rfl⟩ := List.length_eq_one_iff.1 hl
      exact .newType f
    · exact .tuple fs ‹_›

theorem variant_parsed {rule : RenameRule} {v : SynVariant τ} {v' : Variant τ} (h : variantErrors o v = [])
    (hr : Variant.rename o.isUpper rule (variantFromAst o v).1 = some v') : VariantParsed o rule v v' := by
  obtain ⟨he, hfe⟩ := variantErrors_nil h
  have ht : (atMostOne (runAttrs (variantAction o) v.attrs).flags).2 = [] := by
    simp only [variantErrors, variantAttrsFromAst, List.append_eq_nil_iff] at h
    exact h.1.2
  obtain ⟨_, hd, ⟨n, hn, ha⟩, hs, hfs⟩ := variant_source hr
  have hg := fun src m k v => variantAction_set (o := o) (src := src) (m := m) (k := k) (v := v)
  have hf := fun src m k v => variantGives_fits (o := o) (src := src) (m := m) (k := k) (v := v)
  refine ⟨?_, hd, ?_, ?_, _, ruleOf_variant he, ?_⟩
  · rw [ha]
    exact fun s => ⟨fun hs => hs ▸ variantAttrs_name he hn, fun hs =>
      variantSerializedAs_unique he (variantAttrs_name he hn) hs⟩
  · rw [ha]; exact has_iff hg hf he fun _ h => h
  · rw [ha]; exact doc_parsed hg hf he ht fun _ _ _ => variantAction_flag
  · rw [hs]; exact fields_parsed hfe hfs

theorem mapPanic_pointwise {α β : Type} {f : α → Option β} {as : List α} {bs : List β} (h : mapPanic f as = some bs) :
    Pointwise (fun a b => a ∈ as ∧ f a = some b) as bs := by
  have key : ∀ (P : α → Prop), (∀ a ∈ as, P a) → Pointwise (fun a b => P a ∧ f a = some b) as bs := by
    intro P
    induction as generalizing bs with
    | nil => intro _; cases h; exact .nil
    | cons a as ih =>
      intro hP
      simp only [mapPanic] at h
      split at h
      · cases h
      · split at h
        · cases h
        · cases h
          exact .cons ⟨hP a (List.mem_cons_self ..), by assumption⟩
            (ih (by assumption) fun b hb => hP b (List.mem_cons_of_mem _ hb))
  exact key _ fun a ha => ha

theorem container_parsed {input : DeriveInput τ} {c body} (hc : derive o input = .code c body) :
    ContainerParsed o input c := by
  have hr := derive_code_errs hc
  obtain ⟨_, he, ht⟩ := containerAttrs_nil hr
  obtain ⟨hi, ⟨b, ha⟩, hd⟩ := container_cases (derive_code hc).1
  have hg := fun src m k v => containerAction_set (o := o) (kind := input.data.kind) (src := src) (m := m) (k := k) (v := v)
  have hf := fun src m k v => containerGives_fits (o := o) (kind := input.data.kind) (src := src) (m := m) (k := k) (v := v)
  refine ⟨hi, ?_, ?_, ?_, ?_, _, ruleOf_container he, ?_⟩
  · have htag := tagging he
    intro t
    rw [ha]
    constructor
    · rintro rfl; exact htag
    · intro h; exact Tagging.unique he htag h
  · rw [ha]; exact has_iff hg hf he fun _ h => h
  · rw [ha]; exact has_iff hg hf he fun _ h => h
  · rw [ha]; exact doc_parsed hg hf he ht fun _ _ _ => containerAction_flag
  · rcases hd with ⟨fs, style, fs', hd, hcd, rfl, hm⟩ | ⟨vs, vs', hd, hcd, hm⟩
    · rw [hd]
      exact ⟨_, fs', hcd, fields_parsed (recorded_fields hr hd) hm⟩
    · rw [hd]
      refine ⟨vs', hcd, ?_⟩
      have hv := (recorded_variants hr hd).2
      have hp := mapPanic_pointwise hm
      have : ∀ {as : List (SynVariant τ)} {bs}, Pointwise (fun a b => a ∈ vs ∧
          Variant.rename o.isUpper (containerAttrsFromAst o input).1.renameRule (variantFromAst o a).1 = some b) as bs →
          Pointwise (VariantParsed o (containerAttrsFromAst o input).1.renameRule) as bs := by
        intro as bs h
        induction h with
        | nil => exact .nil
        | cons h _ ih => exact .cons (variant_parsed (hv _ h.1) h.2) ih
      exact this hp

end Verif
