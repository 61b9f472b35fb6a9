import Verif.Spec.Lawful
import Verif.Proof.OpenApiMixed
import Verif.Proof.OpenApiGen
/-!
# Impls that make legal schemas
-/

namespace Verif

variable {τ α β : Type}

theorem Model.fine_iff {m : Model} : m.Fine ↔ m.Sound :=
  ⟨fun h => ⟨h.1, fun _ _ => trivial, fun o ho _ => h.2 o ho⟩, fun h => ⟨h.1, fun o ho => h.2.2 o ho trivial⟩⟩

theorem Ref.fine_iff {r : Ref} : r.Fine ↔ r.Sound ∧ ∀ l, r = .link l → LegalName l :=
  ⟨fun h => ⟨⟨h.1.1, fun _ _ => trivial, fun o ho _ => h.1.2 o ho⟩, h.2⟩, fun h => ⟨⟨h.1.1, fun o ho => h.1.2.2 o ho trivial⟩, h.2⟩⟩

theorem Ref.fine_inline {m : Model} (h : m.Fine) : (Ref.inline m).Fine :=
  Ref.fine_iff.2 ⟨Ref.sound_inline.2 (Model.fine_iff.1 h), nofun⟩

/-- Registries of fine schemas. -/
structure Components.Fine (cx : Components) : Prop where
  schemas : BMap.Sorted cx.schemas
  security : BMap.Sorted cx.securitySchemes
  models : ∀ b ∈ cx.schemas, LegalName b.1 ∧ b.2.Fine
  schemes : ∀ b ∈ cx.securitySchemes, LegalName b.1 ∧ b.2.NotInPath

def FineYields (ok : α → Prop) (x : M α) : Prop := ∀ cx a cx', x cx = some (a, cx') → cx.Fine → cx'.Fine ∧ ok a

structure Ops.FineYields (o : Ops τ) : Prop where
  getSchema : ∀ t, Verif.FineYields Model.Fine (o.getSchema t)
  withParams : ∀ t p, p.variants ≠ some [] → Verif.FineYields Model.Fine (o.withParams t p)
  mention : ∀ t i p, p.variants ≠ some [] → Verif.FineYields Ref.Fine (o.mention t i p)
  select : ∀ t i p, p.variants ≠ some [] → Verif.FineYields Ref.Fine (o.select t i p)

theorem fine_insert {cx : Components} (h : cx.Fine) {n m} (hn : LegalName n) (hm : m.Fine) :
    ({ cx with schemas := BMap.insert n m cx.schemas } : Components).Fine :=
  ⟨BMap.sorted_insert h.schemas, h.security, fun b hb => by
    rcases BMap.mem_insert_sub hb with e | hb'
    · subst e; exact ⟨hn, hm⟩
    · exact h.models b hb', h.schemes⟩

theorem fine_security {cx : Components} (h : cx.Fine) {n s} (hs : LegalName n ∧ s.NotInPath) : (cx.mentionSecurityScheme n s).2.Fine := by
  unfold Components.mentionSecurityScheme
  split
  · exact h
  · refine ⟨h.schemas, BMap.sorted_insert h.security, h.models, fun b hb => ?_⟩
    rcases BMap.mem_insert_sub hb with e | hb'
    · subst e; exact hs
    · exact h.schemes b hb'

theorem exec_fine {ok : α → Prop} {o : Ops τ} (h : o.FineYields) : ∀ (p : Prog τ α), p.Lawful ok → FineYields ok (p.exec o)
  | .ret _, hp, _, _, _, hx, hs => by cases hx; exact ⟨hs, hp⟩
  | .getSchema t k, hp, cx, a, cx', hx, hs => by
    rw [Prog.exec] at hx
    cases he : o.getSchema t cx with
    | none => rw [he] at hx; cases hx
    | some x =>
      rw [he] at hx
      obtain ⟨h1, h2⟩ := h.getSchema t cx _ _ he hs
      exact exec_fine h (k x.1) (hp _ h2) _ _ _ hx h1
  | .withParams t p k, hp, cx, a, cx', hx, hs => by
    rw [Prog.exec] at hx
    cases he : o.withParams t p cx with
    | none => rw [he] at hx; cases hx
    | some x =>
      rw [he] at hx
      obtain ⟨h1, h2⟩ := h.withParams t p hp.1 cx _ _ he hs
      exact exec_fine h (k x.1) (hp.2 _ h2) _ _ _ hx h1
  | .mention t i p k, hp, cx, a, cx', hx, hs => by
    rw [Prog.exec] at hx
    cases he : o.mention t i p cx with
    | none => rw [he] at hx; cases hx
    | some x =>
      rw [he] at hx
      obtain ⟨h1, h2⟩ := h.mention t i p hp.1 cx _ _ he hs
      exact exec_fine h (k x.1) (hp.2 _ h2) _ _ _ hx h1
  | .select t i p k, hp, cx, a, cx', hx, hs => by
    rw [Prog.exec] at hx
    cases he : o.select t i p cx with
    | none => rw [he] at hx; cases hx
    | some x =>
      rw [he] at hx
      obtain ⟨h1, h2⟩ := h.select t i p hp.1 cx _ _ he hs
      exact exec_fine h (k x.1) (hp.2 _ h2) _ _ _ hx h1
  | .contains _ k, hp, cx, a, cx', hx, hs => exec_fine h (k _) (hp _) _ _ _ hx hs
  | .verify k, hp, cx, a, cx', hx, hs => exec_fine h (k _) (hp _) _ _ _ hx hs
  | .addModel l m next, hp, cx, a, cx', hx, hs => by
    refine exec_fine h next hp.2 _ _ _ hx ?_
    unfold Components.addModel
    split
    · exact hs
    · exact fine_insert hs hp.1.1 hp.1.2
  | .security l s next, hp, cx, a, cx', hx, hs => exec_fine h next hp.2 _ _ _ hx (fine_security hs hp.1)

theorem fine_applyParams {m : Model} {p : Params} (hp : p.variants ≠ some []) (h : m.Fine) : (m.applyParams p).Fine :=
  Model.fine_iff.2 (Model.sound_applyParams hp (Model.fine_iff.1 h))

theorem runSelect_fine {im : Impl τ} (hw : im.Lawful) {run : (α : Type) → Prog τ α → M α}
    (h : ∀ (α : Type) (ok : α → Prop) (p : Prog τ α), p.Lawful ok → FineYields ok (run α p)) (i p) (hp : p.variants ≠ some []) :
    FineYields Ref.Fine (im.runSelect run i p) := by
  intro cx r cx1 hs hc
  rw [runSelect_some] at hs
  rcases hs with ⟨-, m, hm, rfl⟩ | ⟨l, _, _, hn, rfl, rfl⟩ | ⟨f, hf, hm⟩
  · obtain ⟨h1, h2⟩ := h _ _ _ hw.schema _ _ _ hm hc
    exact ⟨h1, Ref.fine_inline (fine_applyParams hp h2)⟩
  · exact ⟨hc, Ref.fine_iff.2 ⟨Ref.sound_link l, fun l' e => by cases e; exact hw.name _ hn⟩⟩
  · exact h _ _ _ (hw.select f hf i p hp) _ _ _ hm hc

theorem implOps_fine {w : τ → Impl τ} (hw : ∀ t, (w t).Lawful) {run : (α : Type) → Prog τ α → M α}
    (h : ∀ (α : Type) (ok : α → Prop) (p : Prog τ α), p.Lawful ok → FineYields ok (run α p)) : (implOps w run).FineYields where
  getSchema t := h _ _ _ (hw t).schema
  withParams t p hp := by
    intro cx a cx' hx hc
    simp only [implOps, Impl.runWithParams] at hx
    cases hf : (w t).withParams with
    | none =>
      rw [hf] at hx
      simp only [appliedSchema_some] at hx
      obtain ⟨m, cx1, hm, he⟩ := hx
      cases he
      obtain ⟨h1, h2⟩ := h _ _ _ (hw t).schema _ _ _ hm hc
      exact ⟨h1, fine_applyParams hp h2⟩
    | some f => rw [hf] at hx; exact h _ _ _ ((hw t).withParams f hf p hp) _ _ _ hx hc
  mention t i p hp := by
    intro cx r cx' hx hc
    simp only [implOps, mentionVia_some] at hx
    obtain ⟨cx1, hs, hr⟩ := hx
    obtain ⟨h1, h1'⟩ := runSelect_fine (hw t) h i p hp _ _ _ hs hc
    rcases hr with ⟨-, rfl⟩ | ⟨l, m, cx2, rfl, h2, h3, rfl⟩
    · exact ⟨h1, h1'⟩
    · obtain ⟨h4, h5⟩ := h _ _ _ (hw t).schema _ _ _ h3 h1
      exact ⟨fine_insert h4 (h1'.2 l rfl) h5, h1'⟩
  select t i p hp := runSelect_fine (hw t) h i p hp

theorem runProg_fine {w : τ → Impl τ} (hw : ∀ t, (w t).Lawful) : ∀ (n : Nat) (α : Type) (ok : α → Prop) (p : Prog τ α), p.Lawful ok →
    FineYields ok (runProg w n α p)
  | 0, _, _, _, _ => fun _ _ _ h => by cases h
  | n + 1, _, _, p, hp => exec_fine (implOps_fine hw (runProg_fine hw n)) p hp

/-! ## Derived impls -/

theorem Prog.Lawful.bind {ok : α → Prop} {ok' : β → Prop} : ∀ {p : Prog τ α} {f : α → Prog τ β}, p.Lawful ok →
    (∀ a, ok a → (f a).Lawful ok') → (p.bind f).Lawful ok'
  | .ret a, _, hp, hf => hf a hp
  | .getSchema _ _, _, hp, hf => fun m hm => (hp m hm).bind hf
  | .withParams _ _ _, _, hp, hf => ⟨hp.1, fun m hm => (hp.2 m hm).bind hf⟩
  | .mention _ _ _ _, _, hp, hf => ⟨hp.1, fun m hm => (hp.2 m hm).bind hf⟩
  | .select _ _ _ _, _, hp, hf => ⟨hp.1, fun m hm => (hp.2 m hm).bind hf⟩
  | .contains _ _, _, hp, hf => fun b => (hp b).bind hf
  | .verify _, _, hp, hf => fun e => (hp e).bind hf
  | .addModel _ _ next, _, hp, hf => ⟨hp.1, Prog.Lawful.bind (p := next) hp.2 hf⟩
  | .security _ _ next, _, hp, hf => ⟨hp.1, Prog.Lawful.bind (p := next) hp.2 hf⟩

/-- Properties and required names that make a fine object once the names `names` are required as well. -/
structure PropsFine (required : List String) (x : List (String × Ref) × List String) : Prop where
  names : x.2 = required
  sound : ∀ p ∈ x.1, p.2.Sound
  sorted : BMap.Sorted x.1
  keys : ∀ n ∈ x.2, n ∈ BMap.keys x.1

mutual
theorem RefExpr.prog_lawful (env : Env) : ∀ (e : RefExpr Ty), e.Legal → (e.prog env).Lawful Ref.Fine
  | .mention t i p, _ => by rw [RefExpr.prog]; exact ⟨by simp [ParamsExpr.eval_variants], fun _ h => h⟩
  | .inline m, hl => by
    rw [RefExpr.prog]
    rw [RefExpr.Legal] at hl
    exact (ModelExpr.prog_lawful env m hl).bind fun _ h => Ref.fine_inline h
  | .any, _ => by rw [RefExpr.prog]; exact Ref.fine_iff.2 ⟨Ref.sound_any, nofun⟩
theorem ModelExpr.prog_lawful (env : Env) : ∀ (e : ModelExpr Ty), e.Legal → (e.prog env).Lawful Model.Fine
  | .getSchema t, _ => by rw [ModelExpr.prog]; exact fun _ h => h
  | .getSchemaWithParams t p, _ => by rw [ModelExpr.prog]; exact ⟨by simp [ParamsExpr.eval_variants], fun _ h => h⟩
  | .single d n td, hl => by
    rw [ModelExpr.prog]
    rw [ModelExpr.Legal] at hl
    exact (TypeExpr.prog_lawful env td hl).bind fun _ h => Model.fine_iff.2 (Model.sound_single.2 h)
  | .oneOf d rs, hl => by
    rw [ModelExpr.prog]
    rw [ModelExpr.Legal] at hl
    refine (RefExpr.progList_lawful env rs hl.2).bind fun rs' h => Model.fine_iff.2 (Model.sound_oneOf.2 ⟨?_, h.2⟩)
    intro e
    rw [e] at h
    exact hl.1 (List.length_eq_zero_iff.1 h.1.symm)
  | .tagged m .., hl => by
    rw [ModelExpr.prog]
    rw [ModelExpr.Legal] at hl
    exact (ModelExpr.prog_lawful env m hl).bind fun _ h => Model.fine_iff.2 (Model.sound_tagged _ _ _ _ (Model.fine_iff.1 h))
theorem TypeExpr.prog_lawful (env : Env) : ∀ (e : TypeExpr Ty), e.Legal → (e.prog env).Lawful TypeDesc.Sound
  | .string .., hl => by
    rw [TypeExpr.prog]
    rw [TypeExpr.Legal] at hl
    exact ⟨hl, by simp [TypeDesc.All, TypeDesc.links, TypeDesc.objects]⟩
  | .number .., _ | .integer .., _ | .boolean, _ => by
    rw [TypeExpr.prog]; exact ⟨trivial, by simp [TypeDesc.All, TypeDesc.links, TypeDesc.objects]⟩
  | .array r, hl => by
    rw [TypeExpr.prog]
    rw [TypeExpr.Legal] at hl
    exact (RefExpr.prog_lawful env r hl).bind fun _ h => TypeDesc.sound_array.2 (Ref.fine_iff.1 h).1
  | .object es, hl => by
    rw [TypeExpr.prog]
    rw [TypeExpr.Legal] at hl
    refine (PropExpr.progList_lawful env es [] [] hl.2 ⟨rfl, nofun, BMap.sorted_nil, nofun⟩).bind fun x h =>
      TypeDesc.sound_object.2 ⟨?_, h.sound, nofun, h.sorted, h.keys⟩
    rw [h.names]
    exact hl.1
  | .dictionary r, hl => by
    rw [TypeExpr.prog]
    rw [TypeExpr.Legal] at hl
    exact (RefExpr.prog_lawful env r hl).bind fun _ h =>
      TypeDesc.sound_object.2 ⟨.nil, nofun, fun _ e => by cases e; exact (Ref.fine_iff.1 h).1, BMap.sorted_nil, nofun⟩
theorem RefExpr.progList_lawful (env : Env) : ∀ (es : List (RefExpr Ty)), RefExpr.LegalList es →
    (RefExpr.progList env es).Lawful fun rs => rs.length = es.length ∧ ∀ r ∈ rs, r.Sound
  | [], _ => by rw [RefExpr.progList]; exact ⟨rfl, nofun⟩
  | r :: rs, hl => by
    rw [RefExpr.progList]
    rw [RefExpr.LegalList] at hl
    exact (RefExpr.prog_lawful env r hl.1).bind fun _ h => (RefExpr.progList_lawful env rs hl.2).bind fun _ h' =>
      ⟨by simp [h'.1], List.forall_mem_cons.2 ⟨(Ref.fine_iff.1 h).1, h'.2⟩⟩
theorem PropExpr.progList_lawful (env : Env) : ∀ (es : List (PropExpr Ty)) props req, PropExpr.LegalList es → PropsFine req (props, req) →
    (PropExpr.progList env es props req).Lawful (PropsFine (req ++ PropExpr.requiredNames es))
  | [], props, req, _, h => by
    rw [PropExpr.progList]
    show PropsFine _ (props, req)
    simpa [PropExpr.requiredNames] using h
  | .mk name r q :: rs, props, req, hl, h => by
    rw [PropExpr.progList]
    rw [PropExpr.LegalList] at hl
    refine (RefExpr.prog_lawful env r hl.1).bind fun r' h' => ?_
    have e : req ++ PropExpr.requiredNames (.mk name r q :: rs) = (if q then req ++ [name] else req) ++ PropExpr.requiredNames rs := by
      rw [PropExpr.requiredNames]
      cases q <;> simp
    rw [e]
    refine PropExpr.progList_lawful env rs _ _ hl.2 ⟨rfl, ?_, BMap.sorted_insert h.sorted, ?_⟩
    · intro p hp
      rcases BMap.mem_insert_sub hp with e | hp'
      · cases e; exact (Ref.fine_iff.1 h').1
      · exact h.sound p hp'
    · intro x hx
      rw [BMap.mem_keys_insert]
      cases q with
      | true =>
        rcases List.mem_append.1 hx with hx | hx
        · exact .inr (h.keys x hx)
        · exact .inl (List.mem_singleton.1 hx)
      | false => exact .inr (h.keys x hx)
end

theorem impls_lawful (env : Env) (custom : Nat → Option (Impl Ty)) (t : Ty)
    (byHand : ∀ i im, t = .named i → custom i = some im → im.Lawful)
    (derived : (∀ i, t = .named i → custom i = none) → LegalType env t)
    (names : ∀ n, mixedName env custom t = some n → LegalName n) :
    (impls env custom t).Lawful := by
  by_cases ht : ∀ i, t = .named i → custom i = none
  · rw [impls_eq env custom t ht]
    refine ⟨?_, nofun, ?_, names⟩
    · show (schemaProg env t).Lawful _
      rw [schemaProg]
      cases he : schemaExpr env t with
      | none => exact fun _ h => h
      | some e => exact ModelExpr.prog_lawful env e ((schemaExpr_legal he).1 (derived ht))
    · intro f hf
      simp only at hf
      split at hf <;> cases hf
  · obtain ⟨i, ht⟩ := Classical.not_forall.1 ht
    obtain ⟨rfl, hc⟩ := Classical.not_imp.1 ht
    obtain ⟨im, hi⟩ := Option.ne_none_iff_exists'.1 hc
    rw [impls, hi]
    exact byHand i im rfl hi

/-! ## Descriptions -/

section
variable {κ : Type} [Mentioner κ] {c : κ}

theorem Ran.fine (hk : ∀ t, FineYields Ref.Fine (Mentioner.ask c t)) {parts rs cx cx'} (h : Ran c parts rs cx cx')
    (hp : ∀ n s, Part.scheme n s ∈ parts → LegalName n ∧ s.NotInPath) (hs : cx.Fine) : cx'.Fine ∧ ∀ r ∈ rs, r.Fine := by
  induction h with
  | nil => exact ⟨hs, nofun⟩
  | mention h1 _ ih =>
    obtain ⟨h2, h3⟩ := hk _ _ _ _ h1 hs
    obtain ⟨h4, h5⟩ := ih (fun n s hm => hp n s (.tail _ hm)) h2
    exact ⟨h4, List.forall_mem_cons.2 ⟨h3, h5⟩⟩
  | scheme _ ih => exact ih (fun n s hm => hp n s (.tail _ hm)) (fine_security hs (hp _ _ (.head _)))
  | literal _ ih => exact ih (fun n s hm => hp n s (.tail _ hm)) hs
  | raw _ ih => exact ih (fun n s hm => hp n s (.tail _ hm)) hs

theorem runSchemes_fine {ds : List SchemeDecl} {cx u cx'} (h : runSchemes ds cx = some (u, cx')) (names : ∀ s ∈ ds, LegalName s.name)
    (keys : ∀ name ps, SchemeDecl.apiKey name ps ∈ ds → lastOf ApiKeyProp.parameterIn? ps ≠ some .path) (hs : cx.Fine) : cx'.Fine := by
  obtain ⟨a1, a2, a3⟩ := runSchemes_last ds h
  have sorted := a2 hs.security
  refine ⟨by rw [a1]; exact hs.schemas, sorted, by rw [a1]; exact hs.models, ?_⟩
  rintro ⟨n, s⟩ hb
  have hg := BMap.get_of_mem sorted hb
  have := a3 n
  unfold Last at this
  split at this
  · rename_i sd hsd
    obtain ⟨a, ha, he⟩ := lastOf_mem hsd
    unfold SchemeDecl.named? at he
    split at he
    · rename_i en
      cases he
      obtain ⟨v, hv, hso⟩ := this
      rw [hg] at hv
      cases hv
      refine ⟨en ▸ names sd ha, ?_⟩
      cases sd with
      | ident n v => exact absurd hso id
      | http n ps => rcases hso with ⟨-, hso⟩ | ⟨-, hso⟩ <;> rw [hso] <;> exact trivial
      | apiKey n ps => exact hso.notInPath (keys n ps ha)
    · cases he
  · rw [hg] at this
    exact hs.schemes _ (BMap.mem_of_get this.symm)

theorem runSections_fine (hk : ∀ t, FineYields Ref.Fine (Mentioner.ask c t)) (ss : Api) {d cx d' cx'}
    (h : runSections c ss d cx = some (d', cx')) (names : ∀ s ∈ ss.flatMap Section.schemeList, LegalName s.name)
    (keys : ∀ name ps, SchemeDecl.apiKey name ps ∈ ss.flatMap Section.schemeList → lastOf ApiKeyProp.parameterIn? ps ≠ some .path)
    (parts : ∀ n s, Part.scheme n s ∈ pathParts (ss.flatMap Section.pathList) → LegalName n ∧ s.NotInPath)
    (raws : ∀ r, Part.raw r ∈ pathParts (ss.flatMap Section.pathList) → r.Legal) (hc : cx.Fine) :
    cx'.Fine ∧ ∃ items, d'.paths = d.paths ++ items ∧ forallPaths (docAll Ref.Legal fun _ => True) items := by
  induction ss generalizing d cx with
  | nil =>
    simp only [runSections, act_pure] at h
    obtain ⟨rfl, rfl⟩ := h
    exact ⟨hc, [], by simp, by simp [forallPaths]⟩
  | cons s ss ih =>
    simp only [runSections, act_bind] at h
    obtain ⟨d1, cx1, h1, h⟩ := h
    simp only [List.flatMap_cons, List.mem_append] at names keys
    rw [List.flatMap_cons, pathParts_append] at parts raws
    have ih := ih h (fun x hx => names x (.inr hx)) (fun n ps hx => keys n ps (.inr hx))
      (fun n x hx => parts n x (List.mem_append_right _ hx)) (fun r hx => raws r (List.mem_append_right _ hx))
    cases s with
    | info ps =>
      rw [Section.run] at h1
      cases hi : runInfo ps none none none with
      | none => rw [hi] at h1; exact absurd h1 (by simp)
      | some i =>
        rw [hi] at h1
        simp only [act_pure] at h1
        obtain ⟨rfl, rfl⟩ := h1
        exact ih hc
    | tags ts =>
      simp only [Section.run, act_pure] at h1
      obtain ⟨rfl, rfl⟩ := h1
      exact ih hc
    | servers ts =>
      simp only [Section.run, act_pure] at h1
      obtain ⟨rfl, rfl⟩ := h1
      exact ih hc
    | securitySchemes ts =>
      simp only [Section.run, act_bind, act_pure] at h1
      obtain ⟨u, cx2, h2, rfl, rfl⟩ := h1
      exact ih (runSchemes_fine h2 (fun x hx => names x (.inl hx)) (fun n ps hx => keys n ps (.inl hx)) hc)
    | paths ps =>
      simp only [Section.run, act_bind, act_pure] at h1
      obtain ⟨items', cx2, h2, rfl, rfl⟩ := h1
      obtain ⟨rs', hr, hp'⟩ := runPaths_makes ps h2
      obtain ⟨h3, h4⟩ := hr.fine hk (fun n x hx => parts n x (List.mem_append_left _ hx)) hc
      obtain ⟨h5, items, e, h6⟩ := ih h3
      have e' : d'.paths = d.paths ++ items' ++ items := e
      refine ⟨h5, items' ++ items, by rw [e', List.append_assoc], forallPaths_append (hp' Ref.Legal (fun _ => True) ?_) h6⟩
      exact ⟨fun r hr => (h4 r hr).1.1, fun r hx => raws r (List.mem_append_left _ hx), fun _ _ _ => trivial, fun _ _ => trivial⟩
end

/-- Documents of programs whose impls make legal schemas. -/
theorem DescribesVia.fine {w : Ty → Impl Ty} (hw : ∀ t, (w t).Lawful) {reason : Nat → Option String} {api : Api} {d : Opg}
    (h : DescribesVia w reason api d) (schemes : LegalSchemes api) (raws : ∀ r, Part.raw r ∈ api.parts → r.Legal) :
    d.components.Fine ∧ forallPaths (docAll Ref.Legal fun _ => True) d.paths := by
  obtain ⟨fuel, h⟩ := h
  unfold describeApi at h
  split at h
  · cases h
  · rename_i d1 cx hr
    cases h
    obtain ⟨h1, items, e, h2⟩ := runSections_fine (fun t => by
        have := runProg_fine hw fuel _ Ref.Fine (.mention t false {} .ret) ⟨by simp, fun _ h => h⟩
        exact this) api hr schemes.names schemes.apiKeys schemes.mentioned raws ⟨BMap.sorted_nil, BMap.sorted_nil, nofun, nofun⟩
    have e' : d1.paths = items := e
    refine ⟨h1, ?_⟩
    show forallPaths _ d1.paths
    rw [e']
    exact h2

end Verif
