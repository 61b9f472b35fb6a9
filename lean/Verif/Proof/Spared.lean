import Verif.Spec.Spared
import Verif.Proof.Composed
/-!
# Impls and security schemes
-/

namespace Verif

variable {τ α β : Type} {S : String → Prop}

/-- The schemes with names in `S` stay as they are. -/
def Spared (S : String → Prop) (x : M α) : Prop :=
  ∀ cx a cx', x cx = some (a, cx') → ∀ n, S n → BMap.get n cx'.securitySchemes = BMap.get n cx.securitySchemes

structure Ops.Spared (S : String → Prop) (o : Ops τ) : Prop where
  getSchema : ∀ t, Verif.Spared S (o.getSchema t)
  withParams : ∀ t p, Verif.Spared S (o.withParams t p)
  mention : ∀ t i p, Verif.Spared S (o.mention t i p)
  select : ∀ t i p, Verif.Spared S (o.select t i p)

theorem exec_spared {o : Ops τ} (h : o.Spared S) : ∀ (p : Prog τ α), p.Spares S → Spared S (p.exec o)
  | .ret _, _, _, _, _, hx, _, _ => by cases hx; rfl
  | .getSchema t k, hp, cx, a, cx', hx, n, hn => by
    rw [Prog.exec] at hx
    cases he : o.getSchema t cx with
    | none => rw [he] at hx; cases hx
    | some x => rw [he] at hx; exact (exec_spared h (k x.1) (hp _) _ _ _ hx n hn).trans (h.getSchema t cx _ _ he n hn)
  | .withParams t p k, hp, cx, a, cx', hx, n, hn => by
    rw [Prog.exec] at hx
    cases he : o.withParams t p cx with
    | none => rw [he] at hx; cases hx
    | some x => rw [he] at hx; exact (exec_spared h (k x.1) (hp _) _ _ _ hx n hn).trans (h.withParams t p cx _ _ he n hn)
  | .mention t i p k, hp, cx, a, cx', hx, n, hn => by
    rw [Prog.exec] at hx
    cases he : o.mention t i p cx with
    | none => rw [he] at hx; cases hx
    | some x => rw [he] at hx; exact (exec_spared h (k x.1) (hp _) _ _ _ hx n hn).trans (h.mention t i p cx _ _ he n hn)
  | .select t i p k, hp, cx, a, cx', hx, n, hn => by
    rw [Prog.exec] at hx
    cases he : o.select t i p cx with
    | none => rw [he] at hx; cases hx
    | some x => rw [he] at hx; exact (exec_spared h (k x.1) (hp _) _ _ _ hx n hn).trans (h.select t i p cx _ _ he n hn)
  | .contains _ k, hp, cx, a, cx', hx, n, hn => exec_spared h (k _) (hp _) _ _ _ hx n hn
  | .verify k, hp, cx, a, cx', hx, n, hn => exec_spared h (k _) (hp _) _ _ _ hx n hn
  | .addModel l m next, hp, cx, a, cx', hx, n, hn => by
    refine (exec_spared h next hp _ _ _ hx n hn).trans ?_
    unfold Components.addModel
    split <;> rfl
  | .security l s next, hp, cx, a, cx', hx, n, hn => by
    refine (exec_spared h next hp.2 _ _ _ hx n hn).trans ?_
    rw [mentionSecurityScheme_get, if_neg (by rintro rfl; exact hp.1 hn), Option.or_none]

theorem runSelect_spared {im : Impl τ} (hw : im.Spares S) {run : (α : Type) → Prog τ α → M α}
    (h : ∀ (α : Type) (p : Prog τ α), p.Spares S → Spared S (run α p)) (i p) : Spared S (im.runSelect run i p) := by
  intro cx r cx1 hs n hn
  rw [runSelect_some] at hs
  rcases hs with ⟨hc, m, hm, rfl⟩ | ⟨_, _, _, _, _, rfl⟩ | ⟨f, hf, hm⟩
  · exact h _ _ hw.schema _ _ _ hm n hn
  · rfl
  · exact h _ _ (hw.select f hf i p) _ _ _ hm n hn

theorem implOps_spared {w : τ → Impl τ} (hw : ∀ t, (w t).Spares S) {run : (α : Type) → Prog τ α → M α}
    (h : ∀ (α : Type) (p : Prog τ α), p.Spares S → Spared S (run α p)) : (implOps w run).Spared S where
  getSchema t := h _ _ (hw t).schema
  withParams t p := by
    intro cx a cx' hx n hn
    simp only [implOps, Impl.runWithParams] at hx
    cases hf : (w t).withParams with
    | none =>
      rw [hf] at hx
      simp only [appliedSchema_some] at hx
      obtain ⟨m, cx1, hm, he⟩ := hx
      cases he
      exact h _ _ (hw t).schema _ _ _ hm n hn
    | some f => rw [hf] at hx; exact h _ _ ((hw t).withParams f hf p) _ _ _ hx n hn
  mention t i p := by
    intro cx r cx' hx n hn
    simp only [implOps, mentionVia_some] at hx
    obtain ⟨cx1, hs, hr⟩ := hx
    have h1 := runSelect_spared (hw t) h i p _ _ _ hs n hn
    rcases hr with ⟨-, rfl⟩ | ⟨l, m, cx2, rfl, h2, h3, rfl⟩
    · exact h1
    · exact (h _ _ (hw t).schema _ _ _ h3 n hn).trans h1
  select t i p := runSelect_spared (hw t) h i p

theorem runProg_spared {w : τ → Impl τ} (hw : ∀ t, (w t).Spares S) : ∀ (n : Nat) (α : Type) (p : Prog τ α), p.Spares S →
    Spared S (runProg w n α p)
  | 0, _, _, _ => fun _ _ _ h => by cases h
  | n + 1, _, p, hp => exec_spared (implOps_spared hw (runProg_spared hw n)) p hp

/-! ## Derived impls -/

theorem Prog.Spares.bind : ∀ {p : Prog τ α} {f : α → Prog τ β}, p.Spares S → (∀ a, (f a).Spares S) → (p.bind f).Spares S
  | .ret a, _, _, hf => hf a
  | .getSchema _ _, _, hp, hf => fun m => (hp m).bind hf
  | .withParams _ _ _, _, hp, hf => fun m => (hp m).bind hf
  | .mention _ _ _ _, _, hp, hf => fun m => (hp m).bind hf
  | .select _ _ _ _, _, hp, hf => fun m => (hp m).bind hf
  | .contains _ _, _, hp, hf => fun b => (hp b).bind hf
  | .verify _, _, hp, hf => fun e => (hp e).bind hf
  | .addModel _ _ next, _, hp, hf => Prog.Spares.bind (p := next) hp hf
  | .security _ _ next, _, hp, hf => ⟨hp.1, Prog.Spares.bind (p := next) hp.2 hf⟩

mutual
theorem RefExpr.prog_spares (env : Env) : ∀ (e : RefExpr Ty), (e.prog env).Spares S
  | .mention t i p => by rw [RefExpr.prog]; exact fun _ => trivial
  | .inline m => by rw [RefExpr.prog]; exact (ModelExpr.prog_spares env m).bind fun _ => trivial
  | .any => by rw [RefExpr.prog]; exact trivial
theorem ModelExpr.prog_spares (env : Env) : ∀ (e : ModelExpr Ty), (e.prog env).Spares S
  | .getSchema t => by rw [ModelExpr.prog]; exact fun _ => trivial
  | .getSchemaWithParams t p => by rw [ModelExpr.prog]; exact fun _ => trivial
  | .single d n td => by rw [ModelExpr.prog]; exact (TypeExpr.prog_spares env td).bind fun _ => trivial
  | .oneOf d rs => by rw [ModelExpr.prog]; exact (RefExpr.progList_spares env rs).bind fun _ => trivial
  | .tagged m .. => by rw [ModelExpr.prog]; exact (ModelExpr.prog_spares env m).bind fun _ => trivial
theorem TypeExpr.prog_spares (env : Env) : ∀ (e : TypeExpr Ty), (e.prog env).Spares S
  | .string .. | .number .. | .integer .. | .boolean => by rw [TypeExpr.prog]; exact trivial
  | .array r => by rw [TypeExpr.prog]; exact (RefExpr.prog_spares env r).bind fun _ => trivial
  | .object es => by rw [TypeExpr.prog]; exact (PropExpr.progList_spares env es [] []).bind fun _ => trivial
  | .dictionary r => by rw [TypeExpr.prog]; exact (RefExpr.prog_spares env r).bind fun _ => trivial
theorem RefExpr.progList_spares (env : Env) : ∀ (es : List (RefExpr Ty)), (RefExpr.progList env es).Spares S
  | [] => by rw [RefExpr.progList]; exact trivial
  | r :: rs => by
    rw [RefExpr.progList]
    exact (RefExpr.prog_spares env r).bind fun _ => (RefExpr.progList_spares env rs).bind fun _ => trivial
theorem PropExpr.progList_spares (env : Env) : ∀ (es : List (PropExpr Ty)) props req, (PropExpr.progList env es props req).Spares S
  | [], _, _ => by rw [PropExpr.progList]; exact trivial
  | .mk name r required :: rs, props, req => by
    rw [PropExpr.progList]
    exact (RefExpr.prog_spares env r).bind fun _ => PropExpr.progList_spares env rs _ _
end

theorem impls_spare (env : Env) (custom : Nat → Option (Impl Ty)) (h : ∀ i im, custom i = some im → im.Spares S) (t : Ty) :
    (impls env custom t).Spares S := by
  by_cases ht : ∀ i, t = .named i → custom i = none
  · rw [impls_eq env custom t ht]
    refine ⟨?_, nofun, ?_⟩
    · show (schemaProg env t).Spares S
      rw [schemaProg]
      cases schemaExpr env t with
      | none => exact fun _ => trivial
      | some e => exact ModelExpr.prog_spares env e
    · intro f hf
      simp only at hf
      split at hf <;> cases hf
  · obtain ⟨i, ht⟩ := Classical.not_forall.1 ht
    obtain ⟨rfl, hc⟩ := Classical.not_imp.1 ht
    obtain ⟨im, hi⟩ := Option.ne_none_iff_exists'.1 hc
    rw [impls, hi]
    exact h i im hi

/-! ## Descriptions -/

section
variable {κ : Type} [Mentioner κ] {c : κ} {name : String}

theorem Ran.schemesAt (hk : ∀ t cx r cx', Mentioner.ask c t cx = some (r, cx') → BMap.get name cx'.securitySchemes = BMap.get name cx.securitySchemes)
    {parts rs cx cx'} (h : Ran c parts rs cx cx') :
    BMap.get name cx'.securitySchemes = (BMap.get name cx.securitySchemes).or (parts.findSome? (Part.scheme? name)) := by
  induction h with
  | nil => simp
  | mention h1 _ ih =>
    rw [List.findSome?_cons, ih, hk _ _ _ _ h1]
    rfl
  | scheme _ ih =>
    rename_i n s _ _ _ _ _
    rw [List.findSome?_cons, ih, mentionSecurityScheme_get, Option.or_assoc]
    simp only [Part.scheme?]
    by_cases e : n = name <;> simp [e]
  | literal _ ih => rw [List.findSome?_cons, ih]; rfl
  | raw _ ih => rw [List.findSome?_cons, ih]; rfl

theorem runSections_schemes (hk : ∀ t cx r cx', Mentioner.ask c t cx = some (r, cx') → BMap.get name cx'.securitySchemes = BMap.get name cx.securitySchemes)
    (ss : Api) {d cx d' cx'} (h : runSections c ss d cx = some (d', cx')) :
    SchemeAfter name (ss.flatMap Section.schemeList) (pathParts (ss.flatMap Section.pathList)) (BMap.get name cx.securitySchemes)
      (BMap.get name cx'.securitySchemes) := by
  induction ss generalizing d cx with
  | nil =>
    simp only [runSections, act_pure] at h
    obtain ⟨rfl, rfl⟩ := h
    show _ = Option.or _ (List.findSome? _ (pathParts []))
    rw [pathParts]; simp
  | cons s ss ih =>
    simp only [runSections, act_bind] at h
    obtain ⟨d1, cx1, h1, h⟩ := h
    rw [List.flatMap_cons, List.flatMap_cons, pathParts_append]
    refine SchemeAfter.trans ?_ (ih h)
    cases s with
    | info ps =>
      rw [Section.run] at h1
      cases hi : runInfo ps none none none with
      | none => rw [hi] at h1; exact absurd h1 (by simp)
      | some i =>
        rw [hi] at h1
        obtain ⟨-, rfl⟩ := act_pure.1 h1
        show _ = Option.or _ (List.findSome? _ (pathParts []))
        rw [pathParts]; simp
    | tags ts =>
      obtain ⟨-, rfl⟩ := act_pure.1 h1
      show _ = Option.or _ (List.findSome? _ (pathParts []))
      rw [pathParts]; simp
    | servers ts =>
      obtain ⟨-, rfl⟩ := act_pure.1 h1
      show _ = Option.or _ (List.findSome? _ (pathParts []))
      rw [pathParts]; simp
    | securitySchemes ts =>
      obtain ⟨u, cx2, h2, h3⟩ := act_bind.1 h1
      obtain ⟨-, rfl⟩ := act_pure.1 h3
      have := (runSchemes_last ts h2).2.2 name
      unfold SchemeAfter
      unfold Last at this
      simp only [Section.schemeList, Section.pathList]
      split at this
      · rename_i x hx
        rw [hx]; exact this
      · rename_i hx
        rw [hx, pathParts]; simpa using this
    | paths ps =>
      obtain ⟨its, cx2, h2, h3⟩ := act_bind.1 h1
      obtain ⟨-, rfl⟩ := act_pure.1 h3
      obtain ⟨rs', hr, -⟩ := runPaths_makes ps h2
      have := hr.schemesAt hk
      unfold SchemeAfter
      simpa [Section.pathList, Section.schemeList] using this
end

/-- What becomes of the scheme of a name that may be declared. -/
def DeclaredAfter (name : String) (decls : List SchemeDecl) (old new : Option SecurityScheme) : Prop :=
  match lastOf (SchemeDecl.named? name) decls with
  | some decl => ∃ s, new = some s ∧ SchemeOf decl s
  | none => ∀ s, old = some s → new = some s

theorem DeclaredAfter.trans {name ds es a b d} (h : DeclaredAfter name ds a b) (h' : DeclaredAfter name es b d) :
    DeclaredAfter name (ds ++ es) a d := by
  unfold DeclaredAfter at *
  rw [lastOf_append]
  cases he : lastOf (SchemeDecl.named? name) es with
  | some x => rw [he] at h'; exact h'
  | none =>
    rw [he] at h'
    cases hd : lastOf (SchemeDecl.named? name) ds with
    | some x =>
      rw [hd] at h
      obtain ⟨s, e, hs⟩ := h
      exact ⟨s, h' s e, hs⟩
    | none => rw [hd] at h; exact fun s e => h' s (h s e)

section
variable {κ : Type} [Mentioner κ] {c : κ} {name : String}

theorem Ran.keptSchemes (hk : ∀ t, MHolds Components.Kept (Mentioner.ask c t)) {parts rs cx cx'} (h : Ran c parts rs cx cx') {s : SecurityScheme}
    (hs : BMap.get name cx.securitySchemes = some s) : BMap.get name cx'.securitySchemes = some s := by
  induction h with
  | nil => exact hs
  | mention h1 _ ih => exact ih ((hk _ _ _ _ h1).securitySchemes _ _ hs)
  | scheme _ ih => exact ih (by rw [mentionSecurityScheme_get, hs]; rfl)
  | literal _ ih => exact ih hs
  | raw _ ih => exact ih hs

theorem runSections_declared (hk : ∀ t, MHolds Components.Kept (Mentioner.ask c t)) (ss : Api) {d cx d' cx'}
    (h : runSections c ss d cx = some (d', cx')) :
    DeclaredAfter name (ss.flatMap Section.schemeList) (BMap.get name cx.securitySchemes) (BMap.get name cx'.securitySchemes) := by
  induction ss generalizing d cx with
  | nil =>
    simp only [runSections, act_pure] at h
    obtain ⟨rfl, rfl⟩ := h
    exact fun _ h => h
  | cons s ss ih =>
    simp only [runSections, act_bind] at h
    obtain ⟨d1, cx1, h1, h⟩ := h
    rw [List.flatMap_cons]
    refine DeclaredAfter.trans ?_ (ih h)
    cases s with
    | info ps =>
      rw [Section.run] at h1
      cases hi : runInfo ps none none none with
      | none => rw [hi] at h1; exact absurd h1 (by simp)
      | some i =>
        rw [hi] at h1
        obtain ⟨-, rfl⟩ := act_pure.1 h1
        exact fun _ h => h
    | tags ts =>
      obtain ⟨-, rfl⟩ := act_pure.1 h1
      exact fun _ h => h
    | servers ts =>
      obtain ⟨-, rfl⟩ := act_pure.1 h1
      exact fun _ h => h
    | securitySchemes ts =>
      obtain ⟨u, cx2, h2, h3⟩ := act_bind.1 h1
      obtain ⟨-, rfl⟩ := act_pure.1 h3
      have := (runSchemes_last ts h2).2.2 name
      unfold DeclaredAfter
      unfold Last at this
      simp only [Section.schemeList]
      split at this
      · rename_i x hx
        rw [hx]; exact this
      · rename_i hx
        rw [hx, this]; exact fun _ h => h
    | paths ps =>
      obtain ⟨its, cx2, h2, h3⟩ := act_bind.1 h1
      obtain ⟨-, rfl⟩ := act_pure.1 h3
      obtain ⟨rs', hr, -⟩ := runPaths_makes ps h2
      exact fun s hs => hr.keptSchemes hk hs
end

/-- The schemes that a document requires are those that count. -/
theorem DescribesVia.schemes {w : Ty → Impl Ty} {reason : Nat → Option String} {api : Api} {d : Opg}
    (h : DescribesVia w reason api d) (hw : ∀ t, (w t).Spares api.Undeclared) {name : String} (hn : api.Requires name) :
    SchemeAfter name (api.flatMap Section.schemeList) api.parts none (BMap.get name d.components.securitySchemes) := by
  obtain ⟨fuel, h⟩ := h
  unfold describeApi at h
  split at h
  · cases h
  · rename_i d1 cx hr
    cases h
    cases hl : lastOf (SchemeDecl.named? name) (api.flatMap Section.schemeList) with
    | some decl =>
      have := runSections_declared (name := name) (ask_kept fuel) api hr
      unfold DeclaredAfter at this
      unfold SchemeAfter
      rw [hl] at this ⊢
      exact this
    | none =>
      have undeclared : api.Undeclared name := ⟨hn, fun decl hd e => by
        have := lastOf_none.1 hl decl hd
        simp [SchemeDecl.named?, e] at this⟩
      refine runSections_schemes (name := name) (fun t cx r cx' hx => ?_) api hr
      exact runProg_spared hw fuel _ (.mention t false {} .ret) (fun _ => trivial) _ _ _ hx name undeclared

end Verif
