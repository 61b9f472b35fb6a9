import Verif.Proof.ApiLocal
/-!
# Whole descriptions
-/

namespace Verif

variable {env : Env}

/-! ## Schema generation does not depend on the security schemes -/

/-- The same registry of schemas with other security schemes. -/
def Components.withSecurity (cx : Components) (sec : List (String × SecurityScheme)) : Components :=
  { cx with securitySchemes := sec }

section
variable {rec : Ty → M Model} {sec : List (String × SecurityScheme)}

theorem mentionWith_frame (hrec : ∀ {t cx m cx'}, rec t cx = some (m, cx') →
      rec t (cx.withSecurity sec) = some (m, cx'.withSecurity sec)) {t i p cx r cx'}
    (h : mentionWith env rec t i p cx = some (r, cx')) :
    mentionWith env rec t i p (cx.withSecurity sec) = some (r, cx'.withSecurity sec) := by
  rw [mentionWith_eq]
  rcases mentionWith_some h with ⟨l, hl, hr, ⟨hc, he⟩ | ⟨hc, m, cx2, h2, he⟩⟩ | ⟨hl, m, h2, hr⟩
  · subst he
    have hc' : BMap.containsKey l (cx'.withSecurity sec).schemas = true := hc
    simp [hl, hc', hr]
  · have hc' : BMap.containsKey l (cx.withSecurity sec).schemas = false := hc
    have hr2 := hrec h2
    simp only [hl, hc', hr, he, hr2]
    rfl
  · have hr2 := hrec h2
    simp only [hl, hr2, hr]

theorem runReqs_frame (hrec : ∀ {t cx m cx'}, rec t cx = some (m, cx') →
      rec t (cx.withSecurity sec) = some (m, cx'.withSecurity sec)) {qs cx as cx'}
    (h : runReqs env rec qs cx = some (as, cx')) :
    runReqs env rec qs (cx.withSecurity sec) = some (as, cx'.withSecurity sec) := by
  induction qs generalizing cx as with
  | nil =>
    simp only [runReqs, Option.some.injEq, Prod.mk.injEq] at h ⊢
    exact ⟨h.1, by rw [h.2]⟩
  | cons q qs ih =>
    obtain ⟨a, as', cx1, h1, h2, e⟩ := runReqs_cons_some h
    have h3 : q.run env rec (cx.withSecurity sec) = some (a, cx1.withSecurity sec) := by
      rcases Req.run_some h1 with ⟨t, i, p, r, eq, h3, ea⟩ | ⟨t, m, eq, h3, ea⟩
      · subst eq ea; simp [Req.run, mentionWith_frame hrec h3]
      · subst eq ea; simp [Req.run, hrec h3]
    simp [runReqs, h3, ih h2, e]

end

theorem getSchema_frame {sec : List (String × SecurityScheme)} (n : Nat) : ∀ {t cx m cx'},
    getSchema env n t cx = some (m, cx') →
    getSchema env n t (cx.withSecurity sec) = some (m, cx'.withSecurity sec) := by
  induction n with
  | zero => intro t cx m cx' h; simp [getSchema] at h
  | succ n ih =>
    intro t cx m cx' h
    obtain ⟨n', e, as, hn, he, hr, hm⟩ := getSchema_some h
    cases hn
    rw [getSchema_eq, he]
    simp only [runReqs_frame ih hr, hm]

theorem MentionReturns.frame {t i p cx r cx'} (h : MentionReturns env t i p cx r cx') {sx : Components}
    (hs : sx.schemas = cx.schemas) : ∃ sx', MentionReturns env t i p sx r sx' ∧ sx'.schemas = cx'.schemas := by
  obtain ⟨n, h⟩ := h
  refine ⟨cx'.withSecurity sx.securitySchemes, ⟨n, ?_⟩, rfl⟩
  have : sx = cx.withSecurity sx.securitySchemes := by
    cases sx; cases cx; cases hs; rfl
  rw [this]
  exact mentionWith_frame (fun h => getSchema_frame n h) h

theorem mentionSecurityScheme_schemas (cx : Components) (name : String) (s : SecurityScheme) :
    (cx.mentionSecurityScheme name s).2.schemas = cx.schemas := by
  unfold Components.mentionSecurityScheme
  split <;> rfl

theorem CallsReturn.frame {cx calls rs cx'} (h : CallsReturn env cx calls rs cx') {sx : Components}
    (hs : sx.schemas = cx.schemas) : ∃ sx', CallsReturn env sx calls rs sx' ∧ sx'.schemas = cx'.schemas := by
  induction h generalizing sx with
  | nil => exact ⟨sx, .nil sx, hs⟩
  | mention h _ ih =>
    obtain ⟨sx1, h1, e1⟩ := h.frame hs
    obtain ⟨sx2, h2, e2⟩ := ih e1
    exact ⟨sx2, .mention h1 h2, e2⟩
  | @addModel cx name m calls rs cx2 _ ih =>
    obtain ⟨sx2, h2, e2⟩ := ih (sx := sx.addModel name m) (by
      unfold Components.addModel
      rw [hs]
      split <;> first | exact hs | rfl)
    exact ⟨sx2, .addModel h2, e2⟩
  | @security cx name s calls rs cx2 _ ih =>
    obtain ⟨sx2, h2, e2⟩ := ih (sx := (sx.mentionSecurityScheme name s).2)
      (by rw [mentionSecurityScheme_schemas, mentionSecurityScheme_schemas, hs])
    exact ⟨sx2, .security h2, e2⟩

/-! ## Security schemes -/

theorem mentionSecurityScheme_get (cx : Components) (n : String) (s : SecurityScheme) (name : String) :
    BMap.get name (cx.mentionSecurityScheme n s).2.securitySchemes =
      (BMap.get name cx.securitySchemes).or (if n = name then some s else none) := by
  unfold Components.mentionSecurityScheme
  split
  · rename_i hc
    by_cases e : n = name
    · subst e
      unfold BMap.containsKey at hc
      cases hg : BMap.get n cx.securitySchemes with
      | none => simp [hg] at hc
      | some x => simp
    · simp [e]
  · rename_i hc
    by_cases e : n = name
    · subst e
      unfold BMap.containsKey at hc
      cases hg : BMap.get n cx.securitySchemes with
      | none => simp [BMap.get_insert_self]
      | some x => simp [hg] at hc
    · simp [e, BMap.get_insert_ne (fun e' => e e'.symm)]

theorem Ran.schemes {c : Ctx} {parts rs cx cx'} (h : Ran c parts rs cx cx') (name : String) :
    BMap.get name cx'.securitySchemes = (BMap.get name cx.securitySchemes).or (parts.findSome? (Part.scheme? name)) := by
  induction h with
  | nil => simp
  | mention h1 _ ih =>
    rw [List.findSome?_cons, ih, mentionSchema_security h1]
    rfl
  | scheme _ ih =>
    rename_i n s _ _ _ _ _
    rw [List.findSome?_cons, ih, mentionSecurityScheme_get, Option.or_assoc]
    simp only [Part.scheme?]
    by_cases e : n = name <;> simp [e]
  | literal _ ih => rw [List.findSome?_cons, ih]; rfl
  | raw _ ih => rw [List.findSome?_cons, ih]; rfl

theorem Ran.security_sorted {c : Ctx} {parts rs cx cx'} (h : Ran c parts rs cx cx') (hs : BMap.Sorted cx.securitySchemes) :
    BMap.Sorted cx'.securitySchemes := by
  induction h with
  | nil => exact hs
  | mention h1 _ ih => exact ih (by rw [mentionSchema_security h1]; exact hs)
  | scheme _ ih =>
    refine ih ?_
    unfold Components.mentionSecurityScheme
    split
    · exact hs
    · exact BMap.sorted_insert hs
  | literal _ ih => exact ih hs
  | raw _ ih => exact ih hs

theorem runHttpScheme_scheme (ps : List HttpSchemeProp) {k f d s} (h : runHttpScheme ps k f d = some s) :
    ((lastOf HttpSchemeProp.bearer? ps).or k = some false ∧
      s = .http (.basic ((lastOf HttpSchemeProp.description? ps).or d))) ∨
    ((lastOf HttpSchemeProp.bearer? ps).or k = some true ∧
      s = .http (.bearer ((lastOf HttpSchemeProp.bearerFormat? ps).or f) ((lastOf HttpSchemeProp.description? ps).or d))) := by
  induction ps generalizing k f d with
  | nil =>
    cases k with
    | none => simp [runHttpScheme] at h
    | some b => cases b <;> simp_all [runHttpScheme]
  | cons p ps ih =>
    simp only [lastOf_cons, Option.or_assoc]
    cases p <;> rw [runHttpScheme] at h <;> exact ih h

theorem runApiKey_scheme (ps : List ApiKeyProp) {i n d s} (h : runApiKey ps i n d = some s) :
    ∃ name, (lastOf ApiKeyProp.name? ps).or n = some name ∧
      s = .apiKey ⟨(lastOf ApiKeyProp.parameterIn? ps).getD i, name, (lastOf ApiKeyProp.description? ps).or d⟩ := by
  induction ps generalizing i n d with
  | nil =>
    cases n with
    | none => simp [runApiKey] at h
    | some n => simp [runApiKey] at h; exact ⟨n, rfl, by simp [h]⟩
  | cons p ps ih =>
    simp only [lastOf_cons, Option.or_assoc]
    cases p with
    | parameterIn x =>
      rw [runApiKey] at h
      obtain ⟨name, h1, h2⟩ := ih h
      refine ⟨name, h1, ?_⟩
      rw [h2]
      simp only [ApiKeyProp.parameterIn?, ApiKeyProp.description?]
      cases lastOf ApiKeyProp.parameterIn? ps <;> rfl
    | name x =>
      rw [runApiKey] at h
      obtain ⟨name, h1, h2⟩ := ih h
      refine ⟨name, h1, ?_⟩
      rw [h2]
      simp [ApiKeyProp.parameterIn?, ApiKeyProp.description?]
    | description x =>
      rw [runApiKey] at h
      obtain ⟨name, h1, h2⟩ := ih h
      refine ⟨name, h1, ?_⟩
      rw [h2]
      simp [ApiKeyProp.parameterIn?, ApiKeyProp.description?]

theorem SchemeDecl.scheme_of {d : SchemeDecl} {x} (h : d.scheme = some x) : x.1 = d.name ∧ SchemeOf d x.2 := by
  cases d with
  | ident n v => simp [SchemeDecl.scheme] at h
  | http n ps =>
    simp only [SchemeDecl.scheme, Option.map_eq_some_iff] at h
    obtain ⟨s, hs, rfl⟩ := h
    refine ⟨rfl, ?_⟩
    have := runHttpScheme_scheme ps hs
    simpa [SchemeOf] using this
  | apiKey n ps =>
    simp only [SchemeDecl.scheme, Option.map_eq_some_iff] at h
    obtain ⟨s, hs, rfl⟩ := h
    refine ⟨rfl, ?_⟩
    have := runApiKey_scheme ps hs
    simpa [SchemeOf] using this

theorem runSchemes_last (ds : List SchemeDecl) {cx u cx'} (h : runSchemes ds cx = some (u, cx')) :
    cx'.schemas = cx.schemas ∧ (BMap.Sorted cx.securitySchemes → BMap.Sorted cx'.securitySchemes) ∧
    ∀ name, Last SchemeOf (lastOf (SchemeDecl.named? name) ds) (BMap.get name cx.securitySchemes)
      (BMap.get name cx'.securitySchemes) := by
  induction ds generalizing cx with
  | nil =>
    simp only [runSchemes, act_pure] at h
    obtain ⟨-, rfl⟩ := h
    exact ⟨rfl, fun h => h, fun _ => rfl⟩
  | cons d ds ih =>
    rw [runSchemes] at h
    cases hd : d.scheme with
    | none => rw [hd] at h; exact absurd h (by simp)
    | some x =>
      obtain ⟨n, s⟩ := x
      obtain ⟨e1, e2⟩ := SchemeDecl.scheme_of hd
      simp only at e1 e2
      subst e1
      rw [hd] at h
      obtain ⟨u', cx1, h1, h⟩ := act_bind.1 h
      cases h1
      obtain ⟨a1, a2, a3⟩ := ih h
      refine ⟨a1, fun hs => a2 (BMap.sorted_insert hs), fun name => ?_⟩
      rw [lastOf_cons]
      exact Last.trans (.inserted e2 d.name name cx.securitySchemes) (a3 name)

/-! ## Information and tags -/

theorem runInfo_infoOf (ps : List InfoProp) {t v d i} (h : runInfo ps t v d = some i) :
    i.title = ((lastOf InfoProp.title? ps).or t).getD "" ∧ i.version = ((lastOf InfoProp.version? ps).or v).getD "" ∧
    i.description = (lastOf InfoProp.description? ps).or d := by
  induction ps generalizing t v d with
  | nil => simp [runInfo] at h; subst h; simp
  | cons p ps ih =>
    simp only [lastOf_cons, Option.or_assoc]
    cases p <;> rw [runInfo] at h <;> split at h <;> first | (simp at h; done) | exact ih h

theorem get_append {V : Type} (a b : List (String × V)) (k : String) :
    BMap.get k (a ++ b) = (BMap.get k a).or (BMap.get k b) := by
  induction a with
  | nil => rfl
  | cons x a ih =>
    rw [List.cons_append, BMap.get_cons, BMap.get_cons, ih]
    split <;> rfl

theorem get_reverse_tags (ts : List (String × Option String)) (name : String) :
    BMap.get name (ts.map fun t => (t.1, (⟨t.2⟩ : Tag))).reverse = lastOf (tagNamed? name) ts := by
  induction ts with
  | nil => rfl
  | cons t ts ih =>
    rw [List.map_cons, List.reverse_cons, lastOf_cons, get_append, ih]
    simp only [BMap.get_cons, BMap.get_nil, tagNamed?]
    by_cases e : t.1 = name
    · simp [e]
    · simp [e, Ne.symm e]

/-! ## Sections -/

theorem pathParts_append (ds es : List PathDecl) : pathParts (ds ++ es) = pathParts ds ++ pathParts es := by
  induction ds with
  | nil => rw [List.nil_append, pathParts, List.nil_append]
  | cons d ds ih =>
    obtain ⟨segs, props⟩ := d
    rw [List.cons_append, pathParts, pathParts, ih]
    simp only [List.append_assoc]

/-- The scheme registered under a name: the last one declared, otherwise what was there before, otherwise the first one
mentioned. -/
def SchemeAfter (name : String) (decls : List SchemeDecl) (parts : List Part) (old new : Option SecurityScheme) : Prop :=
  match lastOf (SchemeDecl.named? name) decls with
  | some d => ∃ s, new = some s ∧ SchemeOf d s
  | none => new = old.or (parts.findSome? (Part.scheme? name))

/-- What sections make of a document and the registry. -/
structure DocStep (c : Ctx) (ss : Api) (d d' : Opg) (cx cx' : Components) : Prop where
  openapi : d'.openapi = d.openapi
  info : Last InfoOf (lastOf Section.info? ss) (some d.info) (some d'.info)
  tags : ∀ name, BMap.get name d'.tags = (lastOf (tagNamed? name) (ss.flatMap Section.tagList)).or (BMap.get name d.tags)
  tagsSorted : BMap.Sorted d.tags → BMap.Sorted d'.tags
  servers : d'.servers = d.servers ++ (ss.flatMap Section.serverList).map fun s => ⟨s.1, s.2⟩
  paths : ∃ items rs, d'.paths = d.paths ++ items ∧ Pointwise (MadePath c) (ss.flatMap Section.pathList) items ∧
    (∀ sx : Components, sx.schemas = cx.schemas →
      ∃ sx', CallsReturn c.env sx (callsOf (pathParts (ss.flatMap Section.pathList))) rs sx' ∧ sx'.schemas = cx'.schemas) ∧
    ∀ P S, Givens P S (pathParts (ss.flatMap Section.pathList)) rs → forallPaths (docAll P S) items
  schemes : ∀ name, SchemeAfter name (ss.flatMap Section.schemeList) (pathParts (ss.flatMap Section.pathList))
    (BMap.get name cx.securitySchemes) (BMap.get name cx'.securitySchemes)
  schemesSorted : BMap.Sorted cx.securitySchemes → BMap.Sorted cx'.securitySchemes

theorem DocStep.refl (c : Ctx) (d : Opg) (cx : Components) : DocStep c [] d d cx cx where
  openapi := rfl
  info := rfl
  tags _ := rfl
  tagsSorted h := h
  servers := by simp
  paths := ⟨[], [], by simp, .nil, fun sx h => ⟨sx, by
    show CallsReturn _ _ (callsOf (pathParts [])) _ _
    rw [pathParts]; exact .nil sx, h⟩, fun _ _ _ => by simp [forallPaths]⟩
  schemes name := by
    show _ = Option.or _ (List.findSome? _ (pathParts []))
    rw [pathParts]; simp
  schemesSorted h := h

theorem SchemeAfter.trans {name ds es ps qs a b d} (h : SchemeAfter name ds ps a b) (h' : SchemeAfter name es qs b d) :
    SchemeAfter name (ds ++ es) (ps ++ qs) a d := by
  unfold SchemeAfter at *
  rw [lastOf_append]
  cases he : lastOf (SchemeDecl.named? name) es with
  | some x => rw [he] at h'; exact h'
  | none =>
    rw [he] at h'
    simp only at h'
    rw [Option.none_or]
    cases hd : lastOf (SchemeDecl.named? name) ds with
    | some x =>
      rw [hd] at h
      obtain ⟨s, rfl, hs⟩ := h
      exact ⟨s, by simpa using h', hs⟩
    | none =>
      rw [hd] at h
      simp only at h ⊢
      rw [h', h, Option.or_assoc, List.findSome?_append]

theorem forallPaths_append {D : DocPred} {a b : List (UrlPath × PathValue)} (h : forallPaths D a) (h' : forallPaths D b) :
    forallPaths D (a ++ b) := by
  rw [forallPaths_iff] at *
  intro p hp
  rcases List.mem_append.1 hp with hp | hp
  · exact h p hp
  · exact h' p hp

theorem DocStep.trans {c ss ts d d1 d2 cx cx1 cx2} (h : DocStep c ss d d1 cx cx1) (h' : DocStep c ts d1 d2 cx1 cx2) :
    DocStep c (ss ++ ts) d d2 cx cx2 where
  openapi := h'.openapi.trans h.openapi
  info := by rw [lastOf_append]; exact h.info.trans h'.info
  tags name := by rw [h'.tags, h.tags, List.flatMap_append, lastOf_append, Option.or_assoc]
  tagsSorted hs := h'.tagsSorted (h.tagsSorted hs)
  servers := by rw [h'.servers, h.servers, List.flatMap_append, List.map_append, List.append_assoc]
  paths := by
    obtain ⟨items, rs, h1, h2, h3, h4⟩ := h.paths
    obtain ⟨items', rs', h1', h2', h3', h4'⟩ := h'.paths
    rw [List.flatMap_append, pathParts_append]
    refine ⟨items ++ items', rs ++ rs', by rw [h1', h1, List.append_assoc], h2.append h2', fun sx hs => ?_, fun P S g => ?_⟩
    · obtain ⟨sx1, r1, e1⟩ := h3 sx hs
      obtain ⟨sx2, r2, e2⟩ := h3' sx1 e1
      exact ⟨sx2, by rw [callsOf_append]; exact r1.append r2, e2⟩
    · exact forallPaths_append (h4 P S g.left) (h4' P S g.right)
  schemes name := by
    rw [List.flatMap_append, List.flatMap_append, pathParts_append]
    exact (h.schemes name).trans (h'.schemes name)
  schemesSorted hs := h'.schemesSorted (h.schemesSorted hs)

theorem Section.run_step {c : Ctx} (s : Section) {d cx d' cx'} (h : s.run c d cx = some (d', cx')) :
    DocStep c [s] d d' cx cx' := by
  have e := DocStep.refl c d cx
  cases s with
  | info ps =>
    rw [Section.run] at h
    cases hi : runInfo ps none none none with
    | none => rw [hi] at h; exact absurd h (by simp)
    | some i =>
      rw [hi] at h
      simp only [act_pure] at h
      obtain ⟨rfl, rfl⟩ := h
      have := runInfo_infoOf ps hi
      simp only [Option.or_none] at this
      exact { e with info := ⟨i, rfl, this.1, this.2.1, this.2.2⟩ }
  | tags ts =>
    simp only [Section.run, act_pure] at h
    obtain ⟨rfl, rfl⟩ := h
    refine { e with tags := fun name => ?_, tagsSorted := fun hs => BMap.sorted_insertAll _ hs }
    simp only [BMap.get_insertAll, get_reverse_tags]
    simp [Section.tagList]
  | servers ts =>
    simp only [Section.run, act_pure] at h
    obtain ⟨rfl, rfl⟩ := h
    exact { e with servers := by simp [Section.serverList] }
  | securitySchemes ss =>
    simp only [Section.run, act_bind, act_pure] at h
    obtain ⟨u, cx1, h1, rfl, rfl⟩ := h
    obtain ⟨a1, a2, a3⟩ := runSchemes_last ss h1
    obtain ⟨items, rs, b1, b2, b3, b4⟩ := e.paths
    refine { e with paths := ⟨items, rs, b1, b2, ?_, b4⟩, schemes := fun name => ?_, schemesSorted := a2 }
    · intro sx hs
      obtain ⟨sx', r, e⟩ := b3 sx hs
      exact ⟨sx', r, e.trans a1.symm⟩
    · have := a3 name
      unfold SchemeAfter
      unfold Last at this
      simp only [List.flatMap_cons, List.flatMap_nil, List.append_nil, Section.schemeList, Section.pathList]
      split at this
      · rename_i x hx
        rw [hx]; exact this
      · rename_i hx
        rw [hx, pathParts]; simpa using this
  | paths ps =>
    simp only [Section.run, act_bind, act_pure] at h
    obtain ⟨items, cx1, h1, rfl, rfl⟩ := h
    obtain ⟨rs, hr, hp⟩ := runPaths_makes ps h1
    refine { e with paths := ⟨items, rs, rfl, ?_, ?_, ?_⟩, schemes := fun name => ?_, schemesSorted := hr.security_sorted }
    · simpa [Section.pathList] using runPaths_made ps h1
    · intro sx hs
      obtain ⟨sx', r, e'⟩ := CallsReturn.frame hr.calls hs
      refine ⟨sx', ?_, e'⟩
      simpa [Section.pathList] using r
    · simpa [Section.pathList] using hp
    · have := hr.schemes name
      unfold SchemeAfter
      simpa [Section.pathList, Section.schemeList] using this

theorem runSections_step {c : Ctx} (ss : Api) {d cx d' cx'} (h : runSections c ss d cx = some (d', cx')) :
    DocStep c ss d d' cx cx' := by
  induction ss generalizing d cx with
  | nil =>
    simp only [runSections, act_pure] at h
    obtain ⟨rfl, rfl⟩ := h
    exact .refl c d cx
  | cons s ss ih =>
    simp only [runSections, act_bind] at h
    obtain ⟨d1, cx1, h1, h⟩ := h
    exact (s.run_step h1).trans (ih h)

/-- Everything about a described document. -/
theorem Describes.step {reason : Nat → Option String} {api : Api} {d : Opg} (h : Describes env reason api d) :
    ∃ c : Ctx, c.env = env ∧ c.reason = reason ∧ DocStep c api .empty d .empty d.components := by
  obtain ⟨fuel, h⟩ := h
  refine ⟨⟨env, fuel, reason⟩, rfl, rfl, ?_⟩
  unfold describeApi at h
  split at h
  · cases h
  · rename_i d0 cx hr
    cases h
    have e := runSections_step api hr
    exact { e with }

theorem Pointwise.at {α β : Type} {R : α → β → Prop} {as : List α} {bs : List β} (h : Pointwise R as bs) {i : Nat} {a b}
    (ha : as[i]? = some a) (hb : bs[i]? = some b) : R a b := by
  obtain ⟨b', hb', hr⟩ := h.get ha
  rw [hb] at hb'
  cases hb'
  exact hr

mutual
/-- What stands at the place of a declared path was evaluated from it. -/
theorem ItemIn.madeFrom {κ : Type} [Mentioner κ] [Telling κ] {c : κ} {api : Api} {d : Opg} (hs : Pointwise (MadePath c) api.pathList d.paths) {decl pv}
    (h : ItemIn api d decl pv) : MadePath c decl pv :=
  match h with
  | .top h1 h2 => hs.at h1 h2
  | .callback (name := name) ho hc hc' hi hi' => by
    obtain ⟨cx, cx', hm⟩ := OpIn.madeFrom hs ho
    have hcb := (runOpProps_step _ hm).callbacks name
    rw [hc, hc'] at hcb
    obtain ⟨v, hv, hmade⟩ := hcb
    cases hv
    rename_i cd co i
    cases cd with
    | literal n ps =>
      have : co.paths = [] := hmade
      rw [this] at hi'
      simp at hi'
    | ident n ps => exact Pointwise.at hmade hi hi'
/-- What stands at the place of a declared operation was evaluated from it. -/
theorem OpIn.madeFrom {κ : Type} [Mentioner κ] [Telling κ] {c : κ} {api : Api} {d : Opg} (hs : Pointwise (MadePath c) api.pathList d.paths) {ps o}
    (h : OpIn api d ps o) : MadeOp c ps o :=
  match h with
  | .mk (m := m) hi hm ho => by
    obtain ⟨-, -, params, -, hstep⟩ := PathDecl.run_step (ItemIn.madeFrom hs hi)
    have := hstep.operations m
    rw [hm] at this
    obtain ⟨v, hv, hmade⟩ := this
    rw [ho] at hv
    cases hv
    exact hmade
end

theorem DocStep.made {c : Ctx} {api : Api} {d : Opg} (hs : DocStep c api .empty d .empty d.components) :
    Pointwise (MadePath c) api.pathList d.paths := by
  obtain ⟨items, rs, e, hp, -⟩ := hs.paths
  have e' : d.paths = items := e
  subst e'
  exact hp

theorem ItemIn.made {c : Ctx} {api : Api} {d : Opg} (hs : DocStep c api .empty d .empty d.components) {decl pv}
    (h : ItemIn api d decl pv) : MadePath c decl pv := h.madeFrom hs.made

theorem OpIn.made {c : Ctx} {api : Api} {d : Opg} (hs : DocStep c api .empty d .empty d.components) {ps o}
    (h : OpIn api d ps o) : MadeOp c ps o := h.madeFrom hs.made

/-- The paths of a document are evaluated from those described. -/
theorem runSections_paths {κ : Type} [Mentioner κ] {c : κ} (ss : Api) {d cx d' cx'} (h : runSections c ss d cx = some (d', cx')) :
    ∃ items, d'.paths = d.paths ++ items ∧ Pointwise (MadePath c) (ss.flatMap Section.pathList) items := by
  induction ss generalizing d cx with
  | nil =>
    simp only [runSections, act_pure] at h
    obtain ⟨rfl, rfl⟩ := h
    exact ⟨[], by simp, .nil⟩
  | cons s ss ih =>
    simp only [runSections, act_bind] at h
    obtain ⟨d1, cx1, h1, h⟩ := h
    obtain ⟨items, e, hp⟩ := ih h
    have hs : ∃ its, d1.paths = d.paths ++ its ∧ Pointwise (MadePath c) s.pathList its := by
      cases s with
      | info props =>
        rw [Section.run] at h1
        cases hi : runInfo props none none none with
        | none => rw [hi] at h1; exact absurd h1 (by simp)
        | some i =>
          rw [hi] at h1
          obtain ⟨rfl, -⟩ := act_pure.1 h1
          exact ⟨[], by simp, .nil⟩
      | tags ts =>
        obtain ⟨rfl, -⟩ := act_pure.1 h1
        exact ⟨[], by simp, .nil⟩
      | servers ts =>
        obtain ⟨rfl, -⟩ := act_pure.1 h1
        exact ⟨[], by simp, .nil⟩
      | securitySchemes ts =>
        obtain ⟨u, cx2, h2, h3⟩ := act_bind.1 h1
        obtain ⟨rfl, -⟩ := act_pure.1 h3
        exact ⟨[], by simp, .nil⟩
      | paths ps =>
        obtain ⟨its, cx2, h2, h3⟩ := act_bind.1 h1
        obtain ⟨rfl, -⟩ := act_pure.1 h3
        exact ⟨its, rfl, runPaths_made ps h2⟩
    obtain ⟨its, e1, h1⟩ := hs
    exact ⟨its ++ items, by rw [e, e1, List.append_assoc], by rw [List.flatMap_cons]; exact h1.append hp⟩

theorem describeApi_made {κ : Type} [Mentioner κ] {c : κ} {api : Api} {d : Opg} (h : describeApi c api = some d) :
    Pointwise (MadePath c) api.pathList d.paths := by
  unfold describeApi at h
  split at h
  · cases h
  · rename_i d0 cx hr
    cases h
    obtain ⟨items, e, hp⟩ := runSections_paths api hr
    have e' : d0.paths = items := e
    show Pointwise _ _ d0.paths
    rw [e']
    exact hp

end Verif

namespace Verif

variable {env : Env}

theorem Last.none_iff {α β : Type} {P : α → β → Prop} {decl : Option α} {new : Option β} (h : Last P decl none new) :
    new = none ↔ decl = none := by
  cases decl with
  | none => simp [h.none_eq]
  | some d => obtain ⟨v, hv, -⟩ := h; simp [hv]

theorem MadeOp.operationOf {κ : Type} [Mentioner κ] [Telling κ] {c : κ} {ps o} (h : MadeOp c ps o) :
    OperationBy (told c) (Mentioner.reason c) ps o := by
  obtain ⟨cx, cx', h⟩ := h
  have s := runOpProps_step ps h
  refine ⟨?_, ?_, ?_, s.deprecated, ?_, ?_, s.body, s.responses, s.parameters, fun name => (s.callbacks name).none_iff⟩
  · simpa [Operation.empty] using s.summary
  · simpa [Operation.empty] using s.operationId
  · simpa [Operation.empty] using s.description
  · simpa [Operation.empty] using s.tags
  · obtain ⟨ms, e, hp⟩ := s.security
    have e' : o.security = ms := e
    rw [e']; exact hp

theorem MadePath.itemOf {κ : Type} [Mentioner κ] [Telling κ] {c : κ} {decl p v} (h : MadePath c decl (p, v)) :
    ItemBy (told c) decl p v := by
  obtain ⟨-, hp, params, hu, s⟩ := PathDecl.run_step h
  refine ⟨hp, ?_, ?_, fun m => (s.operations m).none_iff, ?_, ?_⟩
  · simpa [PathValue.empty] using s.summary
  · simpa [PathValue.empty] using s.description
  · intro name d hd
    have := s.parameters name
    rw [hd] at this
    exact this
  · intro name hn
    have := s.parameters name
    rw [hn] at this
    rw [this.none_eq]
    exact hu name

/-- The registry of a described document. -/
theorem Describes.registry {reason : Nat → Option String} {api : Api} {d : Opg} (h : Describes env reason api d) :
    ∃ rs sx, CallsReturn env .empty (callsOf api.parts) rs sx ∧ sx.schemas = d.components.schemas ∧
      ∀ P S, Givens P S api.parts rs → forallPaths (docAll P S) d.paths := by
  obtain ⟨c, rfl, -, s⟩ := h.step
  obtain ⟨items, rs, e, -, hr, hp⟩ := s.paths
  obtain ⟨sx, hr, es⟩ := hr .empty rfl
  have e' : d.paths = items := e
  exact ⟨rs, sx, hr, es, fun P S g => by rw [e']; exact hp P S g⟩

theorem callsOf_mentions (ps : List Part) : ∀ c ∈ callsOf ps, c.isMention = true := by
  intro c hc
  obtain ⟨p, -, hp⟩ := List.mem_filterMap.1 hc
  cases p <;> simp [Part.call?] at hp <;> subst hp <;> rfl

/-- Links and objects in a described document. -/
theorem Describes.good {reason : Nat → Option String} {api : Api} {d : Opg} (h : Describes env reason api d) {W : Prop}
    (raws : ∀ r, Part.raw r ∈ api.parts → r.All W (· ∈ BMap.keys d.components.schemas)) (S : String → Prop)
    (schemes : ∀ n s, Part.scheme n s ∈ api.parts → S n) (literals : ∀ n, Part.literal n ∈ api.parts → S n) :
    d.components.Good W ∧ forallPaths (docAll (Ref.All W (· ∈ BMap.keys d.components.schemas)) S) d.paths := by
  obtain ⟨rs, sx, hr, es, hp⟩ := h.registry
  have hg := hr.good (W := W) (callsOf_mentions _) Components.good_empty
  rw [es] at hg
  refine ⟨?_, hp _ _ ⟨hg.2, raws, schemes, literals⟩⟩
  intro b hb
  have := hg.1 b (by rw [es]; exact hb)
  rw [es] at this
  exact this

end Verif

namespace Verif

theorem Pointwise.of_get {α β : Type} {R Q : α → β → Prop} {as : List α} {bs : List β} (h : Pointwise R as bs)
    (i : ∀ (i : Nat) a b, as[i]? = some a → bs[i]? = some b → Q a b) : Pointwise Q as bs := by
  induction h with
  | nil => exact .nil
  | cons h _ ih =>
    exact .cons (i 0 _ _ rfl rfl) (ih fun j a b ha hb => i (j + 1) a b (by simpa using ha) (by simpa using hb))

end Verif
