import Verif.Spec.Compiles
import Verif.Proof.ApiDoc
import Verif.Proof.Mixed
import Verif.Props.ExactMore
/-!
# Descriptions that give a document: proofs
-/

namespace Verif

variable {κ : Type} [Mentioner κ] {c : κ}

/-- The calls of the parts return. -/
def Going (c : κ) (parts : List Part) (cx : Components) : Prop := ∃ rs cx', Ran c parts rs cx cx'

theorem Going.frame (framed : ∀ t, Framed (Mentioner.ask c t)) {parts cx sx} (h : Going c parts cx) (hs : sx.schemas = cx.schemas) :
    Going c parts sx := by
  obtain ⟨rs, cx', h⟩ := h
  suffices ∃ sx', Ran c parts rs sx sx' by obtain ⟨sx', h⟩ := this; exact ⟨rs, sx', h⟩
  induction h generalizing sx with
  | nil => exact ⟨sx, .nil sx⟩
  | mention h _ ih =>
    obtain ⟨sx1, h1, e⟩ := framed _ _ _ _ _ hs h
    obtain ⟨sx', h2⟩ := ih e.schemas
    exact ⟨sx', .mention h1 h2⟩
  | scheme _ ih =>
    obtain ⟨sx', h2⟩ := ih ((mentionSecurityScheme_schemas ..).trans (hs.trans (mentionSecurityScheme_schemas ..).symm))
    exact ⟨sx', .scheme h2⟩
  | literal _ ih => obtain ⟨sx', h2⟩ := ih hs; exact ⟨sx', .literal h2⟩
  | raw _ ih => obtain ⟨sx', h2⟩ := ih hs; exact ⟨sx', .raw h2⟩

/-- Derived impls do not see the security schemes. -/
theorem ask_derived_framed (c : Ctx) (t : Ty) : Framed (ask c t) := by
  intro cx sx r cx1 hs h
  have e : sx = cx.withSecurity sx.securitySchemes := by cases sx; cases cx; cases hs; rfl
  refine ⟨cx1.withSecurity sx.securitySchemes, ?_, rfl, fun n hn => ?_⟩
  · rw [e]
    exact mentionWith_frame (fun h => getSchema_frame c.fuel h) h
  · rw [mentionSchema_security (show mentionSchema c.env c.fuel t false {} cx = some (r, cx1) from h)]
    exact hn

/-- If the calls of the parts return, so does the code. -/
def Progress (c : κ) (ps : List Part) {α : Type} (a : Act α) (Q : α → Prop) : Prop :=
  ∀ qs cx, Going c (ps ++ qs) cx → ∃ x cx', a cx = some (x, cx') ∧ Q x ∧ Going c qs cx'

theorem Progress.pure {α : Type} {a : α} {Q : α → Prop} (h : Q a) : Progress c [] (Pure.pure a) Q :=
  fun _ cx hg => ⟨a, cx, rfl, h, hg⟩

theorem Progress.bind {α β : Type} {ps qs : List Part} {x : Act α} {f : α → Act β} {P : α → Prop} {Q : β → Prop}
    (h : Progress c ps x P) (hf : ∀ a, P a → Progress c qs (f a) Q) : Progress c (ps ++ qs) (x >>= f) Q := by
  intro rest cx hg
  rw [List.append_assoc] at hg
  obtain ⟨a, cx1, h1, hp, hg1⟩ := h _ cx hg
  obtain ⟨b, cx2, h2, hq, hg2⟩ := hf a hp _ cx1 hg1
  exact ⟨b, cx2, act_bind.2 ⟨a, cx1, h1, h2⟩, hq, hg2⟩

theorem Progress.ask (t : Ty) : Progress c [.mention t] (ask c t) fun _ => True := by
  rintro qs cx ⟨rs, cx', h⟩
  cases h with
  | mention h rest => exact ⟨_, _, h, trivial, _, _, rest⟩

abbrev anything {α : Type} : α → Prop := fun _ => True

theorem runParamProps_progress : ∀ (ps : List ParamProp) (p), Progress c (ps.flatMap ParamProp.parts) (runParamProps c ps p) anything
  | [], p => by rw [runParamProps]; exact .pure trivial
  | .description s :: ps, p => by rw [runParamProps]; exact runParamProps_progress ps _
  | .required s :: ps, p => by rw [runParamProps]; exact runParamProps_progress ps _
  | .deprecated s :: ps, p => by rw [runParamProps]; exact runParamProps_progress ps _
  | .schema t :: ps, p => by rw [runParamProps]; exact .bind (.ask t) fun _ _ => runParamProps_progress ps _

theorem ParamDecl.run_progress (d : ParamDecl) : Progress c d.parts (d.run c) anything := by
  cases d with
  | header name props =>
    rw [ParamDecl.run]
    have := Progress.bind (c := c) (Q := anything) (.ask (.prim .string)) fun r _ =>
      Progress.bind (runParamProps_progress props ⟨none, .header, true, false, some r⟩) fun p _ => .pure (a := (name, p)) trivial
    simpa [ParamDecl.parts] using this
  | query name t props =>
    rw [ParamDecl.run]
    have := Progress.bind (c := c) (Q := anything) (.ask t) fun r _ =>
      Progress.bind (runParamProps_progress props ⟨none, .query, false, false, some r⟩) fun p _ => .pure (a := (name, p)) trivial
    simpa [ParamDecl.parts] using this

theorem runParameters_progress : ∀ (ds : List ParamDecl) (m), Progress c (ds.flatMap ParamDecl.parts) (runParameters c ds m) anything
  | [], m => by rw [runParameters]; exact .pure trivial
  | d :: ds, m => by rw [runParameters, List.flatMap_cons]; exact .bind d.run_progress fun x _ => runParameters_progress ds _

theorem urlParam_progress (name t ps) : Progress c [.mention t] (urlParam c name t ps) anything := by
  rw [urlParam]
  have := Progress.bind (c := c) (Q := anything) (.ask t) fun r _ =>
    .pure (a := (PathElement.parameter name, BMap.insert name ⟨none, .path, true, false, some r⟩ ps)) trivial
  simpa using this

/-- What follows the last colon of a list. -/
theorem afterColon_unique : ∀ {l before name before' name' : List Char}, l = before ++ name → l = before' ++ name' → ':' ∉ name →
    ':' ∉ name' → (before = [] ∨ before.getLast? = some ':') → (before' = [] ∨ before'.getLast? = some ':') → name = name' := by
  intro l before
  induction before generalizing l with
  | nil =>
    intro name before' name' h h' hn hn' _ hb'
    rcases hb' with rfl | hb'
    · rw [h] at h'; exact h'
    · have : ':' ∈ before' := List.mem_of_getLast? hb'
      exact absurd (by rw [← List.nil_append name, ← h, h']; exact List.mem_append_left _ this) hn
  | cons x before ih =>
    intro name before' name' h h' hn hn' hb hb'
    cases before' with
    | nil =>
      rcases hb with hb | hb
      · cases hb
      · have : ':' ∈ x :: before := List.mem_of_getLast? hb
        exact absurd (by rw [← List.nil_append name', ← h', h]; exact List.mem_append_left _ this) hn'
    | cons x' before' =>
      have e := h.symm.trans h'
      rw [List.cons_append, List.cons_append] at e
      injection e with e1 e2
      refine ih (l := before ++ name) (before' := before') rfl e2 hn hn' ?_ ?_
      · rcases hb with hb | hb
        · cases hb
        · cases before with
          | nil => exact .inl rfl
          | cons y ys => right; rw [List.getLast?_cons_cons] at hb; exact hb
      · rcases hb' with hb' | hb'
        · cases hb'
        · cases before' with
          | nil => exact .inl rfl
          | cons y ys => right; rw [List.getLast?_cons_cons] at hb'; exact hb'

theorem bareOk_iff (path : TypePath) (t : Ty) : (PathSeg.bare path t).Ok ↔ ∃ name, bareName path.print = some name := by
  obtain ⟨before, name, h1, h2, h3, h4⟩ := c62_exact path.print
  constructor
  · rintro ⟨before', ch, cs, e, hn, hb, ha⟩
    have := afterColon_unique h1 e h2 hn h3 hb
    subst this
    rw [h4]
    simp only [if_pos ha]
    exact ⟨_, rfl⟩
  · rintro ⟨n, hn⟩
    rw [h4] at hn
    cases name with
    | nil => cases hn
    | cons ch cs =>
      simp only at hn
      split at hn
      · rename_i ha
        exact ⟨before, ch, cs, h1, h2, h3, ha⟩
      · cases hn

theorem PathSeg.run_progress (s : PathSeg) (ps) (ok : s.Ok) : Progress c s.parts (s.run c ps) anything := by
  cases s with
  | literal s => rw [PathSeg.run]; exact .pure trivial
  | bare path t =>
    obtain ⟨name, e⟩ := (bareOk_iff path t).1 ok
    rw [PathSeg.run, e]
    exact urlParam_progress name t ps
  | named name t => rw [PathSeg.run]; exact urlParam_progress name t ps

theorem runUrl_progress : ∀ (ss : List PathSeg) (ps), (∀ s ∈ ss, s.Ok) → Progress c (ss.flatMap PathSeg.parts) (runUrl c ss ps) anything
  | [], ps, _ => by rw [runUrl]; exact .pure trivial
  | s :: ss, ps, ok => by
    rw [runUrl, List.flatMap_cons]
    refine .bind (s.run_progress ps (ok s (.head _))) fun x _ => ?_
    have := Progress.bind (c := c) (Q := anything) (runUrl_progress ss x.2 fun s h => ok s (.tail _ h)) fun y _ =>
      .pure (a := (x.1 :: y.1, y.2)) trivial
    simpa using this

theorem runBodyProps_progress : ∀ (ps : List BodyProp) (d r s), (s.isSome = true ∨ ∃ t, BodyProp.schema t ∈ ps) →
    Progress c (ps.flatMap BodyProp.parts) (runBodyProps c ps d r s) fun x => x.2.2.isSome = true
  | [], d, r, s, h => by
    rw [runBodyProps]
    refine .pure ?_
    rcases h with h | ⟨t, h⟩
    · exact h
    · cases h
  | .schema t :: ps, d, r, s, h => by
    rw [runBodyProps]
    exact .bind (.ask t) fun x _ => runBodyProps_progress ps _ _ _ (.inl rfl)
  | .description s :: ps, d, r, s', h => by
    rw [runBodyProps]
    exact runBodyProps_progress ps _ _ _ (h.imp id fun ⟨t, ht⟩ => ⟨t, by cases ht; assumption⟩)
  | .required s :: ps, d, r, s', h => by
    rw [runBodyProps]
    exact runBodyProps_progress ps _ _ _ (h.imp id fun ⟨t, ht⟩ => ⟨t, by cases ht; assumption⟩)

theorem BodyDecl.run_progress (b : BodyDecl) (ok : b.Ok) : Progress c b.parts (b.run c) anything := by
  cases b with
  | type t =>
    rw [BodyDecl.run]
    have := Progress.bind (c := c) (Q := anything) (.ask t) fun r _ => .pure (a := (⟨some "", true, r⟩ : RequestBody)) trivial
    simpa [BodyDecl.parts] using this
  | props ps =>
    rw [BodyDecl.run]
    have := Progress.bind (c := c) (Q := anything) (qs := []) (runBodyProps_progress ps none true none (.inr ok))
      (f := fun x => match x.2.2 with | none => Alternative.failure | some s => Pure.pure (⟨x.1.or (some ""), x.2.1, s⟩ : RequestBody)) (by
        rintro ⟨d, r, s⟩ hs
        cases s with
        | none => cases hs
        | some s => exact .pure trivial)
    rw [List.append_nil] at this
    exact this

theorem runResponse_progress (code d) (s : ResponseDecl) (ok : code < 65536) : Progress c s.parts (runResponse c code d s) anything := by
  rw [runResponse]
  simp only [if_pos ok]
  have hs : Progress c s.parts (s.run c) anything := by
    cases s with
    | absent => rw [ResponseDecl.run]; exact .pure trivial
    | type t =>
      rw [ResponseDecl.run]
      have := Progress.bind (c := c) (Q := anything) (.ask t) fun r _ => .pure (a := some r) trivial
      simpa [ResponseDecl.parts] using this
    | raw s =>
      rw [ResponseDecl.run]
      cases s with
      | none => exact .pure trivial
      | some r =>
        rintro qs cx ⟨rs, cx', h⟩
        cases h with
        | raw h => exact ⟨_, _, rfl, trivial, _, _, h⟩
  have := Progress.bind (c := c) (Q := anything) hs fun x _ =>
    .pure (a := (⟨d.getD ((Mentioner.reason c code).getD ""), x⟩ : Response)) trivial
  simpa using this

theorem SecurityDecl.run_progress (s : SecurityDecl) (ok : s.Ok) : Progress c s.parts s.run anything := by
  cases s with
  | literal n roles =>
    cases ok
    rw [SecurityDecl.run]; simp only [List.isEmpty_nil, if_true]
    rintro qs cx ⟨rs, cx', h⟩
    cases h with
    | literal h => exact ⟨_, _, rfl, trivial, _, _, h⟩
  | scheme n v roles =>
    cases ok
    rw [SecurityDecl.run]; simp only [List.isEmpty_nil, if_true]
    rintro qs cx ⟨rs, cx', h⟩
    cases h with
    | scheme h => exact ⟨_, _, rfl, trivial, _, _, h⟩

theorem runSecurityItems_progress : ∀ (ss : List SecurityDecl) (m), (∀ s ∈ ss, s.Ok) →
    Progress c (ss.flatMap SecurityDecl.parts) (runSecurityItems ss m) anything
  | [], m, _ => by rw [runSecurityItems]; exact .pure trivial
  | s :: ss, m, ok => by
    rw [runSecurityItems, List.flatMap_cons]
    exact .bind (s.run_progress (ok s (.head _))) fun x _ => runSecurityItems_progress ss _ fun s h => ok s (.tail _ h)

theorem runSecurity_progress : ∀ (alts : List (List SecurityDecl)), (∀ alt ∈ alts, alt ≠ [] ∧ ∀ s ∈ alt, s.Ok) →
    Progress c (alts.flatMap fun alt => alt.flatMap SecurityDecl.parts) (runSecurity alts) anything
  | [], _ => by rw [runSecurity]; exact .pure trivial
  | [] :: alts, ok => absurd rfl (ok [] (.head _)).1
  | (s :: ss) :: alts, ok => by
    rw [runSecurity, List.flatMap_cons]
    · refine .bind (runSecurityItems_progress (s :: ss) [] (ok _ (.head _)).2) fun x _ => ?_
      have := Progress.bind (c := c) (Q := anything) (runSecurity_progress alts fun a h => ok a (.tail _ h)) fun y _ =>
        .pure (a := x :: y) trivial
      simpa using this
    · exact nofun

mutual
theorem runOpProps_progress : ∀ (ps : List OpProp) (o), OpOk ps → Progress c (opParts ps) (runOpProps c ps o) anything
  | [], o, _ => by rw [runOpProps, opParts]; exact .pure trivial
  | .summary s :: ps, o, ok => by rw [runOpProps, opParts]; rw [OpOk] at ok; exact runOpProps_progress ps _ ok
  | .operationId s :: ps, o, ok => by rw [runOpProps, opParts]; rw [OpOk] at ok; exact runOpProps_progress ps _ ok
  | .description s :: ps, o, ok => by rw [runOpProps, opParts]; rw [OpOk] at ok; exact runOpProps_progress ps _ ok
  | .deprecated s :: ps, o, ok => by rw [runOpProps, opParts]; rw [OpOk] at ok; exact runOpProps_progress ps _ ok
  | .tags s :: ps, o, ok => by rw [runOpProps, opParts]; rw [OpOk] at ok; exact runOpProps_progress ps _ ok
  | .parameters ds :: ps, o, ok => by
    rw [runOpProps, opParts]; rw [OpOk] at ok
    exact .bind (runParameters_progress ds _) fun x _ => runOpProps_progress ps _ ok
  | .callbacks cs :: ps, o, ok => by
    rw [runOpProps, opParts]; rw [OpOk] at ok
    exact .bind (runCallbacks_progress cs _ ok.1) fun x _ => runOpProps_progress ps _ ok.2
  | .security alts :: ps, o, ok => by
    rw [runOpProps, opParts]; rw [OpOk] at ok
    exact .bind (runSecurity_progress alts ok.1) fun x _ => runOpProps_progress ps _ ok.2
  | .body b :: ps, o, ok => by
    rw [runOpProps, opParts]; rw [OpOk] at ok
    exact .bind (b.run_progress ok.1) fun x _ => runOpProps_progress ps _ ok.2
  | .response code d s :: ps, o, ok => by
    rw [runOpProps, opParts]; rw [OpOk] at ok
    exact .bind (runResponse_progress code d s ok.1) fun x _ => runOpProps_progress ps _ ok.2
theorem runCallbacks_progress : ∀ (cs : List CallbackDecl) (m), CallbacksOk cs → Progress c (callbackParts cs) (runCallbacks c cs m) anything
  | [], m, _ => by rw [runCallbacks, callbackParts]; exact .pure trivial
  | .literal n ps :: cs, m, ok => by
    rw [CallbacksOk] at ok
    subst ok
    rw [runCallbacks, callbackParts, callbackParts]
    simp only [List.isEmpty_nil, if_true]
    exact .pure trivial
  | .ident n ps :: cs, m, ok => by
    rw [CallbacksOk] at ok
    rw [runCallbacks, callbackParts]
    exact .bind (runPaths_progress ps ok.1) fun x _ => runCallbacks_progress cs _ ok.2
theorem runPaths_progress : ∀ (ds : List PathDecl), PathsOk ds → Progress c (pathParts ds) (runPaths c ds) anything
  | [], _ => by rw [runPaths, pathParts]; exact .pure trivial
  | .mk segs props :: ds, ok => by
    rw [PathsOk] at ok
    rw [runPaths, pathParts]
    refine .bind (P := anything) ?_ fun x _ => ?_
    · rw [PathDecl.run, if_neg (by simpa using ok.1.1)]
      refine .bind (runUrl_progress segs [] ok.1.2.1) fun x _ => ?_
      have := Progress.bind (c := c) (Q := anything) (runItemProps_progress props { PathValue.empty with parameters := x.2 } ok.1.2.2)
        fun v _ => .pure (a := (x.1, v)) trivial
      simpa using this
    · have := Progress.bind (c := c) (Q := anything) (runPaths_progress ds ok.2) fun y _ => .pure (a := x :: y) trivial
      simpa using this
theorem runItemProps_progress : ∀ (ps : List ItemProp) (v), ItemOk ps → Progress c (itemParts ps) (runItemProps c ps v) anything
  | [], v, _ => by rw [runItemProps, itemParts]; exact .pure trivial
  | .summary s :: ps, v, ok => by rw [runItemProps, itemParts]; rw [ItemOk] at ok; exact runItemProps_progress ps _ ok
  | .description s :: ps, v, ok => by rw [runItemProps, itemParts]; rw [ItemOk] at ok; exact runItemProps_progress ps _ ok
  | .parameters ds :: ps, v, ok => by
    rw [runItemProps, itemParts]; rw [ItemOk] at ok
    exact .bind (runParameters_progress ds _) fun x _ => runItemProps_progress ps _ ok
  | .operation m os :: ps, v, ok => by
    rw [runItemProps, itemParts]; rw [ItemOk] at ok
    exact .bind (runOpProps_progress os _ ok.1) fun x _ => runItemProps_progress ps _ ok.2
end

/-! ## Sections -/

theorem runInfo_iff : ∀ (ps : List InfoProp) (t v d : Option String), (∃ i, runInfo ps t v d = some i) ↔
    t.toList.length + (ps.filterMap InfoProp.title?).length ≤ 1 ∧ v.toList.length + (ps.filterMap InfoProp.version?).length ≤ 1 ∧
      d.toList.length + (ps.filterMap InfoProp.description?).length ≤ 1
  | [], t, v, d => by cases t <;> cases v <;> cases d <;> simp [runInfo]
  | .title s :: ps, t, v, d => by
    have e1 : (InfoProp.title s :: ps).filterMap InfoProp.title? = s :: ps.filterMap InfoProp.title? := rfl
    have e2 : (InfoProp.title s :: ps).filterMap InfoProp.version? = ps.filterMap InfoProp.version? := rfl
    have e3 : (InfoProp.title s :: ps).filterMap InfoProp.description? = ps.filterMap InfoProp.description? := rfl
    rw [runInfo, e1, e2, e3]
    cases t with
    | some x => simp; try omega
    | none =>
      simp only [Option.isSome_none, Bool.false_eq_true, if_false, runInfo_iff ps, Option.toList_some, Option.toList_none,
        List.length_cons, List.length_nil]
      omega
  | .version s :: ps, t, v, d => by
    have e1 : (InfoProp.version s :: ps).filterMap InfoProp.title? = ps.filterMap InfoProp.title? := rfl
    have e2 : (InfoProp.version s :: ps).filterMap InfoProp.version? = s :: ps.filterMap InfoProp.version? := rfl
    have e3 : (InfoProp.version s :: ps).filterMap InfoProp.description? = ps.filterMap InfoProp.description? := rfl
    rw [runInfo, e1, e2, e3]
    cases v with
    | some x => simp; try omega
    | none =>
      simp only [Option.isSome_none, Bool.false_eq_true, if_false, runInfo_iff ps, Option.toList_some, Option.toList_none,
        List.length_cons, List.length_nil]
      omega
  | .description s :: ps, t, v, d => by
    have e1 : (InfoProp.description s :: ps).filterMap InfoProp.title? = ps.filterMap InfoProp.title? := rfl
    have e2 : (InfoProp.description s :: ps).filterMap InfoProp.version? = ps.filterMap InfoProp.version? := rfl
    have e3 : (InfoProp.description s :: ps).filterMap InfoProp.description? = s :: ps.filterMap InfoProp.description? := rfl
    rw [runInfo, e1, e2, e3]
    cases d with
    | some x => simp; try omega
    | none =>
      simp only [Option.isSome_none, Bool.false_eq_true, if_false, runInfo_iff ps, Option.toList_some, Option.toList_none,
        List.length_cons, List.length_nil]
      omega

theorem runHttpScheme_some : ∀ (ps : List HttpSchemeProp) (k : Option Bool) (f d : Option String),
    ((lastOf HttpSchemeProp.bearer? ps).or k).isSome = true → ∃ s, runHttpScheme ps k f d = some s
  | [], none, f, d, h => by simp [lastOf] at h
  | [], some false, f, d, h => ⟨_, rfl⟩
  | [], some true, f, d, h => ⟨_, rfl⟩
  | .basic :: ps, k, f, d, h => by rw [runHttpScheme]; exact runHttpScheme_some ps _ _ _ (by simp)
  | .bearer :: ps, k, f, d, h => by rw [runHttpScheme]; exact runHttpScheme_some ps _ _ _ (by simp)
  | .bearerFormat s :: ps, k, f, d, h => by rw [runHttpScheme]; exact runHttpScheme_some ps _ _ _ h
  | .description s :: ps, k, f, d, h => by rw [runHttpScheme]; exact runHttpScheme_some ps _ _ _ h

theorem runApiKey_some : ∀ (ps : List ApiKeyProp) (i) (n d : Option String),
    ((lastOf ApiKeyProp.name? ps).or n).isSome = true → ∃ s, runApiKey ps i n d = some s
  | [], i, none, d, h => by simp [lastOf] at h
  | [], i, some n, d, h => ⟨_, rfl⟩
  | .name s :: ps, i, n, d, h => by rw [runApiKey]; exact runApiKey_some ps _ _ _ (by simp)
  | .parameterIn s :: ps, i, n, d, h => by rw [runApiKey]; exact runApiKey_some ps _ _ _ h
  | .description s :: ps, i, n, d, h => by rw [runApiKey]; exact runApiKey_some ps _ _ _ h

theorem SchemeDecl.scheme_some (d : SchemeDecl) : (∃ x, d.scheme = some x) ↔ ∃ s, SchemeOf d s := by
  constructor
  · rintro ⟨x, h⟩
    exact ⟨_, (SchemeDecl.scheme_of h).2⟩
  · rintro ⟨s, h⟩
    cases d with
    | ident n v => exact absurd h (by simp [SchemeOf])
    | http n ps =>
      have : (lastOf HttpSchemeProp.bearer? ps).isSome = true := by
        rcases h with ⟨h, -⟩ | ⟨h, -⟩ <;> rw [h] <;> rfl
      obtain ⟨s, hs⟩ := runHttpScheme_some ps none none none (by rw [Option.or_none]; exact this)
      exact ⟨(n, s), by rw [SchemeDecl.scheme, hs]; rfl⟩
    | apiKey n ps =>
      obtain ⟨name, h, -⟩ := h
      obtain ⟨s, hs⟩ := runApiKey_some ps .header none none (by rw [Option.or_none, h]; rfl)
      exact ⟨(n, s), by rw [SchemeDecl.scheme, hs]; rfl⟩

theorem runSchemes_iff : ∀ (ds : List SchemeDecl) (cx : Components),
    (∃ u cx', runSchemes ds cx = some (u, cx') ∧ cx'.schemas = cx.schemas) ↔ ∀ d ∈ ds, ∃ s, SchemeOf d s
  | [], cx => ⟨fun _ _ h => (nomatch h), fun _ => ⟨(), cx, rfl, rfl⟩⟩
  | d :: ds, cx => by
    rw [List.forall_mem_cons, ← d.scheme_some, runSchemes]
    cases hd : d.scheme with
    | none =>
      refine ⟨?_, ?_⟩
      · rintro ⟨u, cx', h, -⟩; cases h
      · rintro ⟨⟨x, h⟩, -⟩; cases h
    | some x =>
      obtain ⟨n, s⟩ := x
      have ih := runSchemes_iff ds { cx with securitySchemes := BMap.insert n s cx.securitySchemes }
      refine ⟨fun ⟨u, cx', h, e⟩ => ⟨⟨_, rfl⟩, ih.1 ?_⟩, fun ⟨_, h⟩ => ?_⟩
      · obtain ⟨u', cx1, h1, h⟩ := act_bind.1 h
        cases h1
        exact ⟨u, cx', h, e⟩
      · obtain ⟨u, cx', h, e⟩ := ih.2 h
        exact ⟨u, cx', act_bind.2 ⟨(), _, rfl, h⟩, e⟩

theorem Section.run_progress (framed : ∀ t, Framed (Mentioner.ask c t)) (s : Section) (d : Opg) (ok : s.Ok) :
    Progress c (pathParts s.pathList) (s.run c d) anything := by
  cases s with
  | info ps =>
    obtain ⟨i, hi⟩ := (runInfo_iff ps none none none).2 (by simpa [Section.Ok] using ok)
    rw [Section.run, hi]; show Progress c (pathParts []) _ _; rw [pathParts]; exact .pure trivial
  | tags ts => rw [Section.run]; show Progress c (pathParts []) _ _; rw [pathParts]; exact .pure trivial
  | servers ss => rw [Section.run]; show Progress c (pathParts []) _ _; rw [pathParts]; exact .pure trivial
  | securitySchemes ss =>
    intro qs cx hg
    have hg : Going c (pathParts [] ++ qs) cx := hg
    rw [pathParts, List.nil_append] at hg
    obtain ⟨u, cx', h, e⟩ := (runSchemes_iff ss cx).2 ok
    exact ⟨d, cx', by rw [Section.run]; exact act_bind.2 ⟨u, cx', h, rfl⟩, trivial, hg.frame framed e⟩
  | paths ps =>
    rw [Section.run, Section.pathList]
    have := Progress.bind (c := c) (Q := anything) (runPaths_progress ps ok) fun items _ =>
      .pure (a := { d with paths := d.paths ++ items }) trivial
    simpa using this

theorem runSections_progress (framed : ∀ t, Framed (Mentioner.ask c t)) : ∀ (ss : Api) (d : Opg), ss.Ok → Progress c (pathParts ss.pathList) (runSections c ss d) anything
  | [], d, _ => by
    have e : Api.pathList [] = [] := rfl
    rw [runSections, e, pathParts]
    exact .pure trivial
  | s :: ss, d, ok => by
    have e : Api.pathList (s :: ss) = s.pathList ++ Api.pathList ss := rfl
    rw [runSections, e, pathParts_append]
    exact .bind (s.run_progress framed d (ok s (.head _))) fun d _ => runSections_progress framed ss d fun s h => ok s (.tail _ h)

/-! ## What went right -/

theorem PathSeg.run_right {s : PathSeg} {ps cx x cx'} (h : s.run c ps cx = some (x, cx')) : s.Ok := by
  cases s with
  | literal s => trivial
  | named n t => trivial
  | bare path t =>
    rw [bareOk_iff]
    rw [PathSeg.run] at h
    cases e : bareName path.print with
    | none => rw [e] at h; cases h
    | some n => exact ⟨n, rfl⟩

theorem runUrl_right : ∀ {ss : List PathSeg} {ps cx x cx'}, runUrl c ss ps cx = some (x, cx') → ∀ s ∈ ss, s.Ok
  | [], _, _, _, _, _ => fun _ h => by cases h
  | s :: ss, ps, cx, x, cx', h => by
    rw [runUrl] at h
    obtain ⟨y, cx1, h1, h⟩ := act_bind.1 h
    obtain ⟨z, cx2, h2, h⟩ := act_bind.1 h
    rw [List.forall_mem_cons]
    exact ⟨PathSeg.run_right h1, runUrl_right h2⟩

theorem runBodyProps_right : ∀ {ps : List BodyProp} {d r s cx x cx'}, runBodyProps c ps d r s cx = some (x, cx') →
    x.2.2.isSome = true → s.isSome = true ∨ ∃ t, BodyProp.schema t ∈ ps
  | [], d, r, s, cx, x, cx', h, hx => by
    rw [runBodyProps] at h
    obtain ⟨rfl, rfl⟩ := act_pure.1 h
    exact .inl hx
  | .schema t :: ps, d, r, s, cx, x, cx', h, hx => .inr ⟨t, .head _⟩
  | .description s :: ps, d, r, s', cx, x, cx', h, hx => by
    rw [runBodyProps] at h
    exact (runBodyProps_right h hx).imp id fun ⟨t, ht⟩ => ⟨t, .tail _ ht⟩
  | .required s :: ps, d, r, s', cx, x, cx', h, hx => by
    rw [runBodyProps] at h
    exact (runBodyProps_right h hx).imp id fun ⟨t, ht⟩ => ⟨t, .tail _ ht⟩

theorem BodyDecl.run_right {b : BodyDecl} {cx x cx'} (h : b.run c cx = some (x, cx')) : b.Ok := by
  cases b with
  | type t => trivial
  | props ps =>
    rw [BodyDecl.run] at h
    obtain ⟨⟨d, r, s⟩, cx1, h1, h⟩ := act_bind.1 h
    cases s with
    | none => cases h
    | some s =>
      rcases runBodyProps_right h1 rfl with h | h
      · cases h
      · exact h

theorem SecurityDecl.run_right {s : SecurityDecl} {cx x cx'} (h : s.run cx = some (x, cx')) : s.Ok := by
  cases s with
  | literal n roles =>
    cases roles with
    | nil => rfl
    | cons a as => cases h
  | scheme n v roles =>
    cases roles with
    | nil => rfl
    | cons a as => cases h

theorem runSecurityItems_right : ∀ {ss : List SecurityDecl} {m cx x cx'}, runSecurityItems ss m cx = some (x, cx') → ∀ s ∈ ss, s.Ok
  | [], _, _, _, _, _ => fun _ h => by cases h
  | s :: ss, m, cx, x, cx', h => by
    rw [runSecurityItems] at h
    obtain ⟨y, cx1, h1, h⟩ := act_bind.1 h
    rw [List.forall_mem_cons]
    exact ⟨SecurityDecl.run_right h1, runSecurityItems_right h⟩

theorem runSecurity_right : ∀ {alts : List (List SecurityDecl)} {cx x cx'}, runSecurity alts cx = some (x, cx') →
    ∀ alt ∈ alts, alt ≠ [] ∧ ∀ s ∈ alt, s.Ok
  | [], _, _, _, _ => fun _ h => by cases h
  | [] :: alts, cx, x, cx', h => by rw [runSecurity] at h; cases h
  | (s :: ss) :: alts, cx, x, cx', h => by
    rw [runSecurity] at h
    · obtain ⟨y, cx1, h1, h⟩ := act_bind.1 h
      obtain ⟨z, cx2, h2, h⟩ := act_bind.1 h
      rw [List.forall_mem_cons]
      exact ⟨⟨nofun, runSecurityItems_right h1⟩, runSecurity_right h2⟩
    · exact nofun

theorem runResponse_right {code d s cx x cx'} (h : runResponse c code d s cx = some (x, cx')) : code < 65536 := by
  rw [runResponse] at h
  obtain ⟨y, cx1, h1, h⟩ := act_bind.1 h
  split at h
  · assumption
  · cases h

mutual
theorem runOpProps_right : ∀ {ps : List OpProp} {o cx x cx'}, runOpProps c ps o cx = some (x, cx') → OpOk ps
  | [], _, _, _, _, _ => by rw [OpOk]; trivial
  | .summary s :: ps, o, cx, x, cx', h => by rw [runOpProps] at h; rw [OpOk]; exact runOpProps_right h
  | .operationId s :: ps, o, cx, x, cx', h => by rw [runOpProps] at h; rw [OpOk]; exact runOpProps_right h
  | .description s :: ps, o, cx, x, cx', h => by rw [runOpProps] at h; rw [OpOk]; exact runOpProps_right h
  | .deprecated s :: ps, o, cx, x, cx', h => by rw [runOpProps] at h; rw [OpOk]; exact runOpProps_right h
  | .tags s :: ps, o, cx, x, cx', h => by rw [runOpProps] at h; rw [OpOk]; exact runOpProps_right h
  | .parameters ds :: ps, o, cx, x, cx', h => by
    rw [runOpProps] at h; rw [OpOk]
    obtain ⟨y, cx1, h1, h⟩ := act_bind.1 h
    exact runOpProps_right h
  | .callbacks cs :: ps, o, cx, x, cx', h => by
    rw [runOpProps] at h; rw [OpOk]
    obtain ⟨y, cx1, h1, h⟩ := act_bind.1 h
    exact ⟨runCallbacks_right h1, runOpProps_right h⟩
  | .security alts :: ps, o, cx, x, cx', h => by
    rw [runOpProps] at h; rw [OpOk]
    obtain ⟨y, cx1, h1, h⟩ := act_bind.1 h
    exact ⟨runSecurity_right h1, runOpProps_right h⟩
  | .body b :: ps, o, cx, x, cx', h => by
    rw [runOpProps] at h; rw [OpOk]
    obtain ⟨y, cx1, h1, h⟩ := act_bind.1 h
    exact ⟨BodyDecl.run_right h1, runOpProps_right h⟩
  | .response code d s :: ps, o, cx, x, cx', h => by
    rw [runOpProps] at h; rw [OpOk]
    obtain ⟨y, cx1, h1, h⟩ := act_bind.1 h
    exact ⟨runResponse_right h1, runOpProps_right h⟩
theorem runCallbacks_right : ∀ {cs : List CallbackDecl} {m cx x cx'}, runCallbacks c cs m cx = some (x, cx') → CallbacksOk cs
  | [], _, _, _, _, _ => by rw [CallbacksOk]; trivial
  | .literal n ps :: cs, m, cx, x, cx', h => by
    rw [runCallbacks] at h; rw [CallbacksOk]
    cases cs with
    | nil => rfl
    | cons a as => cases h
  | .ident n ps :: cs, m, cx, x, cx', h => by
    rw [runCallbacks] at h; rw [CallbacksOk]
    obtain ⟨y, cx1, h1, h⟩ := act_bind.1 h
    exact ⟨runPaths_right h1, runCallbacks_right h⟩
theorem runPaths_right : ∀ {ds : List PathDecl} {cx x cx'}, runPaths c ds cx = some (x, cx') → PathsOk ds
  | [], _, _, _, _ => by rw [PathsOk]; trivial
  | .mk segs props :: ds, cx, x, cx', h => by
    rw [runPaths] at h; rw [PathsOk]
    obtain ⟨y, cx1, h1, h⟩ := act_bind.1 h
    obtain ⟨z, cx2, h2, h⟩ := act_bind.1 h
    rw [PathDecl.run] at h1
    cases segs with
    | nil => cases h1
    | cons a as =>
      simp only [List.isEmpty_cons, Bool.false_eq_true, if_false] at h1
      obtain ⟨u, cx3, h3, h1⟩ := act_bind.1 h1
      obtain ⟨v, cx4, h4, h1⟩ := act_bind.1 h1
      exact ⟨⟨nofun, runUrl_right h3, runItemProps_right h4⟩, runPaths_right h2⟩
theorem runItemProps_right : ∀ {ps : List ItemProp} {v cx x cx'}, runItemProps c ps v cx = some (x, cx') → ItemOk ps
  | [], _, _, _, _, _ => by rw [ItemOk]; trivial
  | .summary s :: ps, o, cx, x, cx', h => by rw [runItemProps] at h; rw [ItemOk]; exact runItemProps_right h
  | .description s :: ps, o, cx, x, cx', h => by rw [runItemProps] at h; rw [ItemOk]; exact runItemProps_right h
  | .parameters ds :: ps, o, cx, x, cx', h => by
    rw [runItemProps] at h; rw [ItemOk]
    obtain ⟨y, cx1, h1, h⟩ := act_bind.1 h
    exact runItemProps_right h
  | .operation m os :: ps, o, cx, x, cx', h => by
    rw [runItemProps] at h; rw [ItemOk]
    obtain ⟨y, cx1, h1, h⟩ := act_bind.1 h
    exact ⟨runOpProps_right h1, runItemProps_right h⟩
end

theorem runSchemes_right : ∀ {ds : List SchemeDecl} {cx x cx'}, runSchemes ds cx = some (x, cx') → ∀ d ∈ ds, ∃ s, SchemeOf d s
  | [], _, _, _, _ => fun _ h => by cases h
  | d :: ds, cx, x, cx', h => by
    rw [runSchemes] at h
    rw [List.forall_mem_cons, ← d.scheme_some]
    cases hd : d.scheme with
    | none => rw [hd] at h; cases h
    | some y =>
      obtain ⟨n, s⟩ := y
      rw [hd] at h
      obtain ⟨u', cx1, h1, h⟩ := act_bind.1 h
      exact ⟨⟨_, rfl⟩, runSchemes_right h⟩

theorem Section.run_right {s : Section} {d cx x cx'} (h : s.run c d cx = some (x, cx')) : s.Ok := by
  cases s with
  | info ps =>
    rw [Section.run] at h
    cases hi : runInfo ps none none none with
    | none => rw [hi] at h; cases h
    | some i => simpa [Section.Ok] using (runInfo_iff ps none none none).1 ⟨i, hi⟩
  | tags ts => trivial
  | servers ss => trivial
  | securitySchemes ss =>
    rw [Section.run] at h
    obtain ⟨u', cx1, h1, h⟩ := act_bind.1 h
    exact runSchemes_right h1
  | paths ps =>
    rw [Section.run] at h
    obtain ⟨u', cx1, h1, h⟩ := act_bind.1 h
    exact runPaths_right h1

theorem runSections_right : ∀ {ss : Api} {d cx x cx'}, runSections c ss d cx = some (x, cx') → ss.Ok
  | [], _, _, _, _, _ => fun _ h => by cases h
  | s :: ss, d, cx, x, cx', h => by
    rw [runSections] at h
    obtain ⟨u', cx1, h1, h⟩ := act_bind.1 h
    exact List.forall_mem_cons.2 ⟨Section.run_right h1, runSections_right h⟩

/-! ## Enough fuel -/

theorem Ran.mono {env : Env} {reason n k} (hk : n ≤ k) {ps rs cx cx'} (h : Ran (⟨env, n, reason⟩ : Ctx) ps rs cx cx') :
    Ran (⟨env, k, reason⟩ : Ctx) ps rs cx cx' := by
  induction h with
  | nil => exact .nil _
  | mention h _ ih => exact .mention (mentionSchema_mono hk h) ih
  | scheme _ ih => exact .scheme ih
  | literal _ ih => exact .literal ih
  | raw _ ih => exact .raw ih

theorem ran_of_calls {env : Env} (reason) : ∀ (ps : List Part) {rs cx cx'}, CallsReturn env cx (callsOf ps) rs cx' →
    ∃ n, Ran (⟨env, n, reason⟩ : Ctx) ps rs cx cx'
  | [], rs, cx, cx', h => by cases h; exact ⟨0, .nil _⟩
  | .mention t :: ps, rs, cx, cx', h => by
    have e : callsOf (.mention t :: ps) = .mention t false {} :: callsOf ps := rfl
    rw [e] at h
    cases h with
    | mention h hr =>
      obtain ⟨n, h⟩ := h
      obtain ⟨k, hr⟩ := ran_of_calls reason ps hr
      exact ⟨max n k, .mention (mentionSchema_mono (Nat.le_max_left ..) h) (hr.mono (Nat.le_max_right ..))⟩
  | .scheme m s :: ps, rs, cx, cx', h => by
    have e : callsOf (.scheme m s :: ps) = .security m s :: callsOf ps := rfl
    rw [e] at h
    cases h with
    | security hr =>
      obtain ⟨k, hr⟩ := ran_of_calls reason ps hr
      exact ⟨k, .scheme hr⟩
  | .literal _ :: ps, rs, cx, cx', h => by
    obtain ⟨k, hr⟩ := ran_of_calls reason ps h
    exact ⟨k, .literal hr⟩
  | .raw _ :: ps, rs, cx, cx', h => by
    obtain ⟨k, hr⟩ := ran_of_calls reason ps h
    exact ⟨k, .raw hr⟩

theorem describes_of_ok {env : Env} {reason} {api : Api} (ok : api.Ok) {rs cx} (h : CallsReturn env .empty (callsOf api.parts) rs cx) :
    ∃ d, Describes env reason api d := by
  obtain ⟨n, h⟩ := ran_of_calls reason api.parts h
  have h : Going (⟨env, n, reason⟩ : Ctx) (pathParts api.pathList ++ []) .empty := by rw [List.append_nil]; exact ⟨_, _, h⟩
  obtain ⟨d, cx', h, -, -⟩ := runSections_progress (ask_derived_framed _) api .empty ok [] .empty h
  exact ⟨{ d with components := cx' }, n, by rw [describeApi, h]⟩

/-! ## With hand written impls -/

theorem ran_of_exec {w : Ty → Impl Ty} (reason) {n : Nat} : ∀ (ps : List Part) {rs cx cx'},
    (partsProg ps).exec (implOps w (runProg w n)) cx = some (rs, cx') → Ran (⟨w, n + 1, reason⟩ : MixedCtx) ps rs cx cx'
  | [], rs, cx, cx', h => by cases h; exact .nil _
  | .mention t :: ps, rs, cx, cx', h => by
    rw [partsProg, Prog.exec] at h
    cases hm : (implOps w (runProg w n)).mention t false {} cx with
    | none => rw [hm] at h; cases h
    | some y =>
      rw [hm] at h
      simp only [exec_bind] at h
      cases hp : (partsProg ps).exec (implOps w (runProg w n)) y.2 with
      | none => rw [hp] at h; cases h
      | some z =>
        rw [hp] at h
        cases h
        exact .mention (by rw [ask_mixed]; exact hm) (ran_of_exec reason ps hp)
  | .scheme m s :: ps, rs, cx, cx', h => .scheme (ran_of_exec reason ps h)
  | .literal _ :: ps, rs, cx, cx', h => .literal (ran_of_exec reason ps h)
  | .raw _ :: ps, rs, cx, cx', h => .raw (ran_of_exec reason ps h)

theorem describesVia_of_ok {w : Ty → Impl Ty} {reason} {api : Api} (ok : api.Ok) {rs cx}
    (h : ProgReturns w (partsProg api.parts) .empty rs cx) : ∃ d, DescribesVia w reason api d := by
  obtain ⟨n, h⟩ := h
  cases n with
  | zero => cases h
  | succ n =>
    have h : Going (⟨w, n + 1, reason⟩ : MixedCtx) (pathParts api.pathList ++ []) .empty := by
      rw [List.append_nil]; exact ⟨_, _, ran_of_exec reason _ h⟩
    obtain ⟨d, cx', h, -, -⟩ := runSections_progress (fun t => runProg_framed w (n + 1) _ _) api .empty ok [] .empty h
    exact ⟨{ d with components := cx' }, n + 1, by rw [describeApi, h]⟩

theorem DescribesVia.ok {w : Ty → Impl Ty} {reason} {api : Api} {d} (h : DescribesVia w reason api d) : api.Ok := by
  obtain ⟨n, h⟩ := h
  rw [describeApi] at h
  split at h
  · cases h
  · rename_i h1
    exact runSections_right h1

theorem Describes.ok {env : Env} {reason} {api : Api} {d} (h : Describes env reason api d) : api.Ok := by
  obtain ⟨n, h⟩ := h
  rw [describeApi] at h
  split at h
  · cases h
  · rename_i h1
    exact runSections_right h1

end Verif
