import Verif.Props.Mixed
import Verif.Props.ExactMore
import Verif.Proof.Composed
import Verif.Proof.Published
import Verif.Proof.Spared
/-!
# C57, C60: order and security, in programs with hand written impls
-/

namespace Verif

open Sample

section
variable {κ : Type} [Mentioner κ] {c : κ}

theorem runSections_servers (ss : Api) {d cx d' cx'} (h : runSections c ss d cx = some (d', cx')) :
    d'.servers.map (fun s => (s.url, s.description)) = d.servers.map (fun s => (s.url, s.description)) ++ ss.flatMap Section.serverList := by
  induction ss generalizing d cx with
  | nil =>
    simp only [runSections, act_pure] at h
    obtain ⟨rfl, rfl⟩ := h
    simp
  | cons s ss ih =>
    simp only [runSections, act_bind] at h
    obtain ⟨d1, cx1, h1, h⟩ := h
    rw [ih h, List.flatMap_cons, ← List.append_assoc]
    congr 1
    cases s with
    | info ps =>
      rw [Section.run] at h1
      cases hi : runInfo ps none none none with
      | none => rw [hi] at h1; exact absurd h1 (by simp)
      | some i =>
        rw [hi] at h1
        obtain ⟨rfl, -⟩ := act_pure.1 h1
        simp [Section.serverList]
    | tags ts =>
      obtain ⟨rfl, -⟩ := act_pure.1 h1
      simp [Section.serverList]
    | servers ts =>
      obtain ⟨rfl, -⟩ := act_pure.1 h1
      simp [Section.serverList, Function.comp_def]
    | securitySchemes ts =>
      obtain ⟨u, cx2, h2, h3⟩ := act_bind.1 h1
      obtain ⟨rfl, -⟩ := act_pure.1 h3
      simp [Section.serverList]
    | paths ps =>
      obtain ⟨its, cx2, h2, h3⟩ := act_bind.1 h1
      obtain ⟨rfl, -⟩ := act_pure.1 h3
      simp [Section.serverList]

theorem describeApi_servers {api : Api} {d : Opg} (h : describeApi c api = some d) :
    d.servers.map (fun s => (s.url, s.description)) = api.flatMap Section.serverList := by
  unfold describeApi at h
  split at h
  · cases h
  · rename_i d1 cx hr
    cases h
    exact runSections_servers (d := .empty) (d' := d1) api hr
end

/-- **C57** (hand written impls).  Whatever the impls do, the paths and servers are the described ones, in order, and so are the security
requirements and tags of operations. -/
theorem c57_mixed (w : Ty → Impl Ty) (reason : Nat → Option String) (api : Api) (d : Opg) (h : DescribesVia w reason api d) :
    Pointwise (fun decl pv => Pointwise SegOf decl.segments pv.1) api.pathList d.paths ∧
    d.servers.map (fun s => (s.url, s.description)) = api.flatMap Section.serverList ∧
    ∀ ps o, OpIn api d ps o → Pointwise AlternativeOf (ps.flatMap OpProp.securityList) o.security ∧ o.tags = ps.flatMap OpProp.tagList :=
  ⟨h.composed.order, h.elim fun _ h => describeApi_servers h, fun _ _ ho => ⟨(h.composed.operations ho).security, (h.composed.operations ho).tags⟩⟩

theorem scheme_part {alt : List SecurityDecl} {n sch sc} (hs : SecurityDecl.scheme n sch sc ∈ alt) :
    ∀ (l : List OpProp), alt ∈ l.flatMap OpProp.securityList → Part.scheme n sch ∈ opParts l := by
  intro l
  induction l with
  | nil => intro h; cases h
  | cons a l ih =>
    intro hl
    rw [List.flatMap_cons] at hl
    rcases List.mem_append.1 hl with hx | hx
    · cases a with
      | security alts =>
        rw [opParts]
        exact List.mem_append_left _ (List.mem_flatMap.2 ⟨alt, hx, List.mem_flatMap.2 ⟨_, hs, List.mem_singleton.2 rfl⟩⟩)
      | _ => cases hx
    · cases a <;> rw [opParts] <;> first | exact ih hx | exact List.mem_append_right _ (ih hx)

/-- **C60**, exactly (hand written impls).  Whatever the impls do, all names in the security requirements of a described document are
registered iff those given as string literals are. -/
theorem c60_mixed_exact (w : Ty → Impl Ty) (reason : Nat → Option String) (api : Api) (d : Opg) (h : DescribesVia w reason api d) :
    (∀ ps o, OpIn api d ps o → ∀ m ∈ o.security, ∀ b ∈ m, b.1 ∈ BMap.keys d.components.securitySchemes) ↔
    (∀ ps o, OpIn api d ps o → ∀ alt ∈ ps.flatMap OpProp.securityList, ∀ s ∈ alt, ¬ s.IsScheme →
      s.name ∈ BMap.keys d.components.securitySchemes) := by
  have hc := h.composed
  constructor
  · intro hk ps o ho alt ha s hs _
    obtain ⟨i, hi⟩ := List.getElem?_of_mem ha
    obtain ⟨m, hm, ao⟩ := (hc.operations ho).security.get hi
    exact hk ps o ho m (List.mem_of_getElem? hm) (s.name, []) (BMap.mem_of_get ((ao.names s.name).2 ⟨s, hs, rfl⟩))
  · intro hk ps o ho m hm b hb
    obtain ⟨alt, ha, ao⟩ := (hc.operations ho).security.mem_rightP hm
    have hg : (BMap.get b.1 m).isSome := BMap.get_isSome_iff.2 (List.mem_map.2 ⟨b, hb, rfl⟩)
    obtain ⟨v, hv⟩ := Option.isSome_iff_exists.1 hg
    have hv' := ao.scopes _ _ hv
    subst hv'
    obtain ⟨s, hs, hn⟩ := (ao.names b.1).1 hv
    rw [← hn]
    cases s with
    | literal n sc => exact hk ps o ho alt ha _ hs (fun f => f)
    | scheme n sch sc =>
      obtain ⟨k, h⟩ := h
      obtain ⟨rs, hw, -⟩ := describeApi_went h
      exact (hw.keysKept (ask_kept k)).2 n sch (ho.parts hc _ (scheme_part hs ps ha))

section
variable {κ : Type} [Mentioner κ] {c : κ}

theorem runSections_lastTag (name : String) (ss : Api) {d cx d' cx'} (h : runSections c ss d cx = some (d', cx')) :
    BMap.get name d'.tags = (lastOf (tagNamed? name) (ss.flatMap Section.tagList)).or (BMap.get name d.tags) := by
  induction ss generalizing d cx with
  | nil =>
    simp only [runSections, act_pure] at h
    obtain ⟨rfl, rfl⟩ := h
    simp
  | cons s ss ih =>
    simp only [runSections, act_bind] at h
    obtain ⟨d1, cx1, h1, h⟩ := h
    rw [ih h, List.flatMap_cons, lastOf_append, Option.or_assoc]
    congr 1
    cases s with
    | info ps =>
      rw [Section.run] at h1
      cases hi : runInfo ps none none none with
      | none => rw [hi] at h1; exact absurd h1 (by simp)
      | some i =>
        rw [hi] at h1
        obtain ⟨rfl, -⟩ := act_pure.1 h1
        simp [Section.tagList]
    | tags ts =>
      obtain ⟨rfl, -⟩ := act_pure.1 h1
      simp only [BMap.get_insertAll, get_reverse_tags]
      simp [Section.tagList]
    | servers ts =>
      obtain ⟨rfl, -⟩ := act_pure.1 h1
      simp [Section.tagList]
    | securitySchemes ts =>
      obtain ⟨u, cx2, h2, h3⟩ := act_bind.1 h1
      obtain ⟨rfl, -⟩ := act_pure.1 h3
      simp [Section.tagList]
    | paths ps =>
      obtain ⟨its, cx2, h2, h3⟩ := act_bind.1 h1
      obtain ⟨rfl, -⟩ := act_pure.1 h3
      simp [Section.tagList]

theorem describeApi_lastTag (name : String) {api : Api} {d : Opg} (h : describeApi c api = some d) :
    BMap.get name d.tags = lastOf (tagNamed? name) (api.flatMap Section.tagList) := by
  unfold describeApi at h
  split at h
  · cases h
  · rename_i d1 cx hr
    cases h
    have := runSections_lastTag (d := .empty) (d' := d1) name api hr
    simpa [Opg.empty] using this
end

/-- **C58** (hand written impls), for tags. -/
theorem c58_mixed_tags (w : Ty → Impl Ty) (reason : Nat → Option String) (api : Api) (d : Opg) (h : DescribesVia w reason api d)
    (name : String) : BMap.get name d.tags = lastOf (tagNamed? name) (api.flatMap Section.tagList) :=
  h.elim fun _ h => describeApi_lastTag name h

/-- **C58** (hand written impls).  Whatever the impls do, the last scheme declared under a name is the one in the document.  If none is
declared, and no impl mentions one of that name, it is the first one mentioned by a security requirement. -/
theorem c58_mixed_schemes (env : Env) (custom : Nat → Option (Impl Ty)) (reason : Nat → Option String) (api : Api) (d : Opg)
    (h : DescribesVia (impls env custom) reason api d) (name : String) :
    (∀ decl, lastOf (SchemeDecl.named? name) (api.flatMap Section.schemeList) = some decl →
      ∃ s, BMap.get name d.components.securitySchemes = some s ∧ SchemeOf decl s) ∧
    (lastOf (SchemeDecl.named? name) (api.flatMap Section.schemeList) = none →
      (∀ i im, custom i = some im → im.Spares (· = name)) →
      BMap.get name d.components.securitySchemes = api.parts.findSome? (Part.scheme? name)) := by
  obtain ⟨fuel, h⟩ := h
  unfold describeApi at h
  split at h
  · cases h
  · rename_i d1 cx hr
    cases h
    constructor
    · intro decl hl
      have := runSections_declared (name := name) (ask_kept fuel) api hr
      unfold DeclaredAfter at this
      rw [hl] at this
      exact this
    · intro hl hw
      have := runSections_schemes (name := name) (fun t cx r cx' hx =>
        runProg_spared (impls_spare env custom hw) fuel _ (.mention t false {} .ret) (fun _ => trivial) _ _ _ hx name rfl) api hr
      unfold SchemeAfter at this
      rw [hl] at this
      exact this

/-- **C58** (hand written impls), for the operations of a path, at any depth. -/
theorem c58_mixed_operations (w : Ty → Impl Ty) (reason : Nat → Option String) (api : Api) (d : Opg) (h : DescribesVia w reason api d)
    (decl : PathDecl) (p : UrlPath) (v : PathValue) (hi : ItemIn api d decl (p, v)) (m : HttpMethod) :
    (∀ ps, lastOf (ItemProp.operation? m) decl.props = some ps → ∃ o, BMap.get m v.operations = some o ∧ OpIn api d ps o) ∧
    (lastOf (ItemProp.operation? m) decl.props = none → BMap.get m v.operations = none) :=
  ⟨fun _ hm => h.composed.operation hi hm, fun hm => ((h.composed.items hi).operations m).2 hm⟩

/-- `c57_mixed`, `c60_mixed_exact`: a document with several paths, and with operations that have security requirements. -/
example : DescribesVia (impls env byHand) reason api mixedDoc ∧ mixedDoc.paths.length = 3 ∧ mixedDoc.servers.length = 2 ∧
    ∃ ps o, OpIn api mixedDoc ps o ∧ o.security = [[("basic", [])], [("basic", []), ("key", [])]] ∧ o.tags = ["a", "b"] :=
  ⟨mixed_described, rfl, rfl, getOp, _, .mk (m := .get) (.top (i := 0) rfl rfl) rfl rfl, rfl, rfl⟩

/-- The scheme of an impl that mentions one counts only if the description declares none of that name. -/
theorem c58_spares_needed : ∃ (env : Env) (custom : Nat → Option (Impl Ty)) (reason : Nat → Option String) (api : Api) (d : Opg) (s : SecurityScheme),
    DescribesVia (impls env custom) reason api d ∧ api.flatMap Section.schemeList = [] ∧ BMap.get "key" d.components.securitySchemes = some s ∧
    api.parts.findSome? (Part.scheme? "key") = none :=
  ⟨env, fun _ => some { schema := .security "key" (.http (.basic none)) (.ret str), name := some "Pet" }, reason,
    [.paths [.mk [.literal "a"] [.operation .get [.response 200 none (.type (.named 0))]]]], _, _, ⟨10, rfl⟩, rfl, rfl, by
      simp [Api.parts, Api.pathList, Section.pathList, pathParts, itemParts, opParts, PathSeg.parts, ResponseDecl.parts, Part.scheme?]⟩

/-- `c58_mixed_schemes`, `c58_mixed_tags`, `c58_mixed_operations`: a document with schemes, tags and operations, of a program where no impl
mentions a scheme. -/
example : DescribesVia (impls env byHand) reason api mixedDoc ∧ (∀ name i im, byHand i = some im → im.Spares (· = name)) ∧
    BMap.keys mixedDoc.components.securitySchemes = ["basic", "key"] ∧ BMap.keys mixedDoc.tags = ["a", "t"] := by
  refine ⟨mixed_described, fun name i im h => ?_, rfl, rfl⟩
  unfold byHand at h
  split at h
  · cases h
    refine ⟨fun b => ?_, nofun, nofun⟩
    cases b <;> exact fun _ => trivial
  · cases h

end Verif
