import Verif.Props.Docs
import Verif.Props.Order
import Verif.Proof.ApiDoc
/-!
# Described APIs (C24, C25, C56–C61, C64)
-/

namespace Verif

/-! ## A sample description -/

namespace Sample

def reason : Nat → Option String
  | 200 => some "OK"
  | 404 => some "Not Found"
  | _ => none

/-- `("done"): { PUT: { 200: None } }` -/
def callbackPath : PathDecl := .mk [.literal "done"] [.operation .put [.response 200 none .absent]]

def getOp : List OpProp := [.summary "first", .summary "Get a user", .tags ["a", "b"],
  .parameters [.header "X-Request" [], .query "limit" (.prim .u32) [.description "at most", .required true], .query "limit" (.prim .u32) []],
  .security [[.scheme "basic" (.http (.basic none)) []], [.literal "key" [], .scheme "basic" (.http (.bearer none none)) []]],
  .response 200 (some "fine") (.type (.named 3)), .response 404 none .absent, .response 200 none (.type (.named 0)),
  .callbacks [.ident "onDone" [callbackPath]]]

def usersPath : PathDecl := .mk [.literal "users", .named "id" (.prim .u32)]
  [.description "d", .operation .get getOp, .operation .post [.body (.type (.named 1))]]

def api : Api := [.info [.title "T", .version "1"],
  .tags [("t", none), ("a", none), ("t", some "tag")],
  .servers [("https://x", none)],
  .securitySchemes [.apiKey "key" [.name "k"], .http "basic" [.basic, .description "b"]],
  .paths [usersPath, .mk [.literal "pets"] []],
  .servers [("https://y", some "second")],
  .paths [.mk [.literal "pets", .bare (.mk false [("models", []), ("PetId", [])]) (.prim .u32)] []]]

def apiDoc : Opg := (describeApi (⟨env, 10, reason⟩ : Ctx) api).getD .empty

theorem api_described : Describes env reason api apiDoc := ⟨10, rfl⟩

example : apiDoc.paths.map (fun p => UrlPath.render p.1) = ["/users/{id}", "/pets", "/pets/{petId}"] ∧
    BMap.keys apiDoc.components.schemas = ["Owner", "Pet", "User"] ∧ BMap.keys apiDoc.tags = ["a", "t"] ∧
    BMap.keys apiDoc.components.securitySchemes = ["basic", "key"] := ⟨rfl, rfl, rfl, rfl⟩

end Sample

open Sample

/-! ## C24 -/

/-- Links that are registered are written as references that resolve. -/
theorem refs_written {d : Opg} (hg : ∀ b ∈ d.components.schemas, ∀ l ∈ b.2.links, l ∈ BMap.keys d.components.schemas)
    (hp : forallPaths (docAll (Ref.All False (· ∈ BMap.keys d.components.schemas)) fun _ => True) d.paths) :
    ∀ s ∈ d.ser.refStrings, ∃ name components schemas v, s = "#/components/schemas/" ++ name ∧
      d.ser.at "components" = some components ∧ components.at "schemas" = some schemas ∧ schemas.at name = some v := by
  have := doc_good (good_refs (· ∈ BMap.keys d.components.schemas)) (d := d)
    (Opg.forall_imp (R := docOk False (· ∈ BMap.keys d.components.schemas)) (P := docAll (Ref.All False (· ∈ BMap.keys d.components.schemas)) fun _ => True)
      (Q := docAll (Ref.All False (· ∈ BMap.keys d.components.schemas)) fun _ => True)
      ⟨fun o ho _ => ⟨fun f => f.elim, fun r hr => ⟨fun f => f.elim, (ho.2.1 r hr).1⟩⟩,
       fun v hv _ => ⟨fun f => f.elim, fun r hr => ⟨fun f => f.elim, (hv.2 r hr).1⟩⟩, fun _ _ _ f => f.elim⟩
      d ⟨trivial, hp⟩ ⟨trivial, hp⟩)
    (fun f => f.elim) (fun f => f.elim) (fun b hb => ⟨fun f => f.elim, hg b hb⟩)
  intro s hs
  obtain ⟨name, rfl, hn⟩ := this s hs
  obtain ⟨m, hm⟩ : ∃ m, BMap.get name d.components.schemas = some m := by
    cases hg : BMap.get name d.components.schemas with
    | some m => exact ⟨m, rfl⟩
    | none => have := BMap.containsKey_iff.2 hn; simp [BMap.containsKey, hg] at this
  refine ⟨name, d.components.ser, .map (d.components.schemas.map fun b => (.str b.1, b.2.ser)), m.ser, rfl, ?_, ?_, ?_⟩
  · simp [Opg.ser, Value.at_map]
  · have hne : d.components.schemas ≠ [] := by intro e; rw [e] at hm; cases hm
    simp [Components.ser, Value.at_map, nonEmptyMap, hne]
  · have key : ∀ l : List (String × Model), BMap.get name l = some m →
        BMap.get (Key.str name) (l.map fun b => (.str b.1, b.2.ser)) = some m.ser := by
      intro l
      induction l with
      | nil => intro h; cases h
      | cons b l ih =>
        intro h
        rw [List.map_cons, BMap.get_cons]
        rw [BMap.get_cons] at h
        by_cases e : b.1 = name
        · simp [e] at h ⊢; rw [h]
        · have e' : ¬ name = b.1 := fun x => e x.symm
          simp [e'] at h ⊢; exact ih h
    exact key _ hm

/-- C24: in a described document, every `$ref` at any depth is `#/components/schemas/` and the name of a written
component.  The links of schemas that the user supplies as Rust expressions (`200: { expr }`) have to be registered:
nothing checks them, see `c24_needs_registered_expressions`. -/
theorem c24_refs_resolve (env : Env) (reason : Nat → Option String) (api : Api) (d : Opg) (h : Describes env reason api d)
    (raws : ∀ r, Part.raw r ∈ api.parts → ∀ l ∈ r.links, l ∈ BMap.keys d.components.schemas) :
    ∀ s ∈ d.ser.refStrings, ∃ name components schemas v, s = "#/components/schemas/" ++ name ∧
      d.ser.at "components" = some components ∧ components.at "schemas" = some schemas ∧ schemas.at name = some v := by
  obtain ⟨hg, hp⟩ := h.good (W := False) (fun r hr => ⟨raws r hr, fun _ _ f => f.elim⟩) (fun _ => True)
    (fun _ _ _ => trivial) (fun _ _ => trivial)
  exact refs_written (fun b hb => (hg b hb).1) hp

example : (∀ r, Part.raw r ∈ api.parts → ∀ l ∈ r.links, l ∈ BMap.keys apiDoc.components.schemas) ∧
    apiDoc.components.schemas.flatMap (fun b => b.2.links) = ["Pet", "User", "Pet"] := by
  constructor
  · intro r hr
    simp [Api.parts, Api.pathList, api, Section.pathList, pathParts, usersPath, itemParts, getOp, opParts, callbackParts, PathSeg.parts,
      ParamDecl.parts, ParamProp.parts, SecurityDecl.parts, ResponseDecl.parts, BodyDecl.parts, callbackPath] at hr
  · decide +kernel

/-- The hypothesis of `c24_refs_resolve` is needed: a link written as a Rust expression is copied as it is. -/
theorem c24_needs_registered_expressions : ∃ (env : Env) (reason : Nat → Option String) (api : Api) (d : Opg),
    Describes env reason api d ∧ "#/components/schemas/Nothing" ∈ d.ser.refStrings ∧ d.components.schemas = [] :=
  ⟨env, reason, [.paths [.mk [.literal "a"] [.operation .get [.response 200 none (.raw (some (.link "Nothing")))]]]], _,
    ⟨10, rfl⟩, by simp [Opg.ser, Value.refStrings]; decide, rfl⟩

/-! ## C25 -/

/-- The documents of C20, C21, C22 and C25 include all described ones: all maps of a described document are in key
order (if those of the schemas the user supplies as Rust expressions are). -/
theorem c25_described_documents (env : Env) (reason : Nat → Option String) (api : Api) (d : Opg)
    (h : Describes env reason api d) (raws : ∀ r, Part.raw r ∈ api.parts → r.PropsSorted) : d.MapsSorted := by
  obtain ⟨rs, sx, hr, es, hp⟩ := h.registry
  obtain ⟨c, -, -, s⟩ := h.step
  have hg := hr.good (W := True) (callsOf_mentions _) Components.good_empty
  have hd := hp Ref.PropsSorted (fun _ => True) ⟨fun r hr => fun o ho => ((hg.2 r hr).2 o ho trivial).1, raws,
    fun _ _ _ => trivial, fun _ _ => trivial⟩
  refine ⟨s.tagsSorted BMap.sorted_nil, ?_, ?_, s.schemesSorted BMap.sorted_nil, ?_⟩
  · refine Opg.forall_imp (P := docAll Ref.PropsSorted fun _ => True) (Q := docAll Ref.PropsSorted fun _ => True)
      ⟨fun o ho _ => ?_, fun v hv _ => ?_, fun _ _ _ => trivial⟩ d ⟨trivial, hd⟩ ⟨trivial, hd⟩
    · exact ⟨ho.1.1, ho.1.2.1, ho.1.2.2, fun m hm => (ho.2.2 m hm).1, ho.2.1⟩
    · exact ⟨hv.1.1, hv.1.2, hv.2⟩
  · rw [← es]; exact callsReturn_sorted hr BMap.sorted_nil
  · intro b hb o ho
    exact ((hg.1 b (by rw [es]; exact hb)).2 o ho trivial).1

/-- The document of a description without Rust expressions is sorted, so that e.g. equal descriptions of it agree. -/
example : apiDoc.MapsSorted := by
  refine c25_described_documents env reason api apiDoc api_described ?_
  intro r hr
  simp [Api.parts, Api.pathList, api, Section.pathList, pathParts, usersPath, itemParts, getOp, opParts, callbackParts, PathSeg.parts,
    ParamDecl.parts, ParamProp.parts, SecurityDecl.parts, ResponseDecl.parts, BodyDecl.parts, callbackPath] at hr

/-! ## C56 -/

/-- C56 is false: a parameter declared for the path takes the place of the template parameter of the same name. -/
theorem c56_is_false : ∃ (env : Env) (reason : Nat → Option String) (api : Api) (d : Opg) (p : UrlPath) (v : PathValue),
    Describes env reason api d ∧ (p, v) ∈ d.paths ∧ .parameter "x" ∈ p ∧
    ∃ param, BMap.get "x" v.parameters = some param ∧ param.parameterIn = .query ∧ param.required = false :=
  ⟨env, reason, [.paths [.mk [.named "x" (.prim .u32)] [.parameters [.query "x" (.prim .string) []]]]], _,
    [.parameter "x"], _, ⟨10, rfl⟩, List.mem_singleton.2 rfl, by simp, _, rfl, rfl, rfl⟩

/-- C56 is also false of a literal segment that looks like a template parameter. -/
theorem c56_is_false_literal : ∃ (env : Env) (reason : Nat → Option String) (api : Api) (d : Opg) (p : UrlPath) (v : PathValue),
    Describes env reason api d ∧ (p, v) ∈ d.paths ∧ UrlPath.render p = "/{x}" ∧ v.parameters = [] :=
  ⟨env, reason, [.paths [.mk [.literal "{x}"] []]], _, [.path "{x}"], _, ⟨10, rfl⟩, List.mem_singleton.2 rfl, rfl, rfl⟩

theorem segOf_typeOf {ss : List PathSeg} {p : UrlPath} (h : Pointwise SegOf ss p) {name : String}
    (hn : PathElement.parameter name ∈ p) : ∃ t, lastOf (PathSeg.typeOf? name) ss = some t := by
  induction h with
  | nil => cases hn
  | @cons s e ss es hs _ ih =>
    rw [lastOf_cons]
    cases hl : lastOf (PathSeg.typeOf? name) ss with
    | some t => exact ⟨t, rfl⟩
    | none =>
      rw [Option.none_or]
      rcases List.mem_cons.1 hn with rfl | hn
      · cases hs with
        | named _ t => exact ⟨t, by simp [PathSeg.typeOf?, PathSeg.param?]⟩
        | @bare path t _ hb => exact ⟨t, by simp [PathSeg.typeOf?, PathSeg.param?, hb]⟩
      · obtain ⟨t, ht⟩ := ih hn
        rw [hl] at ht; cases ht

/-- C56 for the template parameters of paths and callback paths, at any depth, whose name is not declared again for
the path: they are required path parameters with the schema of their type.  Missing: the other parameters, for which it
is false (`c56_is_false`), and `{name}` written as a literal (`c56_is_false_literal`). -/
theorem c56_template_parameters_partial (env : Env) (reason : Nat → Option String) (api : Api) (d : Opg)
    (h : Describes env reason api d) (decl : PathDecl) (p : UrlPath) (v : PathValue) (hi : ItemIn api d decl (p, v))
    (name : String) (hn : .parameter name ∈ p)
    (hd : ∀ x ∈ decl.props.flatMap ItemProp.paramList, x.name ≠ name) :
    ∃ param t, BMap.get name v.parameters = some param ∧ param.parameterIn = .path ∧ param.required = true ∧
      lastOf (PathSeg.typeOf? name) decl.segments = some t ∧ ∃ r, param.schema = some r ∧ Mentions env t false {} r := by
  obtain ⟨c, rfl, rfl, s⟩ := h.step
  have io := (hi.made s).itemOf
  have ht := io.template name (lastOf_none.2 fun x hx => by simp [ParamDecl.named?, hd x hx])
  obtain ⟨t, e⟩ := segOf_typeOf io.path hn
  rw [e] at ht
  obtain ⟨param, hg, u⟩ := ht
  exact ⟨param, t, hg, u.place, u.required, e, u.schema⟩

/-- Parts of the sample document. -/
def Sample.usersItem : PathValue := ((apiDoc.paths[0]?).getD ([], .empty)).2
def Sample.getOperation : Operation := (BMap.get .get usersItem.operations).getD .empty

theorem Sample.users_in : ItemIn api apiDoc usersPath ([.path "users", .parameter "id"], usersItem) := .top (i := 0) rfl rfl

theorem Sample.getOp_in : OpIn api apiDoc getOp getOperation := .mk (m := .get) users_in rfl rfl

example : ∃ v, ItemIn api apiDoc usersPath ([.path "users", .parameter "id"], v) ∧
    ∀ x ∈ usersPath.props.flatMap ItemProp.paramList, x.name ≠ "id" :=
  ⟨_, .top (i := 0) rfl rfl, by simp [usersPath, PathDecl.props, ItemProp.paramList]⟩

/-! ## C57 -/

/-- C57: the paths of the document are the described ones, in order, with the described segments; the servers are the
described ones, in order. -/
theorem c57_order (env : Env) (reason : Nat → Option String) (api : Api) (d : Opg) (h : Describes env reason api d) :
    Pointwise (fun decl pv => Pointwise SegOf decl.segments pv.1 ∧ ItemIn api d decl pv) api.pathList d.paths ∧
    d.servers.map (fun s => (s.url, s.description)) = api.flatMap Section.serverList := by
  obtain ⟨c, rfl, rfl, s⟩ := h.step
  obtain ⟨items, rs, e, hp, -⟩ := s.paths
  have e' : d.paths = items := e
  constructor
  · rw [e']
    refine hp.of_get fun i decl pv hd hpv => ?_
    exact ⟨(PathDecl.run_step (hp.at hd hpv)).2.1, .top hd (e' ▸ hpv)⟩
  · have : d.servers = [] ++ (api.flatMap Section.serverList).map fun s => ⟨s.1, s.2⟩ := s.servers
    rw [this, List.nil_append, List.map_map]
    exact List.map_id _

/-- C57 inside an operation, at any depth: the alternatives of its security requirement and its tags are the described
ones, in order. -/
theorem c57_operation_order (env : Env) (reason : Nat → Option String) (api : Api) (d : Opg) (h : Describes env reason api d)
    (ps : List OpProp) (o : Operation) (ho : OpIn api d ps o) :
    Pointwise AlternativeOf (ps.flatMap OpProp.securityList) o.security ∧ o.tags = ps.flatMap OpProp.tagList := by
  obtain ⟨c, rfl, rfl, s⟩ := h.step
  have := (ho.made s).operationOf
  exact ⟨this.security, this.tags⟩

example : api.pathList.length = 3 ∧ apiDoc.servers = [⟨"https://x", none⟩, ⟨"https://y", some "second"⟩] ∧
    getOperation.tags = ["a", "b"] ∧ getOperation.security = [[("basic", [])], [("basic", []), ("key", [])]] :=
  ⟨rfl, rfl, rfl, rfl⟩

/-! ## C58 -/

/-- C58 for tags: the last description under a name is the one in the document. -/
theorem c58_tags (env : Env) (reason : Nat → Option String) (api : Api) (d : Opg) (h : Describes env reason api d)
    (name : String) : BMap.get name d.tags = lastOf (tagNamed? name) (api.flatMap Section.tagList) := by
  obtain ⟨c, rfl, rfl, s⟩ := h.step
  have := s.tags name
  simpa [Opg.empty] using this

/-- C58 for security schemes: the last scheme declared under a name is the one in the document; if none is declared, it
is the first one mentioned by a security requirement; and there are no others. -/
theorem c58_security_schemes (env : Env) (reason : Nat → Option String) (api : Api) (d : Opg)
    (h : Describes env reason api d) (name : String) :
    (∀ decl, lastOf (SchemeDecl.named? name) (api.flatMap Section.schemeList) = some decl →
      ∃ s, BMap.get name d.components.securitySchemes = some s ∧ SchemeOf decl s) ∧
    (lastOf (SchemeDecl.named? name) (api.flatMap Section.schemeList) = none →
      BMap.get name d.components.securitySchemes = api.parts.findSome? (Part.scheme? name)) := by
  obtain ⟨c, rfl, rfl, s⟩ := h.step
  have := s.schemes name
  unfold SchemeAfter at this
  constructor
  · intro decl hd
    rw [hd] at this
    exact this
  · intro hd
    rw [hd] at this
    exact this

/-- C58 for the operations of a path, at any depth: the document has an operation for exactly the described methods, and
it is described (`OpIn`) by the last declaration for its method. -/
theorem c58_operations (env : Env) (reason : Nat → Option String) (api : Api) (d : Opg) (h : Describes env reason api d)
    (decl : PathDecl) (p : UrlPath) (v : PathValue) (hi : ItemIn api d decl (p, v)) (m : HttpMethod) :
    (∀ ps, lastOf (ItemProp.operation? m) decl.props = some ps →
      ∃ o, BMap.get m v.operations = some o ∧ OpIn api d ps o ∧ OperationOf env reason ps o) ∧
    (lastOf (ItemProp.operation? m) decl.props = none → BMap.get m v.operations = none) := by
  obtain ⟨c, rfl, rfl, s⟩ := h.step
  have io := (hi.made s).itemOf
  constructor
  · intro ps hps
    cases ho : BMap.get m v.operations with
    | none => rw [(io.operations m).1 ho] at hps; cases hps
    | some o =>
      have hoi : OpIn api d ps o := .mk hi hps ho
      exact ⟨o, rfl, hoi, (hoi.made s).operationOf⟩
  · exact (io.operations m).2

/-- C58 for the properties of an operation, at any depth: the response to a status code, the parameter of a name, the
body and the texts are those declared last, and there are no others. -/
theorem c58_operation (env : Env) (reason : Nat → Option String) (api : Api) (d : Opg) (h : Describes env reason api d)
    (ps : List OpProp) (o : Operation) (ho : OpIn api d ps o) : OperationOf env reason ps o := by
  obtain ⟨c, rfl, rfl, s⟩ := h.step
  exact (ho.made s).operationOf

/-- C58 for the properties of a path item, at any depth. -/
theorem c58_path_item (env : Env) (reason : Nat → Option String) (api : Api) (d : Opg) (h : Describes env reason api d)
    (decl : PathDecl) (p : UrlPath) (v : PathValue) (hi : ItemIn api d decl (p, v)) : ItemOf env decl p v := by
  obtain ⟨c, rfl, rfl, s⟩ := h.step
  exact (hi.made s).itemOf

/-- The last description of `t`, `GET`, status 200 and `summary` in the sample. -/
example : BMap.get "t" apiDoc.tags = some ⟨some "tag"⟩ ∧ getOperation.summary = some "Get a user" ∧
    (∃ r, BMap.get 200 getOperation.responses = some r ∧ r.description = "OK" ∧ r.schema.map Ref.links = some ["User"]) ∧
    (∃ p, BMap.get "limit" getOperation.parameters = some p ∧ p.required = false) ∧
    BMap.get "basic" apiDoc.components.securitySchemes = some (.http (.basic (some "b"))) :=
  ⟨rfl, rfl, ⟨_, rfl, rfl, by decide +kernel⟩, ⟨_, rfl, rfl⟩, rfl⟩

/-! ## C59 -/

/-- What `mention_schema::<String>` gives. -/
theorem mentions_string {env : Env} {r : Ref} (h : Mentions env (.prim .string) false {} r) :
    r = .inline ⟨none, .single ⟨false, .string none none none⟩⟩ := by
  obtain ⟨cx, cx', n, h⟩ := h
  rcases mentionWith_some h with ⟨l, hl, hr, -⟩ | ⟨hl, m, h2, hr⟩
  · simp [linkName, typeName, alwaysInline] at hl
  · obtain ⟨n', e, as, rfl, he, hr', hm⟩ := getSchema_some h2
    cases he
    cases hr'
    rw [hr, hm]
    rfl

/-- C59 for parameters of operations, at any depth: the parameter of the document is the one described last under its
name, with the properties given last; a header is required and a string unless said otherwise, a query parameter is not
required and has the schema of its type. -/
theorem c59_parameters (env : Env) (reason : Nat → Option String) (api : Api) (d : Opg) (h : Describes env reason api d)
    (ps : List OpProp) (o : Operation) (ho : OpIn api d ps o) (name : String) (decl : ParamDecl)
    (hd : lastOf (ParamDecl.named? name) (ps.flatMap OpProp.paramList) = some decl) :
    ∃ p, BMap.get name o.parameters = some p ∧ ParamOf env decl p ∧
      (decl = .header name [] → p.parameterIn = .header ∧ p.required = true ∧ p.deprecated = false ∧ p.description = none ∧
        p.schema = some (.inline ⟨none, .single ⟨false, .string none none none⟩⟩)) ∧
      (∀ t, decl = .query name t [] → p.parameterIn = .query ∧ p.required = false ∧ p.deprecated = false ∧
        p.description = none ∧ ∃ r, p.schema = some r ∧ Mentions env t false {} r) := by
  have hp := (c58_operation env reason api d h ps o ho).parameters name
  rw [hd] at hp
  obtain ⟨p, hg, hp⟩ := hp
  refine ⟨p, hg, hp, ?_, ?_⟩
  · rintro rfl
    obtain ⟨r, hr, hm⟩ := hp.schema
    exact ⟨hp.place, hp.required, hp.deprecated, hp.description, by rw [hr, mentions_string hm]⟩
  · rintro t rfl
    exact ⟨hp.place, hp.required, hp.deprecated, hp.description, hp.schema⟩

/-- C59 for request bodies, at any depth: required with an empty description unless said otherwise. -/
theorem c59_body (env : Env) (reason : Nat → Option String) (api : Api) (d : Opg) (h : Describes env reason api d)
    (ps : List OpProp) (o : Operation) (ho : OpIn api d ps o) (decl : BodyDecl) (hd : lastOf OpProp.body? ps = some decl) :
    ∃ b, o.requestBody = some b ∧ BodyOf env decl b ∧
      (∀ t, decl = .type t ∨ decl = .props [.schema t] →
        b.required = true ∧ b.description = some "" ∧ Mentions env t false {} b.schema) := by
  have hb := (c58_operation env reason api d h ps o ho).body
  rw [hd] at hb
  obtain ⟨b, hg, hb⟩ := hb
  refine ⟨b, hg, hb, ?_⟩
  rintro t (rfl | rfl)
  · obtain ⟨t', ht, hm⟩ := hb.schema
    cases ht
    exact ⟨hb.required, hb.description, hm⟩
  · obtain ⟨t', ht, hm⟩ := hb.schema
    cases ht
    exact ⟨hb.required, hb.description, hm⟩

/-- C59 for responses, at any depth: without a description, the canonical reason of the status code, or nothing. -/
theorem c59_response (env : Env) (reason : Nat → Option String) (api : Api) (d : Opg) (h : Describes env reason api d)
    (ps : List OpProp) (o : Operation) (ho : OpIn api d ps o) (code : Nat) (description : Option String) (s : ResponseDecl)
    (hd : lastOf (OpProp.response? code) ps = some (description, s)) :
    ∃ r, BMap.get code o.responses = some r ∧
      r.description = (match description, reason code with | some t, _ => t | none, some t => t | none, none => "") ∧
      (s = .absent → r.schema = none) ∧ (∀ t, s = .type t → ∃ x, r.schema = some x ∧ Mentions env t false {} x) ∧
      ∀ x, s = .raw x → r.schema = x := by
  have hr := (c58_operation env reason api d h ps o ho).responses code
  rw [hd] at hr
  obtain ⟨r, hg, hr⟩ := hr
  refine ⟨r, hg, ?_, ?_, ?_, ?_⟩
  · rw [hr.description]
    cases description <;> cases reason code <;> rfl
  · rintro rfl; exact hr.schema
  · rintro t rfl; exact hr.schema
  · rintro x rfl; exact hr.schema

/-- The declarations in the sample. -/
example : OpIn api apiDoc getOp getOperation ∧
    lastOf (ParamDecl.named? "X-Request") (getOp.flatMap OpProp.paramList) = some (.header "X-Request" []) ∧
    lastOf (ParamDecl.named? "limit") (getOp.flatMap OpProp.paramList) = some (.query "limit" (.prim .u32) []) ∧
    lastOf (OpProp.response? 404) getOp = some (none, .absent) ∧
    (BMap.get 404 getOperation.responses).map Response.description = some "Not Found" ∧
    ∃ o, OpIn api apiDoc [.body (.type (.named 1))] o ∧ o.requestBody.isSome = true :=
  ⟨getOp_in, rfl, rfl, rfl, rfl, _, .mk (m := .post) users_in rfl rfl, rfl⟩

/-! ## C60 -/

/-- C60 is false: the name of a scheme given as a literal is not checked. -/
theorem c60_is_false : ∃ (env : Env) (reason : Nat → Option String) (api : Api) (d : Opg) (ps : List OpProp) (o : Operation),
    Describes env reason api d ∧ OpIn api d ps o ∧ o.security = [[("nothing", [])]] ∧ d.components.securitySchemes = [] :=
  ⟨env, reason, [.paths [.mk [.literal "a"] [.operation .get [.security [[.literal "nothing" []]]]]]], _,
    [.security [[.literal "nothing" []]]], _, ⟨10, rfl⟩, .mk (m := .get) (.top (i := 0) rfl rfl) rfl rfl, rfl, rfl⟩

/-- C60 if the names given as literals are registered: then every name in a security requirement of an operation, at any
depth, is the name of a security scheme of the document.  In particular all names given by variables are.  Missing:
nothing makes sure that a literal is registered (`c60_is_false`). -/
theorem c60_schemes_registered_partial (env : Env) (reason : Nat → Option String) (api : Api) (d : Opg)
    (h : Describes env reason api d)
    (literals : ∀ name, Part.literal name ∈ api.parts → name ∈ BMap.keys d.components.securitySchemes) :
    d.Forall { op := fun o => ∀ m ∈ o.security, ∀ b ∈ m, b.1 ∈ BMap.keys d.components.securitySchemes } := by
  obtain ⟨rs, sx, hr, es, hp⟩ := h.registry
  have hd := hp (fun _ => True) (· ∈ BMap.keys d.components.securitySchemes) ⟨fun _ _ => trivial, fun _ _ => trivial, ?_, literals⟩
  · exact Opg.forall_imp (P := docAll (fun _ => True) (· ∈ BMap.keys d.components.securitySchemes))
      (Q := docAll (fun _ => True) (· ∈ BMap.keys d.components.securitySchemes))
      ⟨fun o ho _ m hm => (ho.2.2 m hm).2, fun _ _ _ => trivial, fun _ _ _ => trivial⟩ d ⟨trivial, hd⟩ ⟨trivial, hd⟩
  · intro n s hs
    rw [← BMap.containsKey_iff]
    unfold BMap.containsKey
    obtain ⟨h1, h2⟩ := c58_security_schemes env reason api d h n
    cases hl : lastOf (SchemeDecl.named? n) (api.flatMap Section.schemeList) with
    | some decl => obtain ⟨s', hs', -⟩ := h1 decl hl; rw [hs']; rfl
    | none =>
      rw [h2 hl]
      rw [List.isSome_findSome?]
      exact List.any_eq_true.2 ⟨_, hs, by simp [Part.scheme?]⟩

example : (∀ name, Part.literal name ∈ api.parts → name ∈ BMap.keys apiDoc.components.securitySchemes) ∧
    Part.literal "key" ∈ api.parts ∧ Part.scheme "basic" (.http (.basic none)) ∈ api.parts := by
  refine ⟨fun name hn => ?_, ?_, ?_⟩
  · simp [Api.parts, Api.pathList, api, Section.pathList, pathParts, usersPath, itemParts, getOp, opParts, callbackParts, PathSeg.parts,
      ParamDecl.parts, ParamProp.parts, SecurityDecl.parts, ResponseDecl.parts, BodyDecl.parts, callbackPath] at hn
    subst hn
    decide +kernel
  all_goals
    simp [Api.parts, Api.pathList, api, Section.pathList, pathParts, usersPath, itemParts, getOp, opParts, callbackParts, PathSeg.parts,
      ParamDecl.parts, ParamProp.parts, SecurityDecl.parts, ResponseDecl.parts, BodyDecl.parts, callbackPath]

/-! ## C61 -/

/-- C61 is false: the paths of a callback whose name is a string literal are dropped. -/
theorem c61_is_false : ∃ (env : Env) (reason : Nat → Option String) (api : Api) (d : Opg) (ps : List OpProp) (o : Operation)
    (decl : CallbackDecl) (c : CallbackObject), Describes env reason api d ∧ OpIn api d ps o ∧
    lastOf (CallbackDecl.named? "onDone") (ps.flatMap OpProp.callbackList) = some decl ∧ decl.paths.length = 1 ∧
    BMap.get "onDone" o.callbacks = some c ∧ c.paths = [] :=
  ⟨env, reason, [.paths [.mk [.literal "a"] [.operation .get [.callbacks [.literal "onDone" [callbackPath]]]]]], _,
    [.callbacks [.literal "onDone" [callbackPath]]], _, .literal "onDone" [callbackPath], ⟨[]⟩, ⟨10, rfl⟩,
    .mk (m := .get) (.top (i := 0) rfl rfl) rfl rfl, rfl, rfl, rfl, rfl⟩

/-- C61 is also false if anything follows a callback whose name is a string literal: then the macro does not expand. -/
theorem c61_is_false_not_last (env : Env) (reason : Nat → Option String) (name : String) (ps : List PathDecl)
    (c : CallbackDecl) (cs : List CallbackDecl) (segs : List PathSeg) (m : HttpMethod) :
    ¬ ∃ d, Describes env reason [.paths [.mk segs [.operation m [.callbacks (.literal name ps :: c :: cs)]]]] d := by
  rintro ⟨d, fuel, h⟩
  unfold describeApi at h
  split at h
  · cases h
  · rename_i d0 cx hr
    simp only [runSections, Section.run, act_bind, act_pure] at hr
    obtain ⟨d1, cx1, ⟨items, cx2, hr, -⟩, -⟩ := hr
    simp only [runPaths, act_bind, act_pure, PathDecl.run] at hr
    obtain ⟨pv, cx3, hr, -⟩ := hr
    split at hr
    · simp at hr
    · simp only [act_bind, act_pure] at hr
      obtain ⟨x, cx4, -, v, cx5, hr, -⟩ := hr
      simp only [runItemProps, act_bind, act_pure, runOpProps, runCallbacks, List.isEmpty_cons] at hr
      obtain ⟨o, cx6, ⟨m', cx7, hr, -⟩, -⟩ := hr
      simp at hr

/-- C61 for callbacks whose name is written as an identifier, at any depth: the callback described last under a name has
exactly the described paths, in order, each with its segments and described operations (`ItemIn`, to which
`c58_path_item` and `c58_operations` apply).  Missing: names written as string literals, for which it is false
(`c61_is_false`, `c61_is_false_not_last`). -/
theorem c61_callbacks_partial (env : Env) (reason : Nat → Option String) (api : Api) (d : Opg) (h : Describes env reason api d)
    (ps : List OpProp) (o : Operation) (ho : OpIn api d ps o) (name : String) (decl : CallbackDecl)
    (hd : lastOf (CallbackDecl.named? name) (ps.flatMap OpProp.callbackList) = some decl) (hi : decl.IsIdent) :
    ∃ c, BMap.get name o.callbacks = some c ∧
      Pointwise (fun x pv => ItemIn api d x pv ∧ Pointwise SegOf x.segments pv.1) decl.paths c.paths := by
  obtain ⟨c, rfl, rfl, s⟩ := h.step
  obtain ⟨cx, cx', hm⟩ := ho.made s
  have hc := (runOpProps_step _ hm).callbacks name
  rw [hd] at hc
  obtain ⟨co, hg, hmade⟩ := hc
  refine ⟨co, hg, ?_⟩
  cases decl with
  | literal n xs => exact hi.elim
  | ident n xs =>
    have hp : Pointwise (MadePath c) xs co.paths := hmade
    refine Pointwise.of_get hp fun i x pv hx hpv => ?_
    have hin : ItemIn api d x pv := .callback ho hd hg hx hpv
    exact ⟨hin, (PathDecl.run_step (hp.at hx hpv)).2.1⟩

example : OpIn api apiDoc getOp getOperation ∧
    lastOf (CallbackDecl.named? "onDone") (getOp.flatMap OpProp.callbackList) = some (.ident "onDone" [callbackPath]) ∧
    (CallbackDecl.ident "onDone" [callbackPath]).IsIdent ∧
    (BMap.get "onDone" getOperation.callbacks).map (fun c => c.paths.map fun p => UrlPath.render p.1) = some ["/done"] :=
  ⟨getOp_in, rfl, trivial, rfl⟩

/-! ## C64 -/

theorem rootsOf_callsOf (ps : List Part) :
    rootsOf (callsOf ps) = (ps.filterMap fun p => match p with | .mention t => some t | _ => none).map fun t => (t, true) := by
  induction ps with
  | nil => rfl
  | cons p ps ih =>
    cases p with
    | mention t => exact congrArg ((t, true) :: ·) ih
    | scheme n s => exact ih
    | literal n => exact ih
    | raw r => exact ih

/-- C64: if types mentioned by reference under one name have the same schema (name consistency, as in C06), two
descriptions that mention the same types, anywhere and in any order, give the same component schemas. -/
theorem c64_order_independent (env : Env) (reason reason' : Nat → Option String) (api api' : Api) (d d' : Opg)
    (h : Describes env reason api d) (h' : Describes env reason' api' d')
    (consistent : NamesConsistent env (api.mentions.map fun t => (t, true)))
    (same : ∀ t, t ∈ api.mentions ↔ t ∈ api'.mentions) : d.components.schemas = d'.components.schemas := by
  obtain ⟨rs, sx, hr, es, -⟩ := h.registry
  obtain ⟨rs', sx', hr', es', -⟩ := h'.registry
  rw [← es, ← es']
  refine c06_order_independent_partial env _ _ rs rs' sx sx' ?_ (callsOf_mentions _) (callsOf_mentions _) ?_ hr hr'
  · rw [rootsOf_callsOf]; exact consistent
  · intro x
    rw [rootsOf_callsOf, rootsOf_callsOf]
    constructor
    · rintro hx
      obtain ⟨t, ht, rfl⟩ := List.mem_map.1 hx
      exact List.mem_map.2 ⟨t, (same t).1 ht, rfl⟩
    · rintro hx
      obtain ⟨t, ht, rfl⟩ := List.mem_map.1 hx
      exact List.mem_map.2 ⟨t, (same t).2 ht, rfl⟩

end Verif
