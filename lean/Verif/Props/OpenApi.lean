import Verif.Proof.OpenApiInv
import Verif.Proof.OpenApiApi
import Verif.Proof.OpenApiExact
import Verif.Proof.Neutral
import Verif.Props.Zoo
import Verif.Props.Api
import Verif.Props.Precise
/-!
# C67-C69: generated documents are legal OpenAPI documents
-/

namespace Verif

open Sample

/-! ## C67 -/

/-- C67: a schema serializes to a legal Schema Object exactly if, at any depth, the lists of alternatives and of allowed
values are not empty and no required name occurs twice. -/
theorem c67_serialized (m : Model) : LegalSchema m.ser ↔ m.Legal := Model.legal_iff m

/-- **C67**, for programs without degenerate types.  A program mentions types (not overriding the allowed values by the
empty list), and the mentions return.  If all types reached are `LegalType`, every returned reference and every
registered schema is written as a legal Schema Object.  Missing: degenerate types, of which the property is false
(`c67_necessary`, `c67_is_false`), and models registered with `add_model`. -/
theorem c67_generated_partial (env : Env) (calls : List Call) (rs : List Ref) (cx' : Components)
    (mentions : ∀ c ∈ calls, c.isMention = true)
    (variants : ∀ t inline p, Call.mention t inline p ∈ calls → p.variants ≠ some [])
    (run : CallsReturn env Components.empty calls rs cx')
    (legal : ∀ t, Reached env (rootsOf calls) t → LegalType env t) :
    (∀ r ∈ rs, LegalSchema r.ser) ∧ ∀ b ∈ cx'.schemas, LegalSchema b.2.ser := by
  have h := run.sound (fun _ hx => hx) legal variants
    (fun name m hm => by have := mentions _ hm; simp [Call.isMention] at this) (fun _ hb => by cases hb)
  exact ⟨fun r hr => Ref.ser_legal r (h.1 r hr).1, fun b hb => Model.ser_legal b.2 (h.2 b hb).1⟩

/-- C67: the condition on types is necessary: a type whose schema is written as a legal Schema Object is `LegalType`. -/
theorem c67_necessary (env : Env) (t : Ty) (m : Model) (h : HasSchema env t m) (legal : LegalSchema m.ser) :
    LegalType env t := by
  obtain ⟨cx, cx', h⟩ := h
  exact h.legalType ((Model.legal_iff m).1 legal)

/-- `enum E {}` -/
def Sample.noVariants : DeriveInput Ty := ⟨"E", [], .enum []⟩
/-- `#[serde(untagged)] enum E { #[serde(skip)] A(u8) }` -/
def Sample.skippedVariants : DeriveInput Ty := ⟨"E", [attr "serde" [word "untagged"]], .enum [
  var "A" (.unnamed [tfld (.prim .u8)]) [attr "serde" [word "skip"]]]⟩
/-- `struct S();` -/
def Sample.noFields : DeriveInput Ty := ⟨"S", [], .struct (.unnamed [])⟩
/-- `struct S { a: u8, #[serde(rename = "a")] b: bool }` -/
def Sample.sameNames : DeriveInput Ty := ⟨"S", [], .struct (.named [
  fld "a" (.prim .u8), fld "b" (.prim .bool) [attr "serde" [nv "rename" "a"]]])⟩
/-- `#[serde(tag = "t", content = "t")] enum E { A(u8) }` -/
def Sample.sameTags : DeriveInput Ty := ⟨"E", [attr "serde" [nv "tag" "t", nv "content" "t"]], .enum [
  var "A" (.unnamed [tfld (.prim .u8)])]⟩

/-- The program of the single item `input`, as parsed. -/
def Sample.only (input : DeriveInput Ty) : Env := program (match containerFromAst oracle input with
  | some (some c, _) => [c]
  | _ => [])

/-- The macro accepts the item, and its schema is `m`. -/
def Sample.Documents (input : DeriveInput Ty) (m : Model) : Prop :=
  ∃ env, Derived oracle env 0 input ∧ HasSchema env (.named 0) m

/-- C67 is false: `enum E {}` (allowed values `[]`), enums of which all variants are skipped (no alternatives), empty
tuple structs (no alternatives for items), structs with two fields of one serialized name and enums with the same key for
tag and content (a required name twice), and repr enums without discriminants (no alternatives) are accepted, and their
schemas are not legal. -/
theorem c67_is_false : ∀ input ∈ [noVariants, skippedVariants, noFields, sameNames, sameTags, e30'],
    ∃ m, Documents input m ∧ ¬ LegalSchema m.ser := by
  intro input h
  simp only [List.mem_cons, List.not_mem_nil, or_false] at h
  rcases h with rfl | rfl | rfl | rfl | rfl | rfl
  · refine ⟨_, ⟨only noVariants, ⟨_, rfl⟩, Components.empty, _, 5, rfl⟩, fun h => ?_⟩
    exact ((Model.legal_iff _).1 h) rfl
  · refine ⟨_, ⟨only skippedVariants, ⟨_, rfl⟩, Components.empty, _, 5, rfl⟩, fun h => ?_⟩
    exact ((Model.legal_iff _).1 h).1 rfl
  · refine ⟨_, ⟨only noFields, ⟨_, rfl⟩, Components.empty, _, 5, rfl⟩, fun h => ?_⟩
    exact ((Model.legal_iff _).1 h).1 rfl
  · refine ⟨_, ⟨only sameNames, ⟨_, rfl⟩, Components.empty, _, 5, rfl⟩, fun h => ?_⟩
    exact absurd ((Model.legal_iff _).1 h).1 (by decide)
  · refine ⟨_, ⟨only sameTags, ⟨_, rfl⟩, Components.empty, _, 5, rfl⟩, fun h => ?_⟩
    exact absurd ((Model.legal_iff _).1 h).1 (by decide)
  · refine ⟨_, ⟨only e30', ⟨_, rfl⟩, Components.empty, _, 5, rfl⟩, fun h => ?_⟩
    exact ((Model.legal_iff _).1 h).1 rfl

theorem Sample.zoo_legal {t : Ty} (h : t ∈ zooTypes) : LegalType zoo t := by
  simp only [zooTypes, List.mem_cons, List.not_mem_nil, or_false] at h
  rcases h with rfl | rfl | rfl | rfl | rfl | rfl | rfl | rfl | rfl | rfl | rfl | rfl | rfl | rfl | rfl | rfl | rfl | rfl | rfl | rfl
  all_goals first
    | trivial
    | (constructor <;> intro fs hd <;> simp [zoo, zooC, color, shape, event, message, eitherC, code, point, idC, pair,
        container, struct, newtype, containerAttrs] at hd ⊢ <;> subst hd <;>
        simp [variantAs, variantAttrs, DistinctRequired, serialFields, field, Field.key])

/-- The hypotheses of C67 hold of a program with a type of every shape. -/
example : ∃ rs cx, CallsReturn zoo Components.empty zooCalls rs cx ∧ (BMap.keys cx.schemas).length = 10 ∧
    (∀ r ∈ rs, LegalSchema r.ser) ∧ ∀ b ∈ cx.schemas, LegalSchema b.2.ser := by
  obtain ⟨rs, cx, h, hk⟩ := zoo_returns
  exact ⟨rs, cx, h, by rw [hk]; rfl, c67_generated_partial zoo zooCalls rs cx (by simp [zooCalls, Call.isMention])
    (by simp [zooCalls]) h fun t ht => zoo_legal (ht.mem_closed zoo_closed)⟩

/-! ## C68 -/

/-- **C68**: a document whose maps are in key order (as `BTreeMap`s are) serializes to a legal OpenAPI document exactly
if it is `Complete`: version 3.0.3, some path, no empty path; every operation has a response, real status codes,
parameters with schemas of which those in the path are required, described bodies, no scopes; component names and
schemas are legal and API keys are not in the path. -/
theorem c68_serialization (d : Opg) (sorted : d.MapsSorted) : LegalDocument d.ser ↔ d.Complete :=
  ⟨document_legal_inv sorted, document_legal⟩

/-- **C68**, for descriptions without degenerate parts: what `describe_api!` produces serializes to a legal OpenAPI
document.  Missing: descriptions that are not `LegalApi`, of which it is false (`c68_is_false`). -/
theorem c68_described_partial (env : Env) (reason : Nat → Option String) (api : Api) (d : Opg)
    (h : Describes env reason api d) (legal : LegalApi env api) : LegalDocument d.ser :=
  document_legal (h.complete legal)

/-- **C68**, exactly: what `describe_api!` produces is written as a legal OpenAPI document if and only if some path is
described, every operation written declares a response and only real status codes, the schemas written and the names of
components are legal, and the security schemes have legal names and send no API key in the path. -/
theorem c68_exact (env : Env) (reason : Nat → Option String) (api : Api) (d : Opg) (h : Describes env reason api d)
    (raws : ∀ r, Part.raw r ∈ api.parts → r.PropsSorted) : LegalDocument d.ser ↔ LegalWritten api d :=
  (c68_serialization d (c25_described_documents env reason api d h raws)).trans h.complete_iff

namespace Sample

/-- `paths: { ("a"): { GET: {} } }` -/
def noResponse : Api := [.paths [.mk [.literal "a"] [.operation .get []]]]
/-- `paths: { ("a"): { GET: { 42: None } } }` -/
def strangeCode : Api := [.paths [.mk [.literal "a"] [.operation .get [.response 42 (some "?") .absent]]]]
/-- `paths: { ("a"): {} }, security_schemes: { (apiKey "k"): { parameter_in: Path, name: "k" } }` -/
def keyInPath : Api := [.paths [.mk [.literal "a"] []], .securitySchemes [.apiKey "k" [.parameterIn .path, .name "k"]]]
/-- `paths: { ("a"): {} }, security_schemes: { (http "my key"): { Basic } }` -/
def spaceInName : Api := [.paths [.mk [.literal "a"] []], .securitySchemes [.http "my key" [.basic]]]

theorem described_illegal {api : Api} {d : Opg} (h : describeApi (⟨zoo, 5, reason⟩ : Ctx) api = some d)
    (raws : ∀ r, Part.raw r ∈ api.parts → r.PropsSorted) (hd : ¬ d.Complete) :
    ∃ d, Describes zoo reason api d ∧ ¬ LegalDocument d.ser :=
  have h : Describes zoo reason api d := ⟨5, h⟩
  ⟨d, h, fun hl => hd ((c68_serialization d (c25_described_documents zoo reason api d h raws)).1 hl)⟩

end Sample

/-- C68 is false: `describe_api!` accepts descriptions without paths, operations without responses, status codes that do
not exist, API keys in the path, and names of security schemes that are no component names; the documents are not legal. -/
theorem c68_is_false : ∀ api ∈ [[], noResponse, strangeCode, keyInPath, spaceInName],
    ∃ d, Describes zoo reason api d ∧ ¬ LegalDocument d.ser := by
  intro api h
  simp only [List.mem_cons, List.not_mem_nil, or_false] at h
  rcases h with rfl | rfl | rfl | rfl | rfl
  · exact described_illegal rfl (by simp [Api.parts, Api.pathList, pathParts]) fun h => h.paths rfl
  · exact described_illegal rfl (by simp [Api.parts, Api.pathList, noResponse, Section.pathList, pathParts, itemParts, opParts, PathSeg.parts])
      fun h => h.items.1.2.1.1.1.responses rfl
  · exact described_illegal rfl (by simp [Api.parts, Api.pathList, strangeCode, Section.pathList, pathParts, itemParts, opParts, PathSeg.parts, ResponseDecl.parts])
      fun h => absurd (h.items.1.2.1.1.1.codes _ (.head _)).1 (by decide)
  · exact described_illegal rfl (by simp [Api.parts, Api.pathList, keyInPath, Section.pathList, pathParts, itemParts, PathSeg.parts])
      fun h => h.components.schemes _ (.head _) rfl
  · exact described_illegal rfl (by simp [Api.parts, Api.pathList, spaceInName, Section.pathList, pathParts, itemParts, PathSeg.parts])
      fun h => absurd ((h.components.schemeNames _ (.head _)).2 ' ' (by decide)) (by decide)

/-- C68 is false of documents assembled by hand in one more way: a request body without description is written with
`description: null`, which is not a string. -/
theorem c68_body_is_false (b : RequestBody) (h : b.description = none) : ¬ LegalRequestBody b.ser :=
  fun hl => (body_legal_inv hl).1 h

namespace Sample

/-- `("moved"): { POST: { body: Point, 200: () } }` -/
def movedOp : List OpProp := [.body (.type (.named 6)), .response 200 none (.type .unit)]
def movedPath : PathDecl := .mk [.literal "moved"] [.operation .post movedOp]

/-- `("zoo" / {id: Id}): { GET: { parameters: { (query limit: u32), (header "X-A") }, security: { "key" },
200("the zoo"): Zoo, 404: None, callbacks: { moved: { .. } } } }` -/
def zooOp : List OpProp := [.parameters [.query "limit" (.prim .u32) [], .header "X-A" []], .security [[.literal "key" []]],
  .response 200 (some "the zoo") (.type (.named 9)), .response 404 none .absent, .callbacks [.ident "moved" [movedPath]]]
def zooPath : PathDecl := .mk [.literal "zoo", .named "id" (.named 7)] [.operation .get zooOp]

def zooApi : Api := [.info [.title "Zoo", .version "1"], .tags [("zoo", none)],
  .securitySchemes [.apiKey "key" [.parameterIn .header, .name "X-Key"], .http "basic" [.basic]], .paths [zooPath]]

theorem zooApi_described : ∃ d, Describes zoo reason zooApi d ∧ d.paths.length = 1 ∧
    BMap.keys d.components.schemas = ["Code", "Color", "Either", "Event", "Id", "Message", "Pair", "Point", "Shape", "Zoo"] :=
  ⟨_, ⟨10, rfl⟩, rfl, rfl⟩

theorem zooApi_parts : zooApi.parts = [.mention (.named 7), .mention (.prim .u32), .mention (.prim .string), .literal "key",
    .mention (.named 9), .mention (.named 6), .mention .unit] := by
  simp only [zooApi, zooPath, zooOp, movedPath, movedOp, Api.parts, Api.pathList, Section.pathList, pathParts, itemParts,
    opParts, callbackParts, PathSeg.parts, ParamDecl.parts, SecurityDecl.parts, ResponseDecl.parts, BodyDecl.parts,
    List.flatMap_cons, List.flatMap_nil, List.append_nil, List.nil_append, List.cons_append]

mutual
theorem zooApi_paths : ∀ {decl}, DeclaredPath zooApi decl → decl = zooPath ∨ decl = movedPath
  | _, .top h => by
    simp [zooApi, Api.pathList, Section.pathList] at h
    exact .inl h
  | _, .callback h hc hd => by
    rcases zooApi_ops h with rfl | rfl
    · simp [zooOp, OpProp.callbackList] at hc
      subst hc
      simp [CallbackDecl.paths] at hd
      exact .inr hd
    · simp [movedOp, OpProp.callbackList] at hc
theorem zooApi_ops : ∀ {ps}, DeclaredOp zooApi ps → ps = zooOp ∨ ps = movedOp
  | _, .mk h ho => by
    rcases zooApi_paths h with rfl | rfl
    · simp [zooPath, PathDecl.props] at ho
      exact .inl ho.2
    · simp [movedPath, PathDecl.props] at ho
      exact .inr ho.2
end

end Sample

namespace Sample

/-- `paths: { ("a"): { GET: {}, GET: { 200("ok"): None } } }` -/
def twiceOp : Api := [.paths [.mk [.literal "a"] [.operation .get [], .operation .get [.response 200 (some "ok") .absent]]]]

def twiceOperation : Operation := { Operation.empty with responses := [(200, ⟨"ok", none⟩)] }
def twiceDoc : Opg := { Opg.empty with paths := [([.path "a"], { PathValue.empty with operations := [(.get, twiceOperation)] })] }

end Sample

/-- Of an operation that is described twice the last one counts: the first one, without responses, does no harm. -/
example : Describes zoo reason twiceOp twiceDoc ∧ LegalDocument twiceDoc.ser ∧ LegalWritten twiceOp twiceDoc ∧
    ¬ LegalApi zoo twiceOp := by
  have h : Describes zoo reason twiceOp twiceDoc := ⟨5, rfl⟩
  have hc : twiceDoc.Complete := by
    refine ⟨rfl, BMap.sorted_nil, by simp [twiceDoc], by simp [twiceDoc], ?_, ⟨?_, ?_, ?_, ?_⟩⟩
    · simp only [twiceDoc, forallPaths, PathValue.Forall, PathValue.empty, forallOps, twiceOperation, Operation.empty,
        Operation.Forall, forallCallbacks, and_true]
      refine ⟨⟨⟨?_, ?_, ?_⟩, BMap.sorted_nil⟩, ⟨?_, ?_, ?_, ?_, ?_, ?_, ?_⟩, BMap.sorted_nil⟩ <;>
        simp [PathValue.refs, Operation.refs]
    all_goals exact fun b hb => (List.not_mem_nil hb).elim
  refine ⟨h, document_legal hc, h.complete_iff.1 hc, fun hl => ?_⟩
  obtain ⟨code, t, s, hm⟩ := hl.responses [] (.mk (m := .get) (decl := .mk [.literal "a"] [.operation .get [],
    .operation .get [.response 200 (some "ok") .absent]]) (.top (by simp [twiceOp, Api.pathList, Section.pathList])) (.head _))
  exact (List.not_mem_nil hm).elim

/-! ## C69 -/

/-- Letters, digits and underscores of ASCII. -/
def PlainIdent (s : String) : Prop := s ≠ "" ∧ ∀ ch ∈ s.toList, ch.isAlphanum = true ∨ ch = '_'

theorem PlainIdent.legal {s : String} (h : PlainIdent s) : LegalName s :=
  ⟨h.1, fun ch hc => (h.2 ch hc).imp id fun e => by simp [e]⟩

theorem typeName_named {env : Env} : ∀ {t : Ty} {name : String}, typeName env t = some name →
    ∃ i, name = (env.decl i).ident
  | .wrap _ t, _, h => typeName_named (t := t) h
  | .option t, _, h => typeName_named (t := t) h
  | .named i, _, h => by
    simp only [typeName, Container.typeName] at h
    split at h
    · cases h
    · exact ⟨i, by injection h with h; exact h.symm⟩
  | .prim _, _, h | .tuple _, _, h | .seq _ _, _, h | .dict _ _, _, h | .unit, _, h | .uuid, _, h | .naiveDateTime, _, h
  | .dateTime, _, h | .naiveDate, _, h => by cases h

/-- **C69**, for programs whose derived types have plain ASCII identifiers: the component names written are legal, and
each is the identifier of a derived type.  Missing: other identifiers, of which it is false (`c69_is_false`), and names
given to `add_model`. -/
theorem c69_names_partial (env : Env) (calls : List Call) (rs : List Ref) (cx' : Components)
    (mentions : ∀ c ∈ calls, c.isMention = true) (run : CallsReturn env Components.empty calls rs cx')
    (plain : ∀ i, PlainIdent (env.decl i).ident) :
    ∀ name ∈ BMap.keys cx'.schemas, LegalName name ∧ ∃ i, name = (env.decl i).ident := by
  intro name hn
  obtain ⟨b, hb, rfl⟩ := List.mem_map.1 hn
  obtain ⟨t, -, ht, -⟩ := named_calls run mentions (fun _ hx => hx) (fun _ hb => by cases hb) b hb
  obtain ⟨i, hi⟩ := typeName_named ht
  exact ⟨hi ▸ (plain i).legal, i, hi⟩

/-- **C69**, exactly: if each name is used by reference for one type only, the component names are legal if and only if
the identifiers of the types used by reference are. -/
theorem c69_exact (env : Env) (calls : List Call) (rs : List Ref) (cx' : Components)
    (unique : NamesUnique env (rootsOf calls)) (mentions : ∀ c ∈ calls, c.isMention = true)
    (run : CallsReturn env Components.empty calls rs cx') :
    (∀ name ∈ BMap.keys cx'.schemas, LegalName name) ↔
      ∀ t name, Linked env (rootsOf calls) t → typeName env t = some name → LegalName name := by
  have T := tidy_of_run unique mentions run (fun _ _ h => h)
  constructor
  · intro h t name hl hn
    obtain ⟨m, cx, hm⟩ := expands_returns (T.expands t (linked_reached hl)) Components.empty
    have := T.registered t name m hl hn ⟨_, _, hm⟩
    refine h name ?_
    have hs := (BMap.get_isSome_iff (m := cx'.schemas) (k := name)).1 (by rw [this]; rfl)
    exact hs
  · intro h name hn
    obtain ⟨b, hb, rfl⟩ := List.mem_map.1 hn
    obtain ⟨t, hl, ht, -⟩ := named_calls run mentions (fun _ hx => hx) (fun _ hb => by cases hb) b hb
    exact h t _ hl ht

/-- Its hypotheses hold of `struct Pet { name: String }`; the identifier is legal, and so is the name. -/
example : ∃ rs cx', CallsReturn Sample.env Components.empty [.mention (.named 1) false {}] rs cx' ∧
    ((∀ name ∈ BMap.keys cx'.schemas, LegalName name) ↔
      ∀ t name, Linked Sample.env [(.named 1, true)] t → typeName Sample.env t = some name → LegalName name) :=
  have hc : closedList Sample.env (rootsOf [.mention (.named 1) false {}]) [.named 1, .prim .string] = true := by
    decide +kernel
  ⟨_, _, .mention ⟨5, rfl⟩ (.nil _), c69_exact Sample.env [.mention (.named 1) false {}] _ _
    (namesUnique_of_closed hc (by decide +kernel)) (by simp [Call.isMention]) (.mention ⟨5, rfl⟩ (.nil _))⟩

/-- `struct r#type { n: u32 }` -/
def Sample.rawInput : DeriveInput Ty := ⟨"r#type", [], .struct (.named [fld "n" (.prim .u32)])⟩
/-- `struct Größe { n: u32 }` -/
def Sample.umlautInput : DeriveInput Ty := ⟨"Größe", [], .struct (.named [fld "n" (.prim .u32)])⟩

/-- C69 is false: types with raw or non-ASCII identifiers are accepted and registered under names that are not legal. -/
theorem c69_is_false : ∀ input ∈ [rawInput, umlautInput], ∃ env rs cx', Derived oracle env 0 input ∧
    CallsReturn env Components.empty [.mention (.named 0) false {}] rs cx' ∧
    ∃ name ∈ BMap.keys cx'.schemas, ¬ LegalName name := by
  intro input h
  simp only [List.mem_cons, List.not_mem_nil, or_false] at h
  rcases h with rfl | rfl
  · exact ⟨only rawInput, _, _, ⟨_, rfl⟩, .mention ⟨5, rfl⟩ (.nil _), "r#type", .head _,
      fun h => absurd (h.2 '#' (by decide)) (by decide)⟩
  · exact ⟨only umlautInput, _, _, ⟨_, rfl⟩, .mention ⟨5, rfl⟩ (.nil _), "Größe", .head _,
      fun h => absurd (h.2 'ö' (by decide)) (by decide)⟩

theorem Sample.zoo_plain : ∀ i, PlainIdent (zoo.decl i).ident
  | 0 | 1 | 2 | 3 | 4 | 5 | 6 | 7 | 8 | _ + 9 => by
    constructor <;> simp [zoo, zooC, color, shape, event, message, eitherC, code, point, idC, pair, container, struct, newtype] <;>
      decide

example : ∃ rs cx, CallsReturn zoo Components.empty zooCalls rs cx ∧ (BMap.keys cx.schemas).length = 10 ∧
    ∀ name ∈ BMap.keys cx.schemas, LegalName name := by
  obtain ⟨rs, cx, h, hk⟩ := zoo_returns
  exact ⟨rs, cx, h, by rw [hk]; rfl, fun name hn =>
    (c69_names_partial zoo zooCalls rs cx (by simp [zooCalls, Call.isMention]) h zoo_plain name hn).1⟩

/-! ## Non-vacuity of C68 -/

theorem Sample.zooApi_closed : closedList zoo ([Ty.named 7, .prim .u32, .prim .string, .named 9, .named 6, .unit].map fun t => (t, true))
    (.unit :: zooTypes) = true := by decide +kernel

theorem Sample.zooApi_legal : LegalApi zoo zooApi := by
  have hm : zooApi.mentions = [.named 7, .prim .u32, .prim .string, .named 9, .named 6, .unit] := by
    rw [Api.mentions, zooApi_parts]; rfl
  refine ⟨?_, ?_, ?_, ?_, ?_, ?_, ?_, ?_, ?_, ?_⟩
  · simp [zooApi, Api.pathList, Section.pathList]
  · intro ps h
    rcases zooApi_ops h with rfl | rfl
    · exact ⟨404, none, .absent, by simp [zooOp]⟩
    · exact ⟨200, none, _, .tail _ (.head _)⟩
  · intro ps h code d s hr
    rcases zooApi_ops h with rfl | rfl
    · simp [zooOp] at hr
      rcases hr with ⟨rfl, _⟩ | ⟨rfl, _⟩ <;> decide
    · simp [movedOp] at hr
      rw [hr.1]; decide
  · intro r hr; rw [zooApi_parts] at hr; simp at hr
  · intro t ht
    rw [hm] at ht
    rcases List.mem_cons.1 (ht.mem_closed zooApi_closed) with rfl | h
    · trivial
    · exact zoo_legal h
  · intro t name _ hn
    obtain ⟨i, hi⟩ := typeName_named hn
    exact hi ▸ (zoo_plain i).legal
  · intro name ps h
    simp [zooApi, Section.schemeList] at h
    obtain ⟨rfl, rfl⟩ := h
    change some ParameterIn.header ≠ some .path
    decide
  · intro name s hr; rw [zooApi_parts] at hr; simp at hr
  · intro s h
    simp [zooApi, Section.schemeList] at h
    rcases h with rfl | rfl <;> exact ⟨by decide, by decide⟩
  · intro name s hr; rw [zooApi_parts] at hr; simp at hr

/-- The hypotheses of C68 hold of a description with parameters, security, a callback and all shapes of types. -/
example : ∃ d, Describes zoo reason zooApi d ∧ LegalApi zoo zooApi ∧ LegalDocument d.ser := by
  obtain ⟨d, h, _⟩ := zooApi_described
  exact ⟨d, h, zooApi_legal, c68_described_partial zoo reason zooApi d h zooApi_legal⟩

end Verif
