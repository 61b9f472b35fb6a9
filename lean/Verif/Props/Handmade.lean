import Verif.Props.Answers
import Verif.Props.Structure
import Verif.Proof.Spared
import Verif.Proof.Sorts
/-!
# Requests and responses of programs with hand written impls

C118: what C81, C112, C113 and C114 say of documents holds however types are documented.
-/

namespace Verif

open Sample

/-- **C118**.  The maps of a document are sorted if those in schemas written by hand are (C25). -/
theorem c118_sorted (env : Env) (custom : Nat → Option (Impl Ty)) (sorts : ∀ i im, custom i = some im → im.Sorts)
    (reason : Nat → Option String) (api : Api) (d : Opg) (h : DescribesVia (impls env custom) reason api d)
    (raws : ∀ r, Part.raw r ∈ api.parts → r.PropsSorted) : d.MapsSorted :=
  h.sorted (impls_sort env custom sorts) raws

/-- **C118**.  A document has a schema at each place where the description has a type (C81). -/
theorem c118_placed (w : Ty → Impl Ty) (reason : Nat → Option String) (api : Api) (d : Opg) (h : DescribesVia w reason api d)
    (distinct : d.ser.DistinctKeys) :
    (∀ decl ∈ api.pathList, ∃ v, ItemWritten api d.ser decl v) ∧
    (∀ ps op name n ds decl, OpWritten api d.ser ps op →
      lastOf (CallbackDecl.named? name) (ps.flatMap OpProp.callbackList) = some (.ident n ds) → decl ∈ ds →
      ∃ v, ItemWritten api d.ser decl v) ∧
    (∀ decl v m ps, ItemWritten api d.ser decl v → lastOf (ItemProp.operation? m) decl.props = some ps →
      ∃ op, v.at m.asStr = some op ∧ OpWritten api d.ser ps op) ∧
    (∀ ps op code description t, OpWritten api d.ser ps op →
      lastOf (OpProp.response? code) ps = some (description, .type t) →
      ∃ v, op.responseSchema code = some v ∧ PlacedAt api d.ser t v) ∧
    (∀ ps op decl, OpWritten api d.ser ps op → lastOf OpProp.body? ps = some decl →
      ∃ t v, decl.typeOf = some t ∧ op.bodySchema = some v ∧ PlacedAt api d.ser t v) ∧
    (∀ ps op name decl, OpWritten api d.ser ps op →
      lastOf (ParamDecl.named? name) (ps.flatMap OpProp.paramList) = some decl →
      ∃ v, op.parameterSchema name = some v ∧ PlacedAt api d.ser decl.typeOf v) ∧
    (∀ decl item name p, ItemWritten api d.ser decl item →
      lastOf (ParamDecl.named? name) (decl.props.flatMap ItemProp.paramList) = some p →
      ∃ v, item.parameterSchema name = some v ∧ PlacedAt api d.ser p.typeOf v) ∧
    (∀ decl item name t, ItemWritten api d.ser decl item →
      lastOf (ParamDecl.named? name) (decl.props.flatMap ItemProp.paramList) = none →
      lastOf (PathSeg.typeOf? name) decl.segments = some t →
      ∃ v, item.parameterSchema name = some v ∧ PlacedAt api d.ser t v) :=
  h.composed.placed distinct

/-- **C118**.  The schema that a document has for a type is an answer of the type's impl. -/
theorem c118_schemas (w : Ty → Impl Ty) (reason : Nat → Option String) (api : Api) (d : Opg) (h : DescribesVia w reason api d)
    (distinct : d.ser.DistinctKeys) (t : Ty) (v : Value) (hp : PlacedAt api d.ser t v) :
    ∃ r, v = r.ser ∧ MentionsVia w t r ∧ Part.mention t ∈ api.parts :=
  hp.mentionedBy h.composed (c117_items w reason api d h _ _ _ ·) (c117_operations w reason api d h _ _ ·) distinct

/-- **C118**.  What an operation asks for (C112), if impls leave alone the security schemes that operations require and the
description does not declare. -/
theorem c118_meaning (env : Env) (custom : Nat → Option (Impl Ty)) (reason : Nat → Option String) (api : Api) (d : Opg)
    (h : DescribesVia (impls env custom) reason api d) (spare : ∀ i im, custom i = some im → im.Spares api.Undeclared)
    (distinct : d.ser.DistinctKeys) (ps : List OpProp) (op : Value) (ho : OpWritten api d.ser ps op) (shown : Credentials) :
    d.ser.Permits op shown ↔ ps.flatMap OpProp.securityList = [] ∨
      ∃ alt ∈ ps.flatMap OpProp.securityList, ∀ i ∈ alt, ∃ s, api.Counts i.name s ∧ shown s :=
  access_meaning h.composed (fun _ => h.schemes (impls_spare env custom spare)) distinct ps op ho shown

/-- **C118**.  A request passes the written security of an operation exactly if it passes the one described (C112).
Missing: names used for two schemes (`c112_is_false`), also by impls (`c118_is_false`). -/
theorem c118_access_partial (env : Env) (custom : Nat → Option (Impl Ty)) (reason : Nat → Option String) (api : Api) (d : Opg)
    (h : DescribesVia (impls env custom) reason api d) (spare : ∀ i im, custom i = some im → im.Spares api.Undeclared)
    (distinct : d.ser.DistinctKeys) (one : api.OneScheme) (ps : List OpProp) (op : Value) (ho : OpWritten api d.ser ps op)
    (shown : Credentials) : d.ser.Permits op shown ↔ api.Permits ps shown :=
  access_partial h.composed (fun _ => h.schemes (impls_spare env custom spare)) distinct ps (fun _ _ i _ => one i.name) op ho shown

/-- **C118**.  A document takes exactly the requests that its description takes (C113).  Where it has schemas for types, they are to
accept the values of the types.
Missing: as in `c113_requests_partial` and `c118_access_partial`. -/
theorem c118_requests_partial (excl : Bool) (env : Env) (custom : Nat → Option (Impl Ty)) (reason : Nat → Option String) (api : Api)
    (d : Opg) (h : DescribesVia (impls env custom) reason api d) (spare : ∀ i im, custom i = some im → im.Spares api.Undeclared)
    (distinct : d.ser.DistinctKeys) (one : api.OneScheme) (clear : ∀ decl ∈ api.pathList, decl.Clear) (ok : Ty → Json → Prop)
    (types : ∀ t s, PlacedAt api d.ser t s → ∀ j, j.Distinct → (Accepts excl d.ser s j ↔ ok t j)) (req : Request) (plain : req.Plain) :
    d.ser.Takes excl req ↔ api.Takes ok req :=
  have both := takes_both excl h.composed distinct (c118_access_partial env custom reason api d h spare distinct one) clear ok req plain
  ⟨both.1 fun t s hp j hj => (types t s hp j hj).1, both.2 fun t s hp j hj => (types t s hp j hj).2⟩

/-- **C118**.  The same of every path item, in `paths` or in a callback.
Missing: as in `c118_requests_partial`. -/
theorem c118_operations_partial (excl : Bool) (env : Env) (custom : Nat → Option (Impl Ty)) (reason : Nat → Option String) (api : Api)
    (d : Opg) (h : DescribesVia (impls env custom) reason api d) (spare : ∀ i im, custom i = some im → im.Spares api.Undeclared)
    (distinct : d.ser.DistinctKeys) (one : api.OneScheme) (ok : Ty → Json → Prop)
    (types : ∀ t s, PlacedAt api d.ser t s → ∀ j, j.Distinct → (Accepts excl d.ser s j ↔ ok t j)) (decl : PathDecl) (clear : decl.Clear)
    (item : Value) (hw : ItemWritten api d.ser decl item) (req : Request) (plain : req.Plain) (bs : List ((String × Ty) × String))
    (hs : Serves decl.segments req.url bs) :
    (∃ op, item.at req.method.asStr = some op ∧ d.ser.Suits excl item op (nameTexts bs) req) ↔
      ∃ ps, lastOf (ItemProp.operation? req.method) decl.props = some ps ∧ api.Suits ok decl ps bs req :=
  suits_operations excl h.composed distinct (c118_access_partial env custom reason api d h spare distinct one) ok types decl clear item hw
    req plain bs hs

/-- **C118**.  A response that follows the description follows the document, if the schemas of the document accept the values of the
types (C114).  Missing: schemas that do not. -/
theorem c118_sent_partial (excl : Bool) (w : Ty → Impl Ty) (reason : Nat → Option String) (api : Api) (d : Opg)
    (h : DescribesVia w reason api d) (distinct : d.ser.DistinctKeys) (ok : Ty → Json → Prop)
    (types : ∀ t s, PlacedAt api d.ser t s → ∀ j, ok t j → Accepts excl d.ser s j) (ps : List OpProp) (op : Value)
    (ho : OpWritten api d.ser ps op) (a : Answer) (sent : Answering ok (fun r j => Accepts excl d.ser r.ser j) ps a) :
    d.ser.Answers excl op a := by
  obtain ⟨-, -, -, h4, -⟩ := h.composed.placed distinct
  refine (answers_iff excl h.composed distinct ho a).2 (sent.mono (fun t j hd _ hj => ?_) fun _ _ h => h)
  obtain ⟨desc, hd⟩ := hd
  obtain ⟨s, hs, hp⟩ := h4 ps op a.status desc t ho hd
  exact ⟨s, hp, hs, types t s hp j hj⟩

/-- **C118**.  A response that follows the document follows the description, if the schemas of the document accept only values of the
types (C114).  Missing: schemas that accept more. -/
theorem c118_received_partial (excl : Bool) (w : Ty → Impl Ty) (reason : Nat → Option String) (api : Api) (d : Opg)
    (h : DescribesVia w reason api d) (distinct : d.ser.DistinctKeys) (ok : Ty → Json → Prop)
    (types : ∀ t s, PlacedAt api d.ser t s → ∀ j, j.Distinct → Accepts excl d.ser s j → ok t j) (ps : List OpProp) (op : Value)
    (ho : OpWritten api d.ser ps op) (a : Answer) (plain : ∀ j, a.body = some j → j.Distinct) (got : d.ser.Answers excl op a) :
    Answering ok (fun r j => Accepts excl d.ser r.ser j) ps a :=
  ((answers_iff excl h.composed distinct ho a).1 got).mono (fun t j _ hb ⟨s, hp, _, hj⟩ => types t s hp j (plain j hb) hj) fun _ _ h => h

namespace Sample

/-- ```
impl OpgModel for Money {
    fn get_schema(cx: &mut Components) -> Model {
        cx.mention_security_scheme("login", ..);
        ..
    }
    fn type_name() -> Option<Cow<'static, str>> { Some("Money".into()) }
}
```
or with the name `audit`. -/
def moneyImpl (taken : Bool) : Impl Ty :=
  { schema := .security (if taken then "login" else "audit") (.http (.bearer none none)) (.ret str), name := some "Money" }

def payHand (taken : Bool) : Nat → Option (Impl Ty) := fun _ => some (moneyImpl taken)

/-- An operation that takes and returns money, and wants a login. -/
def payOp : List OpProp := [.security [[.scheme "login" (.http (.basic none)) []]], .body (.type (.named 0)),
  .response 200 none (.type (.named 0))]

def payPath : PathDecl := .mk [.literal "pay", .named "sum" (.named 0)] [.operation .put payOp]

def payApi : Api := [.paths [payPath]]

def payDoc (taken : Bool) : Opg := (describeApi (⟨impls env (payHand taken), 10, reason⟩ : MixedCtx) payApi).getD .empty

theorem payDoc_described (taken : Bool) : DescribesVia (impls env (payHand taken)) reason payApi (payDoc taken) := by
  cases taken <;> exact ⟨10, rfl⟩

theorem payApi_parts : payApi.parts = [.mention (.named 0), .scheme "login" (.http (.basic none)), .mention (.named 0), .mention (.named 0)] := by
  simp [Api.parts, Api.pathList, payApi, Section.pathList, pathParts, payPath, itemParts, payOp, opParts, SecurityDecl.parts,
    PathSeg.parts, ResponseDecl.parts, BodyDecl.parts]

theorem payDoc_distinct (taken : Bool) : (payDoc taken).ser.DistinctKeys := by
  refine c20_distinct_keys_partial _ (c118_sorted _ _ ?_ _ _ _ (payDoc_described taken) ?_) ?_
  · rintro i im ⟨⟩
    exact ⟨by simp [moneyImpl, Prog.Sorts, Model.PropsSorted, str, Model.objects, ModelData.objects, ModelType.objects, TypeDesc.objects], nofun, nofun⟩
  · intro r hr
    rw [payApi_parts] at hr
    simp at hr
  · cases taken <;>
      exact ⟨by show (List.map _ _).Nodup; decide +kernel, ⟨⟨trivial, ⟨⟨trivial, trivial⟩, trivial⟩⟩, trivial⟩⟩

theorem payDoc_types (taken : Bool) (excl : Bool) (t : Ty) (s : Value) (hp : PlacedAt payApi (payDoc taken).ser t s) (j : Json) :
    Accepts excl (payDoc taken).ser s j ↔ ∃ text, j = .str text := by
  obtain ⟨r, rfl, ⟨cx, cx', hm⟩, ht⟩ := c118_schemas _ _ _ _ (payDoc_described taken) (payDoc_distinct taken) t s hp
  have ht : t = .named 0 := by
    rw [payApi_parts] at ht
    simpa using ht
  subst ht
  obtain ⟨_, hs, -⟩ := progReturns_mention_select.1 hm
  have hr : r = .link "Money" := by
    rcases progReturns_select.1 hs with ⟨-, l, hl, rfl, -⟩ | ⟨h | h, -⟩
    · cases hl; rfl
    · cases h
    · cases h
  subst hr
  rw [accepts_ser]
  have money : BMap.get "Money" (payDoc taken).components.schemas = some str := by cases taken <;> rfl
  constructor
  · intro h
    cases h with
    | link hg hv =>
      rw [money] at hg
      cases hg
      cases hv with
      | string _ => exact ⟨_, rfl⟩
  · rintro ⟨text, rfl⟩
    exact .link money (.string nofun)

theorem payApi_one : payApi.OneScheme := by
  have key : ∀ name s, payApi.Calls name s → s = .http (.basic none) := by
    intro name s hs
    cases hs with
    | declared h => simp [payApi, Section.schemeList] at h
    | used h =>
      rw [payApi_parts] at h
      simp at h
      exact h.2
  intro name s s' h h'
  rw [key name s h, key name s' h']

theorem payPath_clear : payPath.Clear where
  braces s hs := by
    simp [payPath, PathDecl.segments] at hs
    rcases hs with rfl | rfl
    · simp [PathSeg.NoBraces]
    · intro n t h; cases h; decide
  types s hs s' hs' name t t' h h' := by
    simp [payPath, PathDecl.segments] at hs hs'
    rcases hs with rfl | rfl <;> rcases hs' with rfl | rfl <;> cases h <;> cases h' <;> rfl
  own s _ x hx := by simp [payPath, PathDecl.props, ItemProp.paramList] at hx
  path x hx := by simp [payPath, PathDecl.props, ItemProp.paramList] at hx
  operations m ps h x hx := by
    cases m <;> first | (cases h; done) | skip
    cases h
    cases hx

/-- The impl has a scheme of its own, under another name than the description uses. -/
theorem payHand_spares : ∀ i im, payHand false i = some im → im.Spares payApi.Undeclared := by
  rintro i im ⟨⟩
  refine ⟨⟨?_, trivial⟩, nofun, nofun⟩
  rintro ⟨h | ⟨s, h⟩, -⟩ <;> (rw [payApi_parts] at h; simp at h)

/-- The hypotheses hold of the sample: a payment is taken exactly if it is a string and comes with a login, and answers are strings. -/
example : (∀ req : Request, req.Plain → ((payDoc false).ser.Takes false req ↔ payApi.Takes (fun _ j => ∃ s, j = .str s) req)) ∧
    (∃ req : Request, req.Plain ∧ (payDoc false).ser.Takes false req) ∧
    (∀ req : Request, req.Plain → ¬ req.shown (.http (.basic none)) → ¬ (payDoc false).ser.Takes false req) ∧
    ∃ op, OpWritten payApi (payDoc false).ser payOp op ∧ (∀ s, (payDoc false).ser.Answers false op ⟨200, some (.str s)⟩) ∧
      ∀ a, (∀ j, a.body = some j → j.Distinct) → (payDoc false).ser.Answers false op a → ∃ s, a.body = some (.str s) := by
  have all := c118_requests_partial false env (payHand false) reason payApi _ (payDoc_described _) payHand_spares (payDoc_distinct _)
    payApi_one (fun decl hd => by cases List.mem_singleton.1 hd; exact payPath_clear) (fun _ j => ∃ s, j = .str s)
    (fun t s hp j _ => payDoc_types _ _ t s hp j)
  have plain : Request.Plain ⟨.put, "/pay/5".toList, fun _ _ => none, fun w => some (.str w), some (.str "5"), fun _ => True⟩ := by
    refine ⟨fun _ _ _ h => (nomatch h), fun _ j h => ?_, fun j h => ?_⟩
    · cases h; exact .str
    · cases h; exact .str
  refine ⟨all, ⟨_, plain, (all _ plain).2 ?_⟩, ?_, ?_⟩
  · refine ⟨payPath, .head _, payOp, [(("sum", .named 0), "5")], ?_, rfl, .inr ⟨_, .head _, fun i hi => ?_⟩,
      fun name place x hx => (nomatch hx), fun b hb => ?_, fun b hb => ?_⟩
    · exact .literal (s := "pay") (.typed (w := "5") rfl ⟨by decide, by decide⟩ .nil)
    · cases List.mem_singleton.1 hi
      exact ⟨_, rfl, trivial⟩
    · cases List.mem_singleton.1 hb
      exact ⟨_, rfl, _, rfl⟩
    · cases hb
      exact ⟨fun _ e => (nomatch e), fun j hj => by cases hj; exact ⟨_, rfl, _, rfl⟩⟩
  · rintro req hp no h
    obtain ⟨decl, hd, ps, bs, -, ho, su⟩ := (all req hp).1 h
    cases List.mem_singleton.1 hd
    have : ps = payOp := by
      generalize req.method = m at ho
      cases m <;> cases ho
      rfl
    subst this
    rcases su.security with e | ⟨alt, ha, hs⟩
    · cases e
    · have ha : alt ∈ [[SecurityDecl.scheme "login" (.http (.basic none)) []]] := ha
      cases List.mem_singleton.1 ha
      obtain ⟨s, hw, hc⟩ := hs _ (.head _)
      have hw : SecurityScheme.http (.basic none) = s := hw
      subst hw
      exact no hc
  · obtain ⟨h1, -, h3, -⟩ := c118_placed _ _ _ _ (payDoc_described false) (payDoc_distinct _)
    obtain ⟨v, hv⟩ := h1 payPath (List.mem_singleton.2 rfl)
    obtain ⟨op, -, hop⟩ := h3 _ _ .put payOp hv rfl
    refine ⟨op, hop, fun s => ?_, fun a plain got => ?_⟩
    · exact c118_sent_partial false _ _ _ _ (payDoc_described _) (payDoc_distinct _) (fun _ j => ∃ s, j = .str s)
        (fun t v hp j hj => (payDoc_types _ _ t v hp j).2 hj) _ _ hop _ ⟨none, _, rfl, .type ⟨s, rfl⟩⟩
    · obtain ⟨desc, decl, hl, ha⟩ := c118_received_partial false _ _ _ _ (payDoc_described _) (payDoc_distinct _) (fun _ j => ∃ s, j = .str s)
        (fun t v hp j _ hj => (payDoc_types _ _ t v hp j).1 hj) _ _ hop a plain got
      have : decl = .type (.named 0) := by
        obtain ⟨_, hm, e⟩ := lastOf_mem hl
        simp [payOp] at hm
        rcases hm with rfl | rfl | rfl
        · cases e
        · cases e
        · simp only [OpProp.response?] at e
          split at e
          · cases e; rfl
          · cases e
      subst this
      generalize a.body = body at ha
      cases ha with
      | type h => obtain ⟨s, rfl⟩ := h; exact ⟨s, rfl⟩

end Sample

/-- C118 is false if an impl takes the name of a scheme that an operation has in a variable: the operation wants a password, the
document asks for a token. -/
theorem c118_is_false : ∃ (env : Env) (custom : Nat → Option (Impl Ty)) (reason : Nat → Option String) (api : Api) (d : Opg) (ps : List OpProp)
    (op : Value), DescribesVia (impls env custom) reason api d ∧ d.ser.DistinctKeys ∧ api.OneScheme ∧ OpWritten api d.ser ps op ∧
    (api.Permits ps fun s => s = .http (.basic none)) ∧ (¬ d.ser.Permits op fun s => s = .http (.basic none)) ∧
    (d.ser.Permits op fun s => s = .http (.bearer none none)) ∧ ¬ api.Permits ps fun s => s = .http (.bearer none none) := by
  have h := payDoc_described true
  obtain ⟨h1, -, h3, -⟩ := c118_placed _ _ _ _ h (payDoc_distinct _)
  obtain ⟨v, hv⟩ := h1 payPath (List.mem_singleton.2 rfl)
  obtain ⟨op, -, hop⟩ := h3 _ _ .put payOp hv rfl
  have hin : ∃ o, OpIn payApi (payDoc true) payOp o ∧ op = o.ser := by
    obtain ⟨o, hin, e, -⟩ := hop.opIn h.composed (payDoc_distinct _)
    exact ⟨o, hin, e⟩
  obtain ⟨o, hin, rfl⟩ := hin
  have meaning := permits_ser h.composed hin
  refine ⟨_, _, _, _, _, _, _, h, payDoc_distinct _, payApi_one, hop, ?_, ?_, ?_, ?_⟩
  · refine .inr ⟨_, .head _, fun i hi => ?_⟩
    cases List.mem_singleton.1 hi
    exact ⟨_, rfl, rfl⟩
  · rw [meaning]
    rintro (h | ⟨alt, ha, h⟩)
    · cases h
    · have ha : alt ∈ [[SecurityDecl.scheme "login" (.http (.basic none)) []]] := ha
      cases List.mem_singleton.1 ha
      obtain ⟨s, hc, rfl⟩ := h _ (.head _)
      cases hc
  · rw [meaning]
    refine .inr ⟨_, .head _, fun i hi => ?_⟩
    cases List.mem_singleton.1 hi
    exact ⟨_, rfl, rfl⟩
  · rintro (h | ⟨alt, ha, h⟩)
    · cases h
    · have ha : alt ∈ [[SecurityDecl.scheme "login" (.http (.basic none)) []]] := ha
      cases List.mem_singleton.1 ha
      obtain ⟨s, hc, rfl⟩ := h _ (.head _)
      cases hc

end Verif
