import Verif.Spec.Versions
import Verif.Props.Answers
import Verif.Props.Narrow
/-!
# Changes that clients do not notice

C115: documents of later versions take the requests of earlier clients.
-/

namespace Verif

open Sample

theorem serves_kept {ss ss' : List PathSeg} (hk : Pointwise SegKept ss ss') {url bs} (hs : Serves ss url bs) :
    ∃ bs', Serves ss' url bs' ∧ ∀ b' ∈ bs', ∃ b ∈ bs, b'.1.2 = b.1.2 ∧ b'.2 = b.2 := by
  induction hs generalizing ss' with
  | nil => cases hk; exact ⟨[], .nil, fun _ h => nomatch h⟩
  | literal _ ih =>
    cases hk with
    | cons h hk =>
      cases h with
      | literal =>
        obtain ⟨bs', hs', hb⟩ := ih hk
        exact ⟨bs', .literal hs', hb⟩
      | typed h => cases h
  | typed e hw _ ih =>
    cases hk with
    | cons h hk =>
      cases h with
      | literal => cases e
      | typed h h' =>
        rw [h] at e
        cases e
        obtain ⟨bs', hs', hb⟩ := ih hk
        refine ⟨_, .typed h' hw hs', fun b' hm => ?_⟩
        cases hm with
        | head => exact ⟨_, .head _, rfl, rfl⟩
        | tail _ hm => obtain ⟨b, hm', e⟩ := hb b' hm; exact ⟨b, .tail _ hm', e⟩

/-- On the side of descriptions: what the earlier one takes, the later one takes. -/
theorem takes_kept {sends sendsBody} {api api' : Api} (hk : api.KeepsRequests sends sendsBody api') {ok ok' : Ty → Json → Prop}
    (types : ∀ t j, ok t j → ok' t j) {req : Request} (within : req.Within sends sendsBody) (h : api.Takes ok req) : api'.Takes ok' req := by
  obtain ⟨decl, hd, ps, bs, hs, hm, su⟩ := h
  obtain ⟨decl', hd', hseg, hops⟩ := hk decl hd
  obtain ⟨ps', hm', kept⟩ := hops _ _ hm
  obtain ⟨bs', hs', hb⟩ := serves_kept hseg hs
  refine ⟨decl', hd', ps', bs', hs', hm', ?_, fun name place x' hx' => ?_, fun b' hb' => ?_, fun b' hb' => ?_⟩
  · rcases kept.security with e | ⟨some, all⟩
    · exact .inl e
    · rcases su.security with e | ⟨alt, ha, hs⟩
      · exact absurd e some
      · obtain ⟨alt', ha', hw⟩ := all alt ha
        refine .inr ⟨alt', ha', fun i' hi' => ?_⟩
        obtain ⟨i, hi, w⟩ := hw i' hi'
        obtain ⟨s, hws, shown⟩ := hs i hi
        exact ⟨s, w s hws, shown⟩
  · rcases kept.parameters name place x' hx' with ⟨x, hx, e, r⟩ | ⟨r, no⟩
    · obtain ⟨there, right⟩ := su.parameters name place x hx
      exact ⟨fun h => there (r h), fun j hj => by rw [e]; exact types _ _ (right j hj)⟩
    · refine ⟨fun h => (by rw [r] at h; exact nomatch h), fun j hj => ?_⟩
      exact absurd (within.1 place name (by rw [hj]; exact fun e => nomatch e)) no
  · obtain ⟨b, hbm, e1, e2⟩ := hb b' hb'
    obtain ⟨j, hj, h⟩ := su.path b hbm
    exact ⟨j, by rw [e2]; exact hj, by rw [e1]; exact types _ _ h⟩
  · rcases kept.body b' hb' with ⟨b, hbo, e, r⟩ | ⟨r, no⟩
    · obtain ⟨there, right⟩ := su.body b hbo
      refine ⟨fun h => there (r h), fun j hj => ?_⟩
      obtain ⟨t, ht, h⟩ := right j hj
      exact ⟨t, by rw [e]; exact ht, types _ _ h⟩
    · refine ⟨fun h => (by rw [r] at h; exact nomatch h), fun j hj => ?_⟩
      exact absurd (within.2 (by rw [hj]; exact fun e => nomatch e)) no

/-- The same for documents, however the types are documented. -/
theorem takes_later (excl : Bool) {reason reason' : Nat → Option String} {api api' : Api} {d d' : Opg}
    (h : Composed reason api d) (h' : Composed reason' api' d') (distinct : d.ser.DistinctKeys) (distinct' : d'.ser.DistinctKeys)
    (access : ∀ ps op, OpWritten api d.ser ps op → ∀ shown, d.ser.Permits op shown ↔ api.Permits ps shown)
    (access' : ∀ ps op, OpWritten api' d'.ser ps op → ∀ shown, d'.ser.Permits op shown ↔ api'.Permits ps shown)
    (clear : ∀ decl ∈ api.pathList, decl.Clear) (clear' : ∀ decl ∈ api'.pathList, decl.Clear)
    {sends : ParameterIn → String → Prop} {sendsBody : Prop} (kept : api.KeepsRequests sends sendsBody api')
    (types : ∀ t s s', PlacedAt api d.ser t s → PlacedAt api' d'.ser t s' → ∀ j, j.Distinct → Accepts excl d.ser s j →
      Accepts excl d'.ser s' j)
    {req : Request} (plain : req.Plain) (within : req.Within sends sendsBody) (taken : d.ser.Takes excl req) : d'.ser.Takes excl req := by
  let ok : Ty → Json → Prop := fun t j => ∀ s', PlacedAt api' d'.ser t s' → Accepts excl d'.ser s' j
  have h1 := (takes_both excl h distinct access clear ok req plain).1
    (fun t s hp j hj ha s' hp' => types t s s' hp hp' j hj ha) taken
  exact (takes_both excl h' distinct' access' clear' ok req plain).2 (fun t s hp j _ hok => hok s hp) (takes_kept kept (fun _ _ h => h) within h1)

/-- **C115**. The document of a later version takes the requests that the document of an earlier version takes, if the description
keeps them and its schemas accept what those of the earlier document accept.  Conditions on names as in C113.
Missing: descriptions in which names are used twice (`c115_is_false`). -/
theorem c115_requests_partial (excl : Bool) (env env' : Env) (reason reason' : Nat → Option String) (api api' : Api) (d d' : Opg)
    (h : Describes env reason api d) (h' : Describes env' reason' api' d') (distinct : d.ser.DistinctKeys) (distinct' : d'.ser.DistinctKeys)
    (one : api.OneScheme) (one' : api'.OneScheme) (clear : ∀ decl ∈ api.pathList, decl.Clear) (clear' : ∀ decl ∈ api'.pathList, decl.Clear)
    (sends : ParameterIn → String → Prop) (sendsBody : Prop) (kept : api.KeepsRequests sends sendsBody api')
    (types : ∀ t s s', PlacedAt api d.ser t s → PlacedAt api' d'.ser t s' → ∀ j, j.Distinct → Accepts excl d.ser s j →
      Accepts excl d'.ser s' j)
    (req : Request) (plain : req.Plain) (within : req.Within sends sendsBody) (taken : d.ser.Takes excl req) : d'.ser.Takes excl req :=
  takes_later excl h.composed h'.composed distinct distinct' (c112_access_partial env reason api d h distinct one)
    (c112_access_partial env' reason' api' d' h' distinct' one') clear clear' kept types plain within taken

/-- **C115**, for programs: structs may have lost fields or got optional ones, required fields may have become optional, and enums may
have got variants (C96), in the inclusive reading of `oneOf`.  Missing: as in `c115_requests_partial`, and other changes of types. -/
theorem c115_published_partial (env env' : Env) (narrows : env.Narrows env') (reason reason' : Nat → Option String) (api api' : Api)
    (d d' : Opg) (h : Describes env reason api d) (h' : Describes env' reason' api' d') (distinct : d.ser.DistinctKeys)
    (distinct' : d'.ser.DistinctKeys) (unique : NamesUnique env api.roots) (unique' : NamesUnique env' api'.roots)
    (derived : ∀ i, Reached env api.roots (.named i) → ∃ o input, Derived o env i input)
    (derived' : ∀ i, Reached env' api'.roots (.named i) → ∃ o input, Derived o env' i input)
    (one : api.OneScheme) (one' : api'.OneScheme) (clear : ∀ decl ∈ api.pathList, decl.Clear) (clear' : ∀ decl ∈ api'.pathList, decl.Clear)
    (sends : ParameterIn → String → Prop) (sendsBody : Prop) (kept : api.KeepsRequests sends sendsBody api')
    (req : Request) (plain : req.Plain) (within : req.Within sends sendsBody) (taken : d.ser.Takes false req) : d'.ser.Takes false req :=
  c115_requests_partial false env env' reason reason' api api' d d' h h' distinct distinct' one one' clear clear' sends sendsBody kept
    (fun t s s' hp hp' j _ => c96_published_partial env env' narrows reason reason' api api' d d' h h' distinct distinct' unique unique'
      derived derived' t s s' hp hp' j) req plain within taken

/-- **C115**, for clients that use the earlier types: requests that follow the earlier description, with values as serde writes them for
the earlier types, are taken by the later document (C95).  Missing: as in `c115_requests_partial`, and types that are not faithful. -/
theorem c115_clients_partial (s : Serde) (env env' : Env) (grown : env.Grows s env') (reason : Nat → Option String) (api api' : Api)
    (d' : Opg) (h : Describes env' reason api' d') (distinct : d'.ser.DistinctKeys) (unique : NamesUnique env' api'.roots)
    (derived : ∀ i, Reached env' api'.roots (.named i) → ∃ o input, Derived o env' i input)
    (faithful : ∀ t, Reached env' api'.roots t → Faithful env' s t) (finite : s.nonFinite = false)
    (one : api'.OneScheme) (clear : ∀ decl ∈ api'.pathList, decl.Clear)
    (sends : ParameterIn → String → Prop) (sendsBody : Prop) (kept : api.KeepsRequests sends sendsBody api')
    (req : Request) (plain : req.Plain) (within : req.Within sends sendsBody) (taken : api.Takes (Ser env s) req) :
    d'.ser.Takes false req :=
  (takes_both false h.composed distinct (c112_access_partial env' reason api' d' h distinct one) clear (Ser env s) req plain).2
    (fun t v hp j _ hj => c81_accepts_partial env' s reason api' d' h distinct unique derived faithful finite t v hp j
      (c95_old_values s env env' grown t j hj))
    (takes_kept kept (fun _ _ h => h) within taken)

/-- What the later document allows as an answer, the earlier one allows, however the types are documented. -/
theorem answers_later (excl : Bool) {reason reason' : Nat → Option String} {api api' : Api} {d d' : Opg}
    (h : Composed reason api d) (h' : Composed reason' api' d') (distinct : d.ser.DistinctKeys) (distinct' : d'.ser.DistinctKeys)
    {ps ps' : List OpProp} {op op' : Value} (ho : OpWritten api d.ser ps op) (ho' : OpWritten api' d'.ser ps' op') (kept : AnswersKept ps ps')
    {a : Answer} (types : ∀ t s s', PlacedAt api d.ser t s → PlacedAt api' d'.ser t s' → ∀ j, a.body = some j → Accepts excl d'.ser s' j →
      Accepts excl d.ser s j)
    (sent : d'.ser.Answers excl op' a) : d.ser.Answers excl op a := by
  obtain ⟨desc', decl', hl', ha⟩ := (answers_iff excl h' distinct' ho' a).1 sent
  obtain ⟨hraw, desc, hl⟩ := kept _ _ _ hl'
  refine (answers_iff excl h distinct ho a).2 ⟨desc, decl', hl, ?_⟩
  generalize hb : a.body = body at ha
  cases ha with
  | absent => exact .absent
  | type hj =>
    obtain ⟨s', hp', -, hacc⟩ := hj
    obtain ⟨-, -, -, h4, -⟩ := h.placed distinct
    obtain ⟨s, hs, hp⟩ := h4 ps op a.status desc _ ho hl
    exact .type ⟨s, hp, hs, types _ s s' hp hp' _ hb hacc⟩
  | none => exact .none
  | raw _ => exact absurd rfl (hraw _)

/-- **C115**, for responses: what the later document allows as an answer of an operation, the earlier document allows, if no status is
new and schemas accept no more than before (C96, the other way round). -/
theorem c115_answers (excl : Bool) (env env' : Env) (reason reason' : Nat → Option String) (api api' : Api) (d d' : Opg)
    (h : Describes env reason api d) (h' : Describes env' reason' api' d') (distinct : d.ser.DistinctKeys) (distinct' : d'.ser.DistinctKeys)
    (types : ∀ t s s', PlacedAt api d.ser t s → PlacedAt api' d'.ser t s' → ∀ j, Accepts excl d'.ser s' j → Accepts excl d.ser s j)
    (ps ps' : List OpProp) (op op' : Value) (ho : OpWritten api d.ser ps op) (ho' : OpWritten api' d'.ser ps' op') (kept : AnswersKept ps ps')
    (a : Answer) (sent : d'.ser.Answers excl op' a) : d.ser.Answers excl op a :=
  answers_later excl h.composed h'.composed distinct distinct' ho ho' kept (fun t s s' hp hp' j _ => types t s s' hp hp' j) sent

namespace Sample

/-- `paths: { ("stock"): { GET: { 200: String } }, ("books"): { POST: { parameters: { query draft: { schema: bool } }, body: Book,
200: Author }, DELETE: {} } }` -/
def mallOp : List OpProp := [.parameters [.query "draft" (.prim .bool) []], .body (.type (.named 0)), .response 200 none (.type (.named 3))]
def stockPath : PathDecl := .mk [.literal "stock"] [.operation .get [.response 200 none (.type (.prim .string))]]
def mallPath : PathDecl := .mk [.literal "books"] [.operation .post mallOp, .operation .delete []]
def mallApi : Api := [.paths [stockPath, mallPath]]

theorem mallApi_kept (sendsBody : Prop) : shopApi.KeepsRequests (fun _ _ => False) sendsBody mallApi := by
  intro decl hd
  cases List.mem_singleton.1 hd
  refine ⟨mallPath, .tail _ (.head _), .cons .literal .nil, fun m ps hm => ?_⟩
  cases m <;> first | (cases hm; done) | skip
  cases hm
  refine ⟨mallOp, rfl, .inl rfl, fun name place x' hx' => .inr ⟨?_, fun h => h⟩, fun b' hb' => .inl ⟨_, hb', rfl, id⟩⟩
  unfold declaredFor at hx'
  rcases Option.or_eq_some_iff.1 hx' with hx' | ⟨-, hx'⟩
  · obtain ⟨hm, -, -⟩ := at_mem hx'
    cases List.mem_singleton.1 (show x' ∈ [ParamDecl.query "draft" (.prim .bool) []] from hm)
    rfl
  · cases hx'

theorem no_schemes {api : Api} (h : api.flatMap Section.schemeList = []) (h' : ∀ name s, Part.scheme name s ∉ api.parts) : api.OneScheme := by
  intro name s s' hs
  cases hs with
  | declared hm => rw [h] at hm; cases hm
  | used hm => exact absurd hm (h' _ _)

theorem shopApi_one : shopApi.OneScheme := no_schemes rfl (by
  simp [Api.parts, Api.pathList, shopApi, Section.pathList, pathParts, booksPath, itemParts, addOp, opParts,
    PathSeg.parts, ResponseDecl.parts, BodyDecl.parts])

theorem mallApi_one : mallApi.OneScheme := no_schemes rfl (by
  simp [Api.parts, Api.pathList, mallApi, Section.pathList, pathParts, stockPath, mallPath, itemParts, mallOp, opParts,
    PathSeg.parts, ParamDecl.parts, ResponseDecl.parts, BodyDecl.parts])

/-- A path of one literal that declares no parameters for all operations. -/
theorem clear_literal {s : String} {props : List ItemProp} (hb : '{' ∉ s.toList) (hp : props.flatMap ItemProp.paramList = [])
    (ho : ∀ m ps, lastOf (ItemProp.operation? m) props = some ps → OnePlace (ps.flatMap OpProp.paramList)) :
    (PathDecl.mk [.literal s] props).Clear where
  braces x hx := by cases List.mem_singleton.1 hx; exact hb
  types x hx _ _ _ _ _ e := by cases List.mem_singleton.1 hx; cases e
  own x hx y hy := by rw [show (PathDecl.mk [.literal s] props).props = props from rfl, hp] at hy; cases hy
  path x hx := by rw [show (PathDecl.mk [.literal s] props).props = props from rfl, hp] at hx; cases hx
  operations := ho

theorem shopApi_clear : ∀ decl ∈ shopApi.pathList, decl.Clear := by
  intro decl hd
  cases List.mem_singleton.1 hd
  refine clear_literal (by decide) rfl fun m ps h x hx => ?_
  cases m <;> first | (cases h; done) | skip
  cases h
  cases hx

theorem mallApi_clear : ∀ decl ∈ mallApi.pathList, decl.Clear := by
  intro decl hd
  have hd : decl ∈ [stockPath, mallPath] := hd
  simp only [List.mem_cons, List.not_mem_nil, or_false] at hd
  rcases hd with rfl | rfl <;> refine clear_literal (by decide) rfl fun m ps h x hx y hy _ => ?_
  · cases m <;> first | (cases h; done) | skip
    cases h
    cases hx
  · cases m <;> first | (cases h; done) | skip
    · cases h
      rw [List.mem_singleton.1 (show x ∈ [ParamDecl.query "draft" (.prim .bool) []] from hx),
        List.mem_singleton.1 (show y ∈ [ParamDecl.query "draft" (.prim .bool) []] from hy)]
    · cases h
      cases hx

theorem mall_roots : mallApi.roots = [(.prim .string, true), (.prim .bool, true), (.named 0, true), (.named 3, true)] := by
  simp [Api.roots, Api.parts, Api.pathList, mallApi, Section.pathList, pathParts, stockPath, mallPath, itemParts, mallOp, opParts,
    ParamDecl.parts, PathSeg.parts, ResponseDecl.parts, BodyDecl.parts, callsOf, Part.call?, rootsOf]

theorem mall_raw : ∀ r, Part.raw r ∈ mallApi.parts → r.PropsSorted := by
  intro r hr
  simp [Api.parts, Api.pathList, mallApi, Section.pathList, pathParts, stockPath, mallPath, itemParts, mallOp, opParts,
    ParamDecl.parts, PathSeg.parts, ResponseDecl.parts, BodyDecl.parts] at hr

def wideMall : Opg := (describeApi (⟨wideShop, 10, reason⟩ : Ctx) mallApi).getD .empty

theorem wideMall_described : Describes wideShop reason mallApi wideMall := ⟨10, rfl⟩

theorem wideMall_distinct : wideMall.ser.DistinctKeys := by
  refine c20_distinct_keys_partial _ (c25_described_documents _ _ _ _ wideMall_described mall_raw) ?_
  refine ⟨?_, ?_⟩
  · show (List.map _ _).Nodup
    decide +kernel
  · exact ⟨⟨trivial, ⟨⟨trivial, trivial⟩, trivial⟩⟩, ⟨⟨trivial, ⟨⟨trivial, trivial⟩, ⟨⟨trivial, trivial⟩, trivial⟩⟩⟩, trivial⟩⟩

theorem wideMall_closed : closedList wideShop mallApi.roots shopTypes = true := by rw [mall_roots]; decide +kernel

def mallDoc : Opg := (describeApi (⟨shop, 10, reason⟩ : Ctx) mallApi).getD .empty

theorem mallDoc_described : Describes shop reason mallApi mallDoc := ⟨10, rfl⟩

theorem mallDoc_distinct : mallDoc.ser.DistinctKeys := by
  refine c20_distinct_keys_partial _ (c25_described_documents _ _ _ _ mallDoc_described mall_raw) ?_
  refine ⟨?_, ?_⟩
  · show (List.map _ _).Nodup
    decide +kernel
  · exact ⟨⟨trivial, ⟨⟨trivial, trivial⟩, trivial⟩⟩, ⟨⟨trivial, ⟨⟨trivial, trivial⟩, ⟨⟨trivial, trivial⟩, trivial⟩⟩⟩, trivial⟩⟩

theorem mallDoc_closed : closedList shop mallApi.roots shopTypes = true := by rw [mall_roots]; decide +kernel

/-- The hypotheses hold of an API that got a path, an operation and an optional parameter while its types changed compatibly:
the requests of the earlier document are taken by the later one, and those of clients that use the earlier types as well. -/
example (req : Request) (plain : req.Plain) (nothing : ∀ place name, req.sent place name = none) :
    (narrowDoc.ser.Takes false req → wideMall.ser.Takes false req) ∧
    (shopApi.Takes (Ser shopBefore serde) req → mallDoc.ser.Takes false req) := by
  have within : req.Within (fun _ _ => False) True := ⟨fun place name h => h (nothing place name), fun _ => trivial⟩
  exact ⟨c115_published_partial narrowShop wideShop shop_narrows reason reason shopApi mallApi narrowDoc wideMall
    narrowDoc_described wideMall_described narrowDoc_distinct wideMall_distinct
    (namesUnique_of_closed narrowApi_closed (by decide +kernel)) (namesUnique_of_closed wideMall_closed (by decide +kernel))
    (fun i h => narrowShop_derived (h.mem_closed narrowApi_closed)) (fun i h => wideShop_derived (h.mem_closed wideMall_closed))
    shopApi_one mallApi_one shopApi_clear mallApi_clear _ _ (mallApi_kept True) req plain within,
    c115_clients_partial serde shopBefore shop shop_grows reason shopApi mallApi mallDoc mallDoc_described mallDoc_distinct
    (namesUnique_of_closed mallDoc_closed (by decide +kernel)) (fun i h => shop_derived (h.mem_closed mallDoc_closed))
    (fun t h => shop_faithful (h.mem_closed mallDoc_closed)) rfl mallApi_one mallApi_clear _ _ (mallApi_kept True) req plain within⟩

/-- A request that sends the book of an earlier client. -/
def oldRequest : Request := ⟨.post, "/books".toList, fun _ _ => none, fun _ => none, some oldBook, fun _ => False⟩

example : shopApi.Takes (Ser shopBefore serde) oldRequest := by
  refine ⟨booksPath, .head _, addOp, [], .literal (s := "books") .nil, rfl, .inl rfl, fun _ _ _ h => (nomatch h), fun _ h => (nomatch h),
    fun b hb => ?_⟩
  cases hb
  exact ⟨fun _ h => (nomatch h), fun j hj => by cases hj; exact ⟨_, rfl, oldBook_written⟩⟩

theorem mallOp_answers : AnswersKept addOp mallOp := by
  intro code desc decl h
  have e : lastOf (OpProp.response? code) addOp = lastOf (OpProp.response? code) mallOp := rfl
  rw [← e] at h
  refine ⟨fun r hr => ?_, desc, h⟩
  obtain ⟨p, hp, e⟩ := lastOf_mem h
  simp only [addOp, List.mem_cons, List.not_mem_nil, or_false] at hp
  rcases hp with rfl | rfl
  · cases e
  · simp only [OpProp.response?] at e
    split at e
    · cases e; cases hr
    · cases e

theorem addOp_answers : AnswersKept addOp addOp := fun code desc decl h => mallOp_answers code desc decl h

/-- The hypotheses on answers hold of the two versions read the other way round: if types ask for more, answers stay in order. -/
example : ∃ op op', OpWritten shopApi wideDoc.ser addOp op ∧ OpWritten shopApi narrowDoc.ser addOp op' ∧
    ∀ a, narrowDoc.ser.Answers false op' a → wideDoc.ser.Answers false op a := by
  have written : ∀ {env : Env} {d : Opg}, Describes env reason shopApi d → d.ser.DistinctKeys → ∃ op, OpWritten shopApi d.ser addOp op := by
    intro env d h hd
    obtain ⟨h1, -, h3, -⟩ := c81_placed env reason shopApi d h hd
    obtain ⟨v, hv⟩ := h1 booksPath (List.mem_singleton.2 rfl)
    obtain ⟨op, -, hop⟩ := h3 _ _ .post addOp hv rfl
    exact ⟨op, hop⟩
  obtain ⟨op, hop⟩ := written wideDoc_described wideDoc_distinct
  obtain ⟨op', hop'⟩ := written narrowDoc_described narrowDoc_distinct
  exact ⟨op, op', hop, hop', fun a => c115_answers false wideShop narrowShop reason reason shopApi shopApi wideDoc narrowDoc
    wideDoc_described narrowDoc_described wideDoc_distinct narrowDoc_distinct
    (fun t s s' hp hp' j => c96_published_partial narrowShop wideShop shop_narrows reason reason shopApi shopApi narrowDoc wideDoc
      narrowDoc_described wideDoc_described narrowDoc_distinct wideDoc_distinct
      (namesUnique_of_closed narrowApi_closed (by decide +kernel)) (namesUnique_of_closed wideApi_closed (by decide +kernel))
      (fun i h => narrowShop_derived (h.mem_closed narrowApi_closed)) (fun i h => wideShop_derived (h.mem_closed wideApi_closed))
      t s' s hp' hp j) addOp addOp op op' hop hop' addOp_answers a⟩

end Sample

def Sample.loginApi : Api := [.paths [.mk [.literal "a"] [.operation .get falseOp]]]
def Sample.loginDoc : Opg := (describeApi (⟨Sample.env, 10, reason⟩ : Ctx) loginApi).getD .empty
def Sample.loginLater : Api := [.securitySchemes [.http "basic" [.bearer]], .paths [.mk [.literal "a"] [.operation .get falseOp]]]
def Sample.loginLaterDoc : Opg := (describeApi (⟨Sample.env, 10, reason⟩ : Ctx) loginLater).getD .empty
def Sample.loginRequest : Request := ⟨.get, "/a".toList, fun _ _ => none, fun _ => none, none, fun s => s = .http (.basic none)⟩

/-- C115 is false if names are used twice: after a token was declared under the name of the variable that holds the password of an
operation, the document does not take the password any more. -/
theorem c115_is_false : ∃ (env : Env) (reason : Nat → Option String) (api api' : Api) (d d' : Opg) (req : Request),
    Describes env reason api d ∧ Describes env reason api' d' ∧ d.ser.DistinctKeys ∧ d'.ser.DistinctKeys ∧ req.Plain ∧
    (∀ sends sendsBody, api.KeepsRequests sends sendsBody api') ∧ (∀ decl ∈ api.pathList, decl ∈ api'.pathList) ∧
    d.ser.Takes false req ∧ ¬ d'.ser.Takes false req := by
  have h : Describes Sample.env reason loginApi loginDoc := ⟨10, rfl⟩
  have h' : Describes Sample.env reason loginLater loginLaterDoc := ⟨10, rfl⟩
  have hd : loginDoc.ser.DistinctKeys := c20_distinct_keys_partial _ (c25_described_documents _ _ _ _ h (by
    intro r hr
    simp [loginApi, falseOp, Api.parts, Api.pathList, Section.pathList, pathParts, itemParts, opParts, PathSeg.parts, SecurityDecl.parts] at hr))
    ⟨by show (List.map _ _).Nodup; decide +kernel, ⟨⟨trivial, ⟨⟨trivial, trivial⟩, trivial⟩⟩, trivial⟩⟩
  have hd' : loginLaterDoc.ser.DistinctKeys := c20_distinct_keys_partial _ (c25_described_documents _ _ _ _ h' (by
    intro r hr
    simp [loginLater, falseOp, Api.parts, Api.pathList, Section.pathList, pathParts, itemParts, opParts, PathSeg.parts, SecurityDecl.parts] at hr))
    ⟨by show (List.map _ _).Nodup; decide +kernel, ⟨⟨trivial, ⟨⟨trivial, trivial⟩, trivial⟩⟩, trivial⟩⟩
  have plain : loginRequest.Plain := ⟨fun _ _ _ h => (nomatch h), fun _ _ h => (nomatch h), fun _ h => (nomatch h)⟩
  have one : loginApi.OneScheme := by
    have key : ∀ name s, loginApi.Calls name s → s = .http (.basic none) := by
      intro name s hs
      cases hs with
      | declared hm => cases hm
      | used hm =>
        simp [loginApi, falseOp, Api.parts, Api.pathList, Section.pathList, pathParts, itemParts, opParts, PathSeg.parts,
          SecurityDecl.parts] at hm
        exact hm.2
    intro name s s' hs hs'
    rw [key _ _ hs, key _ _ hs']
  have clear : ∀ decl ∈ loginApi.pathList, decl.Clear := by
    intro decl hm
    cases List.mem_singleton.1 hm
    refine clear_literal (by decide) rfl fun m ps h x hx => ?_
    cases m <;> first | (cases h; done) | skip
    cases h
    cases hx
  refine ⟨_, _, loginApi, loginLater, _, _, loginRequest, h, h', hd, hd', plain, fun sends sendsBody decl hm => ?_, fun _ h => h, ?_, ?_⟩
  · cases List.mem_singleton.1 hm
    refine ⟨_, .head _, .cons .literal .nil, fun m ps hm => ⟨ps, hm, ?_⟩⟩
    cases m <;> first | (cases hm; done) | skip
    cases hm
    exact ⟨.inr ⟨fun e => (nomatch e), fun alt ha => ⟨alt, ha, fun i hi => ⟨i, hi, fun s hw => by
      cases List.mem_singleton.1 (show alt ∈ [[SecurityDecl.scheme "basic" (.http (.basic none)) []]] from ha)
      cases List.mem_singleton.1 hi
      exact hw⟩⟩⟩, fun _ _ _ h => (nomatch h), fun _ h => (nomatch h)⟩
  · refine (takes_both false h.composed hd (c112_access_partial _ _ _ _ h hd one) clear (fun _ _ => False) _ plain).2 (fun _ _ _ _ _ h => h.elim)
      ⟨_, .head _, falseOp, [], .literal (s := "a") .nil, rfl, .inr ⟨_, .head _, fun i hi => ?_⟩, fun _ _ _ h => (nomatch h),
        fun _ h => (nomatch h), fun _ h => (nomatch h)⟩
    cases List.mem_singleton.1 hi
    exact ⟨_, rfl, rfl⟩
  · rintro ⟨paths, template, item, op, bs, hp, hi, -, hop, su⟩
    have e : paths = .map (serPaths loginLaterDoc.paths) := by rw [at_paths] at hp; exact nonEmptyMap_some hp
    subst e
    have hmem := BMap.mem_of_get (show BMap.get (.str template) (serPaths loginLaterDoc.paths) = some item from hi)
    rw [serPaths_map] at hmem
    obtain ⟨pv, hpv, e⟩ := List.mem_map.1 hmem
    obtain ⟨p, v⟩ := pv
    cases e
    cases List.mem_singleton.1 hpv
    have hwo : OpWritten loginLater loginLaterDoc.ser falseOp op :=
      .mk (m := .get) (.top (i := 0) rfl (.cons (.literal "a") .nil) rfl rfl) rfl hop
    rcases (c112_meaning _ _ _ _ h' hd' _ _ hwo _).1 su.security with h | ⟨alt, ha, h⟩
    · cases h
    · have ha : alt ∈ [[SecurityDecl.scheme "basic" (.http (.basic none)) []]] := ha
      cases List.mem_singleton.1 ha
      obtain ⟨s, hc, rfl⟩ := h _ (.head _)
      rcases hc with ⟨e, -⟩ | ⟨-, e⟩ <;> cases e

end Verif
