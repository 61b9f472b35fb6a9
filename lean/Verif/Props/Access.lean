import Verif.Spec.Access
import Verif.Spec.Spared
import Verif.Props.ExactMore
import Verif.Props.Arrange
import Verif.Props.Published
/-!
# Who may call an operation

C112: a request passes the documented security of an operation exactly if it passes the security its author described.
-/

namespace Verif

open Sample

theorem at_security (o : Operation) : o.ser.at "security" = nonEmptySeq (o.security.map serSecurity) := by
  obtain ⟨tags, summary, id, desc, depr, sec, body, resp, params, callbacks⟩ := o
  simp [Operation.ser, Value.at_map]

theorem schemeNamed_ser (d : Opg) (name : String) : d.ser.schemeNamed name = BMap.get name d.components.securitySchemes := by
  have key : (Value.map (d.components.securitySchemes.map fun b => (.str b.1, b.2.ser))).at name =
      (BMap.get name d.components.securitySchemes).map SecurityScheme.ser := by
    rw [Value.at_map]
    exact get_map_keys (g := Key.str) (fun _ _ h => by injection h) SecurityScheme.ser name _
  have e : d.components.ser.at "securitySchemes" =
      nonEmptyMap (d.components.securitySchemes.map fun b => (.str b.1, b.2.ser)) := by
    simp [Components.ser, Value.at_map]
  unfold Value.schemeNamed
  rw [at_components]
  show (d.components.ser.at "securitySchemes").bind (fun s => (s.at name).bind Read.scheme) = _
  rw [e]
  unfold nonEmptyMap
  split
  · rename_i hn
    have : d.components.securitySchemes = [] := by simpa using hn
    rw [this]; rfl
  · show (Value.at _ name).bind Read.scheme = _
    rw [key]
    cases BMap.get name d.components.securitySchemes with
    | none => rfl
    | some s => exact Read.scheme_ser s

theorem opParts_security {alt : List SecurityDecl} {n s rs} (hs : .scheme n s rs ∈ alt) :
    ∀ {ps : List OpProp}, alt ∈ ps.flatMap OpProp.securityList → Part.scheme n s ∈ opParts ps
  | [], h => by cases h
  | a :: l, hl => by
    rw [List.flatMap_cons] at hl
    rcases List.mem_append.1 hl with hx | hx
    · cases a with
      | security alts =>
        rw [opParts]
        exact List.mem_append_left _ (List.mem_flatMap.2 ⟨alt, hx, List.mem_flatMap.2 ⟨_, hs, List.mem_singleton.2 rfl⟩⟩)
      | _ => cases hx
    · cases a <;> rw [opParts] <;> first | exact opParts_security hs hx | exact List.mem_append_right _ (opParts_security hs hx)

/-- The meaning of the alternatives of a written operation. -/
theorem permits_ser {reason api} {d : Opg} (h : Composed reason api d) {ps o} (ho : OpIn api d ps o) (shown : Credentials) :
    d.ser.Permits o.ser shown ↔ ps.flatMap OpProp.securityList = [] ∨ ∃ alt ∈ ps.flatMap OpProp.securityList, ∀ i ∈ alt,
      ∃ s, BMap.get i.name d.components.securitySchemes = some s ∧ shown s := by
  have hp := (h.operations ho).security
  unfold Value.Permits
  rw [at_security]
  have sat : ∀ {alt m}, AlternativeOf alt m → (d.ser.Satisfied (serSecurity m) shown ↔ ∀ i ∈ alt,
      ∃ s, BMap.get i.name d.components.securitySchemes = some s ∧ shown s) := by
    intro alt m ao
    constructor
    · rintro ⟨es, he, hs⟩ i hi
      cases he
      obtain ⟨name, s, hn, h1, h2⟩ := hs (.str i.name, .seq (strs [])) (List.mem_map.2 ⟨_, BMap.mem_of_get ((ao.names i.name).2 ⟨i, hi, rfl⟩), rfl⟩)
      injection hn with hn
      rw [schemeNamed_ser, ← hn] at h1
      exact ⟨s, h1, h2⟩
    · intro hs
      refine ⟨_, rfl, fun e he => ?_⟩
      obtain ⟨b, hb, rfl⟩ := List.mem_map.1 he
      have hg : (BMap.get b.1 m).isSome := BMap.get_isSome_iff.2 (List.mem_map.2 ⟨b, hb, rfl⟩)
      obtain ⟨v, hv⟩ := Option.isSome_iff_exists.1 hg
      have hv' := ao.scopes _ _ hv
      subst hv'
      obtain ⟨i, hi, hn⟩ := (ao.names b.1).1 hv
      obtain ⟨s, h1, h2⟩ := hs i hi
      exact ⟨b.1, s, rfl, by rw [schemeNamed_ser, ← hn]; exact h1, h2⟩
  have alts : (∃ alt ∈ ps.flatMap OpProp.securityList, ∀ i ∈ alt,
      ∃ s, BMap.get i.name d.components.securitySchemes = some s ∧ shown s) ↔
      ∃ alt ∈ o.security.map serSecurity, d.ser.Satisfied alt shown := by
    constructor
    · rintro ⟨alt, ha, hs⟩
      obtain ⟨i, hi⟩ := List.getElem?_of_mem ha
      obtain ⟨m, hm, ao⟩ := hp.get hi
      exact ⟨_, List.mem_map.2 ⟨m, List.mem_of_getElem? hm, rfl⟩, (sat ao).2 hs⟩
    · rintro ⟨v, hv, hs⟩
      obtain ⟨m, hm, rfl⟩ := List.mem_map.1 hv
      obtain ⟨alt, ha, ao⟩ := hp.mem_rightP hm
      exact ⟨alt, ha, (sat ao).1 hs⟩
  rw [alts]
  cases hl : ps.flatMap OpProp.securityList with
  | nil =>
    rw [hl] at hp
    cases hs : o.security with
    | nil => simp [nonEmptySeq]
    | cons m ms => rw [hs] at hp; cases hp
  | cons a as =>
    rw [hl] at hp
    cases hs : o.security with
    | nil => rw [hs] at hp; cases hp
    | cons m ms => simp [nonEmptySeq]

/-- The scheme in the document is the one that counts. -/
theorem schemeAfter_counts {api : Api} {name : String} {o : Option SecurityScheme}
    (h : SchemeAfter name (api.flatMap Section.schemeList) api.parts none o) (s : SecurityScheme) : o = some s ↔ api.Counts name s := by
  unfold SchemeAfter at h
  unfold Api.Counts
  cases hl : lastOf (SchemeDecl.named? name) (api.flatMap Section.schemeList) with
  | some decl =>
    rw [hl] at h
    obtain ⟨s', e, hs'⟩ := h
    rw [e]
    constructor
    · rintro ⟨⟩; exact hs'
    · intro hs; rw [schemeOf_unique hs hs']
  | none =>
    rw [hl] at h
    rw [h]; rfl

/-- The names of the alternatives are required by the description. -/
theorem opParts_requires {alt : List SecurityDecl} {i : SecurityDecl} (hs : i ∈ alt) :
    ∀ {ps : List OpProp}, alt ∈ ps.flatMap OpProp.securityList → Part.literal i.name ∈ opParts ps ∨ ∃ s, Part.scheme i.name s ∈ opParts ps
  | [], h => by cases h
  | a :: l, hl => by
    rw [List.flatMap_cons] at hl
    rcases List.mem_append.1 hl with hx | hx
    · cases a with
      | security alts =>
        rw [opParts]
        cases i with
        | literal n rs =>
          exact .inl (List.mem_append_left _ (List.mem_flatMap.2 ⟨alt, hx, List.mem_flatMap.2 ⟨_, hs, List.mem_singleton.2 rfl⟩⟩))
        | scheme n s rs =>
          exact .inr ⟨s, List.mem_append_left _ (List.mem_flatMap.2 ⟨alt, hx, List.mem_flatMap.2 ⟨_, hs, List.mem_singleton.2 rfl⟩⟩)⟩
      | _ => cases hx
    · rcases opParts_requires hs hx with h | ⟨s, h⟩
      · left; cases a <;> rw [opParts] <;> first | exact h | exact List.mem_append_right _ h
      · right; refine ⟨s, ?_⟩; cases a <;> rw [opParts] <;> first | exact h | exact List.mem_append_right _ h

/-- What documents say if the schemes they require are those that count. -/
theorem access_meaning {reason : Nat → Option String} {api : Api} {d : Opg} (h : Composed reason api d)
    (schemes : ∀ name, api.Requires name →
      SchemeAfter name (api.flatMap Section.schemeList) api.parts none (BMap.get name d.components.securitySchemes))
    (distinct : d.ser.DistinctKeys) (ps : List OpProp) (op : Value) (ho : OpWritten api d.ser ps op) (shown : Credentials) :
    d.ser.Permits op shown ↔ ps.flatMap OpProp.securityList = [] ∨
      ∃ alt ∈ ps.flatMap OpProp.securityList, ∀ i ∈ alt, ∃ s, api.Counts i.name s ∧ shown s := by
  obtain ⟨o, hin, rfl, -⟩ := ho.opIn h distinct
  rw [permits_ser h hin shown]
  refine or_congr .rfl ⟨?_, ?_⟩
  all_goals
    rintro ⟨alt, ha, hs⟩
    refine ⟨alt, ha, fun i hi => ?_⟩
    obtain ⟨s, h1, h2⟩ := hs i hi
    have req : api.Requires i.name :=
      (opParts_requires hi ha).elim (fun h' => .inl (hin.parts h _ h')) fun ⟨s, h'⟩ => .inr ⟨s, hin.parts h _ h'⟩
    first
      | exact ⟨s, (schemeAfter_counts (schemes _ req) s).1 h1, h2⟩
      | exact ⟨s, (schemeAfter_counts (schemes _ req) s).2 h1, h2⟩

/-- The same if no name is used for two schemes. -/
theorem access_partial {reason : Nat → Option String} {api : Api} {d : Opg} (h : Composed reason api d)
    (schemes : ∀ name, api.Requires name →
      SchemeAfter name (api.flatMap Section.schemeList) api.parts none (BMap.get name d.components.securitySchemes))
    (distinct : d.ser.DistinctKeys) (ps : List OpProp) (one : api.OneSchemeIn ps) (op : Value) (ho : OpWritten api d.ser ps op)
    (shown : Credentials) : d.ser.Permits op shown ↔ api.Permits ps shown := by
  rw [access_meaning h schemes distinct ps op ho shown]
  obtain ⟨o, hin, rfl, -⟩ := ho.opIn h distinct
  have counts : ∀ name s, api.Requires name → (∀ s s', api.Calls name s → api.Calls name s' → s = s') →
      (api.Counts name s ↔ api.Calls name s) := by
    intro name s req one
    have calls : ∀ s, api.Counts name s → api.Calls name s := by
      intro s hs
      unfold Api.Counts at hs
      cases hl : lastOf (SchemeDecl.named? name) (api.flatMap Section.schemeList) with
      | some decl =>
        rw [hl] at hs
        obtain ⟨x, hx, hf⟩ := lastOf_mem hl
        unfold SchemeDecl.named? at hf
        split at hf
        · cases hf; exact .declared hx ‹_› hs
        · cases hf
      | none =>
        rw [hl] at hs
        obtain ⟨x, hx, hf⟩ := List.exists_of_findSome?_eq_some hs
        cases x with
        | scheme n s' =>
          unfold Part.scheme? at hf
          simp only at hf
          split at hf
          · rename_i e; cases hf; subst e; exact .used hx
          · cases hf
        | _ => simp [Part.scheme?] at hf
    refine ⟨calls s, fun hc => ?_⟩
    have some : ∃ s', api.Counts name s' := by
      have after := schemes name req
      unfold SchemeAfter at after
      unfold Api.Counts
      cases hl : lastOf (SchemeDecl.named? name) (api.flatMap Section.schemeList) with
      | some decl => rw [hl] at after; obtain ⟨s', -, hs'⟩ := after; exact ⟨s', hs'⟩
      | none =>
        cases hc with
        | declared hd hn hs =>
          have := lastOf_none.1 hl _ hd
          simp [SchemeDecl.named?, hn] at this
        | used hu =>
          have : (api.parts.findSome? (Part.scheme? name)).isSome := by
            rw [List.findSome?_isSome_iff]
            exact ⟨_, hu, by simp [Part.scheme?]⟩
          exact Option.isSome_iff_exists.1 this
    obtain ⟨s', hs'⟩ := some
    rw [one s s' hc (calls s' hs')]
    exact hs'
  unfold Api.Permits
  refine or_congr .rfl ⟨?_, ?_⟩
  all_goals
    rintro ⟨alt, ha, hs⟩
    refine ⟨alt, ha, fun i hi => ?_⟩
    obtain ⟨s, h1, h2⟩ := hs i hi
    refine ⟨s, ?_, h2⟩
    have req : api.Requires i.name :=
      (opParts_requires hi ha).elim (fun h' => .inl (hin.parts h _ h')) fun ⟨s, h'⟩ => .inr ⟨s, hin.parts h _ h'⟩
    have one := one alt ha i hi
    cases i with
    | literal n rs => first | exact (counts n s req one).1 h1 | exact (counts n s req one).2 h1
    | scheme n s' rs =>
      have used : api.Calls n s' := .used (hin.parts h _ (opParts_security hi ha))
      first
        | exact one s' s used ((counts n s req one).1 h1)
        | (have e : s' = s := h1; subst e; exact (counts n s' req one).2 used)

theorem Describes.schemes {env : Env} {reason : Nat → Option String} {api : Api} {d : Opg} (h : Describes env reason api d) (name : String) :
    SchemeAfter name (api.flatMap Section.schemeList) api.parts none (BMap.get name d.components.securitySchemes) := by
  obtain ⟨c, rfl, rfl, s⟩ := h.step
  exact s.schemes name

/-- **C112**, what documents say, for all descriptions: a request passes an operation exactly if it has no alternatives or
the schemes that count under the names of one alternative are satisfied. -/
theorem c112_meaning (env : Env) (reason : Nat → Option String) (api : Api) (d : Opg) (h : Describes env reason api d)
    (distinct : d.ser.DistinctKeys) (ps : List OpProp) (op : Value) (ho : OpWritten api d.ser ps op) (shown : Credentials) :
    d.ser.Permits op shown ↔ ps.flatMap OpProp.securityList = [] ∨
      ∃ alt ∈ ps.flatMap OpProp.securityList, ∀ i ∈ alt, ∃ s, api.Counts i.name s ∧ shown s :=
  access_meaning h.composed (fun name _ => h.schemes name) distinct ps op ho shown

/-- **C112**: a request passes the written security of an operation, at any depth, exactly if it passes the one described.
Missing: names used for two schemes (`c112_is_false`). -/
theorem c112_access_partial (env : Env) (reason : Nat → Option String) (api : Api) (d : Opg) (h : Describes env reason api d)
    (distinct : d.ser.DistinctKeys) (one : api.OneScheme) (ps : List OpProp) (op : Value) (ho : OpWritten api d.ser ps op)
    (shown : Credentials) : d.ser.Permits op shown ↔ api.Permits ps shown :=
  access_partial h.composed (fun name _ => h.schemes name) distinct ps (fun _ _ i _ => one i.name) op ho shown

/-- **C112**, the same for one operation: only the names in its own alternatives matter.
Missing: names used for two schemes (`c112_is_false`). -/
theorem c112_operation_partial (env : Env) (reason : Nat → Option String) (api : Api) (d : Opg) (h : Describes env reason api d)
    (distinct : d.ser.DistinctKeys) (ps : List OpProp) (one : api.OneSchemeIn ps) (op : Value) (ho : OpWritten api d.ser ps op)
    (shown : Credentials) : d.ser.Permits op shown ↔ api.Permits ps shown :=
  access_partial h.composed (fun name _ => h.schemes name) distinct ps one op ho shown

/-- **C112**, exactly, for operations with one alternative of one scheme: document and description let the same requests pass
if and only if what the author wants is what counts under the name. -/
theorem c112_exact (env : Env) (reason : Nat → Option String) (api : Api) (d : Opg) (h : Describes env reason api d)
    (distinct : d.ser.DistinctKeys) (ps : List OpProp) (i : SecurityDecl) (hi : ps.flatMap OpProp.securityList = [[i]]) (op : Value)
    (ho : OpWritten api d.ser ps op) :
    (∀ shown, d.ser.Permits op shown ↔ api.Permits ps shown) ↔ ∀ s, i.Wants api s ↔ api.Counts i.name s := by
  have doc : ∀ shown, d.ser.Permits op shown ↔ ∃ s, api.Counts i.name s ∧ shown s := fun shown => by
    rw [c112_meaning env reason api d h distinct ps op ho, hi]; simp
  have author : ∀ shown, api.Permits ps shown ↔ ∃ s, i.Wants api s ∧ shown s := fun shown => by
    unfold Api.Permits; rw [hi]; simp
  constructor
  · intro hp s
    have := hp (· = s)
    rw [doc, author] at this
    simpa using this.symm
  · intro hs shown
    rw [doc, author]
    exact exists_congr fun s => and_congr_left fun _ => (hs s).symm

/-- **C112**, for all descriptions: exactly the operations without alternatives are open to everyone. -/
theorem c112_open (env : Env) (reason : Nat → Option String) (api : Api) (d : Opg) (h : Describes env reason api d)
    (distinct : d.ser.DistinctKeys) (ps : List OpProp) (op : Value) (ho : OpWritten api d.ser ps op) :
    (d.ser.Permits op fun _ => False) ↔ ps.flatMap OpProp.securityList = [] := by
  rw [c112_meaning env reason api d h distinct ps op ho]
  refine ⟨fun hp => hp.elim id ?_, .inl⟩
  rintro ⟨alt, ha, hs⟩
  obtain ⟨o, hin, rfl, -⟩ := ho.opIn h.composed distinct
  cases alt with
  | nil =>
    obtain ⟨i, hi⟩ := List.getElem?_of_mem ha
    obtain ⟨m, -, ao⟩ := (c57_operation_order env reason api d h ps o hin).1.get hi
    exact absurd rfl ao.someone
  | cons i is =>
    obtain ⟨s, -, f⟩ := hs i (.head _)
    exact f.elim

/-- An operation that wants a key and a login, or a token; its callback wants the key. -/
def Sample.vaultOp : List OpProp := [.security [[.literal "key" [], .scheme "login" (.http (.basic none)) []]],
  .security [[.literal "token" []]], .callbacks [.ident "onOpen" [.mk [.literal "open"] [.operation .post [.security [[.literal "key" []]]]]]]]

def Sample.vaultApi : Api := [.securitySchemes [.apiKey "key" [.name "k"], .http "token" [.bearer, .description "t"]],
  .paths [.mk [.literal "vault"] [.operation .get vaultOp, .operation .head []]]]

theorem Sample.vaultApi_one : vaultApi.OneScheme := by
  have key : ∀ name s, vaultApi.Calls name s → (name, s) ∈ [("key", SecurityScheme.apiKey ⟨.header, "k", none⟩),
      ("token", .http (.bearer none (some "t"))), ("login", .http (.basic none))] := by
    intro name s hs
    cases hs with
    | declared h hn hs =>
      simp [vaultApi, Section.schemeList] at h
      rcases h with rfl | rfl
      · obtain ⟨n, e, rfl⟩ := hs
        cases e
        subst hn
        exact .head _
      · rcases hs with ⟨e, -⟩ | ⟨-, rfl⟩
        · cases e
        · subst hn
          exact .tail _ (.head _)
    | used h =>
      simp [vaultApi, vaultOp, Api.parts, Api.pathList, Section.pathList, pathParts, itemParts, opParts, callbackParts, PathSeg.parts,
        SecurityDecl.parts] at h
      obtain ⟨rfl, rfl⟩ := h
      exact .tail _ (.tail _ (.head _))
  intro name s s' h h'
  have h := key name s h
  have h' := key name s' h'
  simp at h h'
  rcases h with ⟨rfl, rfl⟩ | ⟨rfl, rfl⟩ | ⟨rfl, rfl⟩ <;> (simp at h'; exact h'.symm)

def Sample.vault : Opg := (describeApi (⟨Sample.env, 10, reason⟩ : Ctx) vaultApi).getD .empty

theorem Sample.vault_described : Describes Sample.env reason vaultApi vault := ⟨10, rfl⟩

theorem Sample.vault_distinct : vault.ser.DistinctKeys := by
  refine c20_distinct_keys_partial _ (c25_described_documents _ _ _ _ vault_described ?_) ?_
  · intro r hr
    simp [vaultApi, vaultOp, Api.parts, Api.pathList, Section.pathList, pathParts, itemParts, opParts, callbackParts, PathSeg.parts,
      SecurityDecl.parts] at hr
  · refine ⟨?_, ?_⟩
    · show (List.map _ _).Nodup
      decide +kernel
    · exact ⟨⟨trivial, ⟨⟨trivial, ⟨⟨by show (List.map _ _).Nodup; decide +kernel,
        ⟨⟨trivial, ⟨⟨trivial, trivial⟩, trivial⟩⟩, trivial⟩⟩, trivial⟩⟩, ⟨⟨trivial, trivial⟩, trivial⟩⟩⟩, trivial⟩

/-- The hypotheses of `c112_access_partial` hold of the sample.  A token is enough for the operation, the key alone is not; the
other operation is open. -/
example : ∃ op op', OpWritten vaultApi vault.ser vaultOp op ∧ OpWritten vaultApi vault.ser [] op' ∧
    (vault.ser.Permits op fun s => ∃ f t, s = .http (.bearer f t)) ∧ (¬ vault.ser.Permits op fun s => ∃ k, s = .apiKey k) ∧
    vault.ser.Permits op' fun _ => False := by
  obtain ⟨h1, -, h3, -⟩ := c81_placed _ _ _ _ vault_described vault_distinct
  obtain ⟨v, hv⟩ := h1 (.mk [.literal "vault"] [.operation .get vaultOp, .operation .head []]) (List.mem_singleton.2 rfl)
  obtain ⟨op, -, hop⟩ := h3 _ _ .get vaultOp hv rfl
  obtain ⟨op', -, hop'⟩ := h3 _ _ .head [] hv rfl
  have access := c112_access_partial _ _ _ _ vault_described vault_distinct vaultApi_one
  refine ⟨op, op', hop, hop', (access _ _ hop _).2 (.inr ⟨[.literal "token" []], .tail _ (.head _), fun i hi => ?_⟩), fun h => ?_,
    (c112_open _ _ _ _ vault_described vault_distinct _ _ hop').2 rfl⟩
  · cases List.mem_singleton.1 hi
    exact ⟨_, .declared (decl := .http "token" [.bearer, .description "t"]) (.tail _ (.head _)) rfl (.inr ⟨rfl, rfl⟩), none, some "t", rfl⟩
  · rcases (access _ _ hop _).1 h with h | ⟨alt, ha, h⟩
    · cases h
    · have ha : alt ∈ [[SecurityDecl.literal "key" [], .scheme "login" (.http (.basic none)) []], [.literal "token" []]] := ha
      simp at ha
      rcases ha with rfl | rfl
      · obtain ⟨s, hw, k, hk⟩ := h _ (.tail _ (.head _))
        have hw : SecurityScheme.http (.basic none) = s := hw
        subst hw
        cases hk
      · obtain ⟨s, hw, k, hk⟩ := h _ (.head _)
        have hw : vaultApi.Calls "token" s := hw
        have := vaultApi_one _ _ _ hw (.declared (decl := .http "token" [.bearer, .description "t"]) (.tail _ (.head _)) rfl (.inr ⟨rfl, rfl⟩))
        rw [hk] at this
        cases this

def Sample.falseOp : List OpProp := [.security [[.scheme "basic" (.http (.basic none)) []]]]

/-- The property is false of names that are used for two schemes: the operation wants the password held in the variable
`basic`, the document asks for a token, which is declared under that name. -/
theorem c112_is_false : ∃ (env : Env) (reason : Nat → Option String) (api : Api) (d : Opg) (ps : List OpProp) (op : Value),
    Describes env reason api d ∧ d.ser.DistinctKeys ∧ OpWritten api d.ser ps op ∧
    (api.Permits ps fun s => s = .http (.basic none)) ∧ (¬ d.ser.Permits op fun s => s = .http (.basic none)) ∧
    (d.ser.Permits op fun s => s = .http (.bearer none none)) ∧ ¬ api.Permits ps fun s => s = .http (.bearer none none) := by
  have h : Describes Sample.env reason [.securitySchemes [.http "basic" [.bearer]], .paths [.mk [.literal "a"] [.operation .get falseOp]]] _ :=
    ⟨10, rfl⟩
  have hd := c20_distinct_keys_partial _ (c25_described_documents _ _ _ _ h (by
    intro r hr
    simp [falseOp, Api.parts, Api.pathList, Section.pathList, pathParts, itemParts, opParts, PathSeg.parts, SecurityDecl.parts] at hr))
    ⟨by show (List.map _ _).Nodup; decide +kernel, ⟨⟨trivial, ⟨⟨trivial, trivial⟩, trivial⟩⟩, trivial⟩⟩
  obtain ⟨h1, -, h3, -⟩ := c81_placed _ _ _ _ h hd
  obtain ⟨v, hv⟩ := h1 (.mk [.literal "a"] [.operation .get falseOp]) (List.mem_singleton.2 rfl)
  obtain ⟨op, -, hop⟩ := h3 _ _ .get falseOp hv rfl
  have meaning := c112_meaning _ _ _ _ h hd _ _ hop
  refine ⟨_, _, _, _, _, op, h, hd, hop, ?_, ?_, ?_, ?_⟩
  · refine .inr ⟨_, .head _, fun i hi => ?_⟩
    cases List.mem_singleton.1 hi
    exact ⟨_, rfl, rfl⟩
  · rw [meaning]
    rintro (h | ⟨alt, ha, h⟩)
    · cases h
    · have ha : alt ∈ [[SecurityDecl.scheme "basic" (.http (.basic none)) []]] := ha
      cases List.mem_singleton.1 ha
      obtain ⟨s, hc, rfl⟩ := h _ (.head _)
      rcases hc with ⟨e, -⟩ | ⟨-, e⟩ <;> cases e
  · rw [meaning]
    refine .inr ⟨_, .head _, fun i hi => ?_⟩
    cases List.mem_singleton.1 hi
    exact ⟨_, .inr ⟨rfl, rfl⟩, rfl⟩
  · rintro (h | ⟨alt, ha, h⟩)
    · cases h
    · have ha : alt ∈ [[SecurityDecl.scheme "basic" (.http (.basic none)) []]] := ha
      cases List.mem_singleton.1 ha
      obtain ⟨s, hc, rfl⟩ := h _ (.head _)
      cases hc

/-- One operation wants the password under a name that is declared as something else, the other wants a key. -/
def Sample.gateOp : List OpProp := [.security [[.literal "key" []]]]

def Sample.gateApi : Api := [.securitySchemes [.http "basic" [.bearer], .apiKey "key" [.name "k"]],
  .paths [.mk [.literal "a"] [.operation .get falseOp, .operation .put gateOp]]]

def Sample.gate : Opg := (describeApi (⟨Sample.env, 10, reason⟩ : Ctx) gateApi).getD .empty

theorem Sample.gate_described : Describes Sample.env reason gateApi gate := ⟨10, rfl⟩

theorem Sample.gate_distinct : gate.ser.DistinctKeys :=
  c20_distinct_keys_partial _ (c25_described_documents _ _ _ _ gate_described (by
    intro r hr
    simp [gateApi, gateOp, falseOp, Api.parts, Api.pathList, Section.pathList, pathParts, itemParts, opParts, PathSeg.parts,
      SecurityDecl.parts] at hr))
    ⟨by show (List.map _ _).Nodup; decide +kernel, ⟨⟨trivial, ⟨⟨trivial, trivial⟩, ⟨⟨trivial, trivial⟩, trivial⟩⟩⟩, trivial⟩⟩

/-- The name `key` is used for one scheme only, so the second operation is as described although the first is not. -/
example : ¬ gateApi.OneScheme ∧ ∃ op op', OpWritten gateApi gate.ser gateOp op ∧ OpWritten gateApi gate.ser falseOp op' ∧
    (∀ shown, gate.ser.Permits op shown ↔ gateApi.Permits gateOp shown) ∧
    ¬ ∀ shown, gate.ser.Permits op' shown ↔ gateApi.Permits falseOp shown := by
  obtain ⟨h1, -, h3, -⟩ := c81_placed _ _ _ _ gate_described gate_distinct
  obtain ⟨v, hv⟩ := h1 (.mk [.literal "a"] [.operation .get falseOp, .operation .put gateOp]) (List.mem_singleton.2 rfl)
  obtain ⟨op', -, hop'⟩ := h3 _ _ .get falseOp hv rfl
  obtain ⟨op, -, hop⟩ := h3 _ _ .put gateOp hv rfl
  have bearer : gateApi.Calls "basic" (.http (.bearer none none)) :=
    .declared (decl := .http "basic" [.bearer]) (.head _) rfl (.inr ⟨rfl, rfl⟩)
  refine ⟨fun one => ?_, op, op', hop, hop', ?_, ?_⟩
  · have used : gateApi.Calls "basic" (.http (.basic none)) := .used (by
      simp [gateApi, gateOp, falseOp, Api.parts, Api.pathList, Section.pathList, pathParts, itemParts, opParts, PathSeg.parts,
        SecurityDecl.parts])
    cases one _ _ _ bearer used
  · refine c112_operation_partial _ _ _ _ gate_described gate_distinct _ ?_ op hop
    have key : ∀ s, gateApi.Calls "key" s → s = .apiKey ⟨.header, "k", none⟩ := by
      intro s hs
      cases hs with
      | declared h hn hs =>
        simp [gateApi, Section.schemeList] at h
        rcases h with rfl | rfl
        · exact absurd hn (by decide)
        · obtain ⟨n, e, rfl⟩ := hs
          cases e
          rfl
      | used h =>
        simp [gateApi, gateOp, falseOp, Api.parts, Api.pathList, Section.pathList, pathParts, itemParts, opParts, PathSeg.parts,
          SecurityDecl.parts] at h
    intro alt ha i hi s s' h h'
    have ha : alt ∈ [[SecurityDecl.literal "key" []]] := ha
    cases List.mem_singleton.1 ha
    cases List.mem_singleton.1 hi
    rw [key s h, key s' h']
  · rw [c112_exact _ _ _ _ gate_described gate_distinct falseOp _ rfl op' hop']
    intro h
    have : gateApi.Counts "basic" (.http (.basic none)) := (h _).1 rfl
    rcases this with ⟨e, -⟩ | ⟨-, e⟩ <;> cases e

end Verif
