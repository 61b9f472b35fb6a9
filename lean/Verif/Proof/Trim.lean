import Verif.Proof.Syntax
/-!
# Trailing commas can be left out
-/

namespace Verif

/-- Ends in something else than a comma. -/
def Solid (t : List TT) : Prop := ∃ a v, t = a ++ [v] ∧ v ≠ .comma

theorem dropComma_append {a b : List TT} (h : b ≠ []) : dropComma (a ++ b) = a ++ dropComma b := by
  induction a with
  | nil => rfl
  | cons t ts ih =>
    have hne : ts ++ b ≠ [] := by simp [h]
    cases hx : ts ++ b with
    | nil => exact absurd hx hne
    | cons c cs =>
      rw [hx] at ih
      simp only [List.cons_append, hx]
      rw [← ih]
      cases t <;> rfl

theorem dropComma_comma {a : List TT} : dropComma (a ++ [.comma]) = a := by
  rw [dropComma_append (by simp)]; simp [dropComma]

theorem dropComma_solid {t : List TT} (h : Solid t) : dropComma t = t := by
  obtain ⟨a, v, rfl, hv⟩ := h
  rw [dropComma_append (by simp)]
  cases v <;> first | rfl | exact absurd rfl hv

theorem trimAll_append {a b : List TT} : trimAll (a ++ b) = trimAll a ++ trimAll b := by
  induction a with
  | nil => simp [trimAll]
  | cons t ts ih => simp [trimAll, ih]

theorem Solid.append {a b : List TT} (h : Solid b) : Solid (a ++ b) := by
  obtain ⟨c, v, rfl, hv⟩ := h
  exact ⟨a ++ c, v, by simp, hv⟩

theorem Solid.single {v : TT} (h : v ≠ .comma) : Solid [v] := ⟨[], v, rfl, h⟩
theorem Solid.ne_nil {t : List TT} (h : Solid t) : t ≠ [] := by
  obtain ⟨a, v, rfl, -⟩ := h; simp

/-- `P` still holds without trailing commas. -/
def Keeps (P : TT → Prop) : Prop := ∀ v, P v → P v.trim ∧ v.trim ≠ .comma
def KeepsAll (P : List TT → Prop) : Prop := ∀ t, P t → P (trimAll t) ∧ Solid (trimAll t)

theorem KeepsAll.trimmed {P} (h : KeepsAll P) {t} (ht : P t) : P (trimmed t) := by
  obtain ⟨h1, h2⟩ := h t ht
  rw [Verif.trimmed, dropComma_solid h2]; exact h1

theorem Keeps.same {P : TT → Prop} (h : ∀ v, P v → v.trim = v ∧ v ≠ .comma) : Keeps P := by
  intro v hv
  obtain ⟨h1, h2⟩ := h v hv
  rw [h1]; exact ⟨hv, h2⟩

theorem trim_evaluates {sc t v} (h : Evaluates sc t v) : t.trim = t ∧ t ≠ .comma := by
  cases h <;> exact ⟨by simp [TT.trim], nofun⟩

theorem trim_displays {sc s t} (h : Displays sc s t) : t.trim = t ∧ t ≠ .comma := by
  obtain ⟨v, h, -⟩ := h; exact trim_evaluates h

theorem trim_denotes {sc p ty t} (h : Denotes sc p ty t) : t.trim = t ∧ t ≠ .comma := by
  cases h <;> exact ⟨by simp [TT.trim], nofun⟩

theorem trim_string {sc s t} (h : IsString sc s t) : t.trim = t ∧ t ≠ .comma := by
  cases h <;> exact ⟨by simp [TT.trim], nofun⟩

theorem keeps_displays {sc s} : Keeps (Displays sc s) := .same fun _ => trim_displays
theorem keeps_text {sc s} : Keeps (IsText sc s) := .same fun _ => trim_evaluates
theorem keeps_flag {sc b} : Keeps (IsFlag sc b) := .same fun _ => trim_evaluates
theorem keeps_type {sc t} : Keeps (IsType sc t) := .same fun _ ⟨_, h⟩ => trim_denotes h
theorem keeps_ident {x} : Keeps (· = .ident x) := .same fun _ h => by subst h; exact ⟨by simp [TT.trim], nofun⟩
theorem keeps_lit {x} : Keeps (· = .lit x) := .same fun _ h => by subst h; exact ⟨by simp [TT.trim], nofun⟩

theorem keeps_braced {P} (h : ∀ ts, P ts → P (trimmed ts)) : Keeps (Braced P) := by
  rintro _ ⟨ts, ht, rfl⟩
  simp only [TT.trim]
  exact ⟨⟨_, h ts ht, rfl⟩, nofun⟩

theorem keeps_keyed {k P} (h : Keeps P) : KeepsAll (Keyed k P) := by
  rintro _ ⟨v, hv, rfl⟩
  obtain ⟨h1, h2⟩ := h v hv
  simp only [trimAll, TT.trim]
  exact ⟨⟨_, h1, rfl⟩, [_, _], _, rfl, h2⟩

theorem next_trim {tr last t rest ts} (hs : Solid (trimAll t)) (hn : Next tr last t rest ts) (hr : last = false → trimAll rest ≠ []) :
    Next tr last (trimAll t) (trimmed rest) (trimmed ts) := by
  cases last with
  | true =>
    obtain ⟨rfl, rfl | ⟨ht, rfl⟩⟩ := hn
    · exact ⟨by simp [trimmed, trimAll, dropComma], .inl (by rw [trimmed, dropComma_solid hs])⟩
    · refine ⟨by simp [trimmed, trimAll, dropComma], .inl ?_⟩
      simp only [trimmed, trimAll_append, trimAll, TT.trim]
      exact dropComma_comma
  | false =>
    have hn : ts = t ++ .comma :: rest := hn
    subst hn
    have hr := hr rfl
    show trimmed (t ++ .comma :: rest) = _
    simp only [trimmed, trimAll_append, trimAll, TT.trim]
    rw [dropComma_append (by simp)]
    show trimAll t ++ dropComma ([TT.comma] ++ trimAll rest) = _
    rw [dropComma_append hr]; rfl

theorem listed_ne {tr} {R : α → List TT → Prop} {x xs ts} (hR : ∀ t, R x t → Solid (trimAll t)) (h : Listed tr R (x :: xs) ts) :
    trimAll ts ≠ [] := by
  obtain ⟨t, rest, hr, hn, -⟩ := h
  have := (hR t hr).ne_nil
  cases xs with
  | nil =>
    obtain ⟨-, rfl | ⟨-, rfl⟩⟩ := hn
    · exact this
    · simp [trimAll_append, this]
  | cons =>
    have hn : ts = t ++ .comma :: rest := hn
    subst hn
    simp [trimAll_append, this]

theorem listed_trim {tr} {R : α → List TT → Prop} {xs ts} (hR : ∀ x ∈ xs, KeepsAll (R x)) (h : Listed tr R xs ts) :
    Listed tr R xs (trimmed ts) := by
  induction xs generalizing ts with
  | nil => cases h; simp [Listed, trimmed, trimAll, dropComma]
  | cons x xs ih =>
    obtain ⟨t, rest, hr, hn, hl⟩ := h
    obtain ⟨h1, h2⟩ := hR x (.head _) t hr
    refine ⟨trimAll t, trimmed rest, h1, next_trim h2 hn ?_, ih (fun y hy => hR y (.tail _ hy)) hl⟩
    intro he
    cases xs with
    | nil => cases he
    | cons y ys => exact listed_ne (fun t ht => (hR y (.tail _ (.head _)) t ht).2) hl

theorem loosely_trim {P : List α → List TT → Prop} {xs ts} (hP : P xs ts → P xs (trimmed ts)) (h0 : P [] [])
    (h : Loosely P xs ts) : Loosely P xs (trimmed ts) := by
  rcases h with h | ⟨rfl, rfl⟩
  · exact .inl (hP h)
  · exact .inl (by simpa [trimmed, trimAll, TT.trim, dropComma] using h0)

theorem infoProp_trim {sc} (p : InfoProp) : KeepsAll (p.Spelled sc) := by
  cases p <;> exact keeps_keyed keeps_displays

theorem paren_trim {e : TT} (h : e.trim = e ∧ e ≠ .comma) : (TT.group .paren [e]).trim = .group .paren [e] := by
  simp only [TT.trim, trimAll, h.1]
  rw [dropComma_solid (.single h.2)]

theorem tag_trim {sc} (p : String × Option String) : KeepsAll (tagSpelled sc p) := by
  obtain ⟨t, d⟩ := p
  intro ts h
  cases d with
  | none =>
    have h : ts = [.ident t] := h
    subst h
    simp only [trimAll, TT.trim]
    exact ⟨rfl, .single nofun⟩
  | some d =>
    obtain ⟨e, he, rfl⟩ := h
    simp only [trimAll, paren_trim (trim_displays he)]
    simp only [TT.trim]
    exact ⟨⟨e, he, rfl⟩, [_], _, rfl, nofun⟩

theorem server_trim {sc} (p : String × Option String) : KeepsAll (serverSpelled sc p) := by
  obtain ⟨t, d⟩ := p
  intro ts h
  cases d with
  | none =>
    obtain ⟨e, he, rfl⟩ := h
    obtain ⟨h1, h2⟩ := trim_string he
    simp only [trimAll, h1]
    exact ⟨⟨e, he, rfl⟩, .single h2⟩
  | some d =>
    obtain ⟨e, e', he, he', rfl⟩ := h
    simp only [trimAll, paren_trim (trim_string he'), (trim_string he).1]
    exact ⟨⟨e, e', he, he', rfl⟩, [_], _, rfl, nofun⟩

theorem httpProp_trim {sc} (p : HttpSchemeProp) : KeepsAll (p.Spelled sc) := by
  cases p
  · exact keeps_keyed keeps_ident
  · exact keeps_keyed keeps_ident
  · exact keeps_keyed keeps_displays
  · exact keeps_keyed keeps_displays

theorem apiKeyProp_trim {sc} (p : ApiKeyProp) : KeepsAll (p.Spelled sc) := by
  cases p
  · exact keeps_keyed keeps_ident
  · exact keeps_keyed keeps_displays
  · exact keeps_keyed keeps_displays

theorem nonempty_trim {tr} {R : α → List TT → Prop} {xs ts} (hR : ∀ x ∈ xs, KeepsAll (R x)) (hn : ts ≠ []) (h : Listed tr R xs ts) :
    trimmed ts ≠ [] := by
  cases xs with
  | nil => exact absurd h hn
  | cons x xs =>
    have := listed_trim hR h
    intro he
    rw [he] at this
    obtain ⟨t, rest, hr, hn, -⟩ := this
    have ht := (hR x (.head _) t hr).2.ne_nil
    cases xs with
    | nil =>
      obtain ⟨-, h | ⟨-, h⟩⟩ := hn
      · subst h; exact ht (by simp [trimAll])
      · simp at h
    | cons => simp [Next] at hn

theorem scheme_trim {sc} (p : SchemeDecl) : KeepsAll (p.Spelled sc) := by
  cases p with
  | ident x s =>
    rintro _ ⟨h, rfl⟩
    simp only [trimAll, TT.trim]
    exact ⟨⟨h, rfl⟩, .single nofun⟩
  | http name ps =>
    rintro _ ⟨b, hb, hl, rfl⟩
    simp only [trimAll, TT.trim, dropComma]
    exact ⟨⟨_, nonempty_trim (fun x _ => httpProp_trim x) hb hl, listed_trim (fun x _ => httpProp_trim x) hl, rfl⟩, [_, _], _, rfl, nofun⟩
  | apiKey name ps =>
    rintro _ ⟨e, b, he, hb, hl, rfl⟩
    have h1 : (TT.group .paren [.ident "apiKey", e]).trim = .group .paren [.ident "apiKey", e] := by
      simp only [TT.trim, trimAll, (trim_displays he).1]
      exact congrArg _ (dropComma_solid ⟨[_], _, rfl, (trim_displays he).2⟩)
    simp only [trimAll, h1]
    simp only [TT.trim]
    exact ⟨⟨e, _, he, nonempty_trim (fun x _ => apiKeyProp_trim x) hb hl, listed_trim (fun x _ => apiKeyProp_trim x) hl, rfl⟩,
      [_, _], _, rfl, nofun⟩

theorem paramProp_trim {sc} (p : ParamProp) : KeepsAll (p.Spelled sc) := by
  cases p
  · exact keeps_keyed keeps_displays
  · exact keeps_keyed keeps_flag
  · exact keeps_keyed keeps_flag
  · exact keeps_keyed keeps_type

theorem withProps_trim {sc head ps} (h : (TT.group .paren head).trim = .group .paren head) : KeepsAll (WithProps sc head ps) := by
  rintro _ (⟨rfl, rfl⟩ | ⟨b, hb, rfl⟩)
  · simp only [trimAll, h]
    exact ⟨.inl ⟨rfl, rfl⟩, .single nofun⟩
  · simp only [trimAll, h]
    simp only [TT.trim]
    exact ⟨.inr ⟨_, listed_trim (fun x _ => paramProp_trim x) hb, rfl⟩, [_, _], _, rfl, nofun⟩

theorem param_trim {sc} (p : ParamDecl) : KeepsAll (p.Spelled sc) := by
  cases p with
  | header name ps =>
    rintro t ⟨e, he, h⟩
    have h1 : (TT.group .paren [.ident "header", e]).trim = .group .paren [.ident "header", e] := by
      simp only [TT.trim, trimAll, (trim_displays he).1]
      exact congrArg _ (dropComma_solid ⟨[_], _, rfl, (trim_displays he).2⟩)
    obtain ⟨h2, h3⟩ := withProps_trim h1 t h
    exact ⟨⟨e, he, h2⟩, h3⟩
  | query name ty ps =>
    rintro t ⟨e, he, h⟩
    have hd := he
    obtain ⟨_, hd⟩ := hd
    have h1 : (TT.group .paren [.ident "query", .ident name, .colon, e]).trim = .group .paren [.ident "query", .ident name, .colon, e] := by
      simp only [TT.trim, trimAll, (trim_denotes hd).1]
      exact congrArg _ (dropComma_solid ⟨[_, _, _], _, rfl, (trim_denotes hd).2⟩)
    obtain ⟨h2, h3⟩ := withProps_trim h1 t h
    exact ⟨⟨e, he, h2⟩, h3⟩

theorem withRoles_trim {t roles} (h : t.trim = t ∧ t ≠ .comma) : KeepsAll (WithRoles t roles) := by
  rintro _ (⟨rfl, rfl⟩ | ⟨b, hb, rfl⟩)
  · simp only [trimAll, h.1]
    exact ⟨.inl ⟨rfl, rfl⟩, .single h.2⟩
  · simp only [trimAll, h.1]
    simp only [TT.trim]
    refine ⟨.inr ⟨_, listed_trim ?_ hb, rfl⟩, [_], _, rfl, nofun⟩
    rintro x - _ rfl
    simp only [trimAll, TT.trim]
    exact ⟨trivial, .single nofun⟩

theorem securityItem_trim {sc} (d : SecurityDecl) : KeepsAll (d.Spelled sc) := by
  cases d with
  | literal name roles => exact withRoles_trim ⟨by simp [TT.trim], nofun⟩
  | scheme name s roles =>
    rintro t ⟨h, hw⟩
    obtain ⟨h1, h2⟩ := withRoles_trim (t := .ident name) ⟨by simp [TT.trim], nofun⟩ t hw
    exact ⟨⟨h, h1⟩, h2⟩

theorem conj_trim {sc} (ds : List SecurityDecl) : KeepsAll (conjSpelled sc ds) := by
  induction ds with
  | nil => intro t h; exact h.elim
  | cons d ds ih =>
    cases ds with
    | nil => exact securityItem_trim d
    | cons e es =>
      rintro _ ⟨t, rest, ht, hr, rfl⟩
      obtain ⟨h1, h2⟩ := securityItem_trim d t ht
      obtain ⟨h3, h4⟩ := ih rest hr
      simp only [trimAll_append, trimAll, TT.trim]
      exact ⟨⟨_, _, h1, h3, rfl⟩, .append (.append (a := [_]) h4)⟩

theorem bodyProp_trim {sc} (p : BodyProp) : KeepsAll (p.Spelled sc) := by
  cases p
  · exact keeps_keyed keeps_type
  · exact keeps_keyed keeps_lit
  · exact keeps_keyed keeps_lit

theorem body_trim {sc} (b : BodyDecl) : Keeps (b.Spelled sc) := by
  cases b with
  | props ps => exact keeps_braced fun ts h => listed_trim (fun x _ => bodyProp_trim x) h
  | type t => exact keeps_type

theorem response_trim {sc} (r : ResponseDecl) : Keeps (r.Spelled sc) := by
  cases r with
  | absent => exact keeps_ident
  | type t =>
    rintro v (⟨rfl, rfl⟩ | ⟨hn, h⟩)
    · simp only [TT.trim, trimAll, dropComma]
      exact ⟨.inl ⟨rfl, rfl⟩, nofun⟩
    · obtain ⟨h1, h2⟩ := keeps_type v h
      obtain ⟨p, hp⟩ := h
      rw [(trim_denotes hp).1] at h1 h2 ⊢
      exact ⟨.inr ⟨hn, h1⟩, h2⟩
  | raw r =>
    rintro v (⟨rfl, rfl⟩ | ⟨x, hx, hv, rfl⟩ | rfl)
    · simp only [TT.trim, trimAll, dropComma]
      exact ⟨.inl ⟨rfl, rfl⟩, nofun⟩
    · simp only [TT.trim, trimAll, dropComma]
      exact ⟨.inr (.inl ⟨x, hx, hv, rfl⟩), nofun⟩
    · simp only [TT.trim, trimAll, dropComma]
      exact ⟨.inr (.inr rfl), nofun⟩

theorem seg_trim {sc} (s : PathSeg) : Keeps (s.Spelled sc) := by
  cases s with
  | literal s => exact keeps_lit
  | bare p ty => exact .same fun _ h => trim_denotes h
  | named n ty =>
    rintro _ ⟨p, ⟨q, hp⟩, rfl⟩
    have h1 : (TT.group .brace [.ident n, .colon, p]).trim = .group .brace [.ident n, .colon, p] := by
      simp only [TT.trim, trimAll, (trim_denotes hp).1]
      exact congrArg _ (dropComma_solid ⟨[_, _], _, rfl, (trim_denotes hp).2⟩)
    rw [h1]
    exact ⟨⟨p, ⟨q, hp⟩, rfl⟩, nofun⟩

theorem url_trim {sc} (ss : List PathSeg) : KeepsAll (urlSpelled sc ss) := by
  induction ss with
  | nil => intro t h; exact h.elim
  | cons s ss ih =>
    cases ss with
    | nil =>
      rintro _ ⟨t, ht, rfl⟩
      obtain ⟨h1, h2⟩ := seg_trim s t ht
      simp only [trimAll]
      exact ⟨⟨_, h1, rfl⟩, .single h2⟩
    | cons e es =>
      rintro _ ⟨t, rest, ht, hr, rfl⟩
      obtain ⟨h1, h2⟩ := seg_trim s t ht
      obtain ⟨h3, h4⟩ := ih rest hr
      simp only [trimAll, TT.trim]
      exact ⟨⟨_, _, h1, h3, rfl⟩, .append (a := [_, _]) h4⟩

theorem ident_trim (s : String) : KeepsAll (fun t => t = [TT.ident s]) := by
  rintro _ rfl
  simp only [trimAll, TT.trim]
  exact ⟨trivial, .single nofun⟩

mutual
theorem OpProp.trim {sc} : ∀ p : OpProp, KeepsAll (p.Spelled sc) := by
  intro p
  cases p with
  | summary s => simp only [OpProp.Spelled]; exact keeps_keyed keeps_text
  | operationId s => simp only [OpProp.Spelled]; exact keeps_keyed keeps_text
  | description s => simp only [OpProp.Spelled]; exact keeps_keyed keeps_text
  | deprecated s => simp only [OpProp.Spelled]; exact keeps_keyed keeps_flag
  | tags s =>
    simp only [OpProp.Spelled]
    exact keeps_keyed (keeps_braced fun ts h => loosely_trim (fun h => listed_trim (fun x _ => ident_trim x) h) rfl h)
  | parameters ps =>
    simp only [OpProp.Spelled]
    exact keeps_keyed (keeps_braced fun ts h => listed_trim (fun x _ => param_trim x) h)
  | callbacks cs =>
    simp only [OpProp.Spelled]
    exact keeps_keyed (keeps_braced fun ts h => (callbacks_trim cs ts h).1)
  | security s =>
    simp only [OpProp.Spelled]
    exact keeps_keyed (keeps_braced fun ts h => listed_trim (fun x _ => conj_trim x) h)
  | body b => simp only [OpProp.Spelled]; exact keeps_keyed (body_trim b)
  | response code d r =>
    cases d with
    | none =>
      simp only [OpProp.Spelled]
      rintro _ ⟨v, hv, rfl⟩
      obtain ⟨h1, h2⟩ := response_trim r v hv
      simp only [trimAll, TT.trim]
      exact ⟨⟨_, h1, rfl⟩, [_, _], _, rfl, h2⟩
    | some d =>
      simp only [OpProp.Spelled]
      rintro _ ⟨v, hv, rfl⟩
      obtain ⟨h1, h2⟩ := response_trim r v hv
      simp only [trimAll, TT.trim, dropComma]
      exact ⟨⟨_, h1, rfl⟩, [_, _, _], _, rfl, h2⟩
termination_by structural p => p
theorem opProps_trim {sc} : ∀ (ps : List OpProp), ∀ p ∈ ps, KeepsAll (p.Spelled sc)
  | [], _, h => nomatch h
  | p :: ps, q, h => by
    rcases List.mem_cons.1 h with h | h
    · rw [h]; exact OpProp.trim p
    · exact opProps_trim ps q h
termination_by structural ps => ps
theorem callbacks_trim {sc} : ∀ (cs : List CallbackDecl) (ts : List TT), callbacksSpelled sc cs ts →
    callbacksSpelled sc cs (trimmed ts) ∧ (cs ≠ [] → trimAll ts ≠ [])
  | [], ts, h => by
    simp only [callbacksSpelled] at h
    subst h
    simp [callbacksSpelled, trimmed, trimAll, dropComma]
  | .literal name paths :: cs, ts, h => by
    simp only [callbacksSpelled] at h
    obtain ⟨h1, h2, b, rfl⟩ := h
    refine ⟨?_, by simp [trimAll]⟩
    simp only [callbacksSpelled, trimmed, trimAll, TT.trim, dropComma]
    exact ⟨h1, h2, _, rfl⟩
  | .ident name paths :: cs, ts, h => by
    simp only [callbacksSpelled] at h
    obtain ⟨b, rest, hp, hn, hc⟩ := h
    obtain ⟨h1, h2⟩ := callbacks_trim cs rest hc
    have hs : Solid (trimAll [TT.ident name, .colon, .group .brace b]) := by
      simp only [trimAll, TT.trim]; exact ⟨[_, _], _, rfl, nofun⟩
    have hx := next_trim hs hn (by
      intro he; apply h2; rintro rfl; cases he)
    refine ⟨?_, ?_⟩
    · simp only [callbacksSpelled]
      simp only [trimAll, TT.trim] at hx
      exact ⟨_, _, paths_listed.2 (listed_trim (paths_trim paths) (paths_listed.1 hp)), hx, h1⟩
    · intro _
      cases cs with
      | nil =>
        obtain ⟨-, rfl | ⟨-, rfl⟩⟩ := hn <;> simp [trimAll]
      | cons =>
        have hn : ts = [TT.ident name, .colon, .group .brace b] ++ .comma :: rest := hn
        subst hn
        simp [trimAll]
termination_by structural cs => cs
theorem PathDecl.trim {sc} : ∀ d : PathDecl, KeepsAll (d.Spelled sc)
  | ⟨ss, ps⟩, _, ⟨u, b, hu, hb, he⟩ => by
    subst he
    simp only [trimAll, TT.trim]
    exact ⟨⟨_, _, (url_trim ss).trimmed hu, itemProps_listed.2 (listed_trim (itemProps_trim ps) (itemProps_listed.1 hb)), rfl⟩,
      [_, _], _, rfl, nofun⟩
termination_by structural d => d
theorem paths_trim {sc} : ∀ (ps : List PathDecl), ∀ p ∈ ps, KeepsAll (p.Spelled sc)
  | [], _, h => nomatch h
  | p :: ps, q, h => by
    rcases List.mem_cons.1 h with h | h
    · rw [h]; exact PathDecl.trim p
    · exact paths_trim ps q h
termination_by structural ps => ps
theorem ItemProp.trim {sc} : ∀ p : ItemProp, KeepsAll (p.Spelled sc) := by
  intro p
  cases p with
  | summary s => simp only [ItemProp.Spelled]; exact keeps_keyed keeps_lit
  | description s => simp only [ItemProp.Spelled]; exact keeps_keyed keeps_lit
  | parameters ps =>
    simp only [ItemProp.Spelled]
    exact keeps_keyed (keeps_braced fun ts h => listed_trim (fun x _ => param_trim x) h)
  | operation m ps =>
    simp only [ItemProp.Spelled]
    exact keeps_keyed (keeps_braced fun ts h => opProps_listed.2 (listed_trim (opProps_trim ps) (opProps_listed.1 h)))
termination_by structural p => p
theorem itemProps_trim {sc} : ∀ (ps : List ItemProp), ∀ p ∈ ps, KeepsAll (p.Spelled sc)
  | [], _, h => nomatch h
  | p :: ps, q, h => by
    rcases List.mem_cons.1 h with h | h
    · rw [h]; exact ItemProp.trim p
    · exact itemProps_trim ps q h
termination_by structural ps => ps
end

theorem section_trim {sc} (s : Section) : KeepsAll (s.Spelled sc) := by
  cases s with
  | info ps => exact keeps_keyed (keeps_braced fun ts h => loosely_trim (fun h => listed_trim (fun x _ => infoProp_trim x) h) rfl h)
  | tags ps => exact keeps_keyed (keeps_braced fun ts h => loosely_trim (fun h => listed_trim (fun x _ => tag_trim x) h) rfl h)
  | servers ps => exact keeps_keyed (keeps_braced fun ts h => listed_trim (fun x _ => server_trim x) h)
  | securitySchemes ps => exact keeps_keyed (keeps_braced fun ts h => listed_trim (fun x _ => scheme_trim x) h)
  | paths ps =>
    exact keeps_keyed (keeps_braced fun ts h => loosely_trim
      (fun h => paths_listed.2 (listed_trim (paths_trim ps) (paths_listed.1 h))) (by simp [pathsSpelled]) h)

theorem api_trim {sc api ts} (h : ApiSpelled sc api ts) : ApiSpelled sc api (trimmed ts) :=
  ⟨h.1, listed_trim (fun s _ => section_trim s) h.2⟩

end Verif
