import Verif.Spec.Syntax
/-!
# The rules of the macros accept exactly the grammar
-/

namespace Verif

/-! ## Expressions and types -/

theorem value_iff {sc t v} : TT.value sc t = some v ↔ Evaluates sc t v := by
  constructor
  · intro h
    cases t with
    | lit l => cases l <;> (cases h; constructor)
    | ident x => exact .var h
    | expr v => cases h; constructor
    | _ => cases h
  · intro h
    cases h <;> first | rfl | assumption

theorem Val.display_iff {v s} : Val.display v = some s ↔ Displayed v s := by
  constructor
  · intro h
    cases v <;> cases h <;> constructor
  · intro h
    cases h <;> rfl

theorem display_iff {sc t s} : TT.display sc t = some s ↔ Displays sc s t := by
  simp only [TT.display, Option.bind_eq_some_iff, value_iff, Val.display_iff, Displays]

theorem text_iff {sc t s} : TT.text sc t = some s ↔ IsText sc s t := by
  simp only [TT.text, Option.bind_eq_some_iff, value_iff, IsText]
  constructor
  · rintro ⟨v, h, h'⟩; cases v <;> cases h'; exact h
  · exact fun h => ⟨_, h, rfl⟩

theorem flag_iff {sc t b} : TT.flag sc t = some b ↔ IsFlag sc b t := by
  simp only [TT.flag, Option.bind_eq_some_iff, value_iff, IsFlag]
  constructor
  · rintro ⟨v, h, h'⟩; cases v <;> cases h'; exact h
  · exact fun h => ⟨_, h, rfl⟩

theorem type_iff {sc t p ty} : TT.type sc t = some (p, ty) ↔ Denotes sc p ty t := by
  constructor
  · intro h
    cases t <;> simp only [TT.type, Option.map_eq_some_iff, Prod.mk.injEq, reduceCtorEq] at h
    · obtain ⟨_, h, rfl, rfl⟩ := h; exact .ident h
    · obtain ⟨_, h, rfl, rfl⟩ := h; exact .path h
  · intro h
    cases h <;> rename_i h <;> simp [TT.type, h]

theorem type_map_iff {sc t} {f : Ty → α} {a} : (TT.type sc t).map (fun p => f p.2) = some a ↔ ∃ ty, IsType sc ty t ∧ f ty = a := by
  simp only [Option.map_eq_some_iff, Prod.exists, type_iff, IsType]
  constructor
  · rintro ⟨p, ty, h, rfl⟩; exact ⟨ty, ⟨p, h⟩, rfl⟩
  · rintro ⟨ty, ⟨p, h⟩, rfl⟩; exact ⟨p, ty, h, rfl⟩

theorem type_some_iff {sc t ty} : (∃ p, TT.type sc t = some (p, ty)) ↔ IsType sc ty t := by simp only [type_iff, IsType]

/-! ## Lists -/

/-- What a rule that consumes `item,` and ends in `$(,)?` accepts. -/
def Munched (R : α → List TT → Prop) : List α → List TT → Prop
  | [], ts => ts = [] ∨ ts = [.comma]
  | x :: xs, ts => ∃ t rest, R x t ∧ ts = t ++ .comma :: rest ∧ Munched R xs rest

theorem munched_comma {R : α → List TT → Prop} {xs ts} : Munched R xs (ts ++ [.comma]) ↔ Listed true R xs ts := by
  induction xs generalizing ts with
  | nil => cases ts <;> simp [Munched, Listed]
  | cons x xs ih =>
    constructor
    · rintro ⟨t, rest, hr, he, hm⟩
      rcases List.eq_nil_or_concat rest with rfl | ⟨rest', c, rfl⟩
      · have : ts = t := by simpa using he
        subst this
        cases xs with
        | nil => exact ⟨ts, [], hr, ⟨rfl, .inl rfl⟩, rfl⟩
        | cons y ys => obtain ⟨_, _, _, h, _⟩ := hm; simp at h
      · simp only [List.concat_eq_append] at he hm
        rw [show t ++ TT.comma :: (rest' ++ [c]) = (t ++ TT.comma :: rest') ++ [c] by simp] at he
        obtain ⟨rfl, hc⟩ := List.append_inj' he rfl
        cases hc
        have hl := ih.1 hm
        cases xs with
        | nil =>
          cases hl
          exact ⟨t, [], hr, ⟨rfl, .inr ⟨rfl, rfl⟩⟩, rfl⟩
        | cons y ys => exact ⟨t, rest', hr, rfl, hl⟩
    · rintro ⟨t, rest, hr, hn, hl⟩
      cases xs with
      | nil =>
        obtain ⟨rfl, rfl | ⟨-, rfl⟩⟩ := hn
        · exact ⟨ts, [], hr, rfl, .inl rfl⟩
        · exact ⟨t, [.comma], hr, by simp, .inr rfl⟩
      | cons y ys =>
        have hn : ts = t ++ TT.comma :: rest := hn
        subst hn
        exact ⟨t, rest ++ [.comma], hr, by simp, ih.2 hl⟩

/-- Rules that consume `item,`. -/
theorem munched_reader {R : α → List TT → Prop} {read : List TT → Option (List α)}
    (h0 : read [] = some []) (h1 : read [.comma] = some [])
    (step : ∀ x t rest, R x t → read (t ++ .comma :: rest) = (read rest).map (x :: ·))
    (back : ∀ ts xs, read ts = some xs → ((ts = [] ∨ ts = [.comma]) ∧ xs = []) ∨
      ∃ x t rest xs', R x t ∧ ts = t ++ .comma :: rest ∧ read rest = some xs' ∧ xs = x :: xs') {ts xs} :
    read ts = some xs ↔ Munched R xs ts := by
  induction xs generalizing ts with
  | nil =>
    constructor
    · intro h
      rcases back _ _ h with ⟨h, -⟩ | ⟨_, _, _, _, _, _, _, h⟩
      · exact h
      · cases h
    · rintro (rfl | rfl) <;> assumption
  | cons x xs ih =>
    constructor
    · intro h
      rcases back _ _ h with ⟨-, h⟩ | ⟨x', t, rest, xs', hr, rfl, hx, h⟩
      · cases h
      · cases h; exact ⟨t, rest, hr, rfl, ih.1 hx⟩
    · rintro ⟨t, rest, hr, rfl, hm⟩
      rw [step x t rest hr, ih.2 hm]; rfl

/-- Rules that consume items separated by commas. -/
theorem listed_reader {R : α → List TT → Prop} {read : List TT → Option (List α)}
    (h0 : read [] = some []) (one : ∀ x t, R x t → read t = some [x])
    (step : ∀ x t rest, R x t → read (t ++ .comma :: rest) = (read rest).map (x :: ·))
    (back : ∀ ts xs, read ts = some xs → (ts = [] ∧ xs = []) ∨ (∃ x, xs = [x] ∧ R x ts) ∨
      ∃ x t rest xs', R x t ∧ ts = t ++ .comma :: rest ∧ read rest = some xs' ∧ xs = x :: xs') {ts xs} :
    read ts = some xs ↔ Listed true R xs ts := by
  induction xs generalizing ts with
  | nil =>
    constructor
    · intro h
      rcases back _ _ h with ⟨h, -⟩ | ⟨_, h, _⟩ | ⟨_, _, _, _, _, _, _, h⟩
      · exact h
      · cases h
      · cases h
    · intro h; cases h; exact h0
  | cons x xs ih =>
    constructor
    · intro h
      rcases back _ _ h with ⟨-, h⟩ | ⟨x', h, hr⟩ | ⟨x', t, rest, xs', hr, rfl, hx, h⟩
      · cases h
      · cases h; exact ⟨ts, [], hr, ⟨rfl, .inl rfl⟩, rfl⟩
      · cases h
        have hl := ih.1 hx
        cases xs with
        | nil => cases hl; exact ⟨t, [], hr, ⟨rfl, .inr ⟨rfl, rfl⟩⟩, rfl⟩
        | cons y ys => exact ⟨t, rest, hr, rfl, hl⟩
    · rintro ⟨t, rest, hr, hn, hl⟩
      have hx := ih.2 hl
      cases xs with
      | nil =>
        obtain ⟨rfl, rfl | ⟨-, rfl⟩⟩ := hn
        · exact one x _ hr
        · rw [step x t [] hr, h0]; rfl
      | cons y ys =>
        have hn : ts = t ++ TT.comma :: rest := hn
        subst hn
        rw [step x t rest hr, hx]; rfl

theorem munch_iff {f : String → TT → Option α} {R : α → List TT → Prop}
    (hR : ∀ x t, R x t ↔ ∃ k v, t = [.ident k, .colon, v] ∧ f k v = some x) {ts xs} :
    munch f ts = some xs ↔ Munched R xs ts := by
  refine munched_reader (read := munch f) (R := R) rfl rfl ?_ ?_
  · intro x t rest hr
    obtain ⟨k, v, rfl, hf⟩ := (hR x t).1 hr
    simp only [List.cons_append, List.nil_append, munch, hf]
    cases munch f rest <;> rfl
  · intro ts xs h
    unfold munch at h
    split at h
    · cases h; exact .inl ⟨.inl rfl, rfl⟩
    · cases h; exact .inl ⟨.inr rfl, rfl⟩
    · simp only [Option.bind_eq_bind, Option.bind_eq_some_iff, Option.some.injEq] at h
      obtain ⟨p, hp, ps, hps, rfl⟩ := h
      exact .inr ⟨p, _, _, ps, (hR _ _).2 ⟨_, _, rfl, hp⟩, rfl, hps, rfl⟩
    · cases h

theorem munch_listed {f : String → TT → Option α} {R : α → List TT → Prop}
    (hR : ∀ x t, R x t ↔ ∃ k v, t = [.ident k, .colon, v] ∧ f k v = some x) {ts xs} :
    munch f (ts ++ [.comma]) = some xs ↔ Listed true R xs ts := by
  rw [munch_iff hR, munched_comma]

theorem orComma_iff {P : List α → List TT → Prop} {read : List TT → Option (List α)} (h : ∀ ts xs, read ts = some xs ↔ P xs ts)
    (hc : read [.comma] = none) {ts xs} : orComma read ts = some xs ↔ Loosely P xs ts := by
  unfold orComma
  split
  · simp only [Option.some.injEq, Loosely, and_true]
    constructor
    · intro h; exact .inr h.symm
    · rintro (h' | rfl)
      · rw [← h, hc] at h'; cases h'
      · rfl
  · rename_i hne
    simp only [Loosely, h]
    constructor
    · exact .inl
    · rintro (h | ⟨-, rfl⟩)
      · exact h
      · exact absurd rfl hne

theorem keyed_iff {k : String} {P : TT → Prop} {ts} : Keyed k P ts ↔ ∃ k' v, ts = [.ident k', .colon, v] ∧ (k' = k ∧ P v) := by
  constructor
  · rintro ⟨v, h, rfl⟩; exact ⟨_, v, rfl, rfl, h⟩
  · rintro ⟨_, v, rfl, rfl, h⟩; exact ⟨v, h, rfl⟩

theorem keyed_ex {α : Type} {f : String → TT → Option α} {x : α} {k : String} {P : TT → Prop}
    (h : ∀ k' v, f k' v = some x ↔ k' = k ∧ P v) (ts : List TT) :
    Keyed k P ts ↔ ∃ k' v, ts = [.ident k', .colon, v] ∧ f k' v = some x := by
  rw [keyed_iff]
  simp only [h]

/-! ## Sections without nesting -/

theorem infoProp_iff {sc p t} : InfoProp.Spelled sc p t ↔ ∃ k v, t = [.ident k, .colon, v] ∧ readInfoProp sc k v = some p := by
  cases p <;>
  · simp only [InfoProp.Spelled]
    apply keyed_ex
    intro k v
    unfold readInfoProp
    split <;> rename_i h1
    · simp [h1, display_iff]
    split <;> rename_i h2
    · simp [h2, display_iff]
    split <;> rename_i h3
    · simp [h3, display_iff]
    · simp [*]

theorem info_iff {sc ts ps} : readInfoProps sc ts = some ps ↔ Listed true (InfoProp.Spelled sc) ps ts := by
  apply listed_reader (read := readInfoProps sc) (R := InfoProp.Spelled sc) rfl
  · intro x t h
    obtain ⟨k, v, rfl, hf⟩ := infoProp_iff.1 h
    simp [readInfoProps, hf]
  · intro x t rest h
    obtain ⟨k, v, rfl, hf⟩ := infoProp_iff.1 h
    simp only [List.cons_append, List.nil_append, readInfoProps, hf]
    cases readInfoProps sc rest <;> rfl
  · intro ts xs h
    unfold readInfoProps at h
    split at h
    · cases h; exact .inl ⟨rfl, rfl⟩
    · simp only [Option.map_eq_some_iff] at h
      obtain ⟨p, hp, rfl⟩ := h
      exact .inr (.inl ⟨p, rfl, infoProp_iff.2 ⟨_, _, rfl, hp⟩⟩)
    · simp only [Option.bind_eq_bind, Option.bind_eq_some_iff, Option.some.injEq] at h
      obtain ⟨p, hp, ps, hps, rfl⟩ := h
      exact .inr (.inr ⟨p, _, _, ps, infoProp_iff.2 ⟨_, _, rfl, hp⟩, rfl, hps, rfl⟩)
    · cases h

theorem tags_iff {sc ts xs} : readTags sc ts = some xs ↔ Listed true (tagSpelled sc) xs ts := by
  apply listed_reader (read := readTags sc) (R := tagSpelled sc) rfl
  · rintro ⟨x, _ | d⟩ t h
    · cases h; rfl
    · obtain ⟨e, he, rfl⟩ := h
      simp [readTags, display_iff.2 he]
  · rintro ⟨x, _ | d⟩ t rest h
    · cases h; rfl
    · obtain ⟨e, he, rfl⟩ := h
      simp only [List.cons_append, List.nil_append, readTags, display_iff.2 he]
      cases readTags sc rest <;> rfl
  · intro ts xs h
    unfold readTags at h
    split at h
    · cases h; exact .inl ⟨rfl, rfl⟩
    · cases h; exact .inr (.inl ⟨_, rfl, rfl⟩)
    · simp only [Option.map_eq_some_iff] at h
      obtain ⟨p, hp, rfl⟩ := h
      exact .inr (.inl ⟨_, rfl, _, display_iff.1 hp, rfl⟩)
    · simp only [Option.map_eq_some_iff] at h
      obtain ⟨p, hp, rfl⟩ := h
      exact .inr (.inr ⟨(_, none), [_], _, p, rfl, rfl, hp, rfl⟩)
    · simp only [Option.bind_eq_bind, Option.bind_eq_some_iff, Option.some.injEq] at h
      obtain ⟨p, hp, ps, hps, rfl⟩ := h
      exact .inr (.inr ⟨(_, some p), [_, _], _, ps, ⟨_, display_iff.1 hp, rfl⟩, rfl, hps, rfl⟩)
    · cases h

theorem server_iff {sc t s} : readServer sc t = some s ↔ IsString sc s t := by
  constructor
  · intro h
    unfold readServer at h
    split at h
    · cases h; exact .lit
    · split at h
      · cases h; exact .str (by assumption)
      · cases h; exact .owned (by assumption)
      · cases h
    · cases h
  · intro h
    cases h <;> first | rfl | (rename_i h; simp [readServer, h])

theorem IsString.not_group {sc s d ts} : ¬ IsString sc s (.group d ts) := by intro h; cases h
theorem IsString.not_comma {sc s} : ¬ IsString sc s .comma := by intro h; cases h

theorem servers_iff {sc ts xs} : readServers sc ts = some xs ↔ Listed true (serverSpelled sc) xs ts := by
  apply listed_reader (read := readServers sc) (R := serverSpelled sc) rfl
  · rintro ⟨x, _ | d⟩ t h
    · obtain ⟨e, he, rfl⟩ := h
      simp [readServers, server_iff.2 he]
    · obtain ⟨e, e', he, he', rfl⟩ := h
      simp [readServers, server_iff.2 he, server_iff.2 he']
  · rintro ⟨x, _ | d⟩ t rest h
    · obtain ⟨e, he, rfl⟩ := h
      simp only [List.cons_append, List.nil_append, readServers, server_iff.2 he]
      cases readServers sc rest <;> rfl
    · obtain ⟨e, e', he, he', rfl⟩ := h
      simp only [List.cons_append, List.nil_append, readServers, server_iff.2 he, server_iff.2 he']
      cases readServers sc rest <;> rfl
  · intro ts xs h
    unfold readServers at h
    split at h
    · cases h; exact .inl ⟨rfl, rfl⟩
    · simp only [Option.map_eq_some_iff] at h
      obtain ⟨p, hp, rfl⟩ := h
      exact .inr (.inl ⟨_, rfl, _, server_iff.1 hp, rfl⟩)
    · simp only [Option.bind_eq_bind, Option.bind_eq_some_iff, Option.some.injEq] at h
      obtain ⟨p, hp, d, hd, rfl⟩ := h
      exact .inr (.inl ⟨_, rfl, _, _, server_iff.1 hp, server_iff.1 hd, rfl⟩)
    · simp only [Option.bind_eq_bind, Option.bind_eq_some_iff, Option.some.injEq] at h
      obtain ⟨p, hp, ps, hps, rfl⟩ := h
      exact .inr (.inr ⟨(_, none), [_], _, ps, ⟨_, server_iff.1 hp, rfl⟩, rfl, hps, rfl⟩)
    · simp only [Option.bind_eq_bind, Option.bind_eq_some_iff, Option.some.injEq] at h
      obtain ⟨p, hp, d, hd, ps, hps, rfl⟩ := h
      exact .inr (.inr ⟨(_, some d), [_, _], _, ps, ⟨_, _, server_iff.1 hp, server_iff.1 hd, rfl⟩, rfl, hps, rfl⟩)
    · cases h

theorem httpProp_iff {sc p t} : HttpSchemeProp.Spelled sc p t ↔ ∃ k v, t = [.ident k, .colon, v] ∧ readHttpProp sc k v = some p := by
  cases p <;>
  · simp only [HttpSchemeProp.Spelled]
    apply keyed_ex
    intro k v
    unfold readHttpProp
    split <;> rename_i h1
    · subst h1
      cases v <;> simp
      try split <;> simp [*]
      try split <;> simp [*]
    split <;> rename_i h2
    · simp [h2, display_iff]
    split <;> rename_i h3
    · simp [h3, display_iff]
    · simp [*]

theorem parameterInOf_iff {x p} : parameterInOf x = some p ↔ x = parameterInName p := by
  unfold parameterInOf
  cases p <;> simp only [parameterInName] <;> (repeat' split) <;> simp_all

theorem apiKeyProp_iff {sc p t} : ApiKeyProp.Spelled sc p t ↔ ∃ k v, t = [.ident k, .colon, v] ∧ readApiKeyProp sc k v = some p := by
  cases p <;>
  · simp only [ApiKeyProp.Spelled]
    apply keyed_ex
    intro k v
    unfold readApiKeyProp
    split <;> rename_i h1
    · subst h1
      cases v <;> simp [parameterInOf_iff]
    split <;> rename_i h2
    · simp [h2, display_iff]
    split <;> rename_i h3
    · simp [h3, display_iff]
    · simp [*]

theorem schemes_iff {sc ts xs} : readSchemes sc ts = some xs ↔ Munched (SchemeDecl.Spelled sc) xs ts := by
  refine munched_reader (read := readSchemes sc) (R := SchemeDecl.Spelled sc) rfl rfl ?_ ?_
  · intro x t rest h
    cases x with
    | ident x s =>
      obtain ⟨hv, rfl⟩ := h
      simp only [List.cons_append, List.nil_append, readSchemes, hv]
    | http name ps =>
      obtain ⟨b, hb, hl, rfl⟩ := h
      have : b.isEmpty = false := by cases b <;> simp_all
      simp only [List.cons_append, List.nil_append, readSchemes, readScheme, this, ↓reduceIte,
        (munch_listed (f := readHttpProp sc) (fun _ _ => httpProp_iff)).2 hl, Option.map_some, Bool.false_eq_true]
      cases readSchemes sc rest <;> rfl
    | apiKey name ps =>
      obtain ⟨e, b, he, hb, hl, rfl⟩ := h
      have : b.isEmpty = false := by cases b <;> simp_all
      simp only [List.cons_append, List.nil_append, readSchemes, readScheme, this, ↓reduceIte, display_iff.2 he,
        (munch_listed (f := readApiKeyProp sc) (fun _ _ => apiKeyProp_iff)).2 hl, Bool.false_eq_true]
      rw [if_neg (by decide)]
      cases readSchemes sc rest <;> rfl
  · intro ts xs h
    unfold readSchemes at h
    split at h
    · cases h; exact .inl ⟨.inl rfl, rfl⟩
    · cases h; exact .inl ⟨.inr rfl, rfl⟩
    · split at h
      · simp only [Option.map_eq_some_iff] at h
        obtain ⟨ss, hs, rfl⟩ := h
        exact .inr ⟨.ident _ _, [_], _, ss, ⟨by assumption, rfl⟩, rfl, hs, rfl⟩
      · cases h
    · simp only [Option.bind_eq_bind, Option.bind_eq_some_iff, Option.some.injEq] at h
      obtain ⟨s, hs, ss, hss, rfl⟩ := h
      refine .inr ⟨s, [_, _, _], _, ss, ?_, rfl, hss, rfl⟩
      unfold readScheme at hs
      split at hs
      · cases hs
      rename_i head props rest hne
      have hne : props ≠ [] := by cases props <;> simp_all
      split at hs
      · split at hs
        · rename_i hk
          subst hk
          split at hs
          · simp only [Option.map_eq_some_iff] at hs
            obtain ⟨ps, hp, rfl⟩ := hs
            exact ⟨props, hne, (munch_listed (fun _ _ => httpProp_iff)).1 hp, rfl⟩
          · cases hs
        · split at hs
          · rename_i hk
            subst hk
            simp only [Option.bind_eq_bind, Option.bind_eq_some_iff, Option.some.injEq] at hs
            obtain ⟨name, hn, ps, hp, rfl⟩ := hs
            exact ⟨_, props, display_iff.1 hn, hne, (munch_listed (fun _ _ => apiKeyProp_iff)).1 hp, rfl⟩
          · cases hs
      · cases hs
    · cases h

/-! ## Parameters, bodies, security -/

theorem paramProp_iff {sc p t} : ParamProp.Spelled sc p t ↔ ∃ k v, t = [.ident k, .colon, v] ∧ readParamProp sc k v = some p := by
  cases p <;>
  · simp only [ParamProp.Spelled]
    apply keyed_ex
    intro k v
    unfold readParamProp
    split <;> rename_i h1
    · simp [h1, display_iff]
    split <;> rename_i h2
    · simp [h2, flag_iff]
    split <;> rename_i h3
    · simp [h3, flag_iff]
    split <;> rename_i h4
    · simp [h4, type_some_iff]
    · simp [*]

theorem bodyProp_iff {sc p t} : BodyProp.Spelled sc p t ↔ ∃ k v, t = [.ident k, .colon, v] ∧ readBodyProp sc k v = some p := by
  cases p <;>
  · simp only [BodyProp.Spelled]
    apply keyed_ex
    intro k v
    unfold readBodyProp
    split <;> rename_i h1
    · simp [h1, type_some_iff]
    cases v with
    | lit l =>
      simp only
      split <;> rename_i h2
      · cases l <;> simp [h2]
      split <;> rename_i h3
      · cases l <;> simp [h3]
      · simp [*]
    | _ => simp [*]

theorem body_iff {sc b v} : readBody sc v = some b ↔ BodyDecl.Spelled sc b v := by
  unfold readBody
  split
  · rename_i ps
    simp only [Option.map_eq_some_iff, munch_listed (f := readBodyProp sc) (fun _ _ => bodyProp_iff)]
    cases b with
    | props xs =>
      simp only [BodyDecl.Spelled, Braced, BodyDecl.props.injEq, exists_eq_right, TT.group.injEq, true_and]
      constructor
      · intro h; exact ⟨_, h, rfl⟩
      · rintro ⟨_, h, rfl⟩; exact h
    | type t =>
      simp only [BodyDecl.Spelled, reduceCtorEq, and_false, exists_const, false_iff]
      rintro ⟨_, h⟩; cases h
  · rename_i hne
    rw [type_map_iff]
    cases b with
    | props xs =>
      constructor
      · rintro ⟨_, _, h⟩; cases h
      · rintro ⟨ts, _, rfl⟩
        exact (hne _ rfl).elim
    | type t => simp [BodyDecl.Spelled]

theorem params_iff {sc ts xs} : readParams sc ts = some xs ↔ Munched (ParamDecl.Spelled sc) xs ts := by
  have head : ∀ ps h d, readParam sc ps h = some d → ∀ t, WithProps sc h ps t → d.Spelled sc t := by
    intro ps h d hd t ht
    unfold readParam at hd
    split at hd
    · split at hd
      · rename_i hk
        subst hk
        simp only [Option.map_eq_some_iff] at hd
        obtain ⟨n, hn, rfl⟩ := hd
        exact ⟨_, display_iff.1 hn, ht⟩
      · cases hd
    · split at hd
      · rename_i hk
        subst hk
        rw [type_map_iff (f := fun t => ParamDecl.query _ t ps)] at hd
        obtain ⟨ty, hty, rfl⟩ := hd
        exact ⟨_, hty, ht⟩
      · cases hd
    · cases hd
  have back : ∀ d t, d.Spelled sc t → ∃ h ps, readParam sc ps h = some d ∧ WithProps sc h ps t := by
    intro d t h
    cases d with
    | header name ps =>
      obtain ⟨e, he, h⟩ := h
      exact ⟨_, ps, by simp [readParam, display_iff.2 he], h⟩
    | query name ty ps =>
      obtain ⟨p, hp, h⟩ := h
      refine ⟨_, ps, ?_, h⟩
      simp only [readParam, ↓reduceIte]
      rw [type_map_iff (f := fun t => ParamDecl.query _ t ps)]
      exact ⟨_, hp, rfl⟩
  refine munched_reader (read := readParams sc) (R := ParamDecl.Spelled sc) rfl rfl ?_ ?_
  · intro x t rest h
    obtain ⟨hd, ps, hr, ⟨rfl, rfl⟩ | ⟨b, hb, rfl⟩⟩ := back _ _ h
    · simp only [List.cons_append, List.nil_append, readParams, hr]
      cases readParams sc rest <;> rfl
    · simp only [List.cons_append, List.nil_append, readParams, hr,
        (munch_listed (f := readParamProp sc) (fun _ _ => paramProp_iff)).2 hb, Option.bind_eq_bind, Option.bind_some]
      cases readParams sc rest <;> rfl
  · intro ts xs h
    unfold readParams at h
    split at h
    · cases h; exact .inl ⟨.inl rfl, rfl⟩
    · cases h; exact .inl ⟨.inr rfl, rfl⟩
    · simp only [Option.bind_eq_bind, Option.bind_eq_some_iff, Option.some.injEq] at h
      obtain ⟨ps, hps, d, hd, ds, hds, rfl⟩ := h
      exact .inr ⟨d, [_, _, _], _, ds, head _ _ _ hd _ (.inr ⟨_, (munch_listed (fun _ _ => paramProp_iff)).1 hps, rfl⟩), rfl, hds, rfl⟩
    · simp only [Option.bind_eq_bind, Option.bind_eq_some_iff, Option.some.injEq] at h
      obtain ⟨d, hd, ds, hds, rfl⟩ := h
      exact .inr ⟨d, [_], _, ds, head _ _ _ hd _ (.inl ⟨rfl, rfl⟩), rfl, hds, rfl⟩
    · cases h

theorem params_listed {sc ts xs} : readParams sc (ts ++ [.comma]) = some xs ↔ Listed true (ParamDecl.Spelled sc) xs ts := by
  rw [params_iff, munched_comma]

theorem roles_iff {ts xs} : readRoles ts = some xs ↔ rolesSpelled xs ts := by
  induction xs generalizing ts with
  | nil =>
    constructor
    · intro h
      unfold readRoles at h
      split at h
      · rfl
      · cases h
      · simp only [Option.map_eq_some_iff, reduceCtorEq, and_false, exists_const] at h
      · cases h
    · intro h; cases h; rfl
  | cons x xs ih =>
    constructor
    · intro h
      unfold readRoles at h
      split at h
      · cases h
      · cases h; exact ⟨_, [], rfl, ⟨rfl, .inl rfl⟩, rfl⟩
      · simp only [Option.map_eq_some_iff, List.cons.injEq] at h
        obtain ⟨ss, hs, rfl, rfl⟩ := h
        have := ih.1 hs
        cases ss with
        | nil => cases this
        | cons y ys => exact ⟨[_], _, rfl, rfl, this⟩
      · cases h
    · rintro ⟨t, rest, rfl, hn, hl⟩
      have hx := ih.2 hl
      cases xs with
      | nil =>
        obtain ⟨rfl, rfl | ⟨h, -⟩⟩ := hn
        · rfl
        · cases h
      | cons y ys =>
        have hn : ts = [TT.lit (.str x)] ++ TT.comma :: rest := hn
        subst hn
        cases rest with
        | nil => cases hx
        | cons t rest => simp [readRoles, hx]

theorem securityItem_iff {sc roles t d} : readSecurityItem sc roles t = some d ↔
    (∃ s, t = .lit (.str s) ∧ d = .literal s roles) ∨ ∃ x s, t = .ident x ∧ sc.val x = some (.scheme s) ∧ d = .scheme x s roles := by
  unfold readSecurityItem
  split
  · simp [eq_comm]
  · split
    · rename_i s h
      simp only [Option.some.injEq, reduceCtorEq, false_and, exists_const, TT.ident.injEq, false_or]
      constructor
      · rintro rfl; exact ⟨_, _, rfl, h, rfl⟩
      · rintro ⟨_, s', rfl, h', rfl⟩
        rw [h] at h'; cases h'; rfl
    · rename_i h
      simp only [reduceCtorEq, false_and, exists_const, TT.ident.injEq, false_or, false_iff]
      rintro ⟨_, s, rfl, h', rfl⟩
      exact h _ h'
  · rename_i h1 h2
    simp only [reduceCtorEq, false_iff]
    rintro (⟨s, rfl, -⟩ | ⟨x, s, rfl, -⟩)
    · exact h1 _ rfl
    · exact h2 _ rfl

theorem security_spelled {sc d ts} : SecurityDecl.Spelled sc d ts ↔ ∃ t roles, readSecurityItem sc roles t = some d ∧ WithRoles t roles ts := by
  simp only [securityItem_iff]
  cases d with
  | literal name roles =>
    constructor
    · intro h; exact ⟨_, _, .inl ⟨_, rfl, rfl⟩, h⟩
    · rintro ⟨t, roles, ⟨s, rfl, h⟩ | ⟨_, _, _, _, h⟩, hw⟩
      · cases h; exact hw
      · cases h
  | scheme name s roles =>
    constructor
    · rintro ⟨hv, h⟩; exact ⟨_, _, .inr ⟨_, _, rfl, hv, rfl⟩, h⟩
    · rintro ⟨t, roles, ⟨s, rfl, h⟩ | ⟨_, _, rfl, hv, h⟩, hw⟩
      · cases h
      · cases h; exact ⟨hv, hw⟩

/-- The alternatives that a list of alternatives makes when its first one continues `current`. -/
def SecMunched (sc : Scope) (current : List SecurityDecl) (alts : List (List SecurityDecl)) (ts : List TT) : Prop :=
  match alts with
  | [] => current = [] ∧ (ts = [] ∨ ts = [.comma])
  | a :: as => ∃ ds t rest, a = current ++ ds ∧ conjSpelled sc ds t ∧ ts = t ++ .comma :: rest ∧ Munched (conjSpelled sc) as rest

theorem secMunched_nil {sc alts ts} : SecMunched sc [] alts ts ↔ Munched (conjSpelled sc) alts ts := by
  cases alts with
  | nil => simp [SecMunched, Munched]
  | cons a as =>
    constructor
    · rintro ⟨ds, t, rest, rfl, h⟩; exact ⟨t, rest, h⟩
    · rintro ⟨t, rest, h⟩; exact ⟨a, t, rest, rfl, h⟩

theorem conj_and {sc d ds t rest} (hd : SecurityDecl.Spelled sc d t) (hr : conjSpelled sc ds rest) :
    conjSpelled sc (d :: ds) (t ++ .andAnd :: rest) := by
  cases ds with
  | nil => exact hr.elim
  | cons e es => exact ⟨t, rest, hd, hr, rfl⟩

theorem secMunched_and {sc cur d t alts rest} (hd : SecurityDecl.Spelled sc d t) (h : SecMunched sc (cur ++ [d]) alts rest) :
    SecMunched sc cur alts (t ++ .andAnd :: rest) := by
  cases alts with
  | nil => simp [SecMunched] at h
  | cons a as =>
    obtain ⟨ds, t', rest', rfl, hc, rfl, hm⟩ := h
    exact ⟨d :: ds, t ++ .andAnd :: t', rest', by simp, conj_and hd hc, by simp, hm⟩

theorem secMunched_comma {sc cur d t alts rest} (hd : SecurityDecl.Spelled sc d t) (h : SecMunched sc [] alts rest) :
    SecMunched sc cur ((cur ++ [d]) :: alts) (t ++ .comma :: rest) :=
  ⟨[d], t, rest, rfl, hd, rfl, secMunched_nil.1 h⟩

theorem readSecurity_back {sc} : ∀ (ts : List TT) {cur alts}, readSecurity sc cur ts = some alts → SecMunched sc cur alts ts := by
  intro ts cur alts h
  unfold readSecurity at h
  split at h
  · split at h <;> cases h
    exact ⟨by simpa using ‹cur.isEmpty = true›, .inl rfl⟩
  · split at h <;> cases h
    exact ⟨by simpa using ‹cur.isEmpty = true›, .inr rfl⟩
  · simp only [Option.bind_eq_bind, Option.bind_eq_some_iff] at h
    obtain ⟨roles, hr, d, hd, h⟩ := h
    exact secMunched_and (t := [_, _]) (security_spelled.2 ⟨_, _, hd, .inr ⟨_, roles_iff.1 hr, rfl⟩⟩) (readSecurity_back _ h)
  · simp only [Option.bind_eq_bind, Option.bind_eq_some_iff, Option.some.injEq] at h
    obtain ⟨roles, hr, d, hd, as, h, rfl⟩ := h
    exact secMunched_comma (t := [_, _]) (security_spelled.2 ⟨_, _, hd, .inr ⟨_, roles_iff.1 hr, rfl⟩⟩) (readSecurity_back _ h)
  · simp only [Option.bind_eq_bind, Option.bind_eq_some_iff] at h
    obtain ⟨d, hd, h⟩ := h
    exact secMunched_and (t := [_]) (security_spelled.2 ⟨_, _, hd, .inl ⟨rfl, rfl⟩⟩) (readSecurity_back _ h)
  · simp only [Option.bind_eq_bind, Option.bind_eq_some_iff, Option.some.injEq] at h
    obtain ⟨d, hd, as, h, rfl⟩ := h
    exact secMunched_comma (t := [_]) (security_spelled.2 ⟨_, _, hd, .inl ⟨rfl, rfl⟩⟩) (readSecurity_back _ h)
  · cases h
termination_by ts => ts.length

theorem readSecurity_and {sc cur d t rest} (hd : SecurityDecl.Spelled sc d t) :
    readSecurity sc cur (t ++ .andAnd :: rest) = readSecurity sc (cur ++ [d]) rest := by
  obtain ⟨x, roles, hi, ⟨rfl, rfl⟩ | ⟨b, hb, rfl⟩⟩ := security_spelled.1 hd
  · simp [readSecurity, hi]
  · simp [readSecurity, hi, roles_iff.2 hb]

theorem readSecurity_comma {sc cur d t rest} (hd : SecurityDecl.Spelled sc d t) :
    readSecurity sc cur (t ++ .comma :: rest) = (readSecurity sc [] rest).map ((cur ++ [d]) :: ·) := by
  obtain ⟨x, roles, hi, ⟨rfl, rfl⟩ | ⟨b, hb, rfl⟩⟩ := security_spelled.1 hd
  · have : x ≠ .comma := by rintro rfl; cases hi
    simp only [List.cons_append, List.nil_append]
    rw [readSecurity.eq_def]
    split
    · rename_i h; cases h
    · rename_i h; cases h
    · rename_i h; cases h
    · rename_i h; cases h
    · rename_i h; cases h
    · rename_i h; cases h
      simp only [hi, Option.bind_eq_bind, Option.bind_some]
      cases readSecurity sc [] rest <;> rfl
    · rename_i h; exact absurd rfl (h _ _)
  · simp only [List.cons_append, List.nil_append, readSecurity, hi, roles_iff.2 hb, Option.bind_eq_bind, Option.bind_some]
    cases readSecurity sc [] rest <;> rfl

theorem readSecurity_conj {sc rest} : ∀ ds t cur, conjSpelled sc ds t →
    readSecurity sc cur (t ++ .comma :: rest) = (readSecurity sc [] rest).map ((cur ++ ds) :: ·)
  | [], _, _, h => h.elim
  | [d], t, cur, h => readSecurity_comma h
  | d :: e :: ds, t, cur, ⟨t1, r1, hd, hr, he⟩ => by
    subst he
    rw [List.append_assoc, List.cons_append, readSecurity_and hd, readSecurity_conj (e :: ds) r1 _ hr]
    simp

theorem security_iff {sc ts xs} : readSecurity sc [] ts = some xs ↔ Munched (conjSpelled sc) xs ts := by
  constructor
  · intro h; exact secMunched_nil.1 (readSecurity_back _ h)
  · intro h
    induction xs generalizing ts with
    | nil => rcases h with rfl | rfl <;> rfl
    | cons x xs ih =>
      obtain ⟨t, rest, hr, rfl, hm⟩ := h
      rw [readSecurity_conj x t [] hr, ih hm]; rfl

theorem security_listed {sc ts xs} : readSecurity sc [] (ts ++ [.comma]) = some xs ↔ Listed true (conjSpelled sc) xs ts := by
  rw [security_iff, munched_comma]

theorem response_iff {sc r v} : readResponse sc v = some r ↔ ResponseDecl.Spelled sc r v := by
  have ng : ∀ {t d ts}, ¬ IsType sc t (.group d ts) := by rintro _ _ _ ⟨_, h⟩; cases h
  unfold readResponse
  split
  · cases r <;> simp only [ResponseDecl.Spelled, Option.some.injEq, reduceCtorEq, TT.group.injEq, false_and, and_false, exists_const, or_false, ng, ne_eq, not_false_eq_true, and_true, ResponseDecl.type.injEq]
    exact eq_comm
  · rename_i e
    split
    · rename_i x
      by_cases hx : x = "None"
      · subst hx
        cases r <;> simp [ResponseDecl.Spelled, ng]
        exact eq_comm
      · simp only [hx, ↓reduceIte]
        split
        · rename_i hv
          cases r <;> simp [ResponseDecl.Spelled, ng, hx, hv]
        · rename_i hv
          cases r <;> simp [ResponseDecl.Spelled, ng, hx]
          exact hv _
    · cases r <;> simp [ResponseDecl.Spelled, ng]
    · rename_i h1 h2
      cases r <;> simp [ResponseDecl.Spelled, ng]
      refine ⟨fun _ h => h1 _ h, fun x _ _ h => h1 _ h, fun h => h2 _ h⟩
  · rename_i x
    by_cases hx : x = "None"
    · subst hx
      cases r <;> simp [ResponseDecl.Spelled]
    · simp only [hx, ↓reduceIte, type_map_iff]
      cases r <;> simp [ResponseDecl.Spelled, hx]
  · rename_i h1 h2 h3
    rw [type_map_iff]
    cases r with
    | absent =>
      constructor
      · rintro ⟨_, _, h⟩; cases h
      · intro h; exact (h3 _ h).elim
    | type t =>
      simp only [ResponseDecl.Spelled, ResponseDecl.type.injEq, exists_eq_right]
      constructor
      · intro h; exact .inr ⟨fun h' => h3 _ h', h⟩
      · rintro (⟨-, rfl⟩ | ⟨-, h⟩)
        · exact absurd rfl h1
        · exact h
    | raw r =>
      constructor
      · rintro ⟨_, _, h⟩; cases h
      · rintro (⟨-, rfl⟩ | ⟨x, -, -, rfl⟩ | rfl) <;> exact (h2 _ rfl).elim

theorem idents_iff {ts xs} : readIdents ts = some xs ↔ Listed true (fun s t => t = [TT.ident s]) xs ts := by
  apply listed_reader (read := readIdents) (R := fun s t => t = [TT.ident s]) rfl
  · rintro x t rfl; rfl
  · rintro x t rest rfl; rfl
  · intro ts xs h
    unfold readIdents at h
    split at h
    · cases h; exact .inl ⟨rfl, rfl⟩
    · cases h; exact .inr (.inl ⟨_, rfl, rfl⟩)
    · simp only [Option.map_eq_some_iff] at h
      obtain ⟨p, hp, rfl⟩ := h
      exact .inr (.inr ⟨_, [_], _, p, rfl, rfl, hp, rfl⟩)
    · cases h

theorem methodOf_iff {x m} : methodOf x = some m ↔ x = methodName m := by
  unfold methodOf
  cases m <;> simp only [methodName] <;> (repeat' split) <;> simp_all

/-! ## Paths -/

theorem seg_iff {sc s ts} : readSeg sc ts = some s ↔ ∃ t, s.Spelled sc t ∧ ts = [t] := by
  unfold readSeg
  split
  · rename_i l
    constructor
    · intro h
      cases l <;> cases h
      exact ⟨_, rfl, rfl⟩
    · rintro ⟨t, h, he⟩
      cases he
      cases s with
      | literal s => cases h; rfl
      | bare p ty => cases h
      | named n ty => obtain ⟨p, -, h⟩ := h; cases h
  · rename_i n t
    rw [type_map_iff]
    constructor
    · rintro ⟨ty, hty, rfl⟩; exact ⟨_, ⟨_, hty, rfl⟩, rfl⟩
    · rintro ⟨t', h, he⟩
      cases he
      cases s with
      | literal s => cases h
      | bare p ty => cases h
      | named n ty => obtain ⟨p, hp, h⟩ := h; cases h; exact ⟨_, hp, rfl⟩
  · rename_i t h1 h2
    simp only [Option.map_eq_some_iff, Prod.exists, type_iff]
    constructor
    · rintro ⟨p, ty, h, rfl⟩; exact ⟨t, h, rfl⟩
    · rintro ⟨t', h, he⟩
      cases he
      cases s with
      | literal s => cases h; exact absurd rfl (h1 _)
      | bare p ty => exact ⟨p, ty, h, rfl⟩
      | named n ty => obtain ⟨p, hp, h⟩ := h; cases h; exact absurd rfl (h2 _ _)
  · rename_i h1 h2 h3
    simp only [reduceCtorEq, false_iff]
    rintro ⟨t, h, rfl⟩
    exact h3 _ rfl

theorem PathSeg.Spelled.not_slash {sc s} : ¬ PathSeg.Spelled sc s .slash := by
  intro h
  cases s with
  | literal s => cases h
  | bare p ty => cases h
  | named n ty => obtain ⟨p, -, h⟩ := h; cases h

theorem readUrl_fwd {sc} : ∀ ss ts, urlSpelled sc ss ts → readUrl sc [] ts = some ss
  | [], _, h => h.elim
  | [s], ts, ⟨t, h, he⟩ => by
    subst he
    have : readUrl sc [] [t] = readUrl sc [t] [] := by
      cases t <;> first | rfl | exact absurd h PathSeg.Spelled.not_slash
    rw [this]
    simp [readUrl, seg_iff.2 ⟨t, h, rfl⟩]
  | s :: s' :: ss, ts, ⟨t, rest, h, hr, he⟩ => by
    subst he
    have : readUrl sc [] (t :: .slash :: rest) = readUrl sc [t] (.slash :: rest) := by
      cases t <;> first | rfl | exact absurd h PathSeg.Spelled.not_slash
    rw [this]
    simp [readUrl, seg_iff.2 ⟨t, h, rfl⟩, readUrl_fwd _ _ hr]

/-- Reading with some tokens before a slash. -/
theorem readUrl_back {sc} : ∀ (ts : List TT) cur ss, readUrl sc cur ts = some ss →
    (cur = [] ∧ urlSpelled sc ss ts) ∨ (∃ t, cur = [t] ∧ ts = [] ∧ urlSpelled sc ss [t]) ∨
    (∃ t rest, cur = [t] ∧ ts = .slash :: rest ∧ urlSpelled sc ss (t :: .slash :: rest))
  | [], cur, ss, h => by
    unfold readUrl at h
    split at h
    · cases h
    · simp only [Option.map_eq_some_iff, seg_iff] at h
      obtain ⟨s, ⟨t, hs, rfl⟩, rfl⟩ := h
      exact .inr (.inl ⟨t, rfl, rfl, t, hs, rfl⟩)
  | x :: rest, cur, ss, h => by
    unfold readUrl at h
    split at h
    · rename_i h'; cases h'
    · rename_i h'; cases h'
      split at h
      · rename_i hc
        have hc : cur = [] := by simpa using hc
        subst hc
        rcases readUrl_back _ _ _ h with ⟨h, -⟩ | ⟨t, h, -, h'⟩ | ⟨t, rest', h, -, h'⟩
        · cases h
        · cases h
          cases ss with
          | nil => exact h'.elim
          | cons s ss =>
            cases ss with
            | nil => obtain ⟨t, hs, he⟩ := h'; cases he; exact absurd hs PathSeg.Spelled.not_slash
            | cons s' ss => obtain ⟨t, r, hs, -, he⟩ := h'; cases he
        · cases h
          cases ss with
          | nil => exact h'.elim
          | cons s ss =>
            cases ss with
            | nil => obtain ⟨t, hs, he⟩ := h'; cases he
            | cons s' ss => obtain ⟨t, r, hs, -, he⟩ := h'; cases he; exact absurd hs PathSeg.Spelled.not_slash
      · simp only [Option.bind_eq_bind, Option.bind_eq_some_iff, Option.some.injEq, seg_iff] at h
        obtain ⟨s, ⟨t, hs, rfl⟩, ss, hss, rfl⟩ := h
        rcases readUrl_back _ _ _ hss with ⟨-, h⟩ | ⟨t, h, -⟩ | ⟨t, rest', h, -⟩
        · refine .inr (.inr ⟨t, rest, rfl, rfl, ?_⟩)
          cases ss with
          | nil => exact h.elim
          | cons s' ss => exact ⟨t, rest, hs, h, rfl⟩
        · cases h
        · cases h
    · rename_i h'; cases h'
      rcases readUrl_back _ _ _ h with ⟨hx, -⟩ | ⟨t, hx, rfl, h'⟩ | ⟨t, rest', hx, rfl, h'⟩
      · simp at hx
      · obtain ⟨rfl, rfl⟩ : cur = [] ∧ x = t := by
          cases cur with
          | nil => simpa using hx
          | cons a as => simp at hx
        exact .inl ⟨rfl, h'⟩
      · obtain ⟨rfl, rfl⟩ : cur = [] ∧ x = t := by
          cases cur with
          | nil => simpa using hx
          | cons a as => simp at hx
        exact .inl ⟨rfl, h'⟩

theorem url_iff {sc ts ss} : readUrl sc [] ts = some ss ↔ urlSpelled sc ss ts := by
  constructor
  · intro h
    rcases readUrl_back _ _ _ h with ⟨-, h⟩ | ⟨t, h, -⟩ | ⟨t, rest', h, -⟩
    · exact h
    · cases h
    · cases h
  · exact readUrl_fwd _ _

/-! ## Operations, callbacks, paths -/

theorem opProps_listed {sc ps ts} : opPropsSpelled sc ps ts ↔ Listed true (OpProp.Spelled sc) ps ts := by
  induction ps generalizing ts with
  | nil => simp only [opPropsSpelled, Listed]
  | cons p ps ih => simp only [opPropsSpelled, Listed, ih]

theorem itemProps_listed {sc ps ts} : itemPropsSpelled sc ps ts ↔ Listed true (ItemProp.Spelled sc) ps ts := by
  induction ps generalizing ts with
  | nil => simp only [itemPropsSpelled, Listed]
  | cons p ps ih => simp only [itemPropsSpelled, Listed, ih]

theorem paths_listed {sc b ps ts} : pathsSpelled sc b ps ts ↔ Listed b (PathDecl.Spelled sc) ps ts := by
  induction ps generalizing ts with
  | nil => simp only [pathsSpelled, Listed]
  | cons p ps ih => simp only [pathsSpelled, Listed, ih]

/-- Without trailing comma, followed by one. -/
theorem listed_false_comma {R : α → List TT → Prop} {xs ts} (h : Listed false R xs ts) (hx : xs ≠ []) : Listed true R xs (ts ++ [.comma]) := by
  induction xs generalizing ts with
  | nil => contradiction
  | cons x xs ih =>
    obtain ⟨t, rest, hr, hn, hl⟩ := h
    cases xs with
    | nil =>
      obtain ⟨rfl, rfl | ⟨h, -⟩⟩ := hn
      · exact ⟨ts, [], hr, ⟨rfl, .inr ⟨rfl, rfl⟩⟩, rfl⟩
      · cases h
    | cons y ys =>
      have hn : ts = t ++ .comma :: rest := hn
      subst hn
      exact ⟨t, rest ++ [.comma], hr, by simp [Next], ih hl (by simp)⟩

theorem listed_comma_back {R : α → List TT → Prop} {xs ts} (hR : ∀ x t, R x t → t.getLast? ≠ some .comma ∧ t ≠ []) (h : Listed true R xs (ts ++ [.comma])) :
    xs ≠ [] ∧ Listed false R xs ts := by
  induction xs generalizing ts with
  | nil => simp [Listed] at h
  | cons x xs ih =>
    refine ⟨by simp, ?_⟩
    obtain ⟨t, rest, hr, hn, hl⟩ := h
    cases xs with
    | nil =>
      obtain ⟨rfl, rfl | ⟨-, h⟩⟩ := hn
      · exact absurd (by simp) (hR _ _ hr).1
      · have : ts = t := by simpa using h
        subst this
        exact ⟨ts, [], hr, ⟨rfl, .inl rfl⟩, rfl⟩
    | cons y ys =>
      have hn : ts ++ [.comma] = t ++ TT.comma :: rest := hn
      rcases List.eq_nil_or_concat rest with rfl | ⟨rest', c, rfl⟩
      · obtain ⟨t', r', hr', hn', -⟩ := hl
        have : t' = [] := by
          cases ys with
          | nil =>
            obtain ⟨-, h | ⟨-, h⟩⟩ := hn'
            · exact h.symm
            · simp at h
          | cons z zs => simp [Next] at hn'
        exact absurd this (hR _ _ hr').2
      · simp only [List.concat_eq_append] at hn hl
        rw [show t ++ TT.comma :: (rest' ++ [c]) = (t ++ TT.comma :: rest') ++ [c] by simp] at hn
        obtain ⟨rfl, hc⟩ := List.append_inj' hn rfl
        cases hc
        exact ⟨t, rest', hr, rfl, (ih hl).2⟩

theorem path_ends {sc d t} (h : PathDecl.Spelled sc d t) : t.getLast? ≠ some TT.comma ∧ t ≠ [] := by
  obtain ⟨ss, ps⟩ := d
  obtain ⟨u, b, -, -, rfl⟩ := h
  simp

/-- Paths followed by a comma. -/
theorem readPaths_comma {sc ts ps} (h : readPathList sc (ts ++ [.comma]) = some ps → Listed true (PathDecl.Spelled sc) ps (ts ++ [.comma]))
    (hr : readPaths sc (ts ++ [.comma]) = some ps) : Listed false (PathDecl.Spelled sc) ps ts := by
  unfold readPaths at hr
  split at hr
  · rename_i h'
    have : ts = [] := by simpa using h'
    cases hr
    exact this
  · exact (listed_comma_back (fun _ _ h => path_ends h) (h hr)).2

/-- A literal callback must be the last one. -/
theorem literal_last {sc ts ps ds} (h1 : readPaths sc (ts ++ [.comma]) = some ps) (h2 : readCallbacks sc ts = some ds) :
    ts = [] ∧ ps = [] ∧ ds = [] := by
  unfold readCallbacks at h2
  split at h2
  · cases h2; simp [readPaths] at h1; exact ⟨rfl, h1, rfl⟩
  · cases h2; simp [readPaths, readPathList] at h1
  · simp [readPaths, readPathList] at h1
  · simp [readPaths, readPathList] at h1
  · cases h2

/-- What `readCallbacks` accepts. -/
def CbMunched (sc : Scope) : List CallbackDecl → List TT → Prop
  | [], ts => ts = [] ∨ ts = [.comma]
  | .literal name paths :: cs, ts => paths = [] ∧ cs = [] ∧ ∃ b, ts = [.lit (.str name), .colon, .group .brace b, .comma]
  | .ident name paths :: cs, ts => ∃ b rest, pathsSpelled sc false paths b ∧
      ts = [.ident name, .colon, .group .brace b] ++ .comma :: rest ∧ CbMunched sc cs rest

theorem cbMunched_comma {sc cs ts} : CbMunched sc cs (ts ++ [.comma]) ↔ callbacksSpelled sc cs ts := by
  induction cs generalizing ts with
  | nil => cases ts <;> simp [CbMunched, callbacksSpelled]
  | cons x xs ih =>
    cases x with
    | literal name paths =>
      simp only [CbMunched, callbacksSpelled]
      constructor
      · rintro ⟨h1, h2, b, h⟩
        refine ⟨h1, h2, b, ?_⟩
        have : ts ++ [TT.comma] = [.lit (.str name), .colon, .group .brace b] ++ [.comma] := h
        exact List.append_cancel_right this
      · rintro ⟨h1, h2, b, rfl⟩
        exact ⟨h1, h2, b, rfl⟩
    | ident name paths =>
      simp only [CbMunched, callbacksSpelled]
      constructor
      · rintro ⟨b, rest, hp, he, hm⟩
        refine ⟨b, ?_⟩
        generalize [TT.ident name, .colon, .group .brace b] = t at he ⊢
        rcases List.eq_nil_or_concat rest with rfl | ⟨rest', c, rfl⟩
        · have : ts = t := by simpa using he
          subst this
          cases xs with
          | nil => exact ⟨[], hp, ⟨rfl, .inl rfl⟩, by simp [callbacksSpelled]⟩
          | cons y ys =>
            cases y with
            | literal => obtain ⟨-, -, _, h⟩ := hm; cases h
            | ident => obtain ⟨_, _, _, h, _⟩ := hm; cases h
        · simp only [List.concat_eq_append] at he hm
          rw [show t ++ TT.comma :: (rest' ++ [c]) = (t ++ TT.comma :: rest') ++ [c] by simp] at he
          obtain ⟨rfl, hc⟩ := List.append_inj' he rfl
          cases hc
          have hl := ih.1 hm
          cases xs with
          | nil =>
            simp only [callbacksSpelled] at hl
            subst hl
            exact ⟨[], hp, ⟨rfl, .inr ⟨rfl, rfl⟩⟩, by simp [callbacksSpelled]⟩
          | cons y ys => exact ⟨rest', hp, rfl, hl⟩
      · rintro ⟨b, rest, hp, hn, hl⟩
        refine ⟨b, ?_⟩
        generalize [TT.ident name, .colon, .group .brace b] = t at hn ⊢
        cases xs with
        | nil =>
          obtain ⟨rfl, rfl | ⟨-, rfl⟩⟩ := hn
          · exact ⟨[], hp, rfl, .inl rfl⟩
          · exact ⟨[.comma], hp, by simp, .inr rfl⟩
        | cons y ys =>
          have hn : ts = t ++ TT.comma :: rest := hn
          subst hn
          exact ⟨rest ++ [.comma], hp, by simp, ih.2 hl⟩

mutual
theorem opProps_back {sc} (ts : List TT) {ps} (h : readOpProps sc ts = some ps) : Munched (OpProp.Spelled sc) ps ts := by
  unfold readOpProps at h
  split at h
  · cases h; exact .inl rfl
  · cases h; exact .inr rfl
  · simp only [Option.bind_eq_bind, Option.bind_eq_some_iff, Option.some.injEq] at h
    obtain ⟨p, hp, ps, hps, rfl⟩ := h
    exact ⟨[_, _, _], _, opProp_back _ _ hp, rfl, opProps_back _ hps⟩
  · simp only [Option.bind_eq_bind, Option.bind_eq_some_iff, Option.some.injEq] at h
    obtain ⟨r, hr, ps, hps, rfl⟩ := h
    refine ⟨[_, _, _], _, ?_, rfl, opProps_back _ hps⟩
    simp only [OpProp.Spelled]
    exact ⟨_, response_iff.1 hr, rfl⟩
  · simp only [Option.bind_eq_bind, Option.bind_eq_some_iff, Option.some.injEq] at h
    obtain ⟨r, hr, ps, hps, rfl⟩ := h
    refine ⟨[_, _, _, _], _, ?_, rfl, opProps_back _ hps⟩
    simp only [OpProp.Spelled]
    exact ⟨_, response_iff.1 hr, rfl⟩
  · cases h
termination_by sizeOf ts
decreasing_by all_goals (subst_vars; simp_wf; try omega)
theorem opProp_back {sc} (k : String) (v : TT) {p} (h : readOpProp sc k v = some p) : p.Spelled sc [.ident k, .colon, v] := by
  unfold readOpProp at h
  split at h
  · rename_i hk; subst hk
    simp only [Option.map_eq_some_iff, text_iff] at h
    obtain ⟨s, hs, rfl⟩ := h
    simp only [OpProp.Spelled]; exact ⟨_, hs, rfl⟩
  split at h
  · rename_i hk; subst hk
    simp only [Option.map_eq_some_iff, text_iff] at h
    obtain ⟨s, hs, rfl⟩ := h
    simp only [OpProp.Spelled]; exact ⟨_, hs, rfl⟩
  split at h
  · rename_i hk; subst hk
    simp only [Option.map_eq_some_iff, text_iff] at h
    obtain ⟨s, hs, rfl⟩ := h
    simp only [OpProp.Spelled]; exact ⟨_, hs, rfl⟩
  split at h
  · rename_i hk; subst hk
    simp only [Option.map_eq_some_iff, flag_iff] at h
    obtain ⟨s, hs, rfl⟩ := h
    simp only [OpProp.Spelled]; exact ⟨_, hs, rfl⟩
  split at h
  · rename_i hk; subst hk
    simp only [Option.map_eq_some_iff, body_iff] at h
    obtain ⟨s, hs, rfl⟩ := h
    simp only [OpProp.Spelled]; exact ⟨_, hs, rfl⟩
  split at h
  · rename_i ts
    split at h
    · rename_i hk; subst hk
      simp only [Option.map_eq_some_iff, orComma_iff (read := readIdents) (fun _ _ => idents_iff) rfl] at h
      obtain ⟨s, hs, rfl⟩ := h
      simp only [OpProp.Spelled]; exact ⟨_, ⟨ts, hs, rfl⟩, rfl⟩
    split at h
    · rename_i hk; subst hk
      simp only [Option.map_eq_some_iff, params_listed] at h
      obtain ⟨s, hs, rfl⟩ := h
      simp only [OpProp.Spelled]; exact ⟨_, ⟨ts, hs, rfl⟩, rfl⟩
    split at h
    · rename_i hk; subst hk
      simp only [Option.map_eq_some_iff] at h
      obtain ⟨cs, hc, rfl⟩ := h
      have := callbacks_back _ hc
      simp only [OpProp.Spelled]
      exact ⟨_, ⟨ts, cbMunched_comma.1 this, rfl⟩, rfl⟩
    split at h
    · rename_i hk; subst hk
      simp only [Option.map_eq_some_iff, security_listed] at h
      obtain ⟨s, hs, rfl⟩ := h
      simp only [OpProp.Spelled]; exact ⟨_, ⟨ts, hs, rfl⟩, rfl⟩
    · cases h
  · cases h
termination_by sizeOf v + 3
decreasing_by all_goals (subst_vars; simp [sizeOf_comma]; omega)
theorem callbacks_back {sc} (ts : List TT) {cs} (h : readCallbacks sc ts = some cs) : CbMunched sc cs ts := by
  unfold readCallbacks at h
  split at h
  · cases h; exact .inl rfl
  · cases h; exact .inr rfl
  · simp only [Option.bind_eq_bind, Option.bind_eq_some_iff, Option.some.injEq] at h
    obtain ⟨ps, hp, ds, hd, rfl⟩ := h
    obtain ⟨rfl, rfl, rfl⟩ := literal_last hp hd
    exact ⟨rfl, rfl, _, rfl⟩
  · simp only [Option.bind_eq_bind, Option.bind_eq_some_iff, Option.some.injEq] at h
    obtain ⟨ps, hp, ds, hd, rfl⟩ := h
    exact ⟨_, _, paths_listed.2 (readPaths_comma (fun h => pathList_back _ h) hp), rfl, callbacks_back _ hd⟩
  · cases h
termination_by sizeOf ts
decreasing_by all_goals (subst_vars; simp_wf; (try simp only [sizeOf_comma]); try omega)
theorem pathList_back {sc} (ts : List TT) {ps} (h : readPathList sc ts = some ps) : Listed true (PathDecl.Spelled sc) ps ts := by
  have key : ∀ {segments props ss b}, readUrl sc [] segments = some ss → Munched (ItemProp.Spelled sc) b (props ++ [.comma]) →
      PathDecl.Spelled sc ⟨ss, b⟩ [.group .paren segments, .colon, .group .brace props] := by
    intro segments props ss b hs hb
    exact ⟨_, _, url_iff.1 hs, itemProps_listed.2 (munched_comma.1 hb), rfl⟩
  unfold readPathList at h
  split at h
  · cases h; exact rfl
  · simp only [Option.bind_eq_bind, Option.bind_eq_some_iff, Option.some.injEq] at h
    obtain ⟨ss, hs, b, hb, rfl⟩ := h
    exact ⟨_, [], key hs (itemProps_back _ hb), ⟨rfl, .inl rfl⟩, rfl⟩
  · simp only [Option.bind_eq_bind, Option.bind_eq_some_iff, Option.some.injEq] at h
    obtain ⟨ss, hs, b, hb, ds, hd, rfl⟩ := h
    have hl := pathList_back _ hd
    cases ds with
    | nil => cases hl; exact ⟨_, [], key hs (itemProps_back _ hb), ⟨rfl, .inr ⟨rfl, rfl⟩⟩, rfl⟩
    | cons d ds => exact ⟨_, _, key hs (itemProps_back _ hb), rfl, hl⟩
  · cases h
termination_by sizeOf ts
decreasing_by all_goals (subst_vars; simp_wf; (try simp only [sizeOf_comma]); try omega)
theorem itemProps_back {sc} (ts : List TT) {ps} (h : readItemProps sc ts = some ps) : Munched (ItemProp.Spelled sc) ps ts := by
  unfold readItemProps at h
  split at h
  · cases h; exact .inl rfl
  · cases h; exact .inr rfl
  · simp only [Option.bind_eq_bind, Option.bind_eq_some_iff, Option.some.injEq] at h
    obtain ⟨p, hp, ps, hps, rfl⟩ := h
    exact ⟨[_, _, _], _, itemProp_back _ _ hp, rfl, itemProps_back _ hps⟩
  · cases h
termination_by sizeOf ts
decreasing_by all_goals (subst_vars; simp_wf; try omega)
theorem itemProp_back {sc} (k : String) (v : TT) {p} (h : readItemProp sc k v = some p) : p.Spelled sc [.ident k, .colon, v] := by
  unfold readItemProp at h
  split at h
  · split at h
    · split at h
      · rename_i hk; subst hk; cases h
        simp only [ItemProp.Spelled]; exact ⟨_, rfl, rfl⟩
      split at h
      · rename_i hk; subst hk; cases h
        simp only [ItemProp.Spelled]; exact ⟨_, rfl, rfl⟩
      · cases h
    · cases h
  · rename_i ts
    split at h
    · rename_i hk; subst hk
      simp only [Option.map_eq_some_iff, params_listed] at h
      obtain ⟨s, hs, rfl⟩ := h
      simp only [ItemProp.Spelled]; exact ⟨_, ⟨ts, hs, rfl⟩, rfl⟩
    · simp only [Option.bind_eq_bind, Option.bind_eq_some_iff, Option.some.injEq, methodOf_iff] at h
      obtain ⟨ps, hp, m, rfl, rfl⟩ := h
      simp only [ItemProp.Spelled]
      exact ⟨_, ⟨ts, opProps_listed.2 (munched_comma.1 (opProps_back _ hp)), rfl⟩, rfl⟩
  · cases h
termination_by sizeOf v + 3
decreasing_by all_goals (subst_vars; simp [sizeOf_comma]; omega)
end

theorem readPathList_of {sc} {ps ts} (hs : ∀ d ∈ ps, ∀ t, d.Spelled sc t → readPathList sc t = some [d] ∧
      ∀ rest, readPathList sc (t ++ .comma :: rest) = (readPathList sc rest).map (d :: ·))
    (h : Listed true (PathDecl.Spelled sc) ps ts) : readPathList sc ts = some ps := by
  induction ps generalizing ts with
  | nil => cases h; simp [readPathList]
  | cons d ds ih =>
    obtain ⟨t, rest, hr, hn, hl⟩ := h
    have hx := ih (fun e he => hs e (.tail _ he)) hl
    obtain ⟨h1, h2⟩ := hs d (.head _) t hr
    cases ds with
    | nil =>
      obtain ⟨rfl, rfl | ⟨-, rfl⟩⟩ := hn
      · exact h1
      · rw [h2, hx]; rfl
    | cons y ys =>
      have hn : ts = t ++ TT.comma :: rest := hn
      subst hn
      rw [h2, hx]; rfl

mutual
theorem OpProp.fwd {sc} : ∀ (p : OpProp) (t : List TT), p.Spelled sc t → ∀ rest,
    readOpProps sc (t ++ .comma :: rest) = (readOpProps sc rest).map (p :: ·) := by
  intro p t h rest
  have key : ∀ {k v}, t = [.ident k, .colon, v] → readOpProp sc k v = some p →
      readOpProps sc (t ++ .comma :: rest) = (readOpProps sc rest).map (p :: ·) := by
    intro k v ht hp
    subst ht
    simp only [List.cons_append, List.nil_append]
    rw [readOpProps, hp]
    cases readOpProps sc rest <;> rfl
  cases p with
  | summary s =>
    simp only [OpProp.Spelled] at h
    obtain ⟨v, hv, rfl⟩ := h
    exact key rfl (by unfold readOpProp; simp [text_iff.2 hv])
  | operationId s =>
    simp only [OpProp.Spelled] at h
    obtain ⟨v, hv, rfl⟩ := h
    exact key rfl (by unfold readOpProp; simp [text_iff.2 hv])
  | description s =>
    simp only [OpProp.Spelled] at h
    obtain ⟨v, hv, rfl⟩ := h
    exact key rfl (by unfold readOpProp; simp [text_iff.2 hv])
  | deprecated s =>
    simp only [OpProp.Spelled] at h
    obtain ⟨v, hv, rfl⟩ := h
    exact key rfl (by unfold readOpProp; simp [flag_iff.2 hv])
  | tags s =>
    simp only [OpProp.Spelled] at h
    obtain ⟨v, ⟨ts, hv, rfl⟩, rfl⟩ := h
    exact key rfl (by simp [readOpProp, (orComma_iff (read := readIdents) (fun _ _ => idents_iff) rfl).2 hv])
  | parameters s =>
    simp only [OpProp.Spelled] at h
    obtain ⟨v, ⟨ts, hv, rfl⟩, rfl⟩ := h
    exact key rfl (by simp [readOpProp, params_listed.2 hv])
  | callbacks cs =>
    simp only [OpProp.Spelled] at h
    obtain ⟨v, ⟨ts, hv, rfl⟩, rfl⟩ := h
    exact key rfl (by simp [readOpProp, callbacks_fwd cs _ (cbMunched_comma.2 hv)])
  | security s =>
    simp only [OpProp.Spelled] at h
    obtain ⟨v, ⟨ts, hv, rfl⟩, rfl⟩ := h
    exact key rfl (by simp [readOpProp, security_listed.2 hv])
  | body s =>
    simp only [OpProp.Spelled] at h
    obtain ⟨v, hv, rfl⟩ := h
    exact key rfl (by unfold readOpProp; simp [body_iff.2 hv])
  | response code d r =>
    cases d with
    | none =>
      simp only [OpProp.Spelled] at h
      obtain ⟨v, hv, rfl⟩ := h
      simp only [List.cons_append, List.nil_append]
      rw [readOpProps, response_iff.2 hv]
      cases readOpProps sc rest <;> rfl
    | some d =>
      simp only [OpProp.Spelled] at h
      obtain ⟨v, hv, rfl⟩ := h
      simp only [List.cons_append, List.nil_append]
      rw [readOpProps, response_iff.2 hv]
      cases readOpProps sc rest <;> rfl
termination_by structural p => p
theorem opProps_fwd {sc} : ∀ (ps : List OpProp) (ts : List TT), Munched (OpProp.Spelled sc) ps ts → readOpProps sc ts = some ps
  | [], _, h => by rcases h with rfl | rfl <;> simp [readOpProps]
  | p :: ps, _, ⟨t, rest, hr, he, hm⟩ => by
    subst he
    rw [OpProp.fwd p t hr rest, opProps_fwd ps rest hm]; rfl
termination_by structural ps => ps
theorem callbacks_fwd {sc} : ∀ (cs : List CallbackDecl) (ts : List TT), CbMunched sc cs ts → readCallbacks sc ts = some cs
  | [], _, h => by rcases h with rfl | rfl <;> simp [readCallbacks]
  | .literal name paths :: cs, _, ⟨hp, hc, b, he⟩ => by
    subst hp hc he
    simp [readCallbacks, readPaths]
  | .ident name paths :: cs, _, ⟨b, rest, hp, he, hm⟩ => by
    subst he
    have hb : readPaths sc (b ++ [.comma]) = some paths := by
      have hp := paths_listed.1 hp
      by_cases hx : paths = []
      · subst hx; cases hp; simp [readPaths]
      · have hl := listed_false_comma hp hx
        have hne : b ≠ [] := by
          rintro rfl
          cases paths with
          | nil => exact hx rfl
          | cons d ds =>
            obtain ⟨t, r, hr, hn, -⟩ := hp
            have := (path_ends hr).2
            cases ds with
            | nil => obtain ⟨-, h | ⟨h, -⟩⟩ := hn; exact this h.symm; cases h
            | cons => simp [Next] at hn
        unfold readPaths
        split
        · rename_i h; simp at h; exact absurd h hne
        · exact readPathList_of (paths_fwd paths) hl
    simp only [List.cons_append, List.nil_append]
    rw [readCallbacks, hb, callbacks_fwd cs rest hm]; rfl
termination_by structural cs => cs
theorem PathDecl.fwd {sc} : ∀ (d : PathDecl) (t : List TT), d.Spelled sc t → readPathList sc t = some [d] ∧
    ∀ rest, readPathList sc (t ++ .comma :: rest) = (readPathList sc rest).map (d :: ·)
  | ⟨ss, ps⟩, _, ⟨u, b, hu, hb, he⟩ => by
    subst he
    have hi := itemProps_fwd ps _ (munched_comma.2 (itemProps_listed.1 hb))
    constructor
    · simp [readPathList, url_iff.2 hu, hi]
    · intro rest
      simp only [List.cons_append, List.nil_append]
      rw [readPathList, url_iff.2 hu, hi]
      cases readPathList sc rest <;> rfl
termination_by structural d => d
theorem paths_fwd {sc} : ∀ (ps : List PathDecl), ∀ d ∈ ps, ∀ t, d.Spelled sc t → readPathList sc t = some [d] ∧
    ∀ rest, readPathList sc (t ++ .comma :: rest) = (readPathList sc rest).map (d :: ·)
  | [], _, h => nomatch h
  | d :: ds, e, h => by
    rcases List.mem_cons.1 h with h | h
    · rw [h]; exact PathDecl.fwd d
    · exact paths_fwd ds e h
termination_by structural ps => ps
theorem ItemProp.fwd {sc} : ∀ (p : ItemProp) (t : List TT), p.Spelled sc t → ∀ rest,
    readItemProps sc (t ++ .comma :: rest) = (readItemProps sc rest).map (p :: ·) := by
  intro p t h rest
  have key : ∀ {k v}, t = [.ident k, .colon, v] → readItemProp sc k v = some p →
      readItemProps sc (t ++ .comma :: rest) = (readItemProps sc rest).map (p :: ·) := by
    intro k v ht hp
    subst ht
    simp only [List.cons_append, List.nil_append]
    rw [readItemProps, hp]
    cases readItemProps sc rest <;> rfl
  cases p with
  | summary s =>
    simp only [ItemProp.Spelled] at h
    obtain ⟨v, rfl, rfl⟩ := h
    exact key rfl (by simp [readItemProp])
  | description s =>
    simp only [ItemProp.Spelled] at h
    obtain ⟨v, rfl, rfl⟩ := h
    exact key rfl (by simp [readItemProp])
  | parameters s =>
    simp only [ItemProp.Spelled] at h
    obtain ⟨v, ⟨ts, hv, rfl⟩, rfl⟩ := h
    exact key rfl (by simp [readItemProp, params_listed.2 hv])
  | operation m ps =>
    simp only [ItemProp.Spelled] at h
    obtain ⟨v, ⟨ts, hv, rfl⟩, rfl⟩ := h
    have := opProps_fwd ps _ (munched_comma.2 (opProps_listed.1 hv))
    have hm : methodName m ≠ "parameters" := by cases m <;> decide
    have hk : methodOf (methodName m) = some m := methodOf_iff.2 rfl
    exact key rfl (by simp [readItemProp, hm, this, hk])
termination_by structural p => p
theorem itemProps_fwd {sc} : ∀ (ps : List ItemProp) (ts : List TT), Munched (ItemProp.Spelled sc) ps ts → readItemProps sc ts = some ps
  | [], _, h => by rcases h with rfl | rfl <;> simp [readItemProps]
  | p :: ps, _, ⟨t, rest, hr, he, hm⟩ => by
    subst he
    rw [ItemProp.fwd p t hr rest, itemProps_fwd ps rest hm]; rfl
termination_by structural ps => ps
end

theorem pathList_iff {sc ts ps} : readPathList sc ts = some ps ↔ Listed true (PathDecl.Spelled sc) ps ts :=
  ⟨pathList_back ts, readPathList_of (paths_fwd ps)⟩

theorem readPaths_iff {sc ts ps} : readPaths sc ts = some ps ↔ Loosely (pathsSpelled sc true) ps ts := by
  have : readPaths sc ts = orComma (readPathList sc) ts := by
    unfold readPaths orComma; rfl
  rw [this, orComma_iff (P := pathsSpelled sc true) (fun ts ps => pathList_iff.trans paths_listed.symm) (by simp [readPathList])]

/-! ## Descriptions -/

theorem section_iff {sc s t} : Section.Spelled sc s t ↔ ∃ k ts, t = [.ident k, .colon, .group .brace ts] ∧ readSection sc k ts = some s := by
  have B : ∀ {k P}, Keyed k (Braced P) t ↔ ∃ k' ts, t = [.ident k', .colon, .group .brace ts] ∧ k' = k ∧ P ts := by
    intro k P
    constructor
    · rintro ⟨_, ⟨ts, h, rfl⟩, rfl⟩; exact ⟨_, ts, rfl, rfl, h⟩
    · rintro ⟨_, ts, rfl, rfl, h⟩; exact ⟨_, ⟨ts, h, rfl⟩, rfl⟩
  have S : ∀ {k P}, (∀ k' ts, readSection sc k' ts = some s ↔ k' = k ∧ P ts) → (Keyed k (Braced P) t ↔
      ∃ k ts, t = [.ident k, .colon, .group .brace ts] ∧ readSection sc k ts = some s) := by
    intro k P h
    simp only [B, h]
  cases s <;>
  · simp only [Section.Spelled]
    apply S
    intro k ts
    unfold readSection
    split <;> rename_i h1
    · simp [h1, orComma_iff (read := readInfoProps sc) (fun _ _ => info_iff (sc := sc)) rfl]
    split <;> rename_i h2
    · simp [h2, orComma_iff (read := readTags sc) (fun _ _ => tags_iff (sc := sc)) rfl]
    split <;> rename_i h3
    · simp [h3, servers_iff]
    split <;> rename_i h4
    · simp [h4, schemes_iff, munched_comma]
    split <;> rename_i h5
    · simp [h5, readPaths_iff]
    · simp [*]

theorem sections_iff {sc ts xs} : readSections sc ts = some xs ↔ Listed true (Section.Spelled sc) xs ts := by
  apply listed_reader (read := readSections sc) (R := Section.Spelled sc) rfl
  · intro x t h
    obtain ⟨k, v, rfl, hf⟩ := section_iff.1 h
    simp [readSections, hf]
  · intro x t rest h
    obtain ⟨k, v, rfl, hf⟩ := section_iff.1 h
    simp only [List.cons_append, List.nil_append, readSections, hf]
    cases readSections sc rest <;> rfl
  · intro ts xs h
    unfold readSections at h
    split at h
    · cases h; exact .inl ⟨rfl, rfl⟩
    · simp only [Option.map_eq_some_iff] at h
      obtain ⟨p, hp, rfl⟩ := h
      exact .inr (.inl ⟨p, rfl, section_iff.2 ⟨_, _, rfl, hp⟩⟩)
    · simp only [Option.bind_eq_bind, Option.bind_eq_some_iff, Option.some.injEq] at h
      obtain ⟨p, hp, ps, hps, rfl⟩ := h
      exact .inr (.inr ⟨p, _, _, ps, section_iff.2 ⟨_, _, rfl, hp⟩, rfl, hps, rfl⟩)
    · cases h

theorem readApi_iff {sc ts api} : readApi sc ts = some api ↔ ApiSpelled sc api ts := by
  unfold readApi ApiSpelled
  rw [← sections_iff]
  split
  · rename_i h; rw [h]
    simp only [Option.some.injEq]
    constructor
    · rintro rfl; exact ⟨by simp, rfl⟩
    · exact fun h => h.2
  · rename_i h
    simp only [reduceCtorEq, false_iff]
    rintro ⟨hne, h'⟩
    cases api with
    | nil => exact hne rfl
    | cons s ss => exact h _ _ h'

/-! ## Types -/

theorem litText_iff {l s} : l.val.display = some s ↔ LitText l s := by
  cases l <;> simp only [LitTok.val, Val.display, Option.some.injEq]
  all_goals
    constructor
    · rintro rfl; constructor
    · rintro ⟨⟩; rfl

theorem optLit_back {k ts d rest} (h : optLit k ts = (d, rest)) : ∃ a, optSpelled k d a ∧ ts = a ++ rest := by
  unfold optLit at h
  split at h
  · rename_i l _
    split at h
    · rename_i hk
      subst hk
      cases h
      have : ∃ s, l.val.display = some s := by cases l <;> exact ⟨_, rfl⟩
      obtain ⟨s, hs⟩ := this
      rw [hs]
      exact ⟨[_, _, _], ⟨l, litText_iff.1 hs, rfl⟩, rfl⟩
    · cases h; exact ⟨[], rfl, rfl⟩
  · cases h; exact ⟨[], rfl, rfl⟩

theorem optLit_fwd {k d a rest} (h : optSpelled k d a) (hr : ∀ l r, rest ≠ .ident k :: .colon :: .lit l :: r) :
    optLit k (a ++ rest) = (d, rest) := by
  cases d with
  | none =>
    have h : a = [] := h
    subst h
    simp only [List.nil_append]
    unfold optLit
    split
    · split
      · rename_i hk; subst hk; exact absurd rfl (hr _ _)
      · rfl
    · rfl
  | some s =>
    obtain ⟨l, hl, rfl⟩ := h
    simp [optLit, litText_iff.2 hl]

/-- What starts with other keys. -/
theorem optLit_skip {k k' d a rest} (hk : k' ≠ k) (h : optSpelled k' d a) (hr : ∀ l r, rest ≠ TT.ident k :: .colon :: .lit l :: r) :
    ∀ l r, a ++ rest ≠ .ident k :: .colon :: .lit l :: r := by
  intro l r he
  cases d with
  | none => have h : a = [] := h; subst h; exact hr _ _ he
  | some s => obtain ⟨l', hl, rfl⟩ := h; simp at he; exact hk he.1

theorem lits_iff {ts vs} : readLits ts = some vs ↔ Listed false (fun s t => ∃ l, LitText l s ∧ t = [.lit l]) vs ts := by
  induction vs generalizing ts with
  | nil =>
    constructor
    · intro h
      unfold readLits at h
      split at h
      · rfl
      · simp at h
      · simp [Option.bind_eq_some_iff] at h
      · cases h
    · intro h; cases h; rfl
  | cons v vs ih =>
    constructor
    · intro h
      unfold readLits at h
      split at h
      · cases h
      · simp only [Option.map_eq_some_iff] at h
        obtain ⟨s, hs, h⟩ := h
        cases h
        exact ⟨_, [], ⟨_, litText_iff.1 hs, rfl⟩, ⟨rfl, .inl rfl⟩, rfl⟩
      · simp only [Option.bind_eq_bind, Option.bind_eq_some_iff, Option.some.injEq] at h
        obtain ⟨s, hs, ss, hss, h⟩ := h
        cases h
        have hl := ih.1 hss
        cases vs with
        | nil => cases hl
        | cons y ys => exact ⟨_, _, ⟨_, litText_iff.1 hs, rfl⟩, rfl, hl⟩
      · cases h
    · rintro ⟨_, rest, ⟨l, hl, rfl⟩, hn, hr⟩
      have hx := ih.2 hr
      cases vs with
      | nil =>
        obtain ⟨rfl, rfl | ⟨h, -⟩⟩ := hn
        · simp [readLits, litText_iff.2 hl]
        · cases h
      | cons y ys =>
        have hn : ts = [TT.lit l] ++ TT.comma :: rest := hn
        subst hn
        cases rest with
        | nil => cases hx
        | cons c cs => simp [readLits, litText_iff.2 hl, hx]

theorem variants_iff {ts vs} : readVariants ts = some vs ↔ variantsSpelled vs ts := by
  cases vs with
  | none =>
    simp only [variantsSpelled]
    constructor
    · intro h
      unfold readVariants at h
      split at h
      · rfl
      · split at h <;> simp at h
      · cases h
    · rintro rfl; rfl
  | some vs =>
    simp only [variantsSpelled]
    constructor
    · intro h
      unfold readVariants at h
      split at h
      · cases h
      · split at h
        · rename_i hk; subst hk
          simp only [Option.map_eq_some_iff, Option.some.injEq, exists_eq_right] at h
          exact ⟨_, lits_iff.1 h, rfl⟩
        · cases h
      · cases h
    · rintro ⟨b, hb, rfl⟩
      simp [readVariants, lits_iff.2 hb]

theorem readLeaf_back {sc k body d} (h : readLeaf sc k body = some d) : d.Spelled sc [.ident k, .arrow, .group .brace body] := by
  unfold readLeaf at h
  rcases hd : optLit "description" body with ⟨ds, t1⟩
  rw [hd] at h
  obtain ⟨a, ha, rfl⟩ := optLit_back hd
  simp only at h
  split at h
  · rename_i hk; subst hk
    split at h
    · split at h
      · rename_i hi; subst hi
        split at h
        · rename_i hx; cases h
          simp only [TypeDecl.Spelled]; exact ⟨a, _, ha, hx, rfl⟩
        · cases h
      · cases h
    · cases h
  split at h
  · rename_i hk; subst hk
    split at h
    · rename_i he
      cases h
      have he : t1 = [] := by simpa using he
      subst he
      simp only [TypeDecl.Spelled]; exact ⟨a, ha, by simp⟩
    · cases h
  rcases hf : optLit "format" t1 with ⟨fs, t2⟩
  rw [hf] at h
  obtain ⟨b, hb, rfl⟩ := optLit_back hf
  simp only at h
  rcases he : optLit "example" t2 with ⟨es, t3⟩
  rw [he] at h
  obtain ⟨c, hc, rfl⟩ := optLit_back he
  simp only at h
  split at h
  · rename_i hk; subst hk
    simp only [Option.map_eq_some_iff] at h
    obtain ⟨vs, hv, rfl⟩ := h
    simp only [TypeDecl.Spelled]
    exact ⟨a, b, c, t3, ha, hb, hc, variants_iff.1 hv, by simp⟩
  split at h
  · rename_i hk; subst hk
    split at h
    · rename_i he
      cases h
      have he : t3 = [] := by simpa using he
      subst he
      simp only [TypeDecl.Spelled]; exact ⟨a, b, c, ha, hb, hc, by simp⟩
    · cases h
  split at h
  · rename_i hk; subst hk
    split at h
    · rename_i he
      cases h
      have he : t3 = [] := by simpa using he
      subst he
      simp only [TypeDecl.Spelled]; exact ⟨a, b, c, ha, hb, hc, by simp⟩
    · cases h
  · cases h

mutual
theorem readType_back {sc} (ts : List TT) {d} (h : readType sc ts = some d) : d.Spelled sc ts := by
  unfold readType at h
  split at h
  · split at h
    · rename_i hk; subst hk
      split at h
      · rename_i hx; cases h
        simp only [TypeDecl.Spelled]; exact ⟨_, hx, rfl⟩
      · cases h
    · cases h
  · rename_i body
    have hsz := optLit_size "description" body
    split at h
    · rename_i hk; subst hk
      split at h
      · rename_i ds i value ho
        split at h
        · rename_i hi; subst hi
          simp only [Option.map_eq_some_iff] at h
          obtain ⟨r, hr, rfl⟩ := h
          obtain ⟨a, ha, hb⟩ := optLit_back ho
          have := readRef_back _ hr
          subst hb
          simp only [TypeDecl.Spelled]
          exact ⟨a, _, ha, this, rfl⟩
        · cases h
      · cases h
    split at h
    · rename_i hk; subst hk
      split at h
      · rename_i ds i value ho
        split at h
        · rename_i hi; subst hi
          simp only [Option.map_eq_some_iff] at h
          obtain ⟨r, hr, rfl⟩ := h
          obtain ⟨a, ha, hb⟩ := optLit_back ho
          have := readPropDecls_back _ hr
          subst hb
          simp only [TypeDecl.Spelled]
          exact ⟨a, _, ha, this, rfl⟩
        · cases h
      · cases h
    · exact readLeaf_back h
  · cases h
termination_by sizeOf ts
decreasing_by
  all_goals
    rw [ho] at hsz
    subst_vars
    simp at hsz ⊢
    omega
theorem readRef_back {sc} (ts : List TT) {r} (h : readRef sc ts = some r) : r.Spelled sc ts := by
  unfold readRef at h
  split at h
  · split at h
    · rename_i hk; subst hk
      split at h
      · cases h; simp only [RefDecl.Spelled]; exact ⟨_, .lit, rfl⟩
      · split at h
        · rename_i hx; cases h; simp only [RefDecl.Spelled]; exact ⟨_, .str hx, rfl⟩
        · rename_i hx; cases h; simp only [RefDecl.Spelled]; exact ⟨_, .owned hx, rfl⟩
        · cases h
      · cases h
    · simp only [Option.map_eq_some_iff] at h
      obtain ⟨t, ht, rfl⟩ := h
      simp only [RefDecl.Spelled]; exact readType_back _ ht
  · cases h
termination_by sizeOf ts + 1
theorem readPropDecls_back {sc} (ts : List TT) {ps} (h : readPropDecls sc ts = some ps) : propDeclsSpelled sc ps ts := by
  unfold readPropDecls at h
  split at h
  · cases h; simp [propDeclsSpelled]
  · simp only [Option.bind_eq_bind, Option.bind_eq_some_iff, Option.some.injEq] at h
    obtain ⟨r, hr, ps, hp, rfl⟩ := h
    simp only [propDeclsSpelled]
    exact ⟨_, _, readRef_back _ hr, readPropDecls_back _ hp, rfl⟩
  · split at h
    · rename_i hq; subst hq
      simp only [Option.bind_eq_bind, Option.bind_eq_some_iff, Option.some.injEq] at h
      obtain ⟨r, hr, ps, hp, rfl⟩ := h
      simp only [propDeclsSpelled]
      exact ⟨_, _, readRef_back _ hr, readPropDecls_back _ hp, rfl⟩
    · cases h
  · cases h
termination_by sizeOf ts
decreasing_by all_goals (subst_vars; simp_wf; try omega)
end

mutual
theorem TypeDecl.fwd {sc} : ∀ (d : TypeDecl) (ts : List TT), d.Spelled sc ts → readType sc ts = some d := by
  intro d ts h
  cases d with
  | rawModel m =>
    simp only [TypeDecl.Spelled] at h
    obtain ⟨x, hx, rfl⟩ := h
    simp [readType, hx]
  | rawType d data =>
    simp only [TypeDecl.Spelled] at h
    obtain ⟨a, x, ha, hx, rfl⟩ := h
    have h1 := optLit_fwd (rest := [.ident "ident", .colon, .ident x]) ha (by simp)
    simp [readType, readLeaf, h1, hx]
  | boolean d =>
    simp only [TypeDecl.Spelled] at h
    obtain ⟨a, ha, rfl⟩ := h
    have h1 := optLit_fwd (rest := []) ha (by intro l r h; cases h)
    simp only [List.append_nil] at h1
    simp [readType, readLeaf, h1]
  | string d f e vs =>
    simp only [TypeDecl.Spelled] at h
    obtain ⟨a, b, c, v, ha, hb, hc, hv, rfl⟩ := h
    have hs : ∀ k l r, v ≠ .ident k :: .colon :: .lit l :: r := by
      intro k l r he
      subst he
      cases vs with
      | none => cases hv
      | some vs => obtain ⟨b, -, h⟩ := hv; simp at h
    have h3 := optLit_fwd hc (hs "example")
    have h2 := optLit_fwd hb (optLit_skip (by decide) hc (hs "format"))
    have h1 := optLit_fwd ha (optLit_skip (by decide) hb (optLit_skip (by decide) hc (hs "description")))
    simp [readType, readLeaf, h1, h2, h3, variants_iff.2 hv]
  | number d f e =>
    simp only [TypeDecl.Spelled] at h
    obtain ⟨a, b, c, ha, hb, hc, rfl⟩ := h
    have hs : ∀ k l r, ([] : List TT) ≠ .ident k :: .colon :: .lit l :: r := by intro k l r he; cases he
    have h3 := optLit_fwd hc (hs "example")
    have h2 := optLit_fwd hb (optLit_skip (by decide) hc (hs "format"))
    have h1 := optLit_fwd ha (optLit_skip (by decide) hb (optLit_skip (by decide) hc (hs "description")))
    simp only [List.append_nil] at h1 h2 h3
    simp [readType, readLeaf, h1, h2, h3]
  | integer d f e =>
    simp only [TypeDecl.Spelled] at h
    obtain ⟨a, b, c, ha, hb, hc, rfl⟩ := h
    have hs : ∀ k l r, ([] : List TT) ≠ .ident k :: .colon :: .lit l :: r := by intro k l r he; cases he
    have h3 := optLit_fwd hc (hs "example")
    have h2 := optLit_fwd hb (optLit_skip (by decide) hc (hs "format"))
    have h1 := optLit_fwd ha (optLit_skip (by decide) hb (optLit_skip (by decide) hc (hs "description")))
    simp only [List.append_nil] at h1 h2 h3
    simp [readType, readLeaf, h1, h2, h3]
  | array d r =>
    simp only [TypeDecl.Spelled] at h
    obtain ⟨a, b, ha, hb, rfl⟩ := h
    have h1 := optLit_fwd (rest := [.ident "items", .colon, .group .paren b]) ha (by simp)
    rw [readType]
    split
    · split
      · rename_i he
        rw [h1] at he
        cases he
        simp [RefDecl.fwd r b hb]
      · rename_i hn
        exact absurd h1 (hn _ _ _)
    · rename_i hk; exact absurd rfl hk
  | object d ps =>
    simp only [TypeDecl.Spelled] at h
    obtain ⟨a, b, ha, hb, rfl⟩ := h
    have h1 := optLit_fwd (rest := [.ident "properties", .colon, .group .brace b]) ha (by simp)
    rw [readType]
    split
    · rename_i hk; exact absurd hk (by decide)
    split
    · split
      · rename_i he
        rw [h1] at he
        cases he
        simp [propDecls_fwd ps b hb]
      · rename_i hn
        exact absurd h1 (hn _ _ _)
    · rename_i hk; exact absurd rfl hk
termination_by structural d => d
theorem RefDecl.fwd {sc} : ∀ (r : RefDecl) (ts : List TT), r.Spelled sc ts → readRef sc ts = some r := by
  intro r ts h
  cases r with
  | link s =>
    simp only [RefDecl.Spelled] at h
    obtain ⟨t, ht, rfl⟩ := h
    cases ht with
    | lit => simp [readRef]
    | str h => simp [readRef, h]
    | owned h => simp [readRef, h]
  | inline t =>
    simp only [RefDecl.Spelled] at h
    have := TypeDecl.fwd t ts h
    have hk : ∃ k v, ts = [.ident k, .arrow, v] ∧ k ≠ "link" := by
      cases t <;> simp only [TypeDecl.Spelled] at h
      case rawModel => obtain ⟨x, -, rfl⟩ := h; exact ⟨_, _, rfl, by decide⟩
      case rawType => obtain ⟨_, _, -, -, rfl⟩ := h; exact ⟨_, _, rfl, by decide⟩
      case string => obtain ⟨_, _, _, _, -, -, -, -, rfl⟩ := h; exact ⟨_, _, rfl, by decide⟩
      case number => obtain ⟨_, _, _, -, -, -, rfl⟩ := h; exact ⟨_, _, rfl, by decide⟩
      case integer => obtain ⟨_, _, _, -, -, -, rfl⟩ := h; exact ⟨_, _, rfl, by decide⟩
      case boolean => obtain ⟨_, -, rfl⟩ := h; exact ⟨_, _, rfl, by decide⟩
      case array => obtain ⟨_, _, -, -, rfl⟩ := h; exact ⟨_, _, rfl, by decide⟩
      case object => obtain ⟨_, _, -, -, rfl⟩ := h; exact ⟨_, _, rfl, by decide⟩
    obtain ⟨k, v, rfl, hk⟩ := hk
    unfold readRef
    simp only [if_neg hk, this]; rfl
termination_by structural r => r
theorem propDecls_fwd {sc} : ∀ (ps : List PropDecl) (ts : List TT), propDeclsSpelled sc ps ts → readPropDecls sc ts = some ps
  | [], _, h => by simp only [propDeclsSpelled] at h; subst h; simp [readPropDecls]
  | .mk n q r :: ps, _, h => by
    simp only [propDeclsSpelled] at h
    obtain ⟨b, rest, hr, hp, rfl⟩ := h
    have h1 := RefDecl.fwd r b hr
    have h2 := propDecls_fwd ps rest hp
    cases q <;> simp [readPropDecls, h1, h2]
termination_by structural ps => ps
end

theorem readType_iff {sc ts d} : readType sc ts = some d ↔ d.Spelled sc ts := ⟨readType_back ts, TypeDecl.fwd d ts⟩

end Verif
