import Verif.Props.Reads
import Verif.Props.ConformNeeds
/-!
# C86 and C87: the conditions are needed

Where types are left out in C86 and C87, there is a witness in `Props.Reads`.  Here: whole classes of such types.
-/

namespace Verif
open Sample

theorem object_less {x : Bool} {reg : List (String × Model)} {de n} {o : ModelObject} {es : List (String × Json)} {key : String}
    (h : ValidModel x reg (objectSchema de n o) (.obj es)) (hk : key ∉ o.required) :
    ValidModel x reg (objectSchema de n o) (.obj (es.filter fun e => e.1 ≠ key)) := by
  cases h with
  | object hr hp ha =>
    refine .object (fun k hm => ?_) (fun k j r hm => hp k j r (List.mem_filter.1 hm).1) fun k j r hm => ha k j r (List.mem_filter.1 hm).1
    obtain ⟨e, he, rfl⟩ := List.mem_map.1 (hr k hm)
    exact List.mem_map.2 ⟨e, List.mem_filter.2 ⟨he, by
      simpa using fun e' : e.1 = key => hk (e' ▸ hm)⟩, rfl⟩

theorem object_more {x : Bool} {reg : List (String × Model)} {de n} {o : ModelObject} {es : List (String × Json)} {key : String} {y : Json}
    (h : ValidModel x reg (objectSchema de n o) (.obj es)) (hk : ∀ r, ¬ BMap.get key o.properties = some r)
    (hadd : o.additional = none) : ValidModel x reg (objectSchema de n o) (.obj (es ++ [(key, y)])) := by
  cases h with
  | object hr hp ha =>
    refine .object (fun k hm => ?_) (fun k j r hm hg => ?_) fun k j r _ _ hr => ?_
    · simp only [BMap.keys, List.map_append, List.mem_append]
      exact .inl (hr k hm)
    · rcases List.mem_append.1 hm with hm | hm
      · exact hp k j r hm hg
      · cases List.mem_singleton.1 hm
        exact absurd hg (hk r)
    · rw [hadd] at hr
      cases hr

/-- C86 fails for every struct that needs an entry which its schema does not ask for, since the field is documented as optional, is not
documented, or is read under another name: every object that is accepted is still accepted without that entry, and is not read then. -/
theorem c86_missing_always (env : Env) (d : Reader) (x : Bool) (reg : List (String × Model)) (i : Nat) (fs : List (Field Ty)) (m : Model)
    (data : (env.decl i).data = .struct .struct fs) (schema : HasSchema env (.named i) m) (f : Field Ty) (hf : f ∈ fs)
    (read : d.skips i f = false) (needed : ¬ CanMiss d i f)
    (unasked : ∀ g ∈ serialFields fs, g.attrs.optional = false → g.key ≠ d.fieldKey i f) (es : List (String × Json))
    (accepted : ValidModel x reg m (.obj es)) :
    ValidModel x reg m (.obj (es.filter fun e => e.1 ≠ d.fieldKey i f)) ∧
      ¬ Reads env d (.named i) (.obj (es.filter fun e => e.1 ≠ d.fieldKey i f)) := by
  obtain ⟨ob, ho, rfl⟩ := struct_schema data schema
  refine ⟨object_less accepted ?_, fun h => needed ?_⟩
  · rw [ho.required]
    intro hm
    obtain ⟨g, hg, e⟩ := List.mem_map.1 hm
    obtain ⟨hg, ho⟩ := List.mem_filter.1 hg
    exact unasked g hg (by simpa using ho) e
  · refine (reads_struct_obj data h).missing f (List.mem_filter.2 ⟨hf, by simp [read]⟩) ?_
    intro hm
    obtain ⟨e, he, hk⟩ := List.mem_map.1 hm
    simpa [hk] using (List.mem_filter.1 he).2

/-- Such a field is `#[serde(skip_serializing_if = "String::is_empty")] x: String`. -/
example : ∃ m, HasSchema (program [skipIfC]) (.named 0) m ∧ ∀ reg, ValidModel true reg m (.obj []) ∧
    ¬ Reads (program [skipIfC]) (rust true) (.named 0) (.obj []) := by
  refine ⟨_, ⟨Components.empty, _, 5, rfl⟩, fun reg => ?_⟩
  have := c86_missing_always (program [skipIfC]) (rust true) true reg 0 _ _ rfl ⟨Components.empty, _, 5, rfl⟩
    (fieldAs "x" "x" (.prim .string) (fun f => { f with optional := true })) (.head _) rfl
    (by simp [CanMiss, rust, MayMiss, fieldAs, field]) (by simp [serialFields, fieldAs, field]) []
    (.object (fun k hk => nomatch hk) (by simp) (by simp))
  exact this

/-- C86 fails for every struct with `#[serde(deny_unknown_fields)]`: any further entry is accepted and not read. -/
theorem c86_unknown_always (env : Env) (d : Reader) (x : Bool) (reg : List (String × Model)) (i : Nat) (fs : List (Field Ty)) (m : Model)
    (data : (env.decl i).data = .struct .struct fs) (schema : HasSchema env (.named i) m) (deny : d.denyUnknown i = true) (key : String)
    (further : ∀ g ∈ fs, g.key ≠ key ∧ d.fieldKey i g ≠ key) (es : List (String × Json)) (y : Json)
    (accepted : ValidModel x reg m (.obj es)) :
    ValidModel x reg m (.obj (es ++ [(key, y)])) ∧ ¬ Reads env d (.named i) (.obj (es ++ [(key, y)])) := by
  obtain ⟨ob, ho, rfl⟩ := struct_schema data schema
  constructor
  · refine object_more accepted (fun r hg => ?_) ho.additional
    obtain ⟨pre, g, post, he, hk, -⟩ := ho.refs _ _ hg
    have hm : g ∈ serialFields fs := by rw [he]; simp
    exact absurd hk (further g (List.mem_filter.1 hm).1).1
  · intro h
    obtain ⟨g, hg, e⟩ := (reads_struct_obj data h).unknown deny (key, y) (by simp)
    exact (further g (List.mem_filter.1 hg).1).2 e

example : ∃ m, HasSchema (program [author]) (.named 0) m ∧ ∀ reg,
    ValidModel true reg m (.obj [("name", .str "a"), ("more", .null)]) ∧
    ¬ Reads (program [author]) { rust true with denyUnknown := fun _ => true } (.named 0)
      (.obj [("name", .str "a"), ("more", .null)]) := by
  refine ⟨_, ⟨Components.empty, _, 5, rfl⟩, fun reg => ?_⟩
  refine c86_unknown_always (program [author]) { rust true with denyUnknown := fun _ => true } true reg 0 _ _ rfl
    ⟨Components.empty, _, 5, rfl⟩ rfl "more" (by simp [rust, field, Field.key]) [("name", .str "a")] .null
    (.object (fun k hk => ?_) (fun k j r hm hg => ?_) (by simp))
  · cases hk with
    | head => exact .head _
    | tail _ h => cases h
  · cases List.mem_singleton.1 hm
    cases hg
    exact .inline (.string nofun)

/-- The schema of a type without parts accepts the values of its JSON type. -/
theorem scalar_accepts_iff {env : Env} {x : Bool} {reg : List (String × Model)} {t : Ty} {m : Model} (scalar : t.IsScalar)
    (schema : HasSchema env t m) (j : Json) : ValidModel x reg m j ↔ ScalarForm t j := by
  cases t <;> first | exact scalar.elim | skip
  · rename_i p
    have hy := hasSchema_yields schema rfl
    constructor
    · intro h
      have hb := simple_back hy h
      cases p <;> exact hb
    · intro hj
      refine simple_valid hy ?_
      cases p <;> exact hj
  all_goals
    have hy := hasSchema_yields schema rfl
    exact ⟨fun h => string_back hy h, fun ⟨t, e⟩ => by rw [e]; exact string_valid hy rfl⟩

theorem reads_scalar {env : Env} {d : Reader} {t : Ty} (scalar : t.IsScalar) (j : Json) : Reads env d t j ↔ d.scalar t j := by
  constructor
  · intro h
    cases h with
    | scalar _ h => exact h
    | _ => exact scalar.elim
  · exact .scalar scalar

/-- C86, exactly, for types without parts: what their schema accepts is read if and only if they read all values of their JSON type. -/
theorem c86_scalars_exact (env : Env) (d : Reader) (x : Bool) (reg : List (String × Model)) (t : Ty) (m : Model) (scalar : t.IsScalar)
    (schema : HasSchema env t m) :
    (∀ j, ValidModel x reg m j → Reads env d t j) ↔ ∀ j, ScalarForm t j → d.scalar t j := by
  simp only [scalar_accepts_iff scalar schema, reads_scalar scalar]

/-- `String` reads all strings; `u8` does not read all integers. -/
example (env : Env) (reg : List (String × Model)) (m : Model) (h : HasSchema env (.prim .string) m) (j : Json)
    (hj : ValidModel true reg m j) : Reads env (rust true) (.prim .string) j :=
  (c86_scalars_exact env (rust true) true reg (.prim .string) m trivial h).2 (fun _ h => h) j hj
example (env : Env) (reg : List (String × Model)) (m : Model) (h : HasSchema env (.prim .u8) m) :
    ¬ ∀ j, ValidModel true reg m j → Reads env (rust true) (.prim .u8) j := by
  rw [c86_scalars_exact env (rust true) true reg (.prim .u8) m trivial h]
  intro h
  obtain ⟨i, e, -, hi⟩ := h (.int 256) ⟨_, rfl⟩
  cases e
  exact absurd hi (by decide)

/-- C87, exactly, for types without parts: their schema accepts what is read if and only if they read only values of their JSON type. -/
theorem c87_scalars_exact (env : Env) (d : Reader) (x : Bool) (reg : List (String × Model)) (t : Ty) (m : Model) (scalar : t.IsScalar)
    (schema : HasSchema env t m) :
    (∀ j, Reads env d t j → ValidModel x reg m j) ↔ ∀ j, d.scalar t j → ScalarForm t j := by
  simp only [scalar_accepts_iff scalar schema, reads_scalar scalar]

example (env : Env) (reg : List (String × Model)) (m : Model) (h : HasSchema env (.prim .u8) m) (j : Json)
    (hj : Reads env (rust true) (.prim .u8) j) : ValidModel true reg m j :=
  (c87_scalars_exact env (rust true) true reg (.prim .u8) m trivial h).2 (fun _ ⟨i, e, _⟩ => ⟨i, e⟩) j hj

/-- C86 fails for every fixed-size array and tuple with elements: the empty array is accepted and not read. -/
theorem c86_length_always (env : Env) (d : Reader) (x : Bool) (reg : List (String × Model)) (t : Ty) (m : Model)
    (sized : (∃ n u, t = .seq (.array n) u ∧ n ≠ 0) ∨ ∃ ts, t = .tuple ts ∧ ts ≠ []) (schema : HasSchema env t m) :
    ValidModel x reg m (.arr []) ∧ ¬ Reads env d t (.arr []) := by
  rcases sized with ⟨n, u, rfl, hn⟩ | ⟨ts, rfl, hn⟩
  · obtain ⟨td, htd, rfl⟩ := yields_single (hasSchema_yields schema rfl)
    obtain ⟨r, -, rfl⟩ := yields_array htd
    refine ⟨.array (by simp), fun h => ?_⟩
    cases h with
    | scalar h => exact h
    | seq hl => exact hn (hl n rfl).symm
  · obtain ⟨td, htd, rfl⟩ := yields_single (hasSchema_yields schema rfl)
    obtain ⟨r, -, rfl⟩ := yields_array htd
    refine ⟨.array (by simp), fun h => ?_⟩
    cases h with
    | scalar h => exact h
    | tuple hl => exact hn (List.length_eq_zero_iff.1 hl.symm)

example : ∃ m, HasSchema shop (.tuple [.prim .u8, .prim .string]) m ∧ ∀ reg, ValidModel true reg m (.arr []) ∧
    ¬ Reads shop (rust true) (.tuple [.prim .u8, .prim .string]) (.arr []) :=
  ⟨_, ⟨Components.empty, _, 5, rfl⟩, fun reg => c86_length_always shop (rust true) true reg _ _ (.inr ⟨_, rfl, by simp⟩)
    ⟨Components.empty, _, 5, rfl⟩⟩

theorem filter_once {es : List (String × Json)} {p : String × Json → Bool} {k : String} (h : (es.filter fun e => e.1 == k).length ≤ 1) :
    ((es.filter p).filter fun e => e.1 == k).length ≤ 1 := by
  rw [List.filter_filter]
  refine Nat.le_trans ?_ h
  rw [show (es.filter fun e => (e.1 == k) && p e) = (es.filter fun e => e.1 == k).filter p by
    rw [List.filter_filter]; congr; funext e; exact Bool.and_comm _ _]
  exact List.length_filter_le _ _

/-- C87 fails for every struct that can do without an entry which its schema asks for, such as one of type `Option` or with
`#[serde(default)]`: every object that is read is still read without that entry, and is not accepted then. -/
theorem c87_missing_always (env : Env) (d : Reader) (x : Bool) (reg : List (String × Model)) (i : Nat) (fs : List (Field Ty)) (m : Model)
    (data : (env.decl i).data = .struct .struct fs) (schema : HasSchema env (.named i) m) (f : Field Ty) (hf : f ∈ serialFields fs)
    (asked : f.attrs.optional = false) (spare : ∀ g ∈ fs, d.skips i g = false → d.fieldKey i g = f.key → CanMiss d i g)
    (es : List (String × Json)) (read : Reads env d (.named i) (.obj es)) :
    Reads env d (.named i) (.obj (es.filter fun e => e.1 ≠ f.key)) ∧ ¬ ValidModel x reg m (.obj (es.filter fun e => e.1 ≠ f.key)) := by
  constructor
  · cases read with
    | scalar h => exact h.elim
    | struct hd ht hg hf' h =>
      rw [data] at hd
      cases hd
      refine .struct data ht hg ⟨hf'.plain, fun g hg => filter_once (hf'.once g hg), fun g hg hm => ?_,
        fun g hg y t hy => hf'.explicit g hg y t (List.mem_filter.1 hy).1, fun hu e he => hf'.unknown hu e (List.mem_filter.1 he).1⟩
        fun g hg y hy => h g hg y (List.mem_filter.1 hy).1
      by_cases hk : d.fieldKey i g = f.key
      · exact spare g (List.mem_filter.1 hg).1 (by simpa using (List.mem_filter.1 hg).2) hk
      · refine hf'.missing g hg fun hm' => hm ?_
        obtain ⟨e, he, e'⟩ := List.mem_map.1 hm'
        exact List.mem_map.2 ⟨e, List.mem_filter.2 ⟨he, by simp [e', hk]⟩, e'⟩
    | newtypeStruct hd => rw [data] at hd; cases hd
    | explicitNewtype hd => rw [data] at hd; cases hd
    | unitVariant hd | newtypeVariant hd | tupleVariant hd | structVariant hd => rw [data] at hd; cases hd
    | structVariantSeq _ hd => rw [data] at hd; cases hd
  · intro h
    rcases c40_struct_needs env x reg i fs m data schema f hf asked _ h with ⟨e, -⟩ | ⟨es', e, hm⟩
    · cases e
    · cases e
      obtain ⟨e, he, hk⟩ := List.mem_map.1 hm
      simpa [hk] using (List.mem_filter.1 he).2

/-- Such a field is `x: Option<String>`. -/
example : ∃ m, HasSchema (program [maybeC]) (.named 0) m ∧ ∀ reg es, Reads (program [maybeC]) (rust true) (.named 0) (.obj es) →
    ¬ ValidModel true reg m (.obj (es.filter fun e => e.1 ≠ "x")) := by
  refine ⟨_, ⟨Components.empty, _, 5, rfl⟩, fun reg es h => ?_⟩
  refine (c87_missing_always (program [maybeC]) (rust true) true reg 0 _ _ rfl ⟨Components.empty, _, 5, rfl⟩
    (field "x" (.option (.prim .string))) (.head _) rfl ?_ es h).2
  intro g hg _ _
  cases List.mem_singleton.1 hg
  exact .inr ⟨rfl, trivial⟩

/-- C87 fails for the arrays that `serde_json` reads as structs, all of them. -/
theorem c87_arrays_always (env : Env) (x : Bool) (reg : List (String × Model)) (i : Nat) (fs : List (Field Ty)) (m : Model)
    (data : (env.decl i).data = .struct .struct fs) (schema : HasSchema env (.named i) m) (xs : List Json) :
    ¬ ValidModel x reg m (.arr xs) := by
  obtain ⟨ob, ho, rfl⟩ := struct_schema data schema
  exact not_valid_type (fun h => h) (fun _ h => nomatch h)

example : ∃ m, HasSchema (program [author]) (.named 0) m ∧ ∀ reg, ¬ ValidModel true reg m (.arr [.str "a"]) :=
  ⟨_, ⟨Components.empty, _, 5, rfl⟩, fun reg => c87_arrays_always (program [author]) true reg 0 _ _ rfl ⟨Components.empty, _, 5, rfl⟩ _⟩

end Verif
