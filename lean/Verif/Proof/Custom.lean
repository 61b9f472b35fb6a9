import Verif.Spec.Custom
import Verif.Spec.Registry
import Verif.Proof.Returns
import Verif.Proof.Deep
import Verif.Props.Params
/-!
# Hand written impls
-/

namespace Verif

variable {τ α β : Type}

/-! ## More fuel -/

/-- `y` returns what `x` returns. -/
def Ext (x y : M α) : Prop := ∀ cx r, x cx = some r → y cx = some r

structure Ops.Ext (o o' : Ops τ) : Prop where
  getSchema : ∀ t, Verif.Ext (o.getSchema t) (o'.getSchema t)
  withParams : ∀ t p, Verif.Ext (o.withParams t p) (o'.withParams t p)
  mention : ∀ t i p, Verif.Ext (o.mention t i p) (o'.mention t i p)
  select : ∀ t i p, Verif.Ext (o.select t i p) (o'.select t i p)

theorem exec_ext {o o' : Ops τ} (h : o.Ext o') : ∀ (p : Prog τ α), Ext (p.exec o) (p.exec o')
  | .ret _, _, _, hx => hx
  | .getSchema t k, cx, r, hx => by
    rw [Prog.exec] at hx ⊢
    cases he : o.getSchema t cx with
    | none => rw [he] at hx; cases hx
    | some x => rw [he] at hx; rw [h.getSchema t cx x he]; exact exec_ext h (k x.1) _ _ hx
  | .withParams t p k, cx, r, hx => by
    rw [Prog.exec] at hx ⊢
    cases he : o.withParams t p cx with
    | none => rw [he] at hx; cases hx
    | some x => rw [he] at hx; rw [h.withParams t p cx x he]; exact exec_ext h (k x.1) _ _ hx
  | .mention t i p k, cx, r, hx => by
    rw [Prog.exec] at hx ⊢
    cases he : o.mention t i p cx with
    | none => rw [he] at hx; cases hx
    | some x => rw [he] at hx; rw [h.mention t i p cx x he]; exact exec_ext h (k x.1) _ _ hx
  | .select t i p k, cx, r, hx => by
    rw [Prog.exec] at hx ⊢
    cases he : o.select t i p cx with
    | none => rw [he] at hx; cases hx
    | some x => rw [he] at hx; rw [h.select t i p cx x he]; exact exec_ext h (k x.1) _ _ hx
  | .contains n k, cx, r, hx => exec_ext h (k _) _ _ hx
  | .verify k, cx, r, hx => exec_ext h (k _) _ _ hx
  | .addModel n m next, cx, r, hx => exec_ext h next _ _ hx
  | .security n m next, cx, r, hx => exec_ext h next _ _ hx

theorem appliedSchema_some {s : M Model} {p cx x} :
    appliedSchema s p cx = some x ↔ ∃ m cx', s cx = some (m, cx') ∧ x = (m.applyParams p, cx') := by
  unfold appliedSchema
  cases s cx with
  | none => simp
  | some y =>
    obtain ⟨m, cx'⟩ := y
    simp only [Option.some.injEq]
    constructor
    · rintro rfl; exact ⟨m, cx', rfl, rfl⟩
    · rintro ⟨_, _, ⟨⟩, rfl⟩; rfl

theorem mentionVia_some {sel : M Ref} {s : M Model} {cx r cx'} :
    mentionVia sel s cx = some (r, cx') ↔ ∃ cx1, sel cx = some (r, cx1) ∧
      ((∀ l, r = .link l → l ∈ BMap.keys cx1.schemas) ∧ cx' = cx1 ∨
       ∃ l m cx2, r = .link l ∧ l ∉ BMap.keys cx1.schemas ∧ s cx1 = some (m, cx2) ∧
         cx' = { cx2 with schemas := BMap.insert l m cx2.schemas }) := by
  unfold mentionVia
  cases sel cx with
  | none => simp
  | some y =>
    obtain ⟨r', cx1⟩ := y
    cases r' with
    | link l =>
      simp only []
      split
      · rename_i hk
        have hk := BMap.containsKey_iff.1 hk
        constructor
        · intro h; cases h; exact ⟨_, rfl, .inl ⟨by rintro _ ⟨⟩; exact hk, rfl⟩⟩
        · rintro ⟨_, ⟨⟩, ⟨-, rfl⟩ | ⟨_, _, _, ⟨⟩, h, -⟩⟩
          · rfl
          · exact absurd hk h
      · rename_i hk
        have hk : l ∉ BMap.keys cx1.schemas := BMap.containsKey_false_iff.1 (by simpa using hk)
        cases hs : s cx1 with
        | none =>
          simp only [reduceCtorEq, false_iff]
          rintro ⟨_, ⟨⟩, ⟨h, -⟩ | ⟨_, _, _, ⟨⟩, -, h, -⟩⟩
          · exact hk (h l rfl)
          · rw [hs] at h; cases h
        | some z =>
          obtain ⟨m, cx2⟩ := z
          simp only [Option.some.injEq, Prod.mk.injEq]
          constructor
          · rintro ⟨rfl, rfl⟩; exact ⟨cx1, ⟨rfl, rfl⟩, .inr ⟨l, m, cx2, rfl, hk, hs, rfl⟩⟩
          · rintro ⟨_, ⟨rfl, rfl⟩, ⟨h, -⟩ | ⟨_, _, _, ⟨⟩, -, h, rfl⟩⟩
            · exact absurd (h l rfl) hk
            · rw [hs] at h; cases h; exact ⟨rfl, rfl⟩
    | inline m =>
      simp only [Option.some.injEq, Prod.mk.injEq]
      constructor
      · rintro ⟨rfl, rfl⟩; exact ⟨cx1, ⟨rfl, rfl⟩, .inl ⟨nofun, rfl⟩⟩
      · rintro ⟨_, ⟨rfl, rfl⟩, ⟨h, rfl⟩ | ⟨_, _, _, ⟨⟩, -⟩⟩; exact ⟨rfl, rfl⟩
    | any =>
      simp only [Option.some.injEq, Prod.mk.injEq]
      constructor
      · rintro ⟨rfl, rfl⟩; exact ⟨cx1, ⟨rfl, rfl⟩, .inl ⟨nofun, rfl⟩⟩
      · rintro ⟨_, ⟨rfl, rfl⟩, ⟨h, rfl⟩ | ⟨_, _, _, ⟨⟩, -⟩⟩; exact ⟨rfl, rfl⟩

theorem runSelect_some {im : Impl τ} {run : (α : Type) → Prog τ α → M α} {i p cx r cx'} :
    im.runSelect run i p cx = some (r, cx') ↔
      ((im.select = .inlined ∨ im.select = .default ∧ (i = true ∨ im.name = none)) ∧
        ∃ m, run Model im.schema cx = some (m, cx') ∧ r = .inline (m.applyParams p)) ∨
      (∃ l, im.select = .default ∧ i = false ∧ im.name = some l ∧ r = .link l ∧ cx' = cx) ∨
      ∃ f, im.select = .custom f ∧ run Ref (f i p) cx = some (r, cx') := by
  have inl : (match appliedSchema (run Model im.schema) p cx with
      | none => none
      | some (m, cx') => some (Ref.inline m, cx')) = some (r, cx') ↔
      ∃ m, run Model im.schema cx = some (m, cx') ∧ r = .inline (m.applyParams p) := by
    unfold appliedSchema
    cases run Model im.schema cx with
    | none => simp
    | some y =>
      obtain ⟨m, cx1⟩ := y
      simp only [Option.some.injEq, Prod.mk.injEq]
      constructor
      · rintro ⟨rfl, rfl⟩; exact ⟨m, ⟨rfl, rfl⟩, rfl⟩
      · rintro ⟨_, ⟨rfl, rfl⟩, rfl⟩; exact ⟨rfl, rfl⟩
  unfold Impl.runSelect
  cases hs : im.select with
  | inlined => simp; exact inl
  | custom f => simp
  | default =>
    cases hn : im.name with
    | none => simp; exact inl
    | some l =>
      cases i with
      | true => simp; exact inl
      | false =>
        simp only [Bool.false_eq_true, ↓reduceIte, Option.some.injEq, Prod.mk.injEq]
        constructor
        · rintro ⟨rfl, rfl⟩; simp
        · rintro (⟨h, -⟩ | ⟨_, -, -, rfl, rfl, rfl⟩ | ⟨_, h, -⟩)
          · simp at h
          · exact ⟨rfl, rfl⟩
          · cases h

theorem implOps_ext (w : τ → Impl τ) {run run' : (α : Type) → Prog τ α → M α} (h : ∀ α p, Ext (run α p) (run' α p)) :
    (implOps w run).Ext (implOps w run') where
  getSchema t := h _ _
  withParams t p := by
    intro cx r hx
    simp only [implOps, Impl.runWithParams] at hx ⊢
    cases hw : (w t).withParams with
    | none =>
      rw [hw] at hx
      simp only [appliedSchema_some] at hx ⊢
      obtain ⟨m, cx', hm, rfl⟩ := hx
      exact ⟨m, cx', h _ _ _ _ hm, rfl⟩
    | some f => rw [hw] at hx; exact h _ _ _ _ hx
  mention t i p := by
    rintro cx ⟨r, cx'⟩ hx
    simp only [implOps, mentionVia_some, runSelect_some] at hx ⊢
    obtain ⟨cx1, hs, hr⟩ := hx
    refine ⟨cx1, ?_, ?_⟩
    · rcases hs with ⟨hc, m, hm, rfl⟩ | hs | ⟨f, hf, hm⟩
      · exact .inl ⟨hc, m, h _ _ _ _ hm, rfl⟩
      · exact .inr (.inl hs)
      · exact .inr (.inr ⟨f, hf, h _ _ _ _ hm⟩)
    · rcases hr with hr | ⟨l, m, cx2, h1, h2, h3, h4⟩
      · exact .inl hr
      · exact .inr ⟨l, m, cx2, h1, h2, h _ _ _ _ h3, h4⟩
  select t i p := by
    rintro cx ⟨r, cx'⟩ hx
    simp only [implOps, runSelect_some] at hx ⊢
    rcases hx with ⟨hc, m, hm, rfl⟩ | hs | ⟨f, hf, hm⟩
    · exact .inl ⟨hc, m, h _ _ _ _ hm, rfl⟩
    · exact .inr (.inl hs)
    · exact .inr (.inr ⟨f, hf, h _ _ _ _ hm⟩)

theorem runProg_succ (w : τ → Impl τ) : ∀ (n : Nat) (α : Type) (p : Prog τ α), Ext (runProg w n α p) (runProg w (n + 1) α p)
  | 0, _, _ => fun _ _ h => by cases h
  | n + 1, _, p => exec_ext (implOps_ext w (runProg_succ w n)) p

theorem runProg_mono (w : τ → Impl τ) {n k : Nat} (h : n ≤ k) {α : Type} (p : Prog τ α) : Ext (runProg w n α p) (runProg w k α p) := by
  induction h with
  | refl => exact fun _ _ h => h
  | step _ ih => exact fun cx r hx => runProg_succ w _ _ _ _ _ (ih cx r hx)

theorem ProgReturns.det {w : τ → Impl τ} {p : Prog τ α} {cx a cx1 b cx2} (h : ProgReturns w p cx a cx1)
    (h' : ProgReturns w p cx b cx2) : a = b ∧ cx1 = cx2 := by
  obtain ⟨n, h⟩ := h
  obtain ⟨k, h'⟩ := h'
  have h1 := runProg_mono w (Nat.le_max_left n k) p _ _ h
  have h2 := runProg_mono w (Nat.le_max_right n k) p _ _ h'
  rw [h1] at h2
  cases h2
  exact ⟨rfl, rfl⟩

/-! ## What running preserves -/

/-- Properties of runs, from those of the calls. -/
structure Inv (R : Components → Components → Prop) : Prop where
  refl : ∀ cx, R cx cx
  trans : ∀ {a b c}, R a b → R b c → R a c
  addModel : ∀ cx n m, R cx (cx.addModel n m)
  security : ∀ cx n s, R cx (cx.mentionSecurityScheme n s).2
  insert : ∀ cx cx1 n m, n ∉ BMap.keys cx.schemas → R cx cx1 → R cx { cx1 with schemas := BMap.insert n m cx1.schemas }

def MHolds (R : Components → Components → Prop) (x : M α) : Prop := ∀ cx a cx', x cx = some (a, cx') → R cx cx'

structure Ops.MHolds (R : Components → Components → Prop) (o : Ops τ) : Prop where
  getSchema : ∀ t, Verif.MHolds R (o.getSchema t)
  withParams : ∀ t p, Verif.MHolds R (o.withParams t p)
  mention : ∀ t i p, Verif.MHolds R (o.mention t i p)
  select : ∀ t i p, Verif.MHolds R (o.select t i p)

variable {R : Components → Components → Prop}

theorem exec_holds (hR : Inv R) {o : Ops τ} (h : o.MHolds R) : ∀ (p : Prog τ α), MHolds R (p.exec o)
  | .ret _, _, _, _, hx => by cases hx; exact hR.refl _
  | .getSchema t k, cx, a, cx', hx => by
    rw [Prog.exec] at hx
    cases he : o.getSchema t cx with
    | none => rw [he] at hx; cases hx
    | some x => rw [he] at hx; exact hR.trans (h.getSchema t cx _ _ he) (exec_holds hR h (k x.1) _ _ _ hx)
  | .withParams t p k, cx, a, cx', hx => by
    rw [Prog.exec] at hx
    cases he : o.withParams t p cx with
    | none => rw [he] at hx; cases hx
    | some x => rw [he] at hx; exact hR.trans (h.withParams t p cx _ _ he) (exec_holds hR h (k x.1) _ _ _ hx)
  | .mention t i p k, cx, a, cx', hx => by
    rw [Prog.exec] at hx
    cases he : o.mention t i p cx with
    | none => rw [he] at hx; cases hx
    | some x => rw [he] at hx; exact hR.trans (h.mention t i p cx _ _ he) (exec_holds hR h (k x.1) _ _ _ hx)
  | .select t i p k, cx, a, cx', hx => by
    rw [Prog.exec] at hx
    cases he : o.select t i p cx with
    | none => rw [he] at hx; cases hx
    | some x => rw [he] at hx; exact hR.trans (h.select t i p cx _ _ he) (exec_holds hR h (k x.1) _ _ _ hx)
  | .contains n k, cx, a, cx', hx => exec_holds hR h (k _) _ _ _ hx
  | .verify k, cx, a, cx', hx => exec_holds hR h (k _) _ _ _ hx
  | .addModel n m next, cx, a, cx', hx => hR.trans (hR.addModel _ _ _) (exec_holds hR h next _ _ _ hx)
  | .security n m next, cx, a, cx', hx => hR.trans (hR.security _ _ _) (exec_holds hR h next _ _ _ hx)

theorem implOps_holds (hR : Inv R) (w : τ → Impl τ) {run : (α : Type) → Prog τ α → M α} (h : ∀ α p, MHolds R (run α p)) :
    (implOps w run).MHolds R where
  getSchema t := h _ _
  withParams t p := by
    intro cx a cx' hx
    simp only [implOps, Impl.runWithParams] at hx
    cases hw : (w t).withParams with
    | none =>
      rw [hw] at hx
      simp only [appliedSchema_some] at hx
      obtain ⟨m, cx1, hm, he⟩ := hx
      cases he
      exact h _ _ _ _ _ hm
    | some f => rw [hw] at hx; exact h _ _ _ _ _ hx
  mention t i p := by
    intro cx r cx' hx
    simp only [implOps, mentionVia_some, runSelect_some] at hx
    obtain ⟨cx1, hs, hr⟩ := hx
    have h1 : R cx cx1 := by
      rcases hs with ⟨hc, m, hm, rfl⟩ | ⟨_, _, _, _, _, rfl⟩ | ⟨f, hf, hm⟩
      · exact h _ _ _ _ _ hm
      · exact hR.refl _
      · exact h _ _ _ _ _ hm
    rcases hr with ⟨-, rfl⟩ | ⟨l, m, cx2, rfl, h2, h3, rfl⟩
    · exact h1
    · exact hR.trans h1 (hR.insert _ _ _ _ h2 (h _ _ _ _ _ h3))
  select t i p := by
    intro cx r cx' hx
    simp only [implOps, runSelect_some] at hx
    rcases hx with ⟨hc, m, hm, rfl⟩ | ⟨_, _, _, _, _, rfl⟩ | ⟨f, hf, hm⟩
    · exact h _ _ _ _ _ hm
    · exact hR.refl _
    · exact h _ _ _ _ _ hm

theorem runProg_holds (hR : Inv R) (w : τ → Impl τ) : ∀ (n : Nat) (α : Type) (p : Prog τ α), MHolds R (runProg w n α p)
  | 0, _, _ => fun _ _ _ h => by cases h
  | n + 1, _, p => exec_holds hR (implOps_holds hR w (runProg_holds hR w n)) p

theorem kept_inv : Inv Components.Kept where
  refl cx := ⟨fun _ _ h => h, fun _ _ h => h⟩
  trans h h' := ⟨fun n m hm => h'.schemas n m (h.schemas n m hm), fun n m hm => h'.securitySchemes n m (h.securitySchemes n m hm)⟩
  addModel cx n m := by
    unfold Components.addModel
    split
    · exact ⟨fun _ _ h => h, fun _ _ h => h⟩
    · rename_i hk
      refine ⟨fun n' m' h => ?_, fun _ _ h => h⟩
      show BMap.get n' (BMap.insert n m cx.schemas) = _
      rw [BMap.get_insert_ne, h]
      rintro rfl
      exact hk (BMap.containsKey_iff.2 (BMap.get_isSome_iff.1 (by rw [h]; rfl)))
  security cx n s := by
    unfold Components.mentionSecurityScheme
    split
    · exact ⟨fun _ _ h => h, fun _ _ h => h⟩
    · rename_i hk
      refine ⟨fun _ _ h => h, fun n' m' h => ?_⟩
      show BMap.get n' (BMap.insert n s cx.securitySchemes) = _
      rw [BMap.get_insert_ne, h]
      rintro rfl
      exact hk (BMap.containsKey_iff.2 (BMap.get_isSome_iff.1 (by rw [h]; rfl)))
  insert cx cx1 n m hn h := by
    refine ⟨fun n' m' hm => ?_, h.securitySchemes⟩
    show BMap.get n' (BMap.insert n m cx1.schemas) = _
    rw [BMap.get_insert_ne, h.schemas n' m' hm]
    rintro rfl
    exact hn (BMap.get_isSome_iff.1 (by rw [hm]; rfl))

theorem Components.Kept.keys {cx cx' : Components} (h : cx.Kept cx') {n} (hn : n ∈ BMap.keys cx.schemas) :
    n ∈ BMap.keys cx'.schemas := by
  obtain ⟨m, hm⟩ := Option.isSome_iff_exists.1 (BMap.get_isSome_iff.2 hn)
  exact BMap.get_isSome_iff.1 (by rw [h.schemas n m hm]; rfl)

/-! ## Links -/

theorem Prog.Only.mono {links : α → List String} : ∀ {p : Prog τ α} {known known' : String → Prop}, (∀ l, known l → known' l) →
    p.Only links known → p.Only links known'
  | .ret _, _, _, h, hp => fun l hl => h l (hp l hl)
  | .getSchema _ _, _, _, h, hp => fun m => (hp m).mono fun l => Or.imp_left (h l)
  | .withParams _ _ _, _, _, h, hp => fun m => (hp m).mono fun l => Or.imp_left (h l)
  | .mention _ _ _ _, _, _, h, hp => fun m => (hp m).mono fun l => Or.imp_left (h l)
  | .select _ _ _ _, _, _, h, hp => fun m => (hp m).mono fun l => Or.imp_left (h l)
  | .contains _ _, _, _, h, hp => ⟨hp.1.mono fun l => Or.imp_left (h l), hp.2.mono h⟩
  | .verify _, _, _, h, hp => fun e => (hp e).mono h
  | .addModel _ _ _, _, _, h, hp => ⟨fun l hl => (hp.1 l hl).imp_left (h l), hp.2.mono fun l => Or.imp_left (h l)⟩
  | .security _ _ next, _, _, h, hp => Prog.Only.mono (p := next) h hp

/-- From a registry without dangling links, the run gives one without and a value whose names are registered. -/
def Resolves (links : α → List String) (x : M α) (cx : Components) : Prop :=
  ∀ a cx', cx.NoDangling → x cx = some (a, cx') → cx'.NoDangling ∧ cx.Kept cx' ∧ ∀ l ∈ links a, l ∈ BMap.keys cx'.schemas

structure Ops.Resolves (o : Ops τ) : Prop where
  getSchema : ∀ t cx, Verif.Resolves Model.links (o.getSchema t) cx
  withParams : ∀ t p cx, Verif.Resolves Model.links (o.withParams t p) cx
  mention : ∀ t i p cx, Verif.Resolves Ref.links (o.mention t i p) cx
  select : ∀ t i p cx, Verif.Resolves Ref.innerLinks (o.select t i p) cx

theorem noDangling_insert {cx : Components} {n m} (h : cx.NoDangling)
    (hm : ∀ l ∈ m.links, l ∈ BMap.keys cx.schemas ∨ l = n) :
    Components.NoDangling { cx with schemas := BMap.insert n m cx.schemas } := by
  intro n' m' hmem l hl
  show l ∈ BMap.keys (BMap.insert n m cx.schemas)
  rw [BMap.mem_keys_insert]
  rcases BMap.mem_insert_sub hmem with he | he
  · cases he; exact (hm l hl).symm
  · exact .inr (h n' m' he l hl)

theorem exec_resolves {links : α → List String} {o : Ops τ} (h : o.Resolves) : ∀ (p : Prog τ α) {known : String → Prop} cx,
    p.Only links known → (∀ l, known l → l ∈ BMap.keys cx.schemas) → Resolves links (p.exec o) cx
  | .ret a, known, cx, hp, hk, b, cx', hn, hx => by
    cases hx
    exact ⟨hn, kept_inv.refl _, fun l hl => hk l (hp l hl)⟩
  | .getSchema t k, known, cx, hp, hk, b, cx', hn, hx => by
    rw [Prog.exec] at hx
    cases he : o.getSchema t cx with
    | none => rw [he] at hx; cases hx
    | some x =>
      rw [he] at hx
      obtain ⟨h1, h2, h3⟩ := h.getSchema t cx _ _ hn he
      obtain ⟨h4, h5, h6⟩ := exec_resolves h (k x.1) x.2 (hp x.1)
        (fun l hl => hl.elim (fun hl => h2.keys (hk l hl)) (h3 l)) _ _ h1 hx
      exact ⟨h4, kept_inv.trans h2 h5, h6⟩
  | .withParams t p k, known, cx, hp, hk, b, cx', hn, hx => by
    rw [Prog.exec] at hx
    cases he : o.withParams t p cx with
    | none => rw [he] at hx; cases hx
    | some x =>
      rw [he] at hx
      obtain ⟨h1, h2, h3⟩ := h.withParams t p cx _ _ hn he
      obtain ⟨h4, h5, h6⟩ := exec_resolves h (k x.1) x.2 (hp x.1)
        (fun l hl => hl.elim (fun hl => h2.keys (hk l hl)) (h3 l)) _ _ h1 hx
      exact ⟨h4, kept_inv.trans h2 h5, h6⟩
  | .mention t i p k, known, cx, hp, hk, b, cx', hn, hx => by
    rw [Prog.exec] at hx
    cases he : o.mention t i p cx with
    | none => rw [he] at hx; cases hx
    | some x =>
      rw [he] at hx
      obtain ⟨h1, h2, h3⟩ := h.mention t i p cx _ _ hn he
      obtain ⟨h4, h5, h6⟩ := exec_resolves h (k x.1) x.2 (hp x.1)
        (fun l hl => hl.elim (fun hl => h2.keys (hk l hl)) (h3 l)) _ _ h1 hx
      exact ⟨h4, kept_inv.trans h2 h5, h6⟩
  | .select t i p k, known, cx, hp, hk, b, cx', hn, hx => by
    rw [Prog.exec] at hx
    cases he : o.select t i p cx with
    | none => rw [he] at hx; cases hx
    | some x =>
      rw [he] at hx
      obtain ⟨h1, h2, h3⟩ := h.select t i p cx _ _ hn he
      obtain ⟨h4, h5, h6⟩ := exec_resolves h (k x.1) x.2 (hp x.1)
        (fun l hl => hl.elim (fun hl => h2.keys (hk l hl)) (h3 l)) _ _ h1 hx
      exact ⟨h4, kept_inv.trans h2 h5, h6⟩
  | .contains n k, known, cx, hp, hk, b, cx', hn, hx => by
    rw [Prog.exec] at hx
    cases hc : cx.containsModel n with
    | true =>
      rw [hc] at hx
      refine exec_resolves h (k true) cx hp.1 ?_ _ _ hn hx
      rintro l (hl | rfl)
      · exact hk l hl
      · exact BMap.containsKey_iff.1 hc
    | false => rw [hc] at hx; exact exec_resolves h (k false) cx hp.2 hk _ _ hn hx
  | .verify k, known, cx, hp, hk, b, cx', hn, hx => exec_resolves h (k _) cx (hp _) hk _ _ hn hx
  | .addModel n m next, known, cx, hp, hk, b, cx', hn, hx => by
    rw [Prog.exec] at hx
    have h2 := kept_inv.addModel cx n m
    have h3 : n ∈ BMap.keys (cx.addModel n m).schemas := by
      unfold Components.addModel
      split
      · rename_i hc; exact BMap.containsKey_iff.1 hc
      · exact BMap.mem_keys_insert.2 (.inl rfl)
    have h1 : (cx.addModel n m).NoDangling := by
      unfold Components.addModel
      split
      · exact hn
      · exact noDangling_insert hn fun l hl => (hp.1 l hl).imp_left (hk l)
    obtain ⟨h4, h5, h6⟩ := exec_resolves h next _ hp.2 (fun l hl => hl.elim (fun hl => h2.keys (hk l hl)) (fun e => e ▸ h3))
      _ _ h1 hx
    exact ⟨h4, kept_inv.trans h2 h5, h6⟩
  | .security n s next, known, cx, hp, hk, b, cx', hn, hx => by
    rw [Prog.exec] at hx
    have h2 := kept_inv.security cx n s
    have hs : (cx.mentionSecurityScheme n s).2.schemas = cx.schemas := by
      unfold Components.mentionSecurityScheme; split <;> rfl
    have h1 : (cx.mentionSecurityScheme n s).2.NoDangling := by
      unfold Components.NoDangling; rw [hs]; exact hn
    obtain ⟨h4, h5, h6⟩ := exec_resolves h next _ hp (fun l hl => h2.keys (hk l hl)) _ _ h1 hx
    exact ⟨h4, kept_inv.trans h2 h5, h6⟩

theorem runSelect_resolves {im : Impl τ} (hw : im.Candid) {run : (α : Type) → Prog τ α → M α}
    (h : ∀ (α : Type) (links : α → List String) (p : Prog τ α) cx, p.Only links (fun _ => False) → Resolves links (run α p) cx)
    (i p cx) : Resolves Ref.innerLinks (im.runSelect run i p) cx := by
  intro r cx1 hn hs
  rw [runSelect_some] at hs
  rcases hs with ⟨hc, m, hm, rfl⟩ | ⟨_, _, _, _, rfl, rfl⟩ | ⟨f, hf, hm⟩
  · have := h _ _ _ _ hw.schema _ _ hn hm
    refine ⟨this.1, this.2.1, fun l hl => this.2.2 l ?_⟩
    rw [← c15_apply_params_links m p]; exact hl
  · exact ⟨hn, kept_inv.refl _, nofun⟩
  · exact h _ _ _ _ (hw.select f hf i p) _ _ hn hm

theorem implOps_resolves {w : τ → Impl τ} (hw : ∀ t, (w t).Candid) {run : (α : Type) → Prog τ α → M α}
    (h : ∀ (α : Type) (links : α → List String) (p : Prog τ α) cx, p.Only links (fun _ => False) → Resolves links (run α p) cx) :
    (implOps w run).Resolves where
  getSchema t cx := h _ _ _ _ (hw t).schema
  withParams t p cx := by
    intro a cx' hn hx
    simp only [implOps, Impl.runWithParams] at hx
    cases hf : (w t).withParams with
    | none =>
      rw [hf] at hx
      simp only [appliedSchema_some] at hx
      obtain ⟨m, cx1, hm, he⟩ := hx
      cases he
      rw [c15_apply_params_links]
      exact h _ _ _ _ (hw t).schema _ _ hn hm
    | some f => rw [hf] at hx; exact h _ _ _ _ ((hw t).withParams f hf p) _ _ hn hx
  mention t i p cx := by
    intro r cx' hn hx
    simp only [implOps, mentionVia_some] at hx
    obtain ⟨cx1, hs, hr⟩ := hx
    have h1 := runSelect_resolves (hw t) h i p cx _ _ hn hs
    rcases hr with ⟨hl, rfl⟩ | ⟨l, m, cx2, rfl, h2, h3, rfl⟩
    · refine ⟨h1.1, h1.2.1, ?_⟩
      cases r with
      | link l => intro l' hl'; cases List.mem_singleton.1 hl'; exact hl l rfl
      | inline m => exact h1.2.2
      | any => exact h1.2.2
    · obtain ⟨h4, h5, h6⟩ := h _ _ _ _ (hw t).schema _ _ h1.1 h3
      refine ⟨noDangling_insert h4 fun l' hl' => .inl (h6 l' hl'), kept_inv.trans h1.2.1 (kept_inv.insert _ _ _ _ h2 h5), ?_⟩
      intro l' hl'
      cases List.mem_singleton.1 hl'
      exact BMap.mem_keys_insert.2 (.inl rfl)
  select t i p cx := runSelect_resolves (hw t) h i p cx

theorem runProg_resolves {w : τ → Impl τ} (hw : ∀ t, (w t).Candid) : ∀ (n : Nat) (α : Type) (links : α → List String)
    (p : Prog τ α) {known : String → Prop} cx, p.Only links known → (∀ l, known l → l ∈ BMap.keys cx.schemas) →
    Resolves links (runProg w n α p) cx
  | 0, _, _, _, _, _, _, _ => fun _ _ _ h => by cases h
  | n + 1, _, _, p, _, cx, hp, hk => exec_resolves (implOps_resolves hw fun α links p cx hp =>
      runProg_resolves hw n α links p cx hp fun _ => False.elim) p cx hp hk

/-! ## Derived impls -/

theorem tagged_links {m : Model} {ident tag name : String} {n : Bool} {l : String}
    (hl : l ∈ (m.tryMerge (internalTagModel ident tag name n)).2.links) : l ∈ m.links :=
  (Model.all_tagged (W := False) (L := (· ∈ m.links)) ident tag name n ⟨fun _ h => h, fun _ _ h => h.elim⟩).1 l hl

theorem exec_bind (o : Ops τ) : ∀ (p : Prog τ α) (f : α → Prog τ β) cx, (p.bind f).exec o cx =
    match p.exec o cx with
    | none => none
    | some (a, cx') => (f a).exec o cx'
  | .ret _, _, _ => rfl
  | .getSchema t k, f, cx => by
    simp only [Prog.bind, Prog.exec]
    cases o.getSchema t cx with
    | none => rfl
    | some x => exact exec_bind o (k x.1) f x.2
  | .withParams t p k, f, cx => by
    simp only [Prog.bind, Prog.exec]
    cases o.withParams t p cx with
    | none => rfl
    | some x => exact exec_bind o (k x.1) f x.2
  | .mention t i p k, f, cx => by
    simp only [Prog.bind, Prog.exec]
    cases o.mention t i p cx with
    | none => rfl
    | some x => exact exec_bind o (k x.1) f x.2
  | .select t i p k, f, cx => by
    simp only [Prog.bind, Prog.exec]
    cases o.select t i p cx with
    | none => rfl
    | some x => exact exec_bind o (k x.1) f x.2
  | .contains n k, f, cx => exec_bind o (k _) f cx
  | .verify k, f, cx => exec_bind o (k _) f cx
  | .addModel n m next, f, cx => exec_bind o next f _
  | .security n m next, f, cx => exec_bind o next f _

/-- The calls are those of the generated code. -/
structure Ops.Of (env : Env) (rec : Ty → M Model) (o : Ops Ty) : Prop where
  getSchema : ∀ t cx, o.getSchema t cx = rec t cx
  withParams : ∀ t p cx, o.withParams t p cx = appliedSchema (rec t) p cx
  mention : ∀ t i p cx, o.mention t i p cx = mentionWith env rec t i p cx

variable {env : Env} {rec : Ty → M Model} {o : Ops Ty}

mutual
theorem RefExpr.prog_exec (h : o.Of env rec) : ∀ (e : RefExpr Ty) cx, (e.prog env).exec o cx = e.eval env rec cx
  | .mention t i p, cx => by
    rw [RefExpr.prog, RefExpr.eval, Prog.exec, h.mention]
    cases mentionWith env rec t i (p.eval env) cx <;> rfl
  | .inline m, cx => by
    rw [RefExpr.prog, RefExpr.eval, exec_bind, ModelExpr.prog_exec h m]
    split <;> simp_all [Prog.exec]
  | .any, cx => by rw [RefExpr.prog, RefExpr.eval]; rfl
theorem ModelExpr.prog_exec (h : o.Of env rec) : ∀ (e : ModelExpr Ty) cx, (e.prog env).exec o cx = e.eval env rec cx
  | .getSchema t, cx => by
    rw [ModelExpr.prog, ModelExpr.eval, Prog.exec, h.getSchema]
    cases rec t cx <;> rfl
  | .getSchemaWithParams t p, cx => by
    rw [ModelExpr.prog, ModelExpr.eval, Prog.exec, h.withParams]
    unfold appliedSchema
    cases rec t cx <;> rfl
  | .single d n td, cx => by
    rw [ModelExpr.prog, ModelExpr.eval, exec_bind, TypeExpr.prog_exec h td]
    split <;> simp_all [Prog.exec]
  | .oneOf d rs, cx => by
    rw [ModelExpr.prog, ModelExpr.eval, exec_bind, RefExpr.progList_exec h rs]
    split <;> simp_all [Prog.exec]
  | .tagged m .., cx => by
    rw [ModelExpr.prog, ModelExpr.eval, exec_bind, ModelExpr.prog_exec h m]
    split <;> simp_all [Prog.exec]
theorem TypeExpr.prog_exec (h : o.Of env rec) : ∀ (e : TypeExpr Ty) cx, (e.prog env).exec o cx = e.eval env rec cx
  | .string .., cx | .number .., cx | .integer .., cx | .boolean, cx => by
    rw [TypeExpr.prog, TypeExpr.eval, Prog.exec]
  | .array r, cx => by
    rw [TypeExpr.prog, TypeExpr.eval, exec_bind, RefExpr.prog_exec h r]
    split <;> simp_all [Prog.exec]
  | .object es, cx => by
    rw [TypeExpr.prog, TypeExpr.eval, exec_bind, PropExpr.progList_exec h es]
    split <;> simp_all [Prog.exec]
  | .dictionary r, cx => by
    rw [TypeExpr.prog, TypeExpr.eval, exec_bind, RefExpr.prog_exec h r]
    split <;> simp_all [Prog.exec]
theorem RefExpr.progList_exec (h : o.Of env rec) : ∀ (es : List (RefExpr Ty)) cx,
    (RefExpr.progList env es).exec o cx = RefExpr.evalList env rec es cx
  | [], cx => by rw [RefExpr.progList, RefExpr.evalList]; rfl
  | r :: rs, cx => by
    rw [RefExpr.progList, RefExpr.evalList, exec_bind, RefExpr.prog_exec h r]
    cases r.eval env rec cx with
    | none => rfl
    | some x =>
      simp only [exec_bind, RefExpr.progList_exec h rs]
      split <;> simp_all [Prog.exec]
theorem PropExpr.progList_exec (h : o.Of env rec) : ∀ (es : List (PropExpr Ty)) props req cx,
    (PropExpr.progList env es props req).exec o cx = PropExpr.evalList env rec es props req cx
  | [], _, _, cx => by rw [PropExpr.progList, PropExpr.evalList]; rfl
  | .mk name r required :: rs, props, req, cx => by
    rw [PropExpr.progList, PropExpr.evalList, exec_bind, RefExpr.prog_exec h r]
    cases r.eval env rec cx with
    | none => rfl
    | some x => exact PropExpr.progList_exec h rs _ _ _
end

/-- The impls of a program without hand written ones. -/
abbrev derivedImpls (env : Env) : Ty → Impl Ty := impls env fun _ => none

theorem mixedName_none (env : Env) : ∀ t, mixedName env (fun _ => none) t = typeName env t
  | .wrap _ t => by rw [mixedName, typeName, mixedName_none env t]
  | .option t => by rw [mixedName, typeName, mixedName_none env t]
  | .named i => by rw [mixedName]
  | .prim _ | .tuple _ | .seq _ _ | .dict _ _ | .unit | .uuid | .naiveDateTime | .dateTime | .naiveDate => by rw [mixedName] <;> nofun

theorem impls_eq (env : Env) (custom : Nat → Option (Impl Ty)) (t : Ty) (h : ∀ i, t = .named i → custom i = none) :
    impls env custom t =
    { schema := schemaProg env t
      name := mixedName env custom t
      select := if alwaysInline env t then .inlined else .default } := by
  cases t with
  | named i => rw [impls, h i rfl]; rfl
  | _ => rfl

theorem derivedImpls_eq (env : Env) (t : Ty) : derivedImpls env t =
    { schema := schemaProg env t
      name := typeName env t
      select := if alwaysInline env t then .inlined else .default } := by
  rw [derivedImpls, impls_eq _ _ _ fun _ _ => rfl, mixedName_none]

theorem derived_stuck {w : Ty → Impl Ty} {t : Ty} (h : (w t).schema = .getSchema t .ret) : ∀ n cx, runProg w n Model (w t).schema cx = none
  | 0, _ => rfl
  | n + 1, cx => by
    have := derived_stuck h n cx
    rw [h] at this ⊢
    rw [runProg, Prog.exec]
    simp only [implOps]
    rw [h, this]

theorem derived_ops {n : Nat} (h : ∀ t cx, runProg (derivedImpls env) n Model (derivedImpls env t).schema cx = getSchema env n t cx) :
    (implOps (derivedImpls env) (runProg (derivedImpls env) n)).Of env (getSchema env n) where
  getSchema t cx := h t cx
  withParams t p cx := by
    simp only [implOps, Impl.runWithParams]
    have : (derivedImpls env t).withParams = none := by rw [derivedImpls_eq]
    rw [this]
    simp only [appliedSchema, h]
  mention t i p cx := by
    simp only [implOps, mentionVia, Impl.runSelect, appliedSchema, h, mentionWith, selectReference]
    have h1 : (derivedImpls env t).name = typeName env t := by rw [derivedImpls_eq]
    have h2 : (derivedImpls env t).select = if alwaysInline env t then .inlined else .default := by rw [derivedImpls_eq]
    rw [h1, h2]
    cases alwaysInline env t <;> cases typeName env t <;> cases i <;> cases getSchema env n t cx <;> rfl

theorem derived_run (env : Env) : ∀ n t cx, runProg (derivedImpls env) n Model (derivedImpls env t).schema cx = getSchema env n t cx
  | 0, _, _ => rfl
  | n + 1, t, cx => by
    have hs : (derivedImpls env t).schema = schemaProg env t := by rw [derivedImpls_eq]
    rw [getSchema]
    cases he : schemaExpr env t with
    | none =>
      rw [schemaProg, he] at hs
      exact derived_stuck hs _ _
    | some e =>
      rw [schemaProg, he] at hs
      rw [hs, runProg]
      exact ModelExpr.prog_exec (derived_ops (derived_run env n)) e cx

theorem Prog.Only.bind {links : α → List String} {links' : β → List String} : ∀ {p : Prog τ α} {f : α → Prog τ β} {known : String → Prop},
    p.Only links known → (∀ a, (f a).Only links' fun l => known l ∨ l ∈ links a) → (p.bind f).Only links' known
  | .ret a, _, _, hp, hf => (hf a).mono fun l hl => hl.elim id (hp l)
  | .getSchema _ _, _, _, hp, hf => fun m => (hp m).bind fun a => (hf a).mono fun l => Or.imp_left .inl
  | .withParams _ _ _, _, _, hp, hf => fun m => (hp m).bind fun a => (hf a).mono fun l => Or.imp_left .inl
  | .mention _ _ _ _, _, _, hp, hf => fun m => (hp m).bind fun a => (hf a).mono fun l => Or.imp_left .inl
  | .select _ _ _ _, _, _, hp, hf => fun m => (hp m).bind fun a => (hf a).mono fun l => Or.imp_left .inl
  | .contains _ _, _, _, hp, hf => ⟨hp.1.bind fun a => (hf a).mono fun l => Or.imp_left .inl, hp.2.bind hf⟩
  | .verify _, _, _, hp, hf => fun e => (hp e).bind hf
  | .addModel _ _ _, _, _, hp, hf => ⟨hp.1, hp.2.bind fun a => (hf a).mono fun l => Or.imp_left .inl⟩
  | .security _ _ next, _, _, hp, hf => Prog.Only.bind (p := next) hp hf

mutual
theorem RefExpr.prog_only (env : Env) : ∀ (e : RefExpr Ty), (e.prog env).Only Ref.links fun _ => False
  | .mention t i p => by rw [RefExpr.prog]; exact fun r l hl => .inr hl
  | .inline m => by
    rw [RefExpr.prog]
    exact (ModelExpr.prog_only env m).bind fun a l hl => .inr hl
  | .any => by rw [RefExpr.prog]; exact nofun
theorem ModelExpr.prog_only (env : Env) : ∀ (e : ModelExpr Ty), (e.prog env).Only Model.links fun _ => False
  | .getSchema t => by rw [ModelExpr.prog]; exact fun r l hl => .inr hl
  | .getSchemaWithParams t p => by rw [ModelExpr.prog]; exact fun r l hl => .inr hl
  | .single d n td => by
    rw [ModelExpr.prog]
    exact (TypeExpr.prog_only env td).bind fun a l hl => .inr hl
  | .oneOf d rs => by
    rw [ModelExpr.prog]
    exact (RefExpr.progList_only env rs).bind fun a l hl => .inr hl
  | .tagged m .. => by
    rw [ModelExpr.prog]
    exact (ModelExpr.prog_only env m).bind fun a l hl => .inr (tagged_links hl)
theorem TypeExpr.prog_only (env : Env) : ∀ (e : TypeExpr Ty), (e.prog env).Only TypeDesc.links fun _ => False
  | .string .. | .number .. | .integer .. | .boolean => by rw [TypeExpr.prog]; exact nofun
  | .array r => by
    rw [TypeExpr.prog]
    exact (RefExpr.prog_only env r).bind fun a l hl => .inr hl
  | .object es => by
    rw [TypeExpr.prog]
    refine (PropExpr.progList_only env es [] [] (known := fun _ => False) (by simp [propsLinks])).bind fun a l hl => .inr ?_
    simpa [TypeDesc.links, ModelObject.links, optLinks] using hl
  | .dictionary r => by
    rw [TypeExpr.prog]
    refine (RefExpr.prog_only env r).bind fun a l hl => .inr ?_
    simpa [TypeDesc.links, ModelObject.links, optLinks, propsLinks] using hl
theorem RefExpr.progList_only (env : Env) : ∀ (es : List (RefExpr Ty)), (RefExpr.progList env es).Only refsLinks fun _ => False
  | [] => by rw [RefExpr.progList]; exact nofun
  | r :: rs => by
    rw [RefExpr.progList]
    refine (RefExpr.prog_only env r).bind fun a => ((RefExpr.progList_only env rs).mono fun _ => False.elim).bind fun as l hl => ?_
    rw [refsLinks] at hl
    rcases List.mem_append.1 hl with hl | hl
    · exact .inl (.inr hl)
    · exact .inr hl
theorem PropExpr.progList_only (env : Env) : ∀ (es : List (PropExpr Ty)) props req {known : String → Prop},
    (∀ l ∈ propsLinks props, known l) → (PropExpr.progList env es props req).Only (fun x => propsLinks x.1) known
  | [], _, _, known, h => by rw [PropExpr.progList]; exact h
  | .mk name r required :: rs, props, req, known, h => by
    rw [PropExpr.progList]
    refine ((RefExpr.prog_only env r).mono fun _ => False.elim).bind fun a => PropExpr.progList_only env rs _ _ fun l hl => ?_
    rw [propsLinks_eq] at hl
    obtain ⟨r', hr', hl⟩ := List.mem_flatMap.1 hl
    obtain ⟨⟨k, r''⟩, hb, rfl⟩ := List.mem_map.1 hr'
    rcases BMap.mem_insert_sub hb with he | he
    · cases he; exact .inr hl
    · refine .inl (h l ?_)
      rw [propsLinks_eq]
      exact List.mem_flatMap.2 ⟨_, List.mem_map.2 ⟨_, he, rfl⟩, hl⟩
end

theorem schemaProg_only (env : Env) (t : Ty) : (schemaProg env t).Only Model.links fun _ => False := by
  rw [schemaProg]
  cases schemaExpr env t with
  | none => exact fun m l hl => .inr hl
  | some e => exact ModelExpr.prog_only env e

theorem impls_candid (env : Env) (custom : Nat → Option (Impl Ty)) (h : ∀ i im, custom i = some im → im.Candid) (t : Ty) :
    (impls env custom t).Candid := by
  by_cases ht : ∀ i, t = .named i → custom i = none
  · rw [impls_eq env custom t ht]
    refine ⟨schemaProg_only env t, nofun, ?_⟩
    intro f hf
    simp only at hf
    split at hf <;> cases hf
  · obtain ⟨i, ht⟩ := Classical.not_forall.1 ht
    obtain ⟨rfl, hc⟩ := Classical.not_imp.1 ht
    obtain ⟨im, hi⟩ := Option.ne_none_iff_exists'.1 hc
    rw [impls, hi]
    exact h i im hi

theorem progReturns_iff {w : τ → Impl τ} {p : Prog τ α} {cx a cx'} :
    ProgReturns w p cx a cx' ↔ ∃ n, p.exec (implOps w (runProg w n)) cx = some (a, cx') := by
  constructor
  · rintro ⟨n, h⟩; exact ⟨n, runProg_succ w n _ p cx _ h⟩
  · rintro ⟨n, h⟩; exact ⟨n + 1, h⟩

theorem progReturns_mention {w : τ → Impl τ} {t i p cx r cx'} :
    ProgReturns w (.mention t i p .ret) cx r cx' ↔ ∃ n, (implOps w (runProg w n)).mention t i p cx = some (r, cx') := by
  rw [progReturns_iff]
  refine exists_congr fun n => ?_
  simp only [Prog.exec]
  cases (implOps w (runProg w n)).mention t i p cx with
  | none => simp
  | some x => simp [Prod.ext_iff]

theorem derived_mention {env : Env} {t i p cx r cx'} :
    ProgReturns (impls env fun _ => none) (.mention t i p .ret) cx r cx' ↔ MentionReturns env t i p cx r cx' := by
  rw [progReturns_mention]
  exact exists_congr fun n => by rw [(derived_ops (derived_run env n)).mention]; rfl

theorem derived_schema {env : Env} {t cx m cx'} :
    ProgReturns (impls env fun _ => none) (impls env (fun _ => none) t).schema cx m cx' ↔ SchemaReturns env t cx m cx' :=
  exists_congr fun n => by rw [derived_run env n]

theorem mention_default {w : τ → Impl τ} {t p cx r cx' l} (hs : (w t).select = .default) (hn : (w t).name = some l)
    (hl : l ∉ BMap.keys cx.schemas) : ProgReturns w (.mention t false p .ret) cx r cx' ↔ r = .link l ∧
      ∃ m cx1, ProgReturns w (w t).schema cx m cx1 ∧ cx' = { cx1 with schemas := BMap.insert l m cx1.schemas } := by
  rw [progReturns_mention]
  simp only [implOps, mentionVia_some, runSelect_some]
  constructor
  · rintro ⟨n, cx1, ⟨(h | h), -⟩ | ⟨l', -, -, h, rfl, rfl⟩ | ⟨f, h, -⟩, hr⟩
    · rw [hs] at h; cases h
    · rw [hn] at h; simp at h
    · rw [hn] at h
      cases h
      rcases hr with ⟨h, -⟩ | ⟨_, m, cx2, ⟨⟩, -, h, rfl⟩
      · exact absurd (h l rfl) hl
      · exact ⟨rfl, m, cx2, ⟨n, h⟩, rfl⟩
    · rw [hs] at h; cases h
  · rintro ⟨rfl, m, cx1, ⟨n, h⟩, rfl⟩
    exact ⟨n, cx, .inr (.inl ⟨l, hs, trivial, hn, rfl, rfl⟩), .inr ⟨l, m, cx1, rfl, hl, h, rfl⟩⟩

theorem progReturns_getSchema {w : τ → Impl τ} {t cx m cx'} :
    ProgReturns w (.getSchema t .ret) cx m cx' ↔ ProgReturns w (w t).schema cx m cx' := by
  rw [progReturns_iff]
  refine exists_congr fun n => ?_
  simp only [Prog.exec, implOps]
  cases runProg w n Model (w t).schema cx with
  | none => simp
  | some x => simp [Prod.ext_iff]

theorem progReturns_withParams {w : τ → Impl τ} {t p cx m cx'} : ProgReturns w (.withParams t p .ret) cx m cx' ↔
    match (w t).withParams with
    | some f => ProgReturns w (f p) cx m cx'
    | none => ∃ m0, ProgReturns w (w t).schema cx m0 cx' ∧ m = m0.applyParams p := by
  rw [progReturns_iff]
  have h : ∀ n, (Prog.withParams t p .ret).exec (implOps w (runProg w n)) cx = some (m, cx') ↔
      (w t).runWithParams (runProg w n) p cx = some (m, cx') := by
    intro n
    simp only [Prog.exec, implOps]
    cases (w t).runWithParams (runProg w n) p cx with
    | none => simp
    | some x => simp [Prod.ext_iff]
  simp only [h, Impl.runWithParams]
  cases (w t).withParams with
  | some f => exact Iff.rfl
  | none =>
    simp only [appliedSchema_some]
    constructor
    · rintro ⟨n, m0, _, hm, ⟨⟩⟩; exact ⟨m0, ⟨n, hm⟩, rfl⟩
    · rintro ⟨m0, ⟨n, hm⟩, rfl⟩; exact ⟨n, m0, _, hm, rfl⟩

theorem progReturns_select' {w : τ → Impl τ} {t i p cx r cx'} :
    ProgReturns w (.select t i p .ret) cx r cx' ↔ ∃ n, (w t).runSelect (runProg w n) i p cx = some (r, cx') := by
  rw [progReturns_iff]
  refine exists_congr fun n => ?_
  simp only [Prog.exec, implOps]
  cases (w t).runSelect (runProg w n) i p cx with
  | none => simp
  | some x => simp [Prod.ext_iff]

theorem progReturns_select {w : τ → Impl τ} {t i p cx r cx'} : ProgReturns w (.select t i p .ret) cx r cx' ↔
    match (w t).select with
    | .custom f => ProgReturns w (f i p) cx r cx'
    | .inlined => ∃ m, ProgReturns w (w t).schema cx m cx' ∧ r = .inline (m.applyParams p)
    | .default => (i = false ∧ ∃ l, (w t).name = some l ∧ r = .link l ∧ cx' = cx) ∨
        (i = true ∨ (w t).name = none) ∧ ∃ m, ProgReturns w (w t).schema cx m cx' ∧ r = .inline (m.applyParams p) := by
  rw [progReturns_select']
  simp only [runSelect_some]
  cases hs : (w t).select with
  | custom f => simp [ProgReturns]
  | inlined =>
    simp only [true_and, reduceCtorEq, false_and, exists_false, or_false]
    constructor
    · rintro ⟨n, m, h, rfl⟩; exact ⟨m, ⟨n, h⟩, rfl⟩
    · rintro ⟨m, ⟨n, h⟩, rfl⟩; exact ⟨n, m, h, rfl⟩
  | default =>
    simp only [reduceCtorEq, true_and, false_or, false_and, exists_false, or_false]
    constructor
    · rintro ⟨n, ⟨hc, m, h, rfl⟩ | ⟨l, hi, hn, rfl, rfl⟩⟩
      · exact .inr ⟨hc, m, ⟨n, h⟩, rfl⟩
      · exact .inl ⟨hi, l, hn, rfl, rfl⟩
    · rintro (⟨hi, l, hn, rfl, rfl⟩ | ⟨hc, m, ⟨n, h⟩, rfl⟩)
      · exact ⟨0, .inr ⟨l, hi, hn, rfl, rfl⟩⟩
      · exact ⟨n, .inl ⟨hc, m, h, rfl⟩⟩

theorem progReturns_mention_select {w : τ → Impl τ} {t i p cx r cx'} : ProgReturns w (.mention t i p .ret) cx r cx' ↔
    ∃ cx1, ProgReturns w (.select t i p .ret) cx r cx1 ∧
      ((∀ l, r = .link l → l ∈ BMap.keys cx1.schemas) ∧ cx' = cx1 ∨
       ∃ l m cx2, r = .link l ∧ l ∉ BMap.keys cx1.schemas ∧ ProgReturns w (w t).schema cx1 m cx2 ∧
         cx' = { cx2 with schemas := BMap.insert l m cx2.schemas }) := by
  rw [progReturns_mention]
  simp only [progReturns_select']
  constructor
  · rintro ⟨n, h⟩
    simp only [implOps, mentionVia_some] at h
    obtain ⟨cx1, h1, h2 | ⟨l, m, cx2, h2, h3, h4, h5⟩⟩ := h
    · exact ⟨cx1, ⟨n, h1⟩, .inl h2⟩
    · exact ⟨cx1, ⟨n, h1⟩, .inr ⟨l, m, cx2, h2, h3, ⟨n, h4⟩, h5⟩⟩
  · rintro ⟨cx1, ⟨n, h1⟩, h2 | ⟨l, m, cx2, h2, h3, ⟨k, h4⟩, h5⟩⟩
    · exact ⟨n, by simp only [implOps, mentionVia_some]; exact ⟨cx1, h1, .inl h2⟩⟩
    · refine ⟨max n k, ?_⟩
      simp only [implOps, mentionVia_some]
      refine ⟨cx1, ?_, .inr ⟨l, m, cx2, h2, h3, runProg_mono w (Nat.le_max_right n k) _ _ _ h4, h5⟩⟩
      exact (implOps_ext w (fun α p => runProg_mono w (Nat.le_max_left n k) p)).select t i p cx _ h1

theorem mixed_name (env : Env) (custom : Nat → Option (Impl Ty)) (t : Ty) : (impls env custom t).name = mixedName env custom t := by
  cases t with
  | named i =>
    rw [impls, mixedName]
    cases h : custom i with
    | none => rfl
    | some im => rfl
  | _ => rfl

theorem mixed_pointer (env : Env) (custom : Nat → Option (Impl Ty)) (q : Wrapper) (t : Ty) :
    (impls env custom (.wrap q t)).name = (impls env custom t).name ∧ (impls env custom (.wrap q t)).select = .default ∧
    (impls env custom (.wrap q t)).withParams = none ∧ (impls env custom (.wrap q t)).schema = .getSchema t .ret := by
  refine ⟨?_, rfl, rfl, ?_⟩
  · rw [mixed_name, mixed_name, mixedName]
  · show schemaProg env (.wrap q t) = _
    simp [schemaProg, schemaExpr, ModelExpr.prog]

end Verif
