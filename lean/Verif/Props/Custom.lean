import Verif.Props.Samples
import Verif.Proof.Custom
/-!
# C103: hand written impls
-/

namespace Verif

variable {τ α : Type}

/-- **C103** (entries are kept).  Whatever the impls do with the registry through its methods, and whatever code runs, an
entry that is there before is there after, with the same schema. -/
theorem c103_kept (w : τ → Impl τ) (p : Prog τ α) (cx cx' : Components) (a : α) (run : ProgReturns w p cx a cx') :
    cx.Kept cx' := by
  obtain ⟨n, h⟩ := run
  exact runProg_holds kept_inv w n α p cx a cx' h

/-- **C103** (one result).  The value and the registry that result are determined by the registry at the start. -/
theorem c103_deterministic (w : τ → Impl τ) (p : Prog τ α) (cx cx1 cx2 : Components) (a b : α)
    (h : ProgReturns w p cx a cx1) (h' : ProgReturns w p cx b cx2) : a = b ∧ cx1 = cx2 := h.det h'

/-- **C103** (mentions register).  If a mention answers with a link then the name is registered, whatever impl answered. -/
theorem c103_mention_registers (w : τ → Impl τ) (t : τ) (inline : Bool) (p : Params) (cx cx' : Components) (l : String)
    (run : ProgReturns w (.mention t inline p .ret) cx (.link l) cx') : l ∈ BMap.keys cx'.schemas := by
  obtain ⟨n, h⟩ := progReturns_mention.1 run
  simp only [implOps, mentionVia_some] at h
  obtain ⟨cx1, -, ⟨h, rfl⟩ | ⟨_, m, cx2, ⟨⟩, -, -, rfl⟩⟩ := h
  · exact h l rfl
  · exact BMap.mem_keys_insert.2 (.inl rfl)

/-- **C103** (what is registered).  For a type whose impl gives it a name that is not registered, and does not override
`select_reference`, a mention by reference returns iff its `get_schema` does; it answers with the link, and what was returned
is registered under the name, in place of anything that `get_schema` itself registered there. -/
theorem c103_mention_exact (w : τ → Impl τ) (t : τ) (p : Params) (cx : Components) (l : String)
    (select : (w t).select = .default) (name : (w t).name = some l) (new : l ∉ BMap.keys cx.schemas) (r : Ref)
    (cx' : Components) : ProgReturns w (.mention t false p .ret) cx r cx' ↔ r = .link l ∧
      ∃ m cx1, ProgReturns w (w t).schema cx m cx1 ∧ cx' = { cx1 with schemas := BMap.insert l m cx1.schemas } :=
  mention_default select name new

/-- **C103** (overrides).  What the methods of a type do is what its impl says: the default methods if not overridden, the
code of the override otherwise.  `mention_schema` asks `select_reference`, and registers the schema if the answer is a link
that is not registered. -/
theorem c103_methods (w : τ → Impl τ) (t : τ) (inline : Bool) (p : Params) (cx cx' : Components) (m : Model) (r : Ref) :
    (ProgReturns w (.getSchema t .ret) cx m cx' ↔ ProgReturns w (w t).schema cx m cx') ∧
    (ProgReturns w (.withParams t p .ret) cx m cx' ↔
      match (w t).withParams with
      | some f => ProgReturns w (f p) cx m cx'
      | none => ∃ m0, ProgReturns w (w t).schema cx m0 cx' ∧ m = m0.applyParams p) ∧
    (ProgReturns w (.select t inline p .ret) cx r cx' ↔
      match (w t).select with
      | .custom f => ProgReturns w (f inline p) cx r cx'
      | .inlined => ∃ m, ProgReturns w (w t).schema cx m cx' ∧ r = .inline (m.applyParams p)
      | .default => (inline = false ∧ ∃ l, (w t).name = some l ∧ r = .link l ∧ cx' = cx) ∨
          (inline = true ∨ (w t).name = none) ∧ ∃ m, ProgReturns w (w t).schema cx m cx' ∧ r = .inline (m.applyParams p)) ∧
    (ProgReturns w (.mention t inline p .ret) cx r cx' ↔ ∃ cx1, ProgReturns w (.select t inline p .ret) cx r cx1 ∧
      ((∀ l, r = .link l → l ∈ BMap.keys cx1.schemas) ∧ cx' = cx1 ∨
       ∃ l m cx2, r = .link l ∧ l ∉ BMap.keys cx1.schemas ∧ ProgReturns w (w t).schema cx1 m cx2 ∧
         cx' = { cx2 with schemas := BMap.insert l m cx2.schemas })) :=
  ⟨progReturns_getSchema, progReturns_withParams, progReturns_select, progReturns_mention_select⟩

/-- **C103** (pointers).  A pointer to a type documented by hand is documented as the type, if its `select_reference` is not
overridden. -/
theorem c103_pointer (env : Env) (custom : Nat → Option (Impl Ty)) (q : Wrapper) (i : Nat) (im : Impl Ty)
    (byHand : custom i = some im) (select : im.select = .default) (inline : Bool) (p : Params) (cx cx' : Components) (r : Ref) :
    ProgReturns (impls env custom) (.mention (.wrap q (.named i)) inline p .ret) cx r cx' ↔
      ProgReturns (impls env custom) (.mention (.named i) inline p .ret) cx r cx' := by
  obtain ⟨h1, h2, -, h4⟩ := mixed_pointer env custom q (.named i)
  have h : impls env custom (.named i) = im := by rw [impls, byHand]; rfl
  rw [progReturns_mention_select, progReturns_mention_select]
  simp only [progReturns_select, h1, h2, h4, progReturns_getSchema]
  rw [h, select]

/-- **C103** (links).  If every impl uses only names that it knows to be registered, and so does the code, then no link
dangles, and the names in the value are registered. -/
theorem c103_links (w : τ → Impl τ) (candid : ∀ t, (w t).Candid) (links : α → List String) (p : Prog τ α)
    (known : String → Prop) (only : p.Only links known) (cx cx' : Components) (a : α)
    (there : ∀ l, known l → l ∈ BMap.keys cx.schemas) (start : cx.NoDangling) (run : ProgReturns w p cx a cx') :
    cx'.NoDangling ∧ ∀ l ∈ links a, l ∈ BMap.keys cx'.schemas := by
  obtain ⟨n, h⟩ := run
  obtain ⟨h1, -, h3⟩ := runProg_resolves candid n α links p cx only there a cx' start h
  exact ⟨h1, h3⟩

/-- **C103** (mixed programs).  Generated impls and those of the library use only such names.  A program in which some types
are documented by hand is one of the above if the impls written by hand are. -/
theorem c103_mixed (env : Env) (custom : Nat → Option (Impl Ty)) (candid : ∀ i im, custom i = some im → im.Candid)
    (t : Ty) (inline : Bool) (p : Params) (cx cx' : Components) (r : Ref) (start : cx.NoDangling)
    (run : ProgReturns (impls env custom) (.mention t inline p .ret) cx r cx') :
    cx'.NoDangling ∧ ∀ l ∈ r.links, l ∈ BMap.keys cx'.schemas :=
  c103_links _ (impls_candid env custom candid) Ref.links (.mention t inline p .ret) (fun _ => False) (fun _ _ hl => .inr hl) cx cx' r
    (fun _ => False.elim) start run

/-- **C103** (refinement).  Where no impl is written by hand, mentions and `get_schema` are those of the other theorems. -/
theorem c103_derived (env : Env) (t : Ty) (cx cx' : Components) :
    (∀ inline p r, ProgReturns (impls env fun _ => none) (.mention t inline p .ret) cx r cx' ↔
      MentionReturns env t inline p cx r cx') ∧
    ∀ m, ProgReturns (impls env fun _ => none) (impls env (fun _ => none) t).schema cx m cx' ↔ SchemaReturns env t cx m cx' :=
  ⟨fun _ _ _ => derived_mention, fun _ => derived_schema⟩

namespace Sample

/-- ```
impl OpgModel for Pet {
    fn get_schema(cx: &mut Components) -> Model {
        if !cx.contains_model("Kind") { cx.add_model("Kind", ..) }
        let user = cx.mention_schema::<Uuid>(false, &Default::default());
        ..
    }
    fn type_name() -> Option<Cow<'static, str>> { Some("Animal".into()) }
}
``` -/
def petImpl : Impl Ty :=
  let rest : Prog Ty Model := .mention .uuid false {} fun r => .ret ⟨none, .oneOf [.link "Kind", r]⟩
  { schema := .contains "Kind" fun b => if b then rest else .addModel "Kind" str rest
    name := some "Animal" }

/-- `Pet` of the sample program is documented by hand. -/
def byHand : Nat → Option (Impl Ty)
  | 1 => some petImpl
  | _ => none

theorem petImpl_candid : petImpl.Candid where
  schema := by
    refine ⟨?_, ?_⟩
    · intro r l hl
      simp [Model.links, ModelData.links, refsLinks, Ref.links] at hl
      exact hl.elim (fun h => .inl (.inr h)) .inr
    · refine ⟨by simp [str, Model.links, ModelData.links, ModelType.links, TypeDesc.links], ?_⟩
      intro r l hl
      simp [Model.links, ModelData.links, refsLinks, Ref.links] at hl
      exact hl.elim (fun h => .inl (.inr h)) .inr
  withParams := nofun
  select := nofun

/-- A tree documented by hand: the name is taken before the subtrees are mentioned. -/
def treeImpl : Impl Ty :=
  { schema := .addModel "Tree" str (.mention (.seq .vec (.named 0)) false {} fun r =>
      .ret ⟨none, .single ⟨false, .object ⟨[("children", r)], none, []⟩⟩⟩)
    name := some "Tree" }

/-- An impl that overrides `select_reference` as types with `#[opg(inline)]` do. -/
def inlinedImpl : Impl Ty := { schema := .ret str, name := some "Id", select := .inlined }

/-- An impl that overrides `get_schema_with_params` and `select_reference`. -/
def overridingImpl : Impl Ty :=
  { schema := .ret str, name := some "Id", withParams := some fun _ => .ret petModel,
    select := .custom fun _ _ => .select .uuid false {} fun _ => .ret .any }

/-- An impl that refers to a name which nobody registers. -/
def looseImpl : Impl Ty := { schema := .ret ⟨none, .oneOf [.link "Nowhere"]⟩, name := some "Loose" }

end Sample

/-- The derived `Owner` contains the hand written `Pet` directly and through the derived `User`: all names are registered. -/
example : (∀ i im, Sample.byHand i = some im → im.Candid) ∧
    ∃ cx', ProgReturns (impls Sample.env Sample.byHand) (.mention (.named 3) false {} .ret) .empty (.link "Owner") cx' ∧
      BMap.keys cx'.schemas = ["Animal", "Kind", "Owner", "User"] := by
  refine ⟨fun i im h => ?_, _, ⟨10, rfl⟩, rfl⟩
  unfold Sample.byHand at h
  split at h
  · cases h; exact Sample.petImpl_candid
  · cases h

/-- `c103_mention_exact`: a recursive type can be documented by hand.  The schema that `get_schema` had put in its place
first is replaced at the end. -/
example : let w := impls Sample.env fun _ => some Sample.treeImpl
    (w (.named 0)).select = .default ∧ (w (.named 0)).name = some "Tree" ∧
    ∃ cx1 cx', ProgReturns w (w (.named 0)).schema .empty
        ⟨none, .single ⟨false, .object ⟨[("children", .inline ⟨none, .single ⟨false, .array (.link "Tree")⟩⟩)], none, []⟩⟩⟩ cx1 ∧
      BMap.get "Tree" cx1.schemas = some Sample.str ∧
      ProgReturns w (.mention (.named 0) false {} .ret) .empty (.link "Tree") cx' ∧
      BMap.get "Tree" cx'.schemas = some
        ⟨none, .single ⟨false, .object ⟨[("children", .inline ⟨none, .single ⟨false, .array (.link "Tree")⟩⟩)], none, []⟩⟩⟩ :=
  ⟨rfl, rfl, _, _, ⟨10, rfl⟩, rfl, ⟨10, rfl⟩, rfl⟩

/-- `c103_methods`: overrides are used. -/
example : let w := impls Sample.env fun _ => some Sample.overridingImpl
    ProgReturns w (.withParams (.named 0) {} .ret) .empty Sample.petModel .empty ∧
    ProgReturns w (.mention (.named 0) false {} .ret) .empty .any .empty ∧
    ProgReturns w (.mention (.named 0) true {} .ret) .empty .any .empty :=
  ⟨⟨5, rfl⟩, ⟨5, rfl⟩, ⟨5, rfl⟩⟩

/-- `c103_pointer`: `Box<Pet>`, where `Pet` is documented by hand. -/
example : Sample.byHand 1 = some Sample.petImpl ∧ Sample.petImpl.select = .default ∧
    ∃ cx', ProgReturns (impls Sample.env Sample.byHand) (.mention (.wrap .box (.named 1)) false {} .ret) .empty (.link "Animal") cx' :=
  ⟨rfl, rfl, _, ⟨10, rfl⟩⟩

/-- Pointers do not heed an override of `select_reference`: the schema is inlined for the type, but not for a pointer to it. -/
theorem c103_pointer_is_false : ¬ ∀ (env : Env) (custom : Nat → Option (Impl Ty)) (q : Wrapper) (i : Nat) (cx' : Components) (r : Ref),
    ProgReturns (impls env custom) (.mention (.named i) false {} .ret) .empty r cx' →
    ProgReturns (impls env custom) (.mention (.wrap q (.named i)) false {} .ret) .empty r cx' := by
  intro h
  have h1 := h Sample.env (fun _ => some Sample.inlinedImpl) .box 0 _ _ ⟨5, rfl⟩
  have h2 : ProgReturns (impls Sample.env fun _ => some Sample.inlinedImpl) (.mention (.wrap .box (.named 0)) false {} .ret) .empty
    (.link "Id") _ := ⟨5, rfl⟩
  cases (h1.det h2).1

/-- **C103** is about code that knows its names: an impl that does not leaves a dangling link. -/
theorem c103_candid_needed : ¬ ∀ (env : Env) (custom : Nat → Option (Impl Ty)) (t : Ty) (cx' : Components) (r : Ref),
    ProgReturns (impls env custom) (.mention t false {} .ret) .empty r cx' → cx'.NoDangling := by
  intro h
  have := h Sample.env (fun _ => some Sample.looseImpl) (.named 0) _ _ ⟨5, rfl⟩ "Loose" _ (List.mem_singleton.2 rfl) "Nowhere"
    (by simp [Model.links, ModelData.links, refsLinks, Ref.links])
  simp [BMap.keys, BMap.insert, Components.empty] at this

end Verif
