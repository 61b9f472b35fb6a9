import Verif.Proof.Conform
import Verif.Props.DeriveMore
import Verif.Props.Order
/-!
# C40: serialized values conform to the generated schemas
-/

namespace Verif

/-! ## C40 -/

/-- **C40**, for faithful types.  A program mentions some types, and the mentions return.  Each name is used by
reference for one type only; the derived types come out of the derive macro; all types reached are `Faithful`; floats
are finite.  Then every JSON value serde writes for a mentioned type is accepted by the reference that the mention
returned, links being resolved in any registry that has the generated schemas; `oneOf` is read as "at least one".
Missing: types that are not faithful (the property is false of them, see the theorems below), names used for several
types, and the exclusive reading of `oneOf` (see C41). -/
theorem c40_conforms_partial (env : Env) (s : Serde) (calls : List Call) (rs : List Ref) (cx' : Components)
    (unique : NamesUnique env (rootsOf calls)) (mentions : ∀ c ∈ calls, c.isMention = true)
    (run : CallsReturn env Components.empty calls rs cx')
    (derived : ∀ i, Reached env (rootsOf calls) (.named i) → ∃ o input, Derived o env i input)
    (faithful : ∀ t, Reached env (rootsOf calls) t → Faithful env s t)
    (finite : s.nonFinite = false)
    (reg : List (String × Model)) (ext : ∀ n m, BMap.get n cx'.schemas = some m → BMap.get n reg = some m)
    (t : Ty) (inline : Bool) (p : Params) (r : Ref) (called : .mention t inline p ∈ calls) (benign : p.Benign)
    (mentioned : Mentions env t inline p r) (j : Json) (written : Ser env s t j) : Valid false reg r j := by
  have W := world_of_run (ex := false) unique mentions run derived faithful ext (by rintro ⟨⟩)
  have hmem : (t, !inline) ∈ rootsOf calls := by
    rw [rootsOf_eq]
    exact List.mem_filterMap.2 ⟨_, called, rfl⟩
  exact mention_valid W.toGrounds benign mentioned ⟨.root hmem, fun h => .inl (by simp only at h; rw [← h]; exact hmem)⟩
    (ser_conforms W finite written)

/-- **C40**, for the registry: under the same hypotheses every registered schema is that of a type of that name which
is mentioned by reference, and accepts all its values. -/
theorem c40_registered_partial (env : Env) (s : Serde) (calls : List Call) (rs : List Ref) (cx' : Components)
    (unique : NamesUnique env (rootsOf calls)) (mentions : ∀ c ∈ calls, c.isMention = true)
    (run : CallsReturn env Components.empty calls rs cx')
    (derived : ∀ i, Reached env (rootsOf calls) (.named i) → ∃ o input, Derived o env i input)
    (faithful : ∀ t, Reached env (rootsOf calls) t → Faithful env s t)
    (finite : s.nonFinite = false)
    (reg : List (String × Model)) (ext : ∀ n m, BMap.get n cx'.schemas = some m → BMap.get n reg = some m)
    (name : String) (m : Model) (registered : BMap.get name cx'.schemas = some m) :
    ∃ t, Linked env (rootsOf calls) t ∧ typeName env t = some name ∧
      ∀ j, Ser env s t j → ValidModel false reg m j := by
  have W := world_of_run (ex := false) unique mentions run derived faithful ext (by rintro ⟨⟩)
  obtain ⟨t, hl, hn, hs⟩ := (registry_spec unique.consistent mentions run name m).1 registered
  exact ⟨t, hl, hn, fun j hj => ser_conforms W finite hj (linked_reached hl) m hs⟩

namespace Sample

/-- Finite floats; no type serialized by `serde_repr`. -/
def serde : Serde := ⟨false, fun _ => false⟩

/-- `struct Leaf { n: u32 }` etc. of the program `diamond`. -/
def leafInput : DeriveInput Ty := ⟨"Leaf", [], .struct (.named [fld "n" (.prim .u32)])⟩
def leftInput : DeriveInput Ty := ⟨"Left", [], .struct (.named [fld "leaf" (.named 2)])⟩
def rightInput : DeriveInput Ty := ⟨"Right", [], .struct (.named [fld "leaf" (.wrap .box (.named 2))])⟩

theorem diamond_derived : ∀ i, ∃ o input, Derived o diamond i input
  | 0 => ⟨oracle, leftInput, _, rfl⟩
  | 1 => ⟨oracle, rightInput, _, rfl⟩
  | _ + 2 => ⟨oracle, leafInput, _, rfl⟩

theorem diamond_faithful {t} (h : Reached diamond (rootsOf diamondCalls) t) : Faithful diamond serde t := by
  rcases diamond_reached h with rfl | rfl | rfl | rfl | rfl <;>
    simp [Faithful, FaithfulDecl, diamond, struct, PlainFields, serialFields, field, containerAttrs]

theorem leaf_written (i : Int) : Ser diamond serde (.named 2) (.obj [("n", .int i)]) :=
  .struct (ps := [(field "n" (.prim .u32), .int i)]) rfl rfl (.keep rfl .nil) (by simp [field])
    (by simp only [List.mem_singleton]; rintro p rfl _; exact .prim ⟨i, rfl⟩)

/-- The hypotheses of C40 hold of a program with shared and boxed types, and it has values. -/
example (i : Int) : ∃ rs cx, CallsReturn diamond Components.empty diamondCalls rs cx ∧
    Ser diamond serde (.named 1) (.obj [("leaf", .obj [("n", .int i)])]) ∧
    Valid false cx.schemas (.link "Right") (.obj [("leaf", .obj [("n", .int i)])]) := by
  refine ⟨_, _, .mention ⟨10, rfl⟩ (.mention ⟨10, rfl⟩ (.nil _)), ?_, ?_⟩
  · exact .struct (ps := [(field "leaf" (.wrap .box (.named 2)), .obj [("n", .int i)])]) rfl rfl (.keep rfl .nil)
      (by simp [field]) (by simp only [List.mem_singleton]; rintro p rfl _; exact .wrap (by decide) (leaf_written i))
  · exact c40_conforms_partial diamond serde diamondCalls _ _ diamond_unique (by simp [diamondCalls, Call.isMention])
      (.mention ⟨10, rfl⟩ (.mention ⟨10, rfl⟩ (.nil _))) (fun i _ => diamond_derived i) (fun _ => diamond_faithful) rfl
      _ (fun _ _ h => h) (.named 1) false {} _ (by simp [diamondCalls]) ⟨by simp, rfl⟩
      ⟨Components.empty, _, 10, rfl⟩ _
      (.struct (ps := [(field "leaf" (.wrap .box (.named 2)), .obj [("n", .int i)])]) rfl rfl (.keep rfl .nil)
        (by simp [field]) (by simp only [List.mem_singleton]; rintro p rfl _; exact .wrap (by decide) (leaf_written i)))

end Sample

end Verif
