import Verif.Proof.RelinkValid
import Verif.Props.Neutral
import Verif.Props.Api
import Verif.Proof.Grow
/-!
# C107: renaming derived types changes only component names and links
-/

namespace Verif

/-- **C107**, calls: the derived types of a program get other identifiers, different ones if they were different.  Calls that
return in the first program return in the second; the references that they return, and the schemas that they leave, are those of
the first program with the names in links changed, under the changed names (but for descriptions, formats and examples: the
description of a variant contains the name of its type). -/
theorem c107_calls (ρ : String → String) (inj : ∀ a b, ρ a = ρ b → a = b) (env env' : Env) (renamed : TypesRenamed ρ env env')
    (calls : List Call) (start start' : Components) (starts : RegistryRenamed ρ start start') (rs : List Ref) (cx : Components)
    (run : CallsReturn env start calls rs cx) :
    ∃ rs' cx', CallsReturn env' start' (calls.map (Call.relinked ρ)) rs' cx' ∧ Pointwise (RefRenamed ρ) rs rs' ∧
      RegistryRenamed ρ cx cx' := by
  obtain ⟨rs', cx', a, b, c⟩ := calls_relink inj renamed run ((moved_iff inj).2 starts)
  exact ⟨rs', cx', a, b, (moved_iff inj).1 c⟩

/-- **C107**, documents: likewise for the description of an API.  References that are written out in the API have to be stable
under the change of names, because it does not reach them. -/
theorem c107_documents (ρ : String → String) (inj : ∀ a b, ρ a = ρ b → a = b) (env env' : Env) (renamed : TypesRenamed ρ env env')
    (reason : Nat → Option String) (api : Api) (written : ∀ r, Part.raw r ∈ api.parts → RefRenamed ρ r r) (d : Opg)
    (described : Describes env reason api d) :
    ∃ d', Describes env' reason api d' ∧ d.Along (RefRenamed ρ) d' ∧ RegistryRenamed ρ d.components d'.components := by
  obtain ⟨n, hd⟩ := described
  obtain ⟨d', hd', ha, hc⟩ := describeApi_to (askTo_relink inj renamed n reason)
    ⟨fun k m h => (nomatch h), fun n => rfl, rfl⟩ (fun _ _ h => h.security) api ⟨fun _ _ => trivial, written⟩ hd
  exact ⟨d', ⟨n, hd'⟩, ha, (moved_iff inj).1 hc⟩

/-- **C107**, meaning: such references accept the same values and reject the same values. -/
theorem c107_values (ρ : String → String) (inj : ∀ a b, ρ a = ρ b → a = b) (excl : Bool) (cx cx' : Components)
    (registries : RegistryRenamed ρ cx cx') (r r' : Ref) (same : RefRenamed ρ r r') (j : Json) :
    (Valid excl cx.schemas r j ↔ Valid excl cx'.schemas r' j) ∧ (Invalid excl cx.schemas r j ↔ Invalid excl cx'.schemas r' j) :=
  values_relink inj ((moved_iff inj).2 registries) same j

/-- **C107**, the macro: an item that is accepted is accepted under any other identifier, and nothing else of the declaration
depends on the identifier. -/
theorem c107_macro (o : Oracle) (item : DeriveInput Ty) (c : Container Ty) (b : ModelExpr Ty) (accepted : derive o item = .code c b)
    (x : String) :
    ∃ y b', derive o { item with ident := x } = .code { c with ident := x, attrs := { c.attrs with name := y } } b' :=
  derive_renamed x accepted

/-- **C107**, one type: if no type of the program is called `b`, then calling a type `b` instead of `a` is such a change of names. -/
theorem c107_one (env : Env) (a b : String) (fresh : ∀ i, (env.decl i).ident ≠ b) :
    TypesRenamed (swapName a b) env { env with decl := fun i =>
      { env.decl i with ident := if (env.decl i).ident = a then b else (env.decl i).ident } } ∧
      ∀ m n, swapName a b m = swapName a b n → m = n := by
  refine ⟨fun i => ?_, swapName_inj a b⟩
  simp only [swapName, fresh i, if_false]

namespace Sample

/-- The types `Pair` and `Leaf` under the names `Couple` and `Pair`. -/
def coupleName (n : String) : String :=
  if n = "Pair" then "Couple" else if n = "Leaf" then "Pair" else if n = "Couple" then "Leaf" else n

theorem coupleName_inj (a b : String) (h : coupleName a = coupleName b) : a = b := by
  unfold coupleName at h
  repeat' split at h
  all_goals simp_all

/-- `struct Couple { a: Option<Pair>, b: Pair }` and `struct Pair { n: u32 }`. -/
def couple : Env := ⟨fun
  | 0 => struct "Couple" [field "a" (.option (.named 1)), field "b" (.named 1)]
  | _ => struct "Pair" [field "n" (.prim .u32)],
  id⟩

theorem couple_renamed : TypesRenamed coupleName (docPair false) couple
  | 0 => rfl
  | _ + 1 => rfl

/-- Both programs register two components, and the links follow the names. -/
example : ∃ rs cx rs' cx', CallsReturn (docPair false) Components.empty [.mention (.named 0) false {}] rs cx ∧
    CallsReturn couple Components.empty [.mention (.named 0) false {}] rs' cx' ∧
    BMap.keys cx.schemas = ["Leaf", "Pair"] ∧ BMap.keys cx'.schemas = ["Couple", "Pair"] ∧
    rs = [.link "Pair"] ∧ rs' = [.link "Couple"] ∧ RegistryRenamed coupleName cx cx' := by
  have run : CallsReturn (docPair false) Components.empty [.mention (.named 0) false {}] _ _ := .mention ⟨10, rfl⟩ (.nil _)
  have run' : CallsReturn couple Components.empty [.mention (.named 0) false {}] _ _ := .mention ⟨10, rfl⟩ (.nil _)
  obtain ⟨rs', cx', h, _, hc⟩ := c107_calls coupleName coupleName_inj _ _ couple_renamed _ Components.empty Components.empty
    ⟨fun k => by simp [Components.empty, BMap.keys], fun n m m' h => (nomatch h), rfl⟩ _ _ run
  obtain ⟨rfl, rfl⟩ := CallsReturn.unique h run'
  exact ⟨_, _, _, _, run, run', rfl, rfl, rfl, rfl, hc⟩

/-- The program of the sample API with `Animal` instead of `Pet`: the API is described, with one of the links being to `Animal`. -/
example : ∃ d', Describes { env with decl := fun i => { env.decl i with ident := if (env.decl i).ident = "Pet" then "Animal" else
      (env.decl i).ident } } reason api d' ∧ apiDoc.Along (RefRenamed (swapName "Pet" "Animal")) d' ∧
    RegistryRenamed (swapName "Pet" "Animal") apiDoc.components d'.components ∧
    BMap.keys apiDoc.components.schemas = ["Owner", "Pet", "User"] ∧ "Animal" ∈ BMap.keys d'.components.schemas := by
  have fresh : ∀ i, (env.decl i).ident ≠ "Animal"
    | 0 | 1 | 2 | 3 => by decide
    | n + 4 => (by decide : (env.decl 4).ident ≠ "Animal")
  obtain ⟨h1, h2⟩ := c107_one env "Pet" "Animal" fresh
  obtain ⟨d', hd, ha, hc⟩ := c107_documents _ h2 _ _ h1 reason api (by
    intro r hr
    simp [Api.parts, Api.pathList, api, Section.pathList, pathParts, usersPath, itemParts, getOp, opParts, callbackParts, PathSeg.parts,
      ParamDecl.parts, ParamProp.parts, SecurityDecl.parts, ResponseDecl.parts, BodyDecl.parts, callbackPath] at hr) _ api_described
  exact ⟨d', hd, ha, hc, rfl, (hc.names _).2 ⟨"Pet", (by decide +kernel), rfl⟩⟩

/-- An item that is accepted, and under another name: the name that it is written with does not change what is sent. -/
example : ∃ c b, derive oracle (⟨"A", [⟨"serde", .list [.item (.nameValue "rename_all" (.str "UPPERCASE"))]⟩],
    .struct (.named [⟨some "n", [], .prim .u32⟩])⟩ : DeriveInput Ty) = .code c b := ⟨_, _, rfl⟩

/-- The hypothesis on different names is needed: with one name for both types, the second is not registered. -/
example : ∃ rs cx, CallsReturn ⟨fun i => { (docPair false).decl i with ident := "Pair" }, id⟩ Components.empty
    [.mention (.named 1) false {}, .mention (.named 0) false {}] rs cx ∧ BMap.keys cx.schemas = ["Pair"] ∧
    rs = [.link "Pair", .link "Pair"] :=
  ⟨_, _, .mention ⟨10, rfl⟩ (.mention ⟨10, rfl⟩ (.nil _)), rfl, rfl⟩

end Sample

end Verif
