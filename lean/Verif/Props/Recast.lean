import Verif.Proof.Recast
import Verif.Props.Narrow
/-!
# C108: newtypes and pointers around types change no accepted value
-/

namespace Verif

/-- **C108**, unless a field marked `nullable` is referred to in one program and written in place in the other.  Two programs differ
in newtypes and pointers around the types of fields, in kinds of collections, and in attributes that document.  In each some
types are mentioned, the mentions return, and each name is used by reference for one type only.  Then a type mentioned in the first
and a type mentioned in the second, which is the same but for newtypes, pointers and kinds of collections, are documented by
references that accept the same values and reject the same values, each in the registry of its program, under both readings of
`oneOf`.  Missing: nullable fields that get or lose a newtype, and names used for several types (there the property is
false, see below). -/
theorem c108_newtypes_partial (env env' : Env) (same : env.Recasts env')
    (calls calls' : List Call) (rs rs' : List Ref) (cx cx' : Components)
    (unique : NamesUnique env (rootsOf calls)) (unique' : NamesUnique env' (rootsOf calls'))
    (mentions : ∀ c ∈ calls, c.isMention = true) (mentions' : ∀ c ∈ calls', c.isMention = true)
    (run : CallsReturn env Components.empty calls rs cx) (run' : CallsReturn env' Components.empty calls' rs' cx')
    (nullable : ∀ i, Reached env (rootsOf calls) (.named i) → Reached env' (rootsOf calls') (.named i) → NullableAlike env env' i)
    (t t' : Ty) (recast : Recast env env' t t') (inline inline' : Bool) (p p' : Params)
    (called : .mention t inline p ∈ calls) (called' : .mention t' inline' p' ∈ calls')
    (free : p.nullable = none ∧ p.variants = none) (free' : p'.nullable = none ∧ p'.variants = none)
    (r r' : Ref) (gives : Mentions env t inline p r) (gives' : Mentions env' t' inline' p' r')
    (exclusive : Bool) (j : Json) :
    (Valid exclusive cx.schemas r j ↔ Valid exclusive cx'.schemas r' j) ∧
    (Invalid exclusive cx.schemas r j ↔ Invalid exclusive cx'.schemas r' j) := by
  have T := tidy_of_run unique mentions run (fun _ _ h => h)
  have T' := tidy_of_run unique' mentions' run' (fun _ _ h => h)
  have hs := seen_root (env := env) called
  have hs' := seen_root (env := env') called'
  have h := mention_sim T T' free.2 free'.2 (by rw [free.1, free'.1]) (.inl free.1) gives gives' hs hs'
    (recast_alike T T' same nullable (T.expands t hs.1) recast hs.1 hs'.1)
  exact ⟨⟨fun hv => sim_valid hv h, fun hv => sim_valid hv h.symm⟩, ⟨fun hv => sim_invalid hv h, fun hv => sim_invalid hv h.symm⟩⟩

/-- **C108**, in published documents: where the documents of the two programs describe values of such types, they accept the same
values.  The APIs may differ.  Missing: as before, and repeated keys (C81). -/
theorem c108_published_partial (env env' : Env) (same : env.Recasts env') (reason reason' : Nat → Option String)
    (api api' : Api) (d d' : Opg) (h : Describes env reason api d) (h' : Describes env' reason' api' d')
    (distinct : d.ser.DistinctKeys) (distinct' : d'.ser.DistinctKeys)
    (unique : NamesUnique env api.roots) (unique' : NamesUnique env' api'.roots)
    (nullable : ∀ i, Reached env api.roots (.named i) → Reached env' api'.roots (.named i) → NullableAlike env env' i)
    (t t' : Ty) (recast : Recast env env' t t') (v v' : Value) (placed : PlacedAt api d.ser t v) (placed' : PlacedAt api' d'.ser t' v')
    (exclusive : Bool) (j : Json) : Accepts exclusive d.ser v j ↔ Accepts exclusive d'.ser v' j := by
  obtain ⟨r, rfl, hm, hp⟩ := placed.mentioned h distinct
  obtain ⟨rs, sx, hr, es, -⟩ := h.registry
  obtain ⟨r', rfl, hm', hp'⟩ := placed'.mentioned h' distinct'
  obtain ⟨rs', sx', hr', es', -⟩ := h'.registry
  have := (c108_newtypes_partial env env' same _ _ rs rs' sx sx' unique unique' (callsOf_mentions _) (callsOf_mentions _)
    hr hr' nullable t t' recast false false {} {} (mention_call hp) (mention_call hp') ⟨rfl, rfl⟩ ⟨rfl, rfl⟩ r r' hm hm' exclusive j).1
  rw [es, es'] at this
  exact accepts_ser.trans (this.trans accepts_ser.symm)

namespace Sample

/-- `struct Order { id: u32, buyers: Vec<Buyer>, .. }`, where `id` and the buyers are of the given types; `struct Id(u32)`;
`struct Buyer { name: String }`; `struct Lead(Box<Buyer>)`. -/
def tickets (ident buyers : Ty) (nullable : Bool) : Env := ⟨fun
  | 0 => struct "Order" [⟨{ (field "id" ident).attrs with nullable := nullable }, ident⟩, field "buyers" buyers]
  | 1 => newtype "Id" (field "0" (.prim .u32))
  | 2 => newtype "Lead" (field "0" (.wrap .box (.named 3)))
  | _ => struct "Buyer" [field "name" (.prim .string)], id⟩

abbrev ticketsBefore (nullable : Bool) := tickets (.prim .u32) (.seq .vec (.named 3)) nullable
abbrev ticketsAfter (nullable : Bool) := tickets (.named 1) (.seq .vec (.named 2)) nullable

theorem tickets_recast (n : Bool) : (ticketsBefore n).Recasts (ticketsAfter n)
  | 0 => ⟨rfl, rfl, .struct (.cons ⟨rfl, .newtypeRight ⟨_, _, rfl, rfl, rfl, rfl⟩ (.prim rfl)⟩
      (.cons ⟨rfl, .seq (.newtypeRight ⟨_, _, rfl, rfl, rfl, rfl⟩ (.pointerRight (.named 3)))⟩ .nil))⟩
  | 1 => ⟨rfl, rfl, .struct (.cons ⟨rfl, .prim rfl⟩ .nil)⟩
  | 2 => ⟨rfl, rfl, .struct (.cons ⟨rfl, .pointerLeft (.pointerRight (.named 3))⟩ .nil)⟩
  | _ + 3 => ⟨rfl, rfl, .struct (.cons ⟨rfl, .prim rfl⟩ .nil)⟩

def ticketCalls : List Call := [.mention (.named 0) false {}]
def ticketTypes : List Ty := [.named 0, .prim .u32, .seq .vec (.named 3), .seq .vec (.named 2), .named 1, .named 2, .wrap .box (.named 3),
  .named 3, .prim .string]

theorem tickets_nullable : ∀ i, NullableAlike (ticketsBefore false) (ticketsAfter false) i
  | 0 => .cons (fun _ _ h _ => by cases h) (.cons (fun _ _ h _ => by cases h) .nil)
  | 1 | 2 => .nil
  | _ + 3 => .cons (fun _ _ h _ => by cases h) .nil

/-- The registries of the two programs differ, and `Order` has the same values in both. -/
example : ∃ rs cx rs' cx', CallsReturn (ticketsBefore false) Components.empty ticketCalls rs cx ∧
    CallsReturn (ticketsAfter false) Components.empty ticketCalls rs' cx' ∧ BMap.keys cx.schemas = ["Buyer", "Order"] ∧
    BMap.keys cx'.schemas = ["Id", "Lead", "Order"] ∧
    ∀ x j, Valid x cx.schemas (.link "Order") j ↔ Valid x cx'.schemas (.link "Order") j :=
  ⟨_, _, _, _, .mention ⟨10, rfl⟩ (.nil _), .mention ⟨10, rfl⟩ (.nil _), rfl, rfl, fun x j =>
    (c108_newtypes_partial (ticketsBefore false) (ticketsAfter false) (tickets_recast false) ticketCalls ticketCalls _ _ _ _
      (namesUnique_of_closed (l := ticketTypes) (by decide +kernel) (by decide +kernel))
      (namesUnique_of_closed (l := ticketTypes) (by decide +kernel) (by decide +kernel))
      (by simp [ticketCalls, Call.isMention]) (by simp [ticketCalls, Call.isMention])
      (.mention ⟨10, rfl⟩ (.nil _)) (.mention ⟨10, rfl⟩ (.nil _)) (fun i _ _ => tickets_nullable i)
      (.named 0) (.named 0) (.named 0) false false {} {} (by simp [ticketCalls]) (by simp [ticketCalls]) ⟨rfl, rfl⟩ ⟨rfl, rfl⟩ _ _
      ⟨Components.empty, _, 10, rfl⟩ ⟨Components.empty, _, 10, rfl⟩ x j).1⟩

end Sample

/-- **C108** is false of a field marked `nullable` whose type gets a newtype: the link has no place for the mark. -/
theorem c108_is_false : ∃ (env env' : Env) (cx cx' : Components) (r r' : Ref) (j : Json), env.Recasts env' ∧
    MentionReturns env (.named 0) false {} Components.empty r cx ∧
    MentionReturns env' (.named 0) false {} Components.empty r' cx' ∧
    Valid false cx.schemas r j ∧ ¬ Valid false cx'.schemas r' j := by
  refine ⟨Sample.ticketsBefore true, Sample.ticketsAfter true, _, _, _, _, .obj [("buyers", .arr []), ("id", .null)],
    Sample.tickets_recast true, ⟨10, rfl⟩, ⟨10, rfl⟩, ?_, ?_⟩
  · refine .link rfl (.object ?_ ?_ ?_)
    · intro k hk
      have hk : k ∈ ["id", "buyers"] := hk
      simp only [List.mem_cons, List.not_mem_nil, or_false] at hk
      rcases hk with rfl | rfl <;> decide
    · intro k j r hm hg
      simp only [List.mem_cons, Prod.mk.injEq, List.not_mem_nil, or_false] at hm
      rcases hm with ⟨rfl, rfl⟩ | ⟨rfl, rfl⟩
      · have e : r = _ := (Option.some.inj hg).symm
        rw [e]
        exact .inline (.array fun _ h => nomatch h)
      · have e : r = _ := (Option.some.inj hg).symm
        rw [e]
        exact .inline .null
    · intro k j r _ _ ha
      cases ha
  · refine not_valid_link rfl ?_
    intro h
    cases h with
    | object _ hp _ =>
      have h := hp "id" .null (.link "Id") (.tail _ (.head _)) rfl
      refine not_valid_link rfl ?_ h
      exact not_valid_type (fun h => h) (fun h => nomatch h)

namespace Sample

/-- `struct Range { from: Option<u32>, to: u32 }`, where the numbers are of the given type. -/
def ranges (t : Ty) : Env := ⟨fun
  | 0 => struct "Range" [field "from" (.option t), field "to" t]
  | _ => newtype "Id" (field "0" (.prim .u32)), id⟩

theorem ranges_recast : (ranges (.prim .u32)).Recasts (ranges (.named 1))
  | 0 => ⟨rfl, rfl, .struct (.cons ⟨rfl, .option (.newtypeRight ⟨_, _, rfl, rfl, rfl, rfl⟩ (.prim rfl))⟩
      (.cons ⟨rfl, .newtypeRight ⟨_, _, rfl, rfl, rfl, rfl⟩ (.prim rfl)⟩ .nil))⟩
  | _ + 1 => ⟨rfl, rfl, .struct (.cons ⟨rfl, .prim rfl⟩ .nil)⟩

theorem ranges_nullable : ∀ i, NullableAlike (ranges (.prim .u32)) (ranges (.named 1)) i
  | 0 => .cons (fun _ _ h _ => by cases h) (.cons (fun _ _ h _ => by cases h) .nil)
  | _ + 1 => .nil

end Sample

/-- **C108** is false where a newtype is used with and without `Option`, even if no field is marked `nullable`: there is one
component for both. -/
theorem c108_is_false_names : ∃ (env env' : Env) (cx cx' : Components) (r r' : Ref) (j : Json), env.Recasts env' ∧
    (∀ i, NullableAlike env env' i) ∧
    MentionReturns env (.named 0) false {} Components.empty r cx ∧
    MentionReturns env' (.named 0) false {} Components.empty r' cx' ∧
    ¬ Valid false cx.schemas r j ∧ Valid false cx'.schemas r' j := by
  refine ⟨Sample.ranges (.prim .u32), Sample.ranges (.named 1), _, _, _, _, .obj [("from", .null), ("to", .null)],
    Sample.ranges_recast, Sample.ranges_nullable, ⟨10, rfl⟩, ⟨10, rfl⟩, ?_, ?_⟩
  · refine not_valid_link rfl ?_
    intro h
    cases h with
    | object _ hp _ =>
      have h := hp "to" .null _ (.tail _ (.head _)) rfl
      refine not_valid_inline ?_ h
      exact not_valid_type (fun h => h) (fun h => nomatch h)
  · refine .link rfl (.object ?_ ?_ ?_)
    · intro k hk
      have hk : k ∈ ["from", "to"] := hk
      simp only [List.mem_cons, List.not_mem_nil, or_false] at hk
      rcases hk with rfl | rfl <;> decide
    · intro k j r hm hg
      simp only [List.mem_cons, Prod.mk.injEq, List.not_mem_nil, or_false] at hm
      rcases hm with ⟨rfl, rfl⟩ | ⟨rfl, rfl⟩
      · have e : r = _ := (Option.some.inj hg).symm
        rw [e]
        exact .link rfl .null
      · have e : r = _ := (Option.some.inj hg).symm
        rw [e]
        exact .link rfl .null
    · intro k j r _ _ ha
      cases ha

end Verif
