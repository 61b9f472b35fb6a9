import Verif.Model.Eval
/-!
# Registry specifications
-/

namespace Verif

/-- `cx'` has everything `cx` has, unchanged. -/
structure Components.Keeps (cx cx' : Components) : Prop where
  schemas : ∀ name m, BMap.get name cx.schemas = some m → BMap.get name cx'.schemas = some m
  security : ∀ name s, BMap.get name cx.securitySchemes = some s → BMap.get name cx'.securitySchemes = some s

/-- `get_schema::<t>` called on `cx` returns `m` and leaves `cx'`. -/
def SchemaReturns (env : Env) (t : Ty) (cx : Components) (m : Model) (cx' : Components) : Prop :=
  ∃ fuel, getSchema env fuel t cx = some (m, cx')

/-- `cx.mention_schema::<t>(inline, &p)` returns `r` and leaves `cx'`. -/
def MentionReturns (env : Env) (t : Ty) (inline : Bool) (p : Params) (cx : Components) (r : Ref)
    (cx' : Components) : Prop :=
  ∃ fuel, mentionSchema env fuel t inline p cx = some (r, cx')

/-- A sequence of registry calls that all return: the references returned by the mentions, and the final
registry. -/
inductive CallsReturn (env : Env) : Components → List Call → List Ref → Components → Prop
  | nil (cx) : CallsReturn env cx [] [] cx
  | mention {cx t inline p r cx1 calls rs cx2} (h : MentionReturns env t inline p cx r cx1)
      (hr : CallsReturn env cx1 calls rs cx2) :
      CallsReturn env cx (.mention t inline p :: calls) (r :: rs) cx2
  | addModel {cx name m calls rs cx2} (hr : CallsReturn env (cx.addModel name m) calls rs cx2) :
      CallsReturn env cx (.addModel name m :: calls) rs cx2
  | security {cx name s calls rs cx2} (hr : CallsReturn env (cx.mentionSecurityScheme name s).2 calls rs cx2) :
      CallsReturn env cx (.security name s :: calls) rs cx2

/-- Calls that are mentions of schemas or of security schemes (no manual `add_model`). -/
def Call.isMention : Call → Bool
  | .addModel .. => false
  | _ => true

end Verif
