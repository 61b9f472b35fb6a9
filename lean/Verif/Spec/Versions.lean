import Verif.Spec.Answers
/-!
# Changes that clients do not notice (specification)

A later version of a description serves the clients of the earlier one: it has their paths and operations, asks for no further
credentials, parameters or bodies, and answers in no new way.
-/

namespace Verif

/-- Segments that stand for the same texts and types.  Names may differ. -/
inductive SegKept : PathSeg → PathSeg → Prop
  | literal {s} : SegKept (.literal s) (.literal s)
  | typed {a b n n' t} (h : a.param? = some (n, t)) (h' : b.param? = some (n', t)) : SegKept a b

/-- The later operation is open, or each alternative of the earlier one, of which there is one, has one in the later that wants no more. -/
def SecurityKept (api api' : Api) (ps ps' : List OpProp) : Prop :=
  ps'.flatMap OpProp.securityList = [] ∨ ps.flatMap OpProp.securityList ≠ [] ∧
    ∀ alt ∈ ps.flatMap OpProp.securityList, ∃ alt' ∈ ps'.flatMap OpProp.securityList,
      ∀ i' ∈ alt', ∃ i ∈ alt, ∀ s, i.Wants api s → i'.Wants api' s

/-- `sends` and `sendsBody` say what clients send: each header or query parameter of the later operation was there before, with the
same type and required if it is required now, or it is optional and no client sends it; likewise the body. -/
structure OpKept (sends : ParameterIn → String → Prop) (sendsBody : Prop) (api api' : Api) (decl decl' : PathDecl)
    (ps ps' : List OpProp) : Prop where
  security : SecurityKept api api' ps ps'
  parameters : ∀ name place x', declaredFor decl' ps' name place = some x' →
    (∃ x, declaredFor decl ps name place = some x ∧ x'.typeOf = x.typeOf ∧ (x'.isRequired = true → x.isRequired = true)) ∨
    x'.isRequired = false ∧ ¬ sends place name
  body : ∀ b', lastOf OpProp.body? ps' = some b' →
    (∃ b, lastOf OpProp.body? ps = some b ∧ b'.typeOf = b.typeOf ∧ (b'.isRequired = true → b.isRequired = true)) ∨
    b'.isRequired = false ∧ ¬ sendsBody

/-- The later description has all paths and operations of the earlier one, and perhaps more. -/
def Api.KeepsRequests (sends : ParameterIn → String → Prop) (sendsBody : Prop) (api api' : Api) : Prop :=
  ∀ decl ∈ api.pathList, ∃ decl' ∈ api'.pathList, Pointwise SegKept decl.segments decl'.segments ∧
    ∀ m ps, lastOf (ItemProp.operation? m) decl.props = some ps →
      ∃ ps', lastOf (ItemProp.operation? m) decl'.props = some ps' ∧ OpKept sends sendsBody api api' decl decl' ps ps'

/-- The request sends nothing else. -/
def Request.Within (sends : ParameterIn → String → Prop) (sendsBody : Prop) (req : Request) : Prop :=
  (∀ place name, req.sent place name ≠ none → sends place name) ∧ (req.body ≠ none → sendsBody)

/-- The later operation answers with no status but those of the earlier, with the same type or without a body as before.
Schemas written by hand are not considered. -/
def AnswersKept (ps ps' : List OpProp) : Prop :=
  ∀ code description' decl', lastOf (OpProp.response? code) ps' = some (description', decl') →
    (∀ r, decl' ≠ .raw (some r)) ∧ ∃ description, lastOf (OpProp.response? code) ps = some (description, decl')

end Verif
