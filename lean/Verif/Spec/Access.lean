import Verif.Spec.Published
/-!
# Who may call an operation (specification)

OpenAPI: an operation without `security` is open to everyone; otherwise a request has to satisfy all schemes of one of the
alternatives.  The alternatives name schemes of `components`.
-/

namespace Verif

/-- The credentials of a request: the security schemes they satisfy. -/
abbrev Credentials := SecurityScheme → Prop

/-- The security scheme that the document has under a name. -/
def Value.schemeNamed (doc : Value) (name : String) : Option SecurityScheme := do
  let components ← doc.at "components"
  let schemes ← components.at "securitySchemes"
  let scheme ← schemes.at name
  Read.scheme scheme

/-- The names in an alternative are those of schemes that are satisfied. -/
def Value.Satisfied (doc alternative : Value) (shown : Credentials) : Prop :=
  ∃ es, alternative = .map es ∧ ∀ e ∈ es, ∃ name s, e.1 = .str name ∧ doc.schemeNamed name = some s ∧ shown s

/-- The document lets the request pass. -/
def Value.Permits (doc op : Value) (shown : Credentials) : Prop :=
  op.at "security" = none ∨ ∃ alts, op.at "security" = some (.seq alts) ∧ ∃ alt ∈ alts, doc.Satisfied alt shown

/-- The description calls the scheme by that name: it declares it among the security schemes, or uses it as a variable. -/
inductive Api.Calls (api : Api) (name : String) (s : SecurityScheme) : Prop
  | declared {decl} (h : decl ∈ api.flatMap Section.schemeList) (hn : decl.name = name) (hs : SchemeOf decl s)
  | used (h : Part.scheme name s ∈ api.parts)

/-- The author wants the scheme to be satisfied: the value of the variable, or the scheme of that name. -/
def SecurityDecl.Wants (api : Api) : SecurityDecl → SecurityScheme → Prop
  | .scheme _ s _, s' => s = s'
  | .literal name _, s' => api.Calls name s'

/-- The author lets the request pass: the operation has no alternatives, or what one of them wants is satisfied. -/
def Api.Permits (api : Api) (ps : List OpProp) (shown : Credentials) : Prop :=
  ps.flatMap OpProp.securityList = [] ∨
  ∃ alt ∈ ps.flatMap OpProp.securityList, ∀ i ∈ alt, ∃ s, i.Wants api s ∧ shown s

/-- No name is used for two schemes. -/
def Api.OneScheme (api : Api) : Prop := ∀ name s s', api.Calls name s → api.Calls name s' → s = s'

/-- None of the names in the alternatives of the operation is used for two schemes. -/
def Api.OneSchemeIn (api : Api) (ps : List OpProp) : Prop :=
  ∀ alt ∈ ps.flatMap OpProp.securityList, ∀ i ∈ alt, ∀ s s', api.Calls i.name s → api.Calls i.name s' → s = s'

/-- The scheme that counts under a name: the one declared last, or, if none is declared, the one used first. -/
def Api.Counts (api : Api) (name : String) (s : SecurityScheme) : Prop :=
  match lastOf (SchemeDecl.named? name) (api.flatMap Section.schemeList) with
  | some decl => SchemeOf decl s
  | none => api.parts.findSome? (Part.scheme? name) = some s

end Verif
