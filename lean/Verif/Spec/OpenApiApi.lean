import Verif.Spec.OpenApi
import Verif.Spec.Api
import Verif.Spec.Deps
/-!
# Descriptions of legal documents (specification)
-/

namespace Verif

mutual
/-- A path is declared, in `paths` or in a callback of a declared operation. -/
inductive DeclaredPath (api : Api) : PathDecl → Prop
  | top {decl} (h : decl ∈ api.pathList) : DeclaredPath api decl
  | callback {ps} {c : CallbackDecl} {decl} (h : DeclaredOp api ps) (hc : c ∈ ps.flatMap OpProp.callbackList)
      (hd : decl ∈ c.paths) : DeclaredPath api decl
/-- An operation is declared. -/
inductive DeclaredOp (api : Api) : List OpProp → Prop
  | mk {decl m ps} (h : DeclaredPath api decl) (ho : ItemProp.operation m ps ∈ decl.props) : DeclaredOp api ps
end

/-- Descriptions without degenerate parts. -/
structure LegalApi (env : Env) (api : Api) : Prop where
  /-- some path is described -/
  paths : api.pathList ≠ []
  /-- every operation declares a response -/
  responses : ∀ ps, DeclaredOp api ps → ∃ code d s, OpProp.response code d s ∈ ps
  /-- and only responses with real status codes -/
  codes : ∀ ps, DeclaredOp api ps → ∀ code d s, OpProp.response code d s ∈ ps → 100 ≤ code ∧ code ≤ 599
  /-- schemas given as Rust expressions are legal -/
  raws : ∀ r, Part.raw r ∈ api.parts → r.Legal
  /-- the types mentioned, directly or inside others, have no degenerate parts -/
  types : ∀ t, Reached env (api.mentions.map fun t => (t, true)) t → LegalType env t
  /-- the names of the types mentioned by reference are legal component names -/
  names : ∀ t name, Linked env (api.mentions.map fun t => (t, true)) t → typeName env t = some name → LegalName name
  /-- no API key is sent in the path -/
  apiKeys : ∀ name ps, SchemeDecl.apiKey name ps ∈ api.flatMap Section.schemeList →
    lastOf ApiKeyProp.parameterIn? ps ≠ some .path
  mentioned : ∀ name s, Part.scheme name s ∈ api.parts → s.NotInPath
  /-- the names of security schemes are legal component names -/
  schemeNames : ∀ s ∈ api.flatMap Section.schemeList, LegalName s.name
  mentionedNames : ∀ name s, Part.scheme name s ∈ api.parts → LegalName name

/-- What is legal in a description and its document `d`, considering only what is written: later declarations of an
operation, a response or a scheme replace earlier ones. -/
structure LegalWritten (api : Api) (d : Opg) : Prop where
  /-- some path is described -/
  paths : api.pathList ≠ []
  /-- every operation that is written declares a response -/
  responses : ∀ ps o, OpIn api d ps o → ∃ code t s, OpProp.response code t s ∈ ps
  /-- and only responses with real status codes -/
  codes : ∀ ps o, OpIn api d ps o → ∀ code t s, OpProp.response code t s ∈ ps → 100 ≤ code ∧ code ≤ 599
  /-- the schemas written in operations and path items are legal (C67) -/
  schemas : ∀ ps o, OpIn api d ps o → ∀ r ∈ o.refs, LegalSchema r.ser
  parameters : ∀ decl p v, ItemIn api d decl (p, v) → ∀ r ∈ v.refs, LegalSchema r.ser
  /-- and so are the components and their names (C67, C69) -/
  components : ∀ name m, BMap.get name d.components.schemas = some m → LegalName name ∧ LegalSchema m.ser
  /-- no API key is sent in the path, by the last declaration of the name or else by the first mention -/
  apiKeys : ∀ name ps, lastOf (SchemeDecl.named? name) (api.flatMap Section.schemeList) = some (.apiKey name ps) →
    lastOf ApiKeyProp.parameterIn? ps ≠ some .path
  mentioned : ∀ name s, lastOf (SchemeDecl.named? name) (api.flatMap Section.schemeList) = none →
    api.parts.findSome? (Part.scheme? name) = some s → s.NotInPath
  /-- the names of security schemes are legal component names -/
  schemeNames : ∀ s ∈ api.flatMap Section.schemeList, LegalName s.name
  mentionedNames : ∀ name s, Part.scheme name s ∈ api.parts → LegalName name

/-- The same if types are documented by hand as well: their impls may mention security schemes, so what counts are the schemes in the
document. -/
structure LegalMixed (api : Api) (d : Opg) : Prop where
  /-- some path is described -/
  paths : api.pathList ≠ []
  /-- every operation that is written declares a response -/
  responses : ∀ ps o, OpIn api d ps o → ∃ code t s, OpProp.response code t s ∈ ps
  /-- and only responses with real status codes -/
  codes : ∀ ps o, OpIn api d ps o → ∀ code t s, OpProp.response code t s ∈ ps → 100 ≤ code ∧ code ≤ 599
  /-- the schemas written in operations and path items are legal (C67) -/
  schemas : ∀ ps o, OpIn api d ps o → ∀ r ∈ o.refs, LegalSchema r.ser
  parameters : ∀ decl p v, ItemIn api d decl (p, v) → ∀ r ∈ v.refs, LegalSchema r.ser
  /-- and so are the components and their names (C67, C69) -/
  components : ∀ name m, BMap.get name d.components.schemas = some m → LegalName name ∧ LegalSchema m.ser
  /-- security schemes have legal names, and no API key is sent in the path -/
  schemes : ∀ name s, BMap.get name d.components.securitySchemes = some s → LegalName name ∧ s.NotInPath

end Verif
