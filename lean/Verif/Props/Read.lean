import Verif.Proof.Read
/-!
# C80: the written document is read back
-/

namespace Verif

open Sample

/-- **C80**.  A reader that looks up the fields of OpenAPI under their keys, and accepts no others, reads from the
written document exactly the document that was described; of the paths, it sees their texts. -/
theorem c80_read (d : Opg) (path : String → UrlPath) :
    Read.document path d.ser = some (d.repath fun p => path (UrlPath.render p)) := Read.document_ser path d

/-- **C80** with the segments of the paths, for paths whose segments contain no `/` and whose literals are not of the
form `{..}`. -/
theorem c80_read_paths (d : Opg) (plain : d.Forall docPathsPlain) : Read.document Read.template d.ser = some d := by
  rw [c80_read, Opg.repath_id (P := docPathsPlain) _ d plain]
  exact fun ps h p hp => Read.template_render (h p hp)

/-- **C80** for a schema by itself. -/
theorem c80_read_schema (m : Model) : Read.model m.ser = some m := Read.model_ser m

/-- **C80** for a security scheme by itself. -/
theorem c80_read_scheme (s : SecurityScheme) : Read.scheme s.ser = some s := Read.scheme_ser s

/-- The hypothesis holds of a document with parameters, callbacks, inline schemas and security. -/
example : document.Forall docPathsPlain ∧ Read.document Read.template document.ser = some document :=
  ⟨document_plain, c80_read_paths _ document_plain⟩

/-- The reader is not written for the writer: it reads entries in another order, and rejects unknown keys, schemas
that are not schemas and descriptions that are no strings. -/
example : Read.model (.map [(.str "items", .map [(.str "$ref", .str "#/components/schemas/A")]), (.str "type", .str "array"),
      (.str "nullable", .bool false)]) = some ⟨none, .single ⟨false, .array (.link "A")⟩⟩ ∧
    Read.model (.map [(.str "type", .str "boolean"), (.str "items", .map [])]) = none ∧
    Read.model (.map [(.str "type", .str "file")]) = none ∧
    Read.model (.map [(.str "type", .str "boolean"), (.str "description", .bool true)]) = none :=
  ⟨rfl, rfl, rfl, rfl⟩

example : Read.template "/pets/{id}/" = [.path "pets", .parameter "id", .path ""] := by decide +kernel

end Verif
