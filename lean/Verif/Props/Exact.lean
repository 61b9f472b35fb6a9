import Verif.Proof.Exact
import Verif.Props.Read
/-!
# Exact conditions on written documents (C20, C22, C23, C80)
-/

namespace Verif

open Sample

/-- C20, exactly: a written document has no repeated key iff no two paths of the document, or of one callback, are
written the same way. -/
theorem c20_exact (d : Opg) (h : d.MapsSorted) : d.ser.DistinctKeys ↔ d.Forall docPathsDistinct :=
  ⟨d.of_distinct, c20_distinct_keys_partial d h⟩

/-- C22, exactly: two documents are written the same way iff they are equal once all their paths are split at `/` and
literals of the form `{..}` are taken for parameters. -/
theorem c22_exact (d d' : Opg) : d.ser = d'.ser ↔
    d.repath (fun p => Read.template (UrlPath.render p)) = d'.repath (fun p => Read.template (UrlPath.render p)) := by
  constructor
  · intro h
    have := c80_read d Read.template
    rw [h, c80_read d' Read.template] at this
    exact (Option.some.inj this).symm
  · intro h
    have := congrArg Opg.ser h
    rwa [Opg.repath_ser Read.render_template, Opg.repath_ser Read.render_template] at this

/-- C23, exactly: two paths are written the same way iff they are equal once split at `/` and with literals of the form
`{..}` taken for parameters. -/
theorem c23_exact (p p' : UrlPath) : UrlPath.render p = UrlPath.render p' ↔
    Read.template (UrlPath.render p) = Read.template (UrlPath.render p') :=
  ⟨fun h => by rw [h], fun h => by have := congrArg UrlPath.render h; rwa [Read.render_template, Read.render_template] at this⟩

/-- C23, exactly: the paths that are read back as they were are those whose segments contain no `/` and whose literals
are not of the form `{..}`. -/
theorem c23_read_exact (p : UrlPath) : Read.template (UrlPath.render p) = p ↔ ∀ e ∈ p, e.Plain :=
  ⟨fun h => h ▸ Read.template_plain _, Read.template_render⟩

/-- C80, exactly: the documents that are read back as they were, paths included, are those with such paths. -/
theorem c80_exact (d : Opg) : Read.document Read.template d.ser = some d ↔ d.Forall docPathsPlain := by
  refine ⟨fun h => ?_, c80_read_paths d⟩
  rw [c80_read] at h
  have h := Option.some.inj h
  have hp : repathPaths (fun p => Read.template (UrlPath.render p)) d.paths = d.paths := congrArg Opg.paths h
  have hf : d.Forall (docPathsFixed fun p => Read.template (UrlPath.render p)) :=
    ⟨repathPaths_heads hp, paths_of_repath _ hp⟩
  exact Opg.forall_imp (P := docPathsFixed fun p => Read.template (UrlPath.render p))
    (Q := docPathsFixed fun p => Read.template (UrlPath.render p)) (R := docPathsPlain) ⟨fun _ _ _ => trivial, fun _ _ _ => trivial,
    fun ps h _ p hp => (c23_read_exact p.1).1 (h p hp)⟩ d hf hf

/-- Paths that are written the same way, and are so read: `/{x}/b`. -/
example : Read.template (UrlPath.render [.path "{x}/b"]) = [.parameter "x", .path "b"] ∧
    UrlPath.render [.path "{x}/b"] = UrlPath.render [.parameter "x", .path "b"] := by
  constructor <;> decide +kernel

end Verif
