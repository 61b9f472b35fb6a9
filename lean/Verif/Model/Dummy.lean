import Verif.Model.Attr
/-!
# The item around a derived impl (dummy.rs)
-/

namespace Verif

/-- The name of the const item a derive emits (`wrap_in_const`, dummy.rs 1-25, called with `OPG_MODEL` in opg.rs 34).  The
other branch, `_`, needs `--cfg underscore_consts`, which nothing sets. -/
def implConst (trait_ ident : String) : String := "_IMPL_" ++ trait_ ++ "_FOR_" ++ unraw ident

end Verif
