import Verif.Model.Attr
/-!
# The texts of the errors of the derive macro

The tokens an error points at (its span) are not modelled.
-/

namespace Verif

/-- The texts that are made elsewhere: the `Debug` form of a string, and the error of `syn` for an attribute that can
not be parsed (attr.rs 679-681, parsing_context.rs 28-30). -/
structure Texts where
  debug : String → String
  syn : String

/-- The message of an error (`error_spanned_by`, parsing_context.rs 16-26; the texts at the lines given), as it is shown
by the compiler (`to_compile_errors`, lib.rs 30-33). -/
def DErr.text (x : Texts) : DErr → String
  | .duplicate name => "duplicate opg attribute `" ++ name ++ "`"                          -- attr.rs 725, 842
  | .duplicateModelType => "duplicate opg attribute"                                       -- attr.rs 801
  | .unknownWord _ => "unknown attribute"                                                  -- attr.rs 137, 264, 390
  | .unknownMeta p => "unknown opg variant attribute `" ++ p ++ "`"                        -- attr.rs 148, 275, 401
  | .expectedString name =>
    "expected " ++ name ++ " attribute to be a string: `" ++ name ++ " = \"...\"`"         -- attr.rs 646-649
  | .badExpr s => "failed to parse expr: " ++ x.debug s                                    -- attr.rs 573
  | .badPath s => "failed to parse path expr: " ++ x.debug s                               -- attr.rs 586
  | .expectedList a => "expected #[" ++ a ++ "(...)]"                                      -- attr.rs 676
  | .syn => x.syn
  | .untaggedUnitEnum => "unit enums are not supported for untagged"                       -- attr.rs 501
  | .unitStruct => "unit structs are not supported"                                        -- attr.rs 519
  | .union => "unions are not supported"                                                   -- attr.rs 524
  | .unionType => "union types are not supported"                                          -- ast.rs 46
  | .inconsistentDiscriminants => "varant discriminants are not consistent"                -- ast.rs 117

end Verif
