import Verif.Model.Case
/-!
# The unit tests of `opg_derive/src/case.rs`

The tables of `rename_variants` (case.rs 107-139) and `rename_fields` (case.rs 141-168).
-/

namespace Verif.Cases

/-- The assertions of `rename_variants` (case.rs 126-137) on one row. -/
def variantRow (isUpper : Char → Bool) (original : String) (names : List String) : Bool :=
  [RenameRule.lowerCase, .upperCase, .camelCase, .snakeCase, .screamingSnakeCase, .kebabCase,
    .screamingKebabCase].map (·.applyToVariant isUpper original) == names.map some
  && RenameRule.none.applyToVariant isUpper original == some original
  && RenameRule.pascalCase.applyToVariant isUpper original == some original

/-- The assertions of `rename_fields` (case.rs 159-166) on one row. -/
def fieldRow (original : String) (names : List String) : Bool :=
  [RenameRule.upperCase, .pascalCase, .camelCase, .screamingSnakeCase, .kebabCase,
    .screamingKebabCase].map (·.applyToField original) == names.map some
  && RenameRule.none.applyToField original == some original
  && RenameRule.snakeCase.applyToField original == some original

example :
    ([("Outcome", ["outcome", "OUTCOME", "outcome", "outcome", "OUTCOME", "outcome", "OUTCOME"]),
      ("VeryTasty", ["verytasty", "VERYTASTY", "veryTasty", "very_tasty", "VERY_TASTY", "very-tasty",
        "VERY-TASTY"]),
      ("A", ["a", "A", "a", "a", "A", "a", "A"]),
      ("Z42", ["z42", "Z42", "z42", "z42", "Z42", "z42", "Z42"])].all fun row =>
        variantRow Char.isUpper row.1 row.2) = true := by
  decide +kernel

example :
    ([("outcome", ["OUTCOME", "Outcome", "outcome", "OUTCOME", "outcome", "OUTCOME"]),
      ("very_tasty", ["VERY_TASTY", "VeryTasty", "veryTasty", "VERY_TASTY", "very-tasty",
        "VERY-TASTY"]),
      ("a", ["A", "A", "a", "A", "a", "A"]),
      ("z42", ["Z42", "Z42", "z42", "Z42", "z42", "Z42"])].all fun row =>
        fieldRow row.1 row.2) = true := by
  decide +kernel

end Verif.Cases
