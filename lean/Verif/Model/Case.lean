/-!
# `opg_derive/src/case.rs`: rename rules

`char::is_uppercase` is a parameter `isUpper` (Unicode data); theorems assume it agrees with ASCII on
ASCII.  `to_ascii_lowercase` / `to_ascii_uppercase` are Lean's `Char.toLower` / `Char.toUpper`, which are
ASCII-only.  A string slice at byte 1 panics unless the first character is one byte long; a panic is
`none`.
-/

namespace Verif

/-- `enum RenameRule` (case.rs 5-30). -/
inductive RenameRule where
  | none | lowerCase | upperCase | pascalCase | camelCase | snakeCase | screamingSnakeCase
  | kebabCase | screamingKebabCase
  deriving DecidableEq, Repr

/-- `str::to_ascii_lowercase` (case.rs 37). -/
def asciiLower (s : String) : String := String.ofList (s.toList.map Char.toLower)

/-- `str::to_ascii_uppercase` (case.rs 38, 50, 62, 82). -/
def asciiUpper (s : String) : String := String.ofList (s.toList.map Char.toUpper)

/-- `s[..1].to_ascii_lowercase() + &s[1..]` (case.rs 39, 80; macros.rs 723): `none` is the slice panic
(empty string, or first character longer than one byte). -/
def lowerFirst (s : String) : Option String :=
  match s.toList with
  | [] => Option.none
  | c :: cs => if c.utf8Size = 1 then some (String.ofList (c.toLower :: cs)) else Option.none

/-- The loop of the `SnakeCase` arm (case.rs 40-49); `first` is `i == 0`. -/
def snakeLoop (isUpper : Char → Bool) : Bool → List Char → List Char
  | _, [] => []
  | first, ch :: rest =>
    (if !first && isUpper ch then ['_'] else []) ++ ch.toLower :: snakeLoop isUpper false rest

/-- `SnakeCase.apply_to_variant` (case.rs 40-49). -/
def snakeVariant (isUpper : Char → Bool) (variant : String) : String :=
  String.ofList (snakeLoop isUpper true variant.toList)

/-- `str::replace('_', "-")` (case.rs 51-54, 83-84). -/
def dashed (s : String) : String := String.ofList (s.toList.map fun c => if c = '_' then '-' else c)

/-- `RenameRule::apply_to_variant` (case.rs 33-56). -/
def RenameRule.applyToVariant (isUpper : Char → Bool) (r : RenameRule) (variant : String) :
    Option String :=
  match r with
  | .none | .pascalCase => some variant
  | .lowerCase => some (asciiLower variant)
  | .upperCase => some (asciiUpper variant)
  | .camelCase => lowerFirst variant
  | .snakeCase => some (snakeVariant isUpper variant)
  | .screamingSnakeCase => some (asciiUpper (snakeVariant isUpper variant))
  | .kebabCase => some (dashed (snakeVariant isUpper variant))
  | .screamingKebabCase => some (dashed (asciiUpper (snakeVariant isUpper variant)))

/-- The loop of the `PascalCase` arm of `apply_to_field` (case.rs 63-77). -/
def pascalLoop : Bool → List Char → List Char
  | _, [] => []
  | capitalize, ch :: rest =>
    if ch = '_' then pascalLoop true rest
    else if capitalize then ch.toUpper :: pascalLoop false rest
    else ch :: pascalLoop false rest

/-- `PascalCase.apply_to_field` (case.rs 63-77). -/
def pascalField (field : String) : String := String.ofList (pascalLoop true field.toList)

/-- `RenameRule::apply_to_field` (case.rs 58-86). -/
def RenameRule.applyToField (r : RenameRule) (field : String) : Option String :=
  match r with
  | .none | .lowerCase | .snakeCase => some field
  | .upperCase => some (asciiUpper field)
  | .pascalCase => some (pascalField field)
  | .camelCase => lowerFirst (pascalField field)
  | .screamingSnakeCase => some (asciiUpper field)
  | .kebabCase => some (dashed field)
  | .screamingKebabCase => some (dashed (asciiUpper field))

/-- `impl FromStr for RenameRule` (case.rs 89-105). -/
def RenameRule.fromStr (s : String) : Option RenameRule :=
  if s = "lowercase" then some .lowerCase
  else if s = "UPPERCASE" then some .upperCase
  else if s = "PascalCase" then some .pascalCase
  else if s = "camelCase" then some .camelCase
  else if s = "snake_case" then some .snakeCase
  else if s = "SCREAMING_SNAKE_CASE" then some .screamingSnakeCase
  else if s = "kebab-case" then some .kebabCase
  else if s = "SCREAMING-KEBAB-CASE" then some .screamingKebabCase
  else Option.none

end Verif
