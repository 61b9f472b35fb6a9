/-!
# Word structure of identifiers (specification for the case conversions)
-/

namespace Verif.Spec

/-- ASCII lower-case letter or digit. -/
def IsWordTail (c : Char) : Prop := c.isLower = true ∨ c.isDigit = true

/-- A capitalised word: one ASCII capital followed by ASCII lower-case letters or digits. -/
def CapWord (w : List Char) : Prop :=
  ∃ c cs, w = c :: cs ∧ c.isUpper = true ∧ ∀ x ∈ cs, IsWordTail x

/-- A lower-case word: one ASCII lower-case letter followed by ASCII lower-case letters or digits. -/
def LowWord (w : List Char) : Prop :=
  ∃ c cs, w = c :: cs ∧ c.isLower = true ∧ ∀ x ∈ cs, IsWordTail x

/-- A word in lower case. -/
def lowered (w : List Char) : List Char := w.map Char.toLower
/-- A word in upper case. -/
def uppered (w : List Char) : List Char := w.map Char.toUpper
/-- A word with its first letter in upper case. -/
def capitalised : List Char → List Char
  | [] => []
  | c :: cs => c.toUpper :: cs

/-- Words written one after the other. -/
def concat (ws : List (List Char)) : String := String.ofList ws.flatten
/-- Words joined by a separator. -/
def joined (sep : Char) (ws : List (List Char)) : String := String.ofList ([sep].intercalate ws)

/-- An uppercase test that is right on ASCII. -/
def AsciiUpper (isUpper : Char → Bool) : Prop := ∀ c : Char, c.toNat < 128 → isUpper c = c.isUpper

end Verif.Spec

namespace Verif.Spec

/-- A word with its first letter in lower case. -/
def uncapitalised : List Char → List Char
  | [] => []
  | c :: cs => c.toLower :: cs

/-- The documented spelling of a variant name made of capitalised words, per rule name. -/
inductive Style where
  | asIs | lowercase | uppercase | pascal | camel | snake | screamingSnake | kebab | screamingKebab
  deriving DecidableEq

def variantSpelling : Style → List (List Char) → String
  | .asIs, ws | .pascal, ws => concat ws
  | .lowercase, ws => concat (ws.map lowered)
  | .uppercase, ws => concat (ws.map uppered)
  | .camel, [] => ""
  | .camel, w :: ws => concat (uncapitalised w :: ws)
  | .snake, ws => joined '_' (ws.map lowered)
  | .screamingSnake, ws => joined '_' (ws.map uppered)
  | .kebab, ws => joined '-' (ws.map lowered)
  | .screamingKebab, ws => joined '-' (ws.map uppered)

/-- The documented spelling of a field name made of lower-case words, per rule name. -/
def fieldSpelling : Style → List (List Char) → String
  | .asIs, ws | .lowercase, ws | .snake, ws => joined '_' ws
  | .uppercase, ws | .screamingSnake, ws => joined '_' (ws.map uppered)
  | .pascal, ws => concat (ws.map capitalised)
  | .camel, [] => ""
  | .camel, w :: ws => concat (w :: ws.map capitalised)
  | .kebab, ws => joined '-' ws
  | .screamingKebab, ws => joined '-' (ws.map uppered)

/-- An ASCII Rust identifier (a lone underscore is not an identifier). -/
def AsciiIdent (s : String) : Prop :=
  ∃ c cs, s.toList = c :: cs ∧ (c.isAlpha = true ∨ c = '_') ∧
    (∀ x ∈ cs, x.isAlphanum = true ∨ x = '_') ∧ s ≠ "_"

instance (s : String) : Decidable (AsciiIdent s) :=
  match h : s.toList with
  | [] => .isFalse (by rintro ⟨c, cs, e, _⟩; rw [h] at e; cases e)
  | c :: cs =>
    if h' : (c.isAlpha = true ∨ c = '_') ∧ (∀ x ∈ cs, x.isAlphanum = true ∨ x = '_') ∧ s ≠ "_" then
      .isTrue ⟨c, cs, h, h'⟩
    else .isFalse (by
      rintro ⟨c', cs', e, h''⟩
      rw [h] at e; injection e with e1 e2; subst e1; subst e2; exact h' h'')

end Verif.Spec

namespace Verif.Spec

/-- Word-structured field names: no ASCII capitals, and the first character and every character after an
underscore is an ASCII lower-case letter. -/
def cleanField : Bool → List Char → Bool
  | _, [] => true
  | start, c :: cs =>
    if start then c.isLower && cleanField false cs
    else if c = '_' then (!cs.isEmpty) && cleanField true cs
    else !c.isUpper && cleanField false cs

end Verif.Spec

namespace Verif.Spec

/-- The parts of a field name between its underscores; an underscore at an end, or next to another one, makes an empty
part. -/
def FieldParts (s : String) (ws : List (List Char)) : Prop :=
  ws ≠ [] ∧ (∀ w ∈ ws, '_' ∉ w) ∧ s = joined '_' ws

/-- The parts of a variant name: a new one begins at every capital, but there is none before the first character. -/
def VariantParts (isUpper : Char → Bool) (s : String) (ws : List (List Char)) : Prop :=
  s = concat ws ∧ (∀ w ∈ ws, ∃ c cs, w = c :: cs ∧ ∀ x ∈ cs, isUpper x = false) ∧
    ∀ w ∈ ws.tail, ∃ c cs, w = c :: cs ∧ isUpper c = true

/-- Underscores as hyphens. -/
def hyphened (w : List Char) : List Char := w.map fun c => if c = '_' then '-' else c

/-- The first character in lower case, if it is an ASCII character. -/
def Decapitalised (w : List Char) (s : String) : Prop :=
  ∃ c cs, w = c :: cs ∧ c.toNat < 128 ∧ s = String.ofList (c.toLower :: cs)

/-- The spelling of an arbitrary field name by its parts. -/
def FieldSpelt : Style → List (List Char) → String → Prop
  | .asIs, ws, s | .lowercase, ws, s | .snake, ws, s => s = joined '_' ws
  | .uppercase, ws, s | .screamingSnake, ws, s => s = joined '_' (ws.map uppered)
  | .pascal, ws, s => s = concat (ws.map capitalised)
  | .camel, ws, s => Decapitalised (ws.map capitalised).flatten s
  | .kebab, ws, s => s = joined '-' ws
  | .screamingKebab, ws, s => s = joined '-' (ws.map uppered)

/-- The spelling of an arbitrary variant name by its parts. -/
def VariantSpelt : Style → List (List Char) → String → Prop
  | .asIs, ws, s | .pascal, ws, s => s = concat ws
  | .lowercase, ws, s => s = concat (ws.map lowered)
  | .uppercase, ws, s => s = concat (ws.map uppered)
  | .camel, ws, s => Decapitalised ws.flatten s
  | .snake, ws, s => s = joined '_' (ws.map lowered)
  | .screamingSnake, ws, s => s = joined '_' (ws.map uppered)
  | .kebab, ws, s => s = joined '-' (ws.map fun w => hyphened (lowered w))
  | .screamingKebab, ws, s => s = joined '-' (ws.map fun w => hyphened (uppered w))

end Verif.Spec
