import Verif.Spec.Api
import Verif.Spec.Read
/-!
# Requests and paths
-/

namespace Verif

/-- Text that can stand for a parameter in the path of a URL. -/
def Filling (w : String) : Prop := w ≠ "" ∧ '/' ∉ w.toList

/-- `Serves ss url bs`: the path described by the segments `ss` stands for the URL path `url`; the texts of its typed
segments are `bs`.  This is what the author of a description means. -/
inductive Serves : List PathSeg → List Char → List ((String × Ty) × String) → Prop
  | nil : Serves [] [] []
  | literal {s ss url bs} (h : Serves ss url bs) : Serves (.literal s :: ss) ('/' :: (s.toList ++ url)) bs
  | typed {seg b w ss url bs} (hb : seg.param? = some b) (hw : Filling w) (h : Serves ss url bs) :
      Serves (seg :: ss) ('/' :: (w.toList ++ url)) ((b, w) :: bs)

/-- `Matches template url bs`: the URL path matches the path template, `{name}` standing for the texts `bs`.  This is
what OpenAPI says about templates. -/
inductive Matches : List Char → List Char → List (String × String) → Prop
  | nil : Matches [] [] []
  | char {c t url bs} (hc : c ≠ '{') (h : Matches t url bs) : Matches (c :: t) (c :: url) bs
  | parameter {name w t url bs} (hn : '}' ∉ name.toList) (hw : Filling w) (h : Matches t url bs) :
      Matches ('{' :: (name.toList ++ '}' :: t)) (w.toList ++ url) ((name, w) :: bs)

/-- Literals contain no `{`, and names of parameters no `}`. -/
def PathSeg.NoBraces (s : PathSeg) : Prop :=
  match s with
  | .literal l => '{' ∉ l.toList
  | _ => ∀ n t, s.param? = some (n, t) → '}' ∉ n.toList

/-- What a segment stands for: the parts of a literal between slashes, or (`none`) any text. -/
def PathSeg.pieces : PathSeg → List (Option (List Char))
  | .literal s => (Read.splitSlash s.toList).map some
  | _ => [none]

/-- Two pieces can stand for the same text: equal literals, or any text and a literal that is not empty. -/
def Overlap : Option (List Char) → Option (List Char) → Prop
  | some l, some l' => l = l'
  | some l, none => l ≠ []
  | none, some l => l ≠ []
  | none, none => True

end Verif
