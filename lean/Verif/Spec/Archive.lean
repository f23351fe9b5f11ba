import Verif.Model.Base
/-!
# Package files and their descriptions
-/
namespace Cards.Spec
open Cards

/-- A text line: no newline, no NUL. -/
def TextLine (l : Str) : Prop := '\n' ∉ l ∧ '\x00' ∉ l

/-- The content of a text file: every line is followed by a newline. -/
inductive TextFile : List Str → Str → Prop
  | nil : TextFile [] []
  | cons (l : Str) (ls : List Str) (c : Str) : TextFile ls c → TextFile (l :: ls) (l ++ '\n' :: c)

/-- The first entry of this path name has this content. -/
def Holds (t : List (Str × Str)) (n c : Str) : Prop := ∃ a b, t = a ++ (n, c) :: b ∧ ∀ e ∈ a, e.1 ≠ n

/-- The value of a field: what follows the letter in the first line that begins with it. -/
def FirstField (ls : List Str) (c : Char) (v : Str) : Prop :=
  ∃ a b, ls = a ++ (c :: v) :: b ∧ ∀ l ∈ a, l.head? ≠ some c

/-- No line begins with the letter. -/
def NoField (ls : List Str) (c : Char) : Prop := ∀ l ∈ ls, l.head? ≠ some c

/-- The value of a field, empty when there is no line. -/
def FieldOr (ls : List Str) (c : Char) (v : Str) : Prop := FirstField ls c v ∨ (NoField ls c ∧ v = [])

end Cards.Spec
