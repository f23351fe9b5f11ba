import Verif.Model.Base
/-!
# What splitting, stripping and slash squeezing mean
-/
namespace Cards.Spec
open Cards

/-- `ps` are the maximal non-empty pieces of `s` without delimiters, in order. `p` tells the delimiters. -/
inductive Pieces (p : Char → Bool) : Str → List Str → Prop
  | none (s : Str) : (∀ c ∈ s, p c = true) → Pieces p s []
  | piece (ds w rest : Str) (ps : List Str) : (∀ c ∈ ds, p c = true) → w ≠ [] → (∀ c ∈ w, p c = false) →
      (rest = [] ∨ ∃ c r, rest = c :: r ∧ p c = true) → Pieces p rest ps → Pieces p (ds ++ w ++ rest) (w :: ps)

/-- White space of the C locale. -/
def White (c : Char) : Prop := c = ' ' ∨ c = '\t' ∨ c = '\n' ∨ c = '\x0b' ∨ c = '\x0c' ∨ c = '\r'

/-- `r` is `s` without its leading and trailing white space. -/
def Stripped (s r : Str) : Prop :=
  ∃ l t, s = l ++ r ++ t ∧ (∀ c ∈ l, White c) ∧ (∀ c ∈ t, White c) ∧
    (∀ c, r.head? = some c → ¬ White c) ∧ (∀ c, r.getLast? = some c → ¬ White c)

/-- Every run of slashes becomes one slash; everything else stays. -/
def squeeze : Str → Str
  | [] => []
  | [c] => [c]
  | c :: d :: r => if c = '/' ∧ d = '/' then squeeze (d :: r) else c :: squeeze (d :: r)

end Cards.Spec
