import Verif.Model.Base
import Verif.Spec.Strings
/-!
# How a reader finds the parts of a report

A part begins with a heading below an empty line and goes on to the next empty line.
-/
namespace Cards

/-- The part under the heading `h`: what follows the heading on its line, and the lines below. -/
def sectionOf (h : Str) : List Str → Option (Str × List Str)
  | [] => none
  | l :: ls =>
    if l = [] ∧ ls.head?.any (fun t => h.isPrefixOf t) then some ((ls.headD []).drop h.length, ls.tail.takeWhile (· ≠ []))
    else sectionOf h ls

/-- A decimal number. -/
def readNat (s : Str) : Option Nat :=
  if s ≠ [] ∧ s.all (fun c => '0' ≤ c ∧ c ≤ '9') then some (s.foldl (fun n c => 10 * n + (c.toNat - 48)) 0) else none

/-- The unit of a size. -/
def unitOf : Char → Option Nat
  | 'K' => some (2 ^ 10)
  | 'M' => some (2 ^ 20)
  | 'G' => some (2 ^ 30)
  | _ => none

/-- A size as people read it: `123` is 123 bytes, `12.34 K` is 1234 hundredths of 2^10 bytes. The result is a number and a number of bytes: that many hundredths
of that many bytes. Blanks in front do not count. -/
def readSize (s : Str) : Option (Nat × Nat) :=
  let s := s.dropWhile (· = ' ')
  let whole := s.takeWhile (fun c => c ≠ '.')
  match s.dropWhile (fun c => c ≠ '.') with
  | [] => (readNat whole).map (fun n => (100 * n, 1))
  | [_, a, b, ' ', u] =>
    match readNat whole, readNat [a, b], unitOf u with
    | some n, some m, some k => some (100 * n + m, k)
    | _, _, _ => none
  | _ => none

/-- What follows the label on the lines that begin with it. -/
def labelled (label : Str) (ls : List Str) : List Str :=
  ls.filterMap (fun l => if label.isPrefixOf l then some (l.drop label.length) else none)

end Cards
