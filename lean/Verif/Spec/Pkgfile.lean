import Verif.Spec.Strings
import Batteries.Data.List.Basic
/-!
# What a Pkgfile says about the dependencies of a port
-/
namespace Cards.Spec
open Cards

/-- The two array keywords. -/
def IsKeyword (k : Str) : Prop := k = "makedepends=(".toList ∨ k = "run=(".toList

/-- A line that begins an array. -/
def StartsArray (t : Str) : Prop := ∃ k, IsKeyword k ∧ k <+: t

/-- A part of a Pkgfile, its lines without the white space around them. -/
inductive PkgItem
  /-- any line outside an array, comments included -/
  | other (t : Str)
  /-- an array on one line: `run=(a b)` -/
  | short (kw body : Str)
  /-- an array on several lines; the lines in the middle may be comments -/
  | long (kw first : Str) (mids : List Str) (last trail : Str)

/-- The lines of the part. -/
def PkgItem.lines : PkgItem → List Str
  | .other t => [t]
  | .short kw body => [kw ++ body ++ [')']]
  | .long kw first mids last trail => (kw ++ first) :: (mids ++ [last ++ ')' :: trail])

/-- Inside an array, a line that is not a comment and does not end the array. -/
def Inner (t : Str) : Prop := t.head? ≠ some '#' ∧ ')' ∉ t ∧ ¬ StartsArray t

/-- The part is written the way the reader expects. -/
def PkgItem.Ok : PkgItem → Prop
  | .other t => ¬ StartsArray t
  | .short kw body => IsKeyword kw ∧ ')' ∉ body
  | .long kw first mids last trail => IsKeyword kw ∧ ')' ∉ first ∧ (∀ t ∈ mids, t.head? = some '#' ∨ Inner t) ∧ ')' ∉ last ∧
      (last ++ ')' :: trail).head? ≠ some '#' ∧ ¬ StartsArray (last ++ ')' :: trail)

/-- The texts of the part that hold names of dependencies. -/
def PkgItem.texts : PkgItem → List Str
  | .other _ => []
  | .short _ body => [body]
  | .long _ first mids last _ => first :: (mids.filter (fun t => t.head? ≠ some '#') ++ [last])

/-- Names are separated by blanks, commas and backslashes. -/
def nameSep (c : Char) : Bool := c = ' ' || c = ',' || c = '\\'

/-- `w` is a dependency listed in the parts. -/
def Lists (items : List PkgItem) (w : Str) : Prop := ∃ i ∈ items, ∃ t ∈ i.texts, ∃ ps, Pieces nameSep t ps ∧ w ∈ ps

/-- A file written as the parts say, up to the white space around its lines. -/
def Written (lines : List Str) (items : List PkgItem) : Prop :=
  (∀ i ∈ items, i.Ok) ∧ List.Forall₂ Stripped lines (items.flatMap PkgItem.lines)

/-- The last line of the file that sets `key` (`version=` or `release=`) sets it to `v`: a text without white space, comma, backslash or
number sign. -/
def Sets (lines : List Str) (key v : Str) : Prop :=
  (∀ c ∈ v, ¬ White c ∧ c ≠ ',' ∧ c ≠ '\\' ∧ c ≠ '#') ∧
    ∃ pre l post, lines = pre ++ l :: post ∧ Stripped l (key ++ v) ∧ ∀ l' ∈ post, ∀ r, Stripped l' r → ¬ key <+: r

end Cards.Spec
