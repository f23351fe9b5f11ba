import Verif.Model.Strings
/-!
# `pkgmk`: what it accepts in a Pkgfile, and the names of the packages (/repo/scripts/pkgmk.in)

The texts are what the shell variables hold. Simplification: the arithmetic of the shell is that of a machine with 64 bits; the checks of `alias` are not here.
-/
namespace Cards

/-- The characters that `s@[[a-z0-9]*[-_+]*]*@@g` removes, /repo/scripts/pkgmk.in:96: a bracket expression with an opening bracket in it, another one, and a closing
bracket. -/
def nameChar (c : Char) : Bool :=
  c = '[' || ('a' ≤ c && c ≤ 'z') || ('0' ≤ c && c ≤ '9') || c = '-' || c = '_' || c = '+' || c = ']'

/-- The digits that `s@[0-9]*@@g` removes, /repo/scripts/pkgmk.in:113. -/
def digitChar (c : Char) : Bool := '0' ≤ c && c ≤ '9'

/-- `$(…)` takes away the line ends at the end. -/
def stripLf (s : Str) : Str := (s.reverse.dropWhile (· = '\n')).reverse

/-- `NAME_TEST`, `RELEASE_TEST`: what is left of the text. -/
def leftOver (ok : Char → Bool) (s : Str) : Str := stripLf (s.filter (fun c => !ok c))

/-- The number a word of digits stands for. -/
def decValue (s : Str) : Nat := s.foldl (fun n c => 10 * n + (c.toNat - '0'.toNat)) 0

/-- `[ $release -gt 99999999 ]` for a word of digits, /repo/scripts/pkgmk.in:118: a number that does not fit 64 bits is an error of `[`, and then the condition does
not hold. -/
def gtMax (s : Str) : Bool := decide (decValue s < 2 ^ 63) && decide (99999999 < decValue s)

/-- What the checks look at. `build`: there is a function of that name (there always is, line 618). -/
structure PkgVars where
  name : Str
  version : Str
  release : Str
  description : Str
deriving DecidableEq, Repr

/-- `check_pkgfile`, /repo/scripts/pkgmk.in:86-131: `true`: goes on. Simplification: a release with white space in it (lines) is not covered: `[` has too many
arguments then. -/
def checkPkgfile (v : PkgVars) : Bool :=
  v.name ≠ [] && leftOver nameChar v.name = [] && v.name.length ≤ 50 && v.version ≠ [] && v.release ≠ [] && leftOver digitChar v.release = [] && !gtMax v.release &&
    v.description ≠ [] && v.description.length ≤ 255

/-- `PKGMK_PACKAGE_EXT`, /repo/scripts/pkgmk.in:1634. -/
def cardsExt : Str := ".cards-".toList

/-- The file of the main package, /repo/scripts/pkgmk.in:1056, 1450; `sub`: of a sub-package, e.g. 531. -/
def pkgFileName (name : Str) (sub : Option Str) (version release : Str) : Str :=
  (match sub with | none => name | some g => name ++ '.' :: g) ++ cardsExt ++ version ++ '-' :: release

/-- `get_package_name`, `${1/.cards-*/}`: from the first `.cards-` on everything goes, /repo/scripts/pkgmk.in:161-163. -/
def getPackageName (f : Str) : Str :=
  match cutFirst cardsExt f with
  | none => f
  | some (b, _) => b

/-- `cut -d "." -f2`, /repo/scripts/pkgmk.in:747: the second field, or the whole line when there is no point in it. -/
def cutSecond (s : Str) : Str :=
  match cutFirst ".".toList s with
  | none => s
  | some (_, r) =>
    match cutFirst ".".toList r with
    | none => r
    | some (g, _) => g

/-- `fnmatch` as `find -name` uses it, for patterns of characters, `*` and sets of characters in brackets. A bracket that is not closed stands for itself. Ranges,
complements and `?` are not covered. The number is the length of the pattern. -/
def fnmatch : Nat → Str → Str → Bool
  | 0, _, s => s = []
  | _, [], s => s = []
  | n + 1, '*' :: p, s => (List.range (s.length + 1)).any (fun k => fnmatch n p (s.drop k))
  | n + 1, '[' :: p, c :: s =>
    match cutFirst "]".toList p with
    | some (set, rest) => set.contains c && fnmatch n rest s
    | none => c = '[' && fnmatch n p s
  | _ + 1, '[' :: _, [] => false
  | n + 1, x :: p, c :: s => x = c && fnmatch n p s
  | _ + 1, _ :: _, [] => false

/-- `find $PKGMK_PACKAGE_DIR -name "$name.*cards-*"`, /repo/scripts/pkgmk.in:350-359: the files that `clean`, `clean_old_binaries`, `compress_archive` and the others
take for the packages of the port. -/
def packagesList (name : Str) (dir : List Str) : List Str :=
  let p := name ++ ".*cards-*".toList
  dir.filter (fnmatch p.length p)

end Cards
