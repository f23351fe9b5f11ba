import Verif.Model.Strings
import Verif.Model.Base
/-!
# outdated: ports older than the packages of another distribution (/repo/scripts/outdated.in)

`sort -V` is modelled for texts of digits and points that do not begin with a point (those the script gives it), as GNU coreutils compares them. Not modelled: the tables of names (a
parameter), the download, the summary.
-/
namespace Cards

/-- A digit of a version. -/
def isDig (c : Char) : Bool := '0' ≤ c && c ≤ '9'

/-- The part of `sort -V` before the digits: both texts are passed over as long as they agree, a point is after the end and after a digit. -/
def verSkip : Str → Str → Ordering ⊕ (Str × Str)
  | [], [] => .inr ([], [])
  | [], d :: b => if isDig d then .inr ([], d :: b) else .inl .lt
  | c :: a, [] => if isDig c then .inr (c :: a, []) else .inl .gt
  | c :: a, d :: b =>
    if isDig c && isDig d then .inr (c :: a, d :: b)
    else if isDig c then .inl .lt
    else if isDig d then .inl .gt
    else verSkip a b

/-- The digits of both, after their zeros: the longer run is greater, then the first difference decides. -/
def verRun (fd : Ordering) : Str → Str → Ordering ⊕ (Str × Str)
  | [], [] => if fd = .eq then .inr ([], []) else .inl fd
  | [], d :: b => if isDig d then .inl .lt else if fd = .eq then .inr ([], d :: b) else .inl fd
  | c :: a, [] => if isDig c then .inl .gt else if fd = .eq then .inr (c :: a, []) else .inl fd
  | c :: a, d :: b =>
    if isDig c && isDig d then verRun (fd.then (compare c.toNat d.toNat)) a b
    else if isDig c then .inl .gt
    else if isDig d then .inl .lt
    else if fd = .eq then .inr (c :: a, d :: b) else .inl fd

/-- The comparison of `sort -V`; the first argument bounds the number of turns. -/
def verCmp : Nat → Str → Str → Ordering
  | 0, _, _ => .eq
  | n + 1, a, b =>
    if a = [] ∧ b = [] then .eq
    else match verSkip a b with
      | .inl o => o
      | .inr (a', b') => match verRun .eq (a'.dropWhile (· = '0')) (b'.dropWhile (· = '0')) with
        | .inl o => o
        | .inr (a'', b'') => verCmp n a'' b''

/-- `verlte`, /repo/scripts/outdated.in:51-53: the first is the first line of `sort -V`, which compares the bytes when the versions are equal. -/
def verlte (a b : Str) : Bool :=
  match verCmp (a.length + b.length + 1) a b with
  | .lt => true
  | .gt => false
  | .eq => decide (¬ b < a)

/-- `verlt`, /repo/scripts/outdated.in:54-56. -/
def verlt (a b : Str) : Bool := a ≠ b && verlte a b

/-- `${v//[!0-9.]/}`. -/
def digitsAndPoints (v : Str) : Str := v.filter (fun c => isDig c || c = '.')

/-- `verlt ${version//[!0-9.]/} ${pkgver//[!0-9.]/}`, /repo/scripts/outdated.in:484: an empty text is no argument, and the other becomes the first. -/
def olderVersion (version pkgver : Str) : Bool :=
  let args := [digitsAndPoints version, digitsAndPoints pkgver].filter (· ≠ [])
  verlt (args.getD 0 []) (args.getD 1 [])

/-- What getarchname says of a port: no name, a name, or (for `aspell-dict`, whose variable is misspelled) nothing new, /repo/scripts/outdated.in:109-374. -/
inductive ArchName
  | skip
  | name (n : Str)
  | same

/-- The variables of the loop. -/
structure OutState where
  archname : Str
  version : Str
  pkgver : Str
  outdated : List (Str × Str × Str)
  notFound : List Str

/-- One port, /repo/scripts/outdated.in:459-487: its name and the version of its Pkgfile, if it sets one. -/
def outStep (names : Str → ArchName) (arch : List (Str × Str)) (st : OutState) (port : Str × Option Str) : OutState :=
  let an := match names port.1 with
    | .skip => []
    | .name n => n
    | .same => st.archname
  if an = [] then { st with archname := an }
  else
    let version := port.2.getD st.version
    let pkgver := (mget arch an).getD st.pkgver
    if pkgver = [] then { st with archname := an, version := version, pkgver := pkgver, notFound := st.notFound ++ [port.1] }
    else
      let out := if pkgver.takeWhile (· ≠ '+') ≠ version ∧ olderVersion version pkgver then [(port.1, pkgver, version)] else []
      ⟨an, [], [], st.outdated ++ out, st.notFound⟩

/-- The loop over the ports of the collections. -/
def outdated (names : Str → ArchName) (arch : List (Str × Str)) (ports : List (Str × Option Str)) : OutState :=
  ports.foldl (outStep names arch) ⟨[], [], [], [], []⟩

end Cards
