import Verif.Model.Outdated
import Verif.Model.Strings
import Verif.Model.Containers
/-!
# `outdated`: its report and the table of the other distribution (/repo/scripts/outdated.in:57-108, 425-566)
-/
namespace Cards

/-- `tr -dc '[[:alpha:]]'`: the letters of a name (and brackets), /repo/scripts/outdated.in:62, 451, 501, 516. -/
def lettersOf (s : Str) : Str := s.filter (fun c => c.isAlpha || c = '[' || c = ']')

/-- A row of the list: name, version there, version here. The packager that is shown behind them is left out. -/
abbrev OutRow := Str × Str × Str

/-- The variables of the loops, /repo/scripts/outdated.in:440-488: those of the loop over the ports, `wowoutputXXX`, `outdpkgcount` and `PFn`. `PODn`, `PNFn` and `T_NOTFOUND` are the lengths and the list of `st`. -/
structure RepSt where
  st : OutState
  lists : List (Str × List OutRow)
  counts : List (Str × Nat)
  compared : Nat

/-- One port, /repo/scripts/outdated.in:459-487 with `tobe_updated` /repo/scripts/outdated.in:57-68: a row that the port gives goes to the list of the collection, and its number grows. -/
def repPort (names : Str → ArchName) (arch : List (Str × Str)) (key : Str) (r : RepSt) (port : Str × Option Str) : RepSt :=
  let st := outStep names arch r.st port
  let new := st.outdated.drop r.st.outdated.length
  let compared := if st.archname = [] then r.compared else r.compared + 1
  if new = [] then { r with st := st, compared := compared }
  else ⟨st, mset key ((mget r.lists key).getD [] ++ new) r.lists, mset key ((mget r.counts key).getD 0 + 1) r.counts, compared⟩

/-- One collection, /repo/scripts/outdated.in:446-488: its list is made empty (its number is not), then its ports. -/
def repColl (names : Str → ArchName) (arch : List (Str × Str)) (folder : Str → List (Str × Option Str)) (r : RepSt) (c : Str) : RepSt :=
  (folder c).foldl (repPort names arch (lettersOf c)) { r with lists := mset (lettersOf c) [] r.lists }

/-- The loops over the collections, /repo/scripts/outdated.in:445-488. -/
def repLoop (names : Str → ArchName) (arch : List (Str × Str)) (folder : Str → List (Str × Option Str)) (cs : List Str) : RepSt :=
  cs.foldl (repColl names arch folder) ⟨⟨[], [], [], [], []⟩, [], [], 0⟩

/-- The lines of the report; the number of a collection is empty when nothing was counted. -/
inductive RepLine where
  | collection (name : Str) (number : Option Nat)
  | row (r : OutRow)
  | total (outdated compared : Nat)
  | missing (number : Nat)
  | missingName (name : Str)
deriving DecidableEq, Repr

/-- The report, /repo/scripts/outdated.in:494-566. The words of `T_NOTFOUND` are taken as the names (no name has a blank or a wildcard). -/
def outReport (summary notfound : Bool) (names : Str → ArchName) (arch : List (Str × Str)) (folder : Str → List (Str × Option Str)) (cs : List Str) : List RepLine :=
  let r := repLoop names arch folder cs
  (if summary then cs.map (fun c => .collection c (mget r.counts (lettersOf c)))
   else cs.flatMap (fun c => .collection c (mget r.counts (lettersOf c)) :: ((mget r.lists (lettersOf c)).getD []).map .row)) ++
  [.total r.st.outdated.length r.compared] ++
  (if r.st.notFound.length > 0 then [.missing r.st.notFound.length] else []) ++
  (if notfound then r.st.notFound.map .missingName else [])

/-! ## The table -/

/-- `${s%-*}`: without the last dash and what follows it. -/
def cutDash (s : Str) : Str :=
  match s.reverse.dropWhile (· ≠ '-') with
  | [] => s
  | _ :: b => b.reverse

/-- `${s%-*-*}`: without the last but one dash and what follows it; the text itself when it has fewer than two. -/
def cutDash2 (s : Str) : Str :=
  match s.reverse.dropWhile (· ≠ '-') with
  | [] => s
  | _ :: b =>
    match b.dropWhile (· ≠ '-') with
    | [] => s
    | _ :: b' => b'.reverse

/-- `${s##*:}`: what follows the last colon. -/
def afterColon (s : Str) : Str := (s.reverse.takeWhile (· ≠ ':')).reverse

/-- Without the first occurrence of a text, /repo/scripts/outdated.in:100 (the text is a pattern there; it is taken literally). -/
def dropFirst (w s : Str) : Str :=
  match cutFirst w s with
  | some (b, a) => b ++ a
  | none => s

/-- One directory of the database of the other distribution, /repo/scripts/outdated.in:97-105: its name and its version. -/
def archEntry (full : Str) : Str × Str :=
  let name := cutDash2 full
  (name, afterColon (cutDash (dropFirst (name ++ ['-']) full)))

/-- The table, /repo/scripts/outdated.in:97-106: a file for each name, a later one of the same name replaces it. The files are not written when the name ends in a slash. -/
def archTable (list : List Str) : List (Str × Str) :=
  list.foldl (fun m full => let e := archEntry full
    if e.1 = [] ∨ e.1.getLast? = some '/' then m else mset e.1 e.2 m) []

/-- `update_repo` and its message, /repo/scripts/outdated.in:83-108, 429-437: the table that is there afterwards, and whether it is called updated. For each of the two parts the result of `curl` and, if it
came, the directories in it. The old table is deleted first; the status is that of `rm list`. -/
def updateRepo (_old : List (Str × Str)) (core extra : Option (List Str)) : List (Str × Str) × Bool :=
  (archTable (core.getD [] ++ extra.getD []), core.isSome || extra.isSome)

end Cards
