import Verif.Model.PkgmkNames
import Verif.Model.Base
/-!
# `pkgmk`: the aliases of a port, and the footprint of its packages (/repo/scripts/pkgmk.in:132-160, 363-371, 437-484)

The names of the ports below `..`, the words the other Pkgfiles put into `alias` and the answer of `diff` are parameters. Simplification: a Pkgfile that is read for its aliases changes no
other variable of the loop.
-/
namespace Cards

/-- Why a port is refused. -/
inductive Clash where
  /-- "is a port, duplicate alias" -/
  | port (a : Str)
  /-- "is a alias of …, duplicate alias" -/
  | other (a p : Str)
deriving DecidableEq, Repr

/-- `[ ! -z $alias ]`, /repo/scripts/pkgmk.in:146: without quotes the test holds for exactly one word; with more, `[` has too many arguments, an error, and the aliases are not looked at. -/
def testedAliases (ws : List Str) : List Str :=
  match ws with
  | [w] => [w]
  | _ => []

/-- One alias and one other port, /repo/scripts/pkgmk.in:139-156. -/
def aliasClash (name : Str) (aliasOf : Str → List Str) (a p : Str) : Option Clash :=
  if p = name then none
  else if a = p then some (.port a)
  else if a ∈ testedAliases (aliasOf p) then some (.other a p)
  else none

/-- The aliases of a Pkgfile, /repo/scripts/pkgmk.in:132-160: the first clash ends the program with the status 11. `coll`: the names of `get_collections`, lines 64-76. -/
def checkAliases (name : Str) (mine coll : List Str) (aliasOf : Str → List Str) : Option Clash :=
  mine.findSome? (fun a => coll.findSome? (aliasClash name aliasOf a))

/-- A line of `diff -U 0` (without those of its own): `true` for a line only the new file has. -/
abbrev DiffLine := Bool × Str

/-- The line as it is printed. -/
def diffText (d : DiffLine) : Str := (if d.1 then '+' else '-') :: d.2

/-- The lines that `sed` deletes, /repo/scripts/pkgmk.in:450-460. -/
def fpDropped (d : DiffLine) : Bool :=
  let t := diffText d
  ["META".toList, "README".toList, "PRE".toList, "POST".toList, "PRER".toList, "POSTR".toList, "FILE".toList, "MTREE".toList].any (fun m => m.isPrefixOf (t.drop 1)) ||
    "+++".toList.isPrefixOf t || "---".toList.isPrefixOf t

/-- What is known after some packages: the footprints in the directory of the port, whether the build still counts as successful, the differences shown. -/
structure FpState where
  prints : List (Str × List Str)
  ok : Bool
  shown : List (Str × List DiffLine)

/-- One package, /repo/scripts/pkgmk.in:445-482. `made` is what `make_footprint` says of the file, `none` when there is none; `srt` is `sort -k 3`. -/
def fpStep (diff : List Str → List Str → List DiffLine) (srt : List Str → List Str) (ignoreNew : Bool) (st : FpState) (t : Str × Option (List Str)) : FpState :=
  match t.2 with
  | none => { st with ok := false }
  | some lines =>
    let name := getPackageName t.1
    match mget st.prints name with
    | none => { st with prints := mset name lines st.prints }
    | some old =>
      let d := (diff (srt old) lines).filter (fun x => !fpDropped x)
      if d = [] then st
      else if ignoreNew then { st with prints := mset name lines st.prints, shown := st.shown ++ [(t.1, d)] }
      else { st with ok := false, shown := st.shown ++ [(t.1, d)] }

/-- `check_footprint`, /repo/scripts/pkgmk.in:437-484, after `BUILD_SUCCESSFUL="yes"` (line 1058). -/
def checkFootprint (diff : List Str → List Str → List DiffLine) (srt : List Str → List Str) (ignoreNew : Bool) (prints : List (Str × List Str)) (targets : List (Str × Option (List Str))) : FpState :=
  targets.foldl (fpStep diff srt ignoreNew) ⟨prints, true, []⟩

end Cards
