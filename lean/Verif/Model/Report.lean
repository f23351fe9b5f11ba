import Verif.Model.Upgrade
/-!
# The report of cards diff and cards upgrade, and sizes for human readers

Messages are those without translation (`_()` gives its argument back).
-/
namespace Cards

/-- The double nearest to an `unsigned long`, ties to even: exact below 2^53. (Implicit conversion in /repo/src/string_utils.cxx:32-45.) -/
def double53 (v : Nat) : Nat :=
  if v < 2 ^ 53 then v else roundDiv v (2 ^ (Nat.log2 v - 52)) * 2 ^ (Nat.log2 v - 52)

/-- `printf` `"%5.2f"` of `n / unit`, where the quotient (by a power of two) is exact: two decimals, ties to even, at least five characters.
/repo/src/string_utils.cxx:37,41,44. -/
def fixed2 (n unit : Nat) : Str :=
  let q := roundDiv (n * 100) unit
  let t := dec (q / 100) ++ ['.', digitC (q % 100 / 10), digitC (q % 10)]
  List.replicate (5 - t.length) ' ' ++ t

/-- `sizeHumanRead` /repo/src/string_utils.cxx:29-47, with `KILO`, `MEGA`, `GIGA` of /repo/src/define.h:37-39. -/
def sizeHumanRead (v : Nat) : Str :=
  if v < 2 ^ 10 then dec v
  else if v < 2 ^ 20 then fixed2 (double53 v) (2 ^ 10) ++ " K".toList
  else if v < 2 ^ 30 then fixed2 (double53 v) (2 ^ 20) ++ " M".toList
  else fixed2 (double53 v) (2 ^ 30) ++ " G".toList

/-- What `statvfs` tells about a file system: the block size, the unit of the counts (fragment size) and the blocks available. -/
structure StatVfs where
  bsize : Nat
  frsize : Nat
  bavail : Nat
deriving DecidableEq, Repr

/-- `diff::availableSpace` /repo/src/diff.cxx:310-316. Simplification: `statvfs` does not fail. -/
def availableSpace (s : StatVfs) : Nat := s.bsize * s.bavail % 2 ^ 64

/-- `std::left << std::setw(w) << s`. -/
def padRight (w : Nat) (s : Str) : Str := s ++ List.replicate (w - s.length) ' '

/-- `installed_version` and `available_version`, /repo/src/diff.cxx:36-41, of a package that is both installed and in the repository. -/
def dealVersions (db : InstDb) (repo : List (Str × RepoPkg)) (n : Str) : Str × Str :=
  ((match mget db n with | some i => verRel i.version i.release | none => []),
   (match mget repo n with | some p => verRel p.version p.release | none => []))

/-- The names with a given status, in the order of the map. -/
def Diff.names (d : Diff) (s : UpgStatus) : List Str := (d.deals.filter (fun p => p.2.status = s)).map (·.1)

/-- `width1` /repo/src/diff.cxx:118-135. -/
def Diff.width1 (d : Diff) : Nat :=
  (d.names .outOfDate).foldl (fun w n => if n.length > w then n.length else w) 5 + 1

/-- `width2` /repo/src/diff.cxx:119-136. -/
def Diff.width2 (d : Diff) (db : InstDb) (repo : List (Str × RepoPkg)) : Nat :=
  (d.names .outOfDate).foldl (fun w n => if (dealVersions db repo n).1.length > w then (dealVersions db repo n).1.length else w) 10 + 1

/-- A part of the report that is printed when there are such packages: /repo/src/diff.cxx:171-185, 186-200, 201-215, 216-230. -/
def nameSection (details : Bool) (w : Nat) (title : String) (count : Nat) (names : List Str) : List Str :=
  if count > 0 then [[], title.toList ++ dec count] ++ (if details then names.map (padRight w) else []) else []

/-- `diff::amountInfo` /repo/src/diff.cxx:251-281. -/
def amountInfo (st : StatVfs) (d : Diff) : List Str :=
  [[], "Available space on your system:           ".toList ++ sizeHumanRead (availableSpace st) ++ "bytes".toList,
   [], "Total download size:                      ".toList ++ sizeHumanRead d.downloadSize ++ "bytes".toList,
   "Total size of reinstalled packages:       ".toList ++ sizeHumanRead d.addSize ++ "bytes".toList,
   "Total size of remove packages:            ".toList ++ sizeHumanRead d.removeSize ++ "bytes".toList] ++
  (if d.addSize > d.removeSize then
    ["Total amount of added bytes:              ".toList ++ sizeHumanRead (d.addSize - d.removeSize) ++ "bytes".toList] else []) ++
  (if d.removeSize > d.addSize then
    ["Total amount of removed bytes:            ".toList ++ sizeHumanRead (d.removeSize - d.addSize) ++ "bytes".toList] else [])

/-- The end of `diff::showInfo`, /repo/src/diff.cxx:232-249. -/
def hintLines (r : Nat) : List Str :=
  if r > 20 then
    [[], "Percentage of obsoletes packages: ".toList ++ dec r ++ " %".toList, [],
     "Use the command: \x1b[1;34msudo cards upgrade --proceed\x1b[1;0m".toList, "when you're ready to upgrade your system.".toList, []]
  else []

/-- The table of the packages that are out of date, /repo/src/diff.cxx:151-170. -/
def outTable (db : InstDb) (repo : List (Str × RepoPkg)) (d : Diff) : List Str :=
  (padRight d.width1 "Name:".toList ++ padRight (d.width2 db repo) "Installed:".toList ++ "Available:".toList) ::
  (d.names .outOfDate).map (fun n => padRight d.width1 n ++ padRight (d.width2 db repo) (dealVersions db repo n).1 ++ (dealVersions db repo n).2)

/-- `diff::showInfo` /repo/src/diff.cxx:111-250, as the list of the lines printed. The counters for new packages and conflicts stay 0. -/
def showInfo (junk : Nat) (details : Bool) (st : StatVfs) (db : InstDb) (repo : List (Str × RepoPkg)) : List Str :=
  let d := mkDiff db repo
  if d.size = 0 then ["Your system is up to date.".toList]
  else
    [[], "Number of Packages:                       ".toList ++ dec db.length,
     "Unchanged Packages:                       ".toList ++ dec d.okCount,
     "Added packages (new dependencies):        ".toList ++ dec 0,
     [], "Out of Date Packages (different version): ".toList ++ dec d.outOfDateCount] ++
    (if details then outTable db repo d else []) ++
    nameSection details d.width1 "Rebuild Packages (newer build date):      " d.newBuildCount (d.names .newBuild) ++
    nameSection details d.width1 "Obsoletes Packages (will be removed):     " d.obsoleteCount (d.names .obsolete) ++
    nameSection details d.width1 "Conflict Packages (will be removed):      " 0 [] ++
    nameSection details d.width1 "Unmaintained Packages (should be removed):" d.unmaintainedCount (d.names .unmaintained) ++
    amountInfo st d ++ hintLines (ratio junk d.okCount db.length)

end Cards
