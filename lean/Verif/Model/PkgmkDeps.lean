import Verif.Model.PkgmkNames
import Verif.Model.RuleFile
/-!
# `pkgmk`: the packages of `PKGMK_DEPENDS`, the collections, the categories, and which files are stripped (/repo/scripts/pkgmk.in)

Simplifications: what `pkgadd`, `pkgrm`, `pkginfo` and `find` do with what they are given is modelled by its effect only; words with characters that are special in
patterns are not covered.
-/
namespace Cards

/-- The packages on the machine: the name and the build date of each. -/
abbrev OnMachine := List (Str × Nat)

/-- What `pkginfo -b NAME` prints: the build date, and 0 when the package is not there, /repo/src/pkginfo.cxx:356-363. Simplification: aliases. -/
def builtAt (db : OnMachine) (n : Str) : Nat := ((db.find? (fun p => p.1 = n)).map (·.2)).getD 0

/-- `find -name "${NAME}.*${FILTER}*"`, /repo/scripts/pkgmk.in:41, 47-48: `FILTER` is `cards-`, the text after the last point of `.cards-`. -/
def mkDepFile (name base : Str) : Bool :=
  (name ++ ['.']).isPrefixOf base && (cutFirst "cards-".toList (base.drop (name.length + 1))).isSome

/-- `get_dependencies`, /repo/scripts/pkgmk.in:37-55: the packages to install, with their files. `files c`: the files below the directory of the collection `c`, in the order of
`find`, each with its name without directories. -/
def getDependencies (db : OnMachine) (files : Str → List (Str × Str)) (colls depends : List Str) : List (Str × Str) :=
  colls.flatMap (fun c => depends.flatMap (fun n => ((files c).filter (fun f => mkDepFile n f.2)).filterMap (fun f =>
    if builtAt db (getPackageName f.2) ≠ 0 then none else some (getPackageName f.2, f.1))))

/-- `pkgadd FILE`: `holds`: the package the file holds and its build date, if it can be installed. A package that is there already is an error, and nothing changes. -/
def addPkg (holds : Str → Option (Str × Nat)) (db : OnMachine) (file : Str) : OnMachine :=
  match holds file with
  | none => db
  | some p => if db.any (fun q => q.1 = p.1) then db else db ++ [p]

/-- `pkgrm NAME`. -/
def rmPkg (db : OnMachine) (n : Str) : OnMachine := db.filter (fun q => q.1 ≠ n)

/-- The packages are installed, /repo/scripts/pkgmk.in:928-933. -/
def addDependencies (holds : Str → Option (Str × Nat)) (db : OnMachine) (ds : List (Str × Str)) : OnMachine := ds.foldl (fun m d => addPkg holds m d.2) db

/-- `remove_dependencies`, /repo/scripts/pkgmk.in:56-63. -/
def removeDependencies (db : OnMachine) (ds : List (Str × Str)) : OnMachine := ds.foldl (fun m d => rmPkg m d.1) db

/-- The packages on the machine while the port is built, /repo/scripts/pkgmk.in:926-933. -/
def whileBuilding (holds : Str → Option (Str × Nat)) (db : OnMachine) (files : Str → List (Str × Str)) (colls depends : List Str) : OnMachine :=
  addDependencies holds db (getDependencies db files colls depends)

/-- The packages on the machine after a build, however it ended (but not when it was interrupted): `remove_dependencies` is run once or more, /repo/scripts/pkgmk.in:968, 992, 1002, 1013, 1028,
1051, 1077, 1094. -/
def afterBuild (holds : Str → Option (Str × Nat)) (db : OnMachine) (files : Str → List (Str × Str)) (colls depends : List Str) (again : Nat) : OnMachine :=
  (List.replicate (again + 1) ()).foldl (fun m _ => removeDependencies m (getDependencies db files colls depends)) (whileBuilding holds db files colls depends)

/-- The collections a port takes packages from, when nothing is set, /repo/scripts/pkgmk.in:1377-1393. -/
def defaultCollections (own : Str) : List Str :=
  if own ≠ "base".toList then
    if own = "cli".toList then ["base".toList, "cli".toList]
    else if own = "cli-extra".toList then ["base".toList, "cli".toList, "cli-extra".toList]
    else if own = "gui".toList then ["base".toList, "cli".toList, "gui".toList]
    else ["base".toList, "cli".toList, "gui".toList, own]
  else [own]

/-- `cut -d "=" -f2` of a line: what stands between the first and the second `=`; a line without `=` is printed whole. -/
def cutEq (l : Str) : Str :=
  if '=' ∈ l then ((l.dropWhile (fun c => c ≠ '=')).drop 1).takeWhile (fun c => c ≠ '=') else l

/-- `$(grep ^Categories FILE|cut -d "=" -f2)`, /repo/scripts/pkgmk.in:170: the lines with a line end between. -/
def desktopCats (ls : List Str) : Str :=
  [ '\n' ].intercalate ((ls.filter (fun l => "Categories".toList.isPrefixOf l)).map cutEq)

/-- The parts of a text between `;`. -/
def semiParts : Str → List Str
  | [] => [[]]
  | c :: s =>
    if c = ';' then [] :: semiParts s
    else match semiParts s with
      | [] => [[c]]
      | w :: ws => (c :: w) :: ws

/-- The words of `${CANDIDATS[@]}` with `IFS=";"`, /repo/scripts/pkgmk.in:173-175. `echo` of an empty word is an empty line, which is no word of the result. -/
def semiWords (s : Str) : List Str := (semiParts s).filter (fun w => w ≠ [])

/-- White space for the shell. -/
def shBlank (c : Char) : Bool := c = ' ' || c = '\n' || c = '\t'

/-- `get_categories`, /repo/scripts/pkgmk.in:167-179: the words of `categories` (`sort|uniq`). `files`: the lines of each file below `usr/share/applications`. The texts of the files are written
one after the other. A text with white space in it is more than one word for `[ ! -z $CANDIDATS ]`, an error, and then nothing is done. -/
def getCategories (files : List (List Str)) : List Str :=
  let cand := (files.map desktopCats).flatten
  if cand = [] || cand.any shBlank then [] else sofList (semiWords cand)

/-- What `file -b` says of a file, as far as it matters. -/
inductive StripKind
  | exe (stripped : Bool)
  | shared (stripped : Bool)
  | ar
  | other
deriving DecidableEq, Repr

/-- The ways to strip. -/
inductive StripHow
  | all
  | unneeded
  | debug
deriving DecidableEq, Repr

/-- The choice, /repo/scripts/pkgmk.in:384-391. -/
def stripHow : StripKind → Option StripHow
  | .exe false => some .all
  | .shared false => some .unneeded
  | .ar => some .debug
  | _ => none

/-- `while read FILE`, without `-r`: a backslash takes itself away and leaves the next character as it is. -/
def unBackslash : Str → Str
  | [] => []
  | ['\\'] => []
  | '\\' :: c :: s => c :: unBackslash s
  | c :: s => c :: unBackslash s

/-- `read FILE`: blanks at both ends go. Simplification: an escaped blank at an end would stay. -/
def readName (l : Str) : Str := ((unBackslash ((l.dropWhile (fun c => c = ' ' || c = '\t')).reverse.dropWhile (fun c => c = ' ' || c = '\t')).reverse))

/-- `grep -v -f .nostrip`, for patterns without special characters: a line with one of the patterns in it goes. -/
def noStripped (pats : List Str) (l : Str) : Bool := pats.any (fun p => (cutFirst p l).isSome)

/-- `strip_files`, /repo/scripts/pkgmk.in:372-393: the files stripped and how. `kind`: what `file -b` says, `none` when there is no such file; `nostrip`: the patterns of `.nostrip`, when it is
there. Simplification: a file name with a line end in it is not covered. -/
def stripFiles (nostrip : Option (List Str)) (kind : Str → Option StripKind) (files : List Str) : List (Str × StripHow) :=
  ((match nostrip with | none => files | some ps => files.filter (fun f => !noStripped ps f)).map readName).filterMap
    (fun f => ((kind f).bind stripHow).map (fun h => (f, h)))

end Cards
