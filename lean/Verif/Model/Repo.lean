import Verif.Model.LineFile
import Verif.Model.Numbers
/-!
# The repository metadata: writing and reading `.REPO`, queries
-/
namespace Cards

/-- The order of `std::pair<std::string, time_t>`. -/
def depLt (a b : Str × Nat) : Bool := a.1 < b.1 || (a.1 = b.1 && a.2 < b.2)

/-- Insertion into `std::set<std::pair<std::string, time_t>>`. -/
def dinsert (x : Str × Nat) : List (Str × Nat) → List (Str × Nat)
  | [] => [x]
  | y :: ys => if x = y then y :: ys else if depLt x y then x :: y :: ys else y :: dinsert x ys

/-- A repository entry, `cards::cache` (/repo/src/cache.h, pkg.h). The fields that no code modelled here looks at (libraries, categories, files,
status) are left out; libraries and categories are treated like `sets`. -/
structure RepoPkg where
  dirName : Str
  origin : Str
  fileName : Str
  group : Str
  nls : Str
  baseName : Str
  version : Str
  release : Nat
  space : Nat
  arch : Str
  description : Str
  url : Str
  contributors : Str
  maintainer : Str
  packager : Str
  license : Str
  build : Nat
  collection : Str
  hash : Str
  signature : Str
  size : Nat
  aliases : List Str
  sets : List Str
  conflicts : List Str
  deps : List (Str × Nat)
deriving DecidableEq, Repr

/-- A number as value of the type `int`, reduced modulo 2^32. -/
def wrap32 (n : Int) : Int := let m := n % 2 ^ 32; if m < 2 ^ 31 then m else m - 2 ^ 32

/-- `atoi` of glibc: `(int) strtol(s, nullptr, 10)` with a 64 bit `long` (/repo/src/pkgrepo.cxx:444, 515). The standard leaves overflow
undefined; this is what glibc does. -/
def atoi32 (s : Str) : Int :=
  match numText 10 s with
  | none => 0
  | some (neg, n) => wrap32 (if neg then max (- (n : Int)) (- 2 ^ 63) else min (n : Int) (2 ^ 63 - 1))

/-- `std::stoi(s)`: throws (`none`) when there is no number or it does not fit an `int`. -/
def stoi10 (s : Str) : Option Int :=
  match numText 10 s with
  | none => none
  | some (neg, n) =>
    let v : Int := if neg then - (n : Int) else n
    if -2 ^ 31 ≤ v ∧ v < 2 ^ 31 then some v else none

/-- The variables of the reading loop: the record under construction `info` (declared outside of all loops, /repo/src/pkgrepo.cxx:394), `pkgName`, `pkgFound`
and the sets being collected (one instance per collection file, 421-430), and `m_listOfPackages`. -/
structure RepoSt where
  info : RepoPkg
  name : Str
  found : Bool
  aliases : List Str
  sets : List Str
  conflicts : List Str
  deps : List (Str × Nat)
  map : List (Str × RepoPkg)
deriving DecidableEq, Repr

/-- `m_listOfPackages[key]` creates a default entry when there is none. The numbers of a default entry are not initialised; 0 here. -/
def defaultPkg : RepoPkg :=
  { dirName := [], origin := [], fileName := [], group := [], nls := [], baseName := [], version := [], release := 0, space := 0, arch := [],
    description := [], url := [], contributors := [], maintainer := [], packager := [], license := [], build := 0, collection := [], hash := [],
    signature := [], size := 0, aliases := [], sets := [], conflicts := [], deps := [] }

/-- The `switch` over the field letter, /repo/src/pkgrepo.cxx:443-521; `p` is the line. The release of a line `std::stoi` rejects is handled by the
caller. -/
def RepoSt.field (s : RepoSt) (p : Str) : RepoSt :=
  let v := p.drop 1
  match p.head? with
  | none => s
  | some c =>
    if c = 'N' then { s with name := v }
    else if c = 'V' then { s with info := { s.info with version := v } }
    else if c = 'r' then { s with info := { s.info with release := (((stoi10 v).getD 0) % 65536).toNat } }
    else if c = 'S' then { s with info := { s.info with space := ((atoi32 v) % 2 ^ 32).toNat } }
    else if c = 'a' then { s with info := { s.info with arch := v } }
    else if c = 'D' then { s with info := { s.info with description := v } }
    else if c = 'U' then { s with info := { s.info with url := v } }
    else if c = 'C' then { s with info := { s.info with contributors := v } }
    else if c = 'M' then { s with info := { s.info with maintainer := v } }
    else if c = 'P' then { s with info := { s.info with packager := v } }
    else if c = 'L' then { s with info := { s.info with license := v } }
    else if c = 'B' then { s with info := { s.info with build := strtoul0 v } }
    else if c = 'c' then { s with info := { s.info with collection := v } }
    else if c = 'g' then
      { s with info := { s.info with group := v, baseName := if s.name.length < p.length then s.name else s.name.take (s.name.length - p.length) } }
    else if c = 'n' then
      { s with info := { s.info with nls := v, baseName := if s.name.length < p.length then s.name else s.name.take (s.name.length - p.length) } }
    else if c = 'R' then
      if 14 < p.length then { s with deps := dinsert ((p.drop 1).take (p.length - 11), strtoul0 (p.drop (p.length - 10))) s.deps } else s
    else if c = 'A' then { s with aliases := sinsert v s.aliases }
    else if c = 's' then { s with sets := sinsert v s.sets }
    else if c = 'o' then { s with conflicts := sinsert v s.conflicts }
    else if c = 'H' then { s with info := { s.info with hash := v } }
    else if c = 'I' then { s with info := { s.info with signature := v } }
    else if c = 'i' then { s with info := { s.info with size := ((atoi32 v) % 2 ^ 64).toNat } }
    else s

/-- An empty line ends a record, /repo/src/pkgrepo.cxx:523-543. -/
def RepoSt.finish (s : RepoSt) : RepoSt :=
  let (coll, map) :=
    if s.info.collection = [] ∧ s.info.baseName ≠ [] then
      match mget s.map s.info.baseName with
      | some b => (b.collection, s.map)
      | none => ([], mset s.info.baseName defaultPkg s.map)
    else (s.info.collection, s.map)
  let info := { s.info with collection := coll, aliases := s.aliases, sets := s.sets, conflicts := s.conflicts, deps := s.deps }
  { s with info := info, found := false, aliases := [], sets := [], conflicts := [], deps := [], map := mset s.name info map }

/-- One line of the file, /repo/src/pkgrepo.cxx:431-544. `none`: `std::stoi` throws and the program ends. -/
def RepoSt.line (s : RepoSt) (p : Str) : Option RepoSt :=
  if p.head? = some '@' then
    if (cutFirst ".cards-".toList p).isSome then
      some { s with info := { s.info with fileName := p.drop 1, group := [], nls := [], baseName := [] }, found := true }
    else some s
  else if p = [] then some s.finish
  else if s.found then
    if p.head? = some 'r' ∧ stoi10 (p.drop 1) = none then none else some (s.field p)
  else some s

/-- A configured collection: depot directory, origin URL and the content of its `.REPO` (`none`: cannot be read). -/
structure Coll where
  dir : Str
  name : Str
  origin : Str
  repo : Option (List Str)
deriving DecidableEq, Repr

/-- The body of the loop over the collections, /repo/src/pkgrepo.cxx:396-545: `info` and the map go from one collection to the next, the other variables are
new. The file is given by its lines (as `parseFile` returns them). -/
def readColl (s : RepoPkg × List (Str × RepoPkg)) (c : Coll) : Option (RepoPkg × List (Str × RepoPkg)) :=
  let info := { s.1 with dirName := c.dir ++ '/' :: c.name, collection := c.name, origin := c.origin }
  match c.repo with
  | none => some (info, s.2)
  | some ls =>
    match ls.foldlM RepoSt.line { info := info, name := [], found := false, aliases := [], sets := [], conflicts := [], deps := [], map := s.2 } with
    | none => none
    | some r => some (r.info, r.map)

/-- `pkgrepo::parse` /repo/src/pkgrepo.cxx:389-546. `init` is the record variable as declared: its numbers are not initialised, so it is arbitrary. -/
def parseRepo (init : RepoPkg) (colls : List Coll) : Option (List (Str × RepoPkg)) :=
  (colls.foldlM readColl (init, [])).map (·.2)

/-- A package file as `cards repo` describes it: its name, the lines of its META, hash, signature and size. -/
structure Rec where
  file : Str
  md : List Str
  hash : Str
  sign : Str
  size : Nat
deriving DecidableEq, Repr

/-- The lines `cards repo` writes for one package file, /repo/src/repo.cxx:82-117. -/
def Rec.lines (r : Rec) : List Str :=
  ('@' :: r.file) :: r.md ++ ['H' :: r.hash, 'I' :: r.sign, 'i' :: itos r.size, []]

/-- The lines of the `.REPO` file `cards repo` writes for one collection, /repo/src/repo.cxx:73-121. -/
def writeRepo (rs : List Rec) : List Str := rs.flatMap Rec.lines

/-- `getListOfPackagesFromSet` /repo/src/pkgrepo.cxx:679-694. -/
def packagesOfSet (m : List (Str × RepoPkg)) (name : Str) : List Str :=
  m.foldl (fun acc p => if p.2.sets.any (fun s => s = name && p.2.group = []) then sinsert p.1 acc else acc) []

/-- `getListOfPackagesFromCollection` /repo/src/pkgrepo.cxx:695-709. -/
def packagesOfCollection (m : List (Str × RepoPkg)) (name : Str) : List Str :=
  m.foldl (fun acc p => if p.2.collection = name ∧ p.2.group = [] ∧ p.2.nls = [] then sinsert p.1 acc else acc) []

/-- `getListOfPackagesFromGroup` /repo/src/pkgrepo.cxx:1003-1024: the paths of the package and of its sub-packages. -/
def pathsOfGroup (m : List (Str × RepoPkg)) (name : Str) : List Str :=
  match mget m name with
  | none => []
  | some b => m.foldl (fun acc p => if p.2.baseName = name then sinsert (p.2.dirName ++ '/' :: p.2.fileName) acc else acc)
      [b.dirName ++ '/' :: b.fileName]

end Cards
