import Verif.Model.Query
import Verif.Model.Strings
/-!
# Queries on the repositories: `.FILES`, cards files/query/list/search on binaries
-/
namespace Cards

/-- `s.find(pat) != std::string::npos`. -/
def Str.has (s pat : Str) : Bool := (cutFirst pat s).isSome

/-- A package file as `cards repo` lists it in `.FILES`: its name and the names it contains. -/
structure FRec where
  file : Str
  files : List Str
deriving DecidableEq, Repr

/-- The lines `cards repo` writes for one package file, /repo/src/repo.cxx:80-104. -/
def FRec.lines (r : FRec) : List Str := ('@' :: r.file) :: r.files ++ [[]]

/-- The lines of `.FILES` of one collection, /repo/src/repo.cxx:73-121. -/
def writeFiles (rs : List FRec) : List Str := rs.flatMap FRec.lines

/-- The loop of `files::parse` over the lines of one `.FILES`, /repo/src/files.cxx:35-53. The flag of the result: the function has returned. -/
def filesScan (pat : Str) : Bool → List Str → List Str × Bool
  | _, [] => ([], false)
  | found, l :: ls =>
    if l.head? = some '@' ∧ Str.has l pat = true then filesScan pat true ls
    else if found then
      if l ≠ [] then (l :: (filesScan pat found ls).1, (filesScan pat found ls).2) else ([], true)
    else filesScan pat found ls

/-- `cards files --binaries NAME`, /repo/src/files.cxx:20-56; each collection is given by the lines of its `.FILES`. -/
def filesCmd (name : Str) : List (List Str) → List Str
  | [] => []
  | c :: cs =>
    let r := filesScan ('@' :: name ++ ".cards-".toList) false c
    if r.2 then r.1 else r.1 ++ filesCmd name cs

/-- The loop of `query::parse` over the lines of one `.FILES`, /repo/src/query.cxx:49-71; `nm` is `Pkg.name`. -/
def queryScan (m : Str → Bool) (coll : Str) : Str → List Str → List OwnerRow
  | _, [] => []
  | nm, l :: ls =>
    if l.head? = some '@' then queryScan m coll (l.drop 1) ls
    else if m ('/' :: l) then ⟨coll, nm, '/' :: l⟩ :: queryScan m coll nm ls
    else queryScan m coll nm ls

/-- `cards query --binaries PATTERN`, /repo/src/query.cxx:20-90: the rows below the heading. Simplification: `Pkg.name` is empty at the start of each
collection instead of keeping its value; the first line of a `.FILES` is a file name, so this is not visible. -/
def queryCmd (m : Str → Bool) (colls : List (Str × List Str)) : List OwnerRow := colls.flatMap (fun c => queryScan m c.1 [] c.2)

/-- The variables of `pkgrepo::parseFiles`: `pkgName`, `pkgFound` and the `files` of `m_listOfPackages`. -/
structure PFiles where
  name : Str
  found : Bool
  map : List (Str × List Str)

/-- One line, /repo/src/pkgrepo.cxx:568-584. -/
def PFiles.line (s : PFiles) (p : Str) : PFiles :=
  match (if p.head? = some '@' then cutFirst ".cards-".toList p else none) with
  | some (b, _) => { s with name := b.drop 1, found := true }
  | none =>
    if s.found then
      if p ≠ [] then { s with map := mset s.name (sinsert p ((mget s.map s.name).getD [])) s.map } else { s with found := false }
    else s

/-- The lines of one `.FILES`, /repo/src/pkgrepo.cxx:554-585. -/
def PFiles.coll (s : PFiles) (ls : List Str) : PFiles := ls.foldl PFiles.line s

/-- `pkgrepo::parseFiles` /repo/src/pkgrepo.cxx:547-586 on the lines of the readable `.FILES`. Simplification: only the file sets. -/
def parseFilesCmd (colls : List (List Str)) : List (Str × List Str) :=
  (colls.foldl PFiles.coll ⟨[], false, []⟩).map

/-- `search::package`, /repo/src/search.h. -/
structure SPkg where
  name : Str
  version : Str
  release : Str
  collection : Str
  description : Str
  url : Str
  packager : Str
  group : Str
  nls : Str
deriving DecidableEq, Repr

/-- The record at the start of a collection, /repo/src/search.cxx:47-48. -/
def SPkg.start : SPkg := ⟨[], [], [], " ".toList, [], [], [], [], []⟩

/-- The `switch` over the field letter, /repo/src/search.cxx:63-92. -/
def SPkg.field (s : SPkg) (l : Str) : SPkg :=
  let v := l.drop 1
  match l.head? with
  | none => s
  | some c =>
    if c = 'N' then { s with name := v }
    else if c = 'V' then { s with version := v }
    else if c = 'r' then { s with release := v }
    else if c = 'c' then { s with collection := v }
    else if c = 'D' then { s with description := v }
    else if c = 'U' then { s with url := v }
    else if c = 'P' then { s with packager := v }
    else if c = 'g' then { s with group := v }
    else if c = 'n' then { s with nls := v }
    else s

/-- One line of `.REPO` in `search::parse`, /repo/src/search.cxx:50-95: the record under construction and the records found, last first. -/
def searchLine (s : SPkg × List SPkg) (l : Str) : SPkg × List SPkg :=
  if l = [] then ({ s.1 with group := [], description := [], nls := [] }, s.1 :: s.2) else (s.1.field l, s.2)

/-- `search::parse` /repo/src/search.cxx:16-100 on the lines of the `.REPO` files. -/
def searchParse (colls : List (List Str)) : List SPkg :=
  colls.flatMap (fun ls => (ls.foldl searchLine (SPkg.start, [])).2.reverse)

/-- Whether `search::list` prints the record, /repo/src/search.cxx:109-138; `names`: the option --names. -/
def searchHit (names : Bool) (arg : Str) (j : SPkg) : Bool :=
  let k := convertToLowerCase arg
  if names then Str.has j.name k
  else (Str.has j.collection k || Str.has j.name k || Str.has (convertToLowerCase j.description) k || Str.has (convertToLowerCase j.url) k ||
      Str.has (convertToLowerCase j.packager) k || Str.has (convertToLowerCase j.version) k) && j.nls = []

/-- What is printed of a package: collection, name, version, description. -/
structure SRow where
  collection : Str
  name : Str
  version : Str
  description : Str
deriving DecidableEq, Repr

/-- `cards search`, /repo/src/search.cxx:101-153. The colour of installed packages is left out. -/
def searchCmd (names : Bool) (arg : Str) (colls : List (List Str)) : List SRow :=
  ((searchParse colls).filter (searchHit names arg)).map (fun j => ⟨j.collection, j.name, j.version, j.description⟩)

/-- `cards list --sets`, /repo/src/list.cxx:24-72. -/
def listSetsCmd (colls : List (List Str)) : List Str :=
  sofList ((colls.flatMap id).filterMap (fun l => if l.head? = some 's' then some (l.drop 1) else none))

/-- A line of `cards list --binaries`: collection, name, version, release. -/
structure LRow where
  collection : Str
  name : Str
  version : Str
  release : Str
deriving DecidableEq, Repr

/-- `cards list --binaries`, /repo/src/list.cxx:73-149: the loop is that of `search::parse` with fewer fields. -/
def listBinariesCmd (colls : List (List Str)) : List LRow :=
  (searchParse colls).map (fun j => ⟨j.collection, j.name, j.version, j.release⟩)

end Cards
