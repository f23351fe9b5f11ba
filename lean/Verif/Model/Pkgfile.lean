import Verif.Model.Ports
/-!
# Reading the ports tree: `pkgfile::parse` (/repo/src/pkgfile.cxx:82-180)

Not modelled: the texts of a port other than version and release, entries starting with a dot and directories without Pkgfile
(they are skipped, /repo/src/pkgfile.cxx:97-103), NUL bytes.
-/
namespace Cards

/-- `replaceAll(line, ",", " ")` and `replaceAll(line, "\\", " ")` /repo/src/pkgfile.cxx:120-121: both replace one character by
another one (C37_replaceAll_char). -/
def cleanChar (c : Char) : Char := if c = ',' ∨ c = '\\' then ' ' else c

/-- The line as compared, /repo/src/pkgfile.cxx:119-121. -/
def cleanLine (p : Str) : Str := (stripWhiteSpace p).map cleanChar

/-- What reading one Pkgfile carries: the `found` flag, the text `s` of the dependencies, version and release of `info`. -/
structure PkgState where
  found : Bool
  s : Str
  version : Str
  release : Nat
deriving DecidableEq, Repr

/-- Replace the first `)` by a blank: `s[pos] = ' '`. -/
def blankParen : Str → Str
  | [] => []
  | c :: r => if c = ')' then ' ' :: r else c :: blankParen r

/-- An array begins: /repo/src/pkgfile.cxx:138-147 and 149-158. -/
def openArray (st : PkgState) (rest : Str) : PkgState :=
  let s := st.s ++ rest
  if ')' ∈ s then { st with s := blankParen s, found := false } else { st with s := s ++ [' '], found := true }

/-- The value of a `name=value # comment` line, /repo/src/pkgfile.cxx:129. -/
def pkgValue (line : Str) : Str := stripWhiteSpace (getValueBefore (getValue line '=') '#')

/-- One line of a Pkgfile, /repo/src/pkgfile.cxx:118-168. The other `name=` lines only set texts not modelled; like these they go on
to the test of `found`. `release` is an `unsigned short`. -/
def pkgLine (st : PkgState) (p : Str) : PkgState :=
  let line := cleanLine p
  if line.head? = some '#' then st
  else if "makedepends=(".toList.isPrefixOf line then openArray st (line.drop 13)
  else if "run=(".toList.isPrefixOf line then openArray st (line.drop 5)
  else
    let st := if "version=".toList.isPrefixOf line then { st with version := pkgValue line }
      else if "release=".toList.isPrefixOf line then { st with release := (atoi (pkgValue line) % 65536).toNat } else st
    if st.found then
      if ')' ∈ line then { st with s := st.s ++ line.takeWhile (fun c => c ≠ ')') ++ [' '], found := false }
      else { st with s := st.s ++ line ++ [' '] }
    else st

/-- `parseDelimitedSetList(s, " ")` /repo/src/string_utils.cxx:194-212. -/
def depSet (s : Str) : List Str := sofList (strtokAll [' '] s)

/-- The scan: `info` (its version, dependencies and index survive from one port to the next), `found`, the next index, the ports. -/
structure ScanState where
  version : Str
  deps : List Str
  index : Nat
  found : Bool
  next : Nat
  ports : Ports

/-- One Pkgfile found in the scan: its collection, the name of the port, its lines (`none`: it cannot be read). -/
structure PkgEntry where
  collection : Str
  name : Str
  lines : Option (List Str)

/-- /repo/src/pkgfile.cxx:105-176 for one Pkgfile. -/
def scanOne (sc : ScanState) (e : PkgEntry) : ScanState :=
  match e.lines with
  | none => { sc with ports := mset e.name (mkPort e.collection sc.version 1 sc.index sc.deps) sc.ports }
  | some lines =>
    let st := lines.foldl pkgLine ⟨sc.found, [], sc.version, 1⟩
    { version := st.version, deps := depSet st.s, index := sc.next, found := st.found, next := sc.next + 1,
      ports := mset e.name (mkPort e.collection st.version st.release sc.next (depSet st.s)) sc.ports }

/-- `pkgfile::parse` up to the levels: the entries in the order of the scan (collections in the order of the configuration, in each
the order of `readdir`). `junk` is the index of an `info` never set. -/
def scanPorts (junk : Nat) (es : List PkgEntry) : ScanState := es.foldl scanOne ⟨[], [], junk, false, 0, []⟩

end Cards
