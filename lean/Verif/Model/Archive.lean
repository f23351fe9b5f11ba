import Verif.Model.Query
import Verif.Model.Meta
/-!
# What a package file says about itself (/repo/src/archive.cxx)

A package file is the list of its entries in order, path name and content; a character of a content stands for one byte. Decompression and the tar
format are libarchive's. Simplification: a package file that cannot be opened is not considered.
-/
namespace Cards

/-- `archive::extractFileContent` /repo/src/archive.cxx:74-106: the first entry of the name, its last byte overwritten with NUL, taken as a C string and split
into lines. An entry of size 0 makes the program write in front of its buffer (`none`). Without such an entry the list stays empty. -/
def fileContent (t : List (Str × Str)) (n : Str) : Option (List Str) :=
  match t.find? (fun e => decide (e.1 = n)) with
  | none => some []
  | some e => if e.2 = [] then none else some (splitChar '\n' (e.2.dropLast.takeWhile (fun c => c ≠ '\x00')))

/-- The ways the constructor of `archive` fails. -/
inductive OpenErr where
  | outOfBounds | noMeta | noMtree | noName
deriving DecidableEq, Repr

/-- An `archive` object, /repo/src/archive.h. -/
structure Pack where
  md : List Str
  mtree : List Str
  name : Str
  arch : Str
deriving DecidableEq, Repr

/-- The loop of the getters, e.g. `archive::version` /repo/src/archive.cxx:239-248: the rest of the first line with the letter. -/
def firstWith (c : Char) (md : List Str) : Option Str := (md.find? (fun l => l.head? = some c)).map (fun l => l.drop 1)

/-- The constructor of `archive`, /repo/src/archive.cxx:5-26, with `getPackageName` 164-180 and `getPackageArch` 181-195. -/
def openPack (t : List (Str × Str)) : Except OpenErr Pack :=
  match fileContent t nMtree, fileContent t nMeta with
  | some tree, some md =>
    if md = [] then .error .noMeta
    else if tree = [] then .error .noMtree
    else match firstWith 'N' md with
      | none => .error .noName
      | some n => .ok { md := md, mtree := tree, name := n, arch := (firstWith 'a' md).getD [] }
  | _, _ => .error .outOfBounds

/-- `archive::version`, `url`, `license`, `description`, `group`, `collection`, `packager`, `contributors` /repo/src/archive.cxx:239-348: empty without a line. -/
def Pack.field (p : Pack) (c : Char) : Str := (firstWith c p.md).getD []

/-- `std::stoi(s)` with a 32 bit `int`; `none`: it throws `invalid_argument` or `out_of_range`. -/
def stoi (s : Str) : Option Int :=
  match numText 10 s with
  | none => none
  | some (neg, n) =>
    let v : Int := if neg then - (n : Int) else n
    if - 2 ^ 31 ≤ v ∧ v < 2 ^ 31 then some v else none

/-- `archive::release` /repo/src/archive.cxx:249-258. `none`: an exception no `main` catches ends the program. -/
def Pack.release (p : Pack) : Option Int :=
  match firstWith 'r' p.md with
  | none => some 0
  | some s => stoi s

/-- `archive::build` /repo/src/archive.cxx:374-385. -/
def Pack.build (p : Pack) : Nat := match firstWith 'B' p.md with | none => 0 | some s => strtoul0 s

/-- The loop of `getRunTimeDependenciesEpoch` /repo/src/archive.cxx:107-117 over the lines with the letter; `none`: `substr` throws. -/
def packDeps : List Str → List (Str × Nat) → Option (List (Str × Nat))
  | [], acc => some acc
  | l :: ls, acc =>
    if l.head? = some 'R' then
      match parseDep l with
      | none => none
      | some d => packDeps ls (dinsert d acc)
    else packDeps ls acc

/-- `archive::listofDependenciesBuildDate` /repo/src/archive.cxx:222-230: the package itself is one of them. -/
def Pack.deps (p : Pack) : Option (List (Str × Nat)) := packDeps p.md (dinsert (p.name, p.build) [])

/-- `archive::listofDependencies` /repo/src/archive.cxx:200-206, 118-125, 196-199: the `R` lines as texts, and the package's own name and build date. -/
def Pack.depTexts (p : Pack) : List Str :=
  sofList ((p.name ++ p.field 'B') :: p.md.filterMap (fun l => if l.head? = some 'R' then some (l.drop 1) else none))

/-- An `int` printed with `<<`. -/
def showInt (n : Int) : Str := if n < 0 then '-' :: dec n.natAbs else dec n.natAbs

/-- `pkginfo --archive FILE`, /repo/src/pkginfo.cxx:171-192; `none`: the program is ended by an exception. -/
def archiveInfo (p : Pack) : Option (List Str) :=
  match p.release with
  | none => none
  | some r =>
    let pre := p.name ++ " : ".toList
    some [pre ++ "Description    : ".toList ++ p.field 'D', pre ++ "Group          : ".toList ++ p.field 'g',
      pre ++ "URL            : ".toList ++ p.field 'U', pre ++ "License        : ".toList ++ p.field 'L',
      pre ++ "Contributor(s) : ".toList ++ p.field 'C', pre ++ "Packager       : ".toList ++ p.field 'P',
      pre ++ "Version        : ".toList ++ p.field 'V', pre ++ "Release        : ".toList ++ showInt r,
      pre ++ "Architecture   : ".toList ++ p.arch, pre ++ "Build date     : ".toList ++ showTime p.build,
      pre ++ "Dependencies   : ".toList ++ p.depTexts.flatMap (fun d => d ++ [' '])]

/-- `pkginfo --meta FILE`, /repo/src/pkginfo.cxx:167-170, `printMeta` archive.cxx:159-163. -/
def metaInfo (p : Pack) : List Str := p.md

/-- The architecture test of `openArchivePackage` /repo/src/pkgdbh.cxx:1133-1146: with another root than "/" it only warns. -/
def archAccepted (machine root : Str) (p : Pack) : Bool :=
  p.arch = machine || p.arch = "any".toList || decide (1 < root.length)

/-- What `openArchivePackage` /repo/src/pkgdbh.cxx:1121-1177 gives to `pkgadd::run`, for a package file with the entries `es` besides the meta files and scripts
with the effects `pre` and `post`. -/
def Pack.archive (p : Pack) (machine root : Str) (es : List Entry) (pre : Fs → Fs × Bool) (post : Fs → Fs) : Archive :=
  { name := p.name, archOk := archAccepted machine root p, md := p.md, mtree := p.mtree, entries := es, pre := pre, post := post }

/-- What the dependency resolver takes from a package file, /repo/src/pkgrepo.cxx through the getters; `none`: an exception ends the program. -/
def Pack.archMeta (p : Pack) : Option ArchMeta :=
  match p.release, packDeps p.md [] with
  | some r, some ds => some { name := p.name, version := p.field 'V', release := r, build := p.build, collection := p.field 'c', deps := ds }
  | _, _ => none

end Cards
