import Verif.Model.Repo
import Verif.Model.RemoveCmd
import Verif.Model.Resolve
/-!
# Queries on the installed packages: pkginfo, cards list, files, query, info
-/
namespace Cards

/-- A `time_t` printed with `<<`. -/
def showTime (n : Nat) : Str := if n < 2 ^ 63 then dec n else '-' :: dec (2 ^ 64 - n)

/-- What both forms of the list print for a package: collection, name, version, release. /repo/src/pkginfo.cxx:219-221, 225-227. -/
def shortLine (p : Str × Inst) : Str :=
  '(' :: p.2.collection ++ ')' :: ' ' :: p.1 ++ ' ' :: p.2.version ++ '-' :: dec p.2.release

/-- One line of `pkginfo -i`, whose constructor sets `m_fulllist_mode`, /repo/src/pkginfo.cxx:213-221. -/
def installedLine (p : Str × Inst) : Str := (if p.2.dependency then "AUTO: ".toList else " MAN: ".toList) ++ shortLine p

/-- `pkginfo -i`, /repo/src/pkginfo.cxx:207-228 with `m_fulllist_mode` (constructor 26-41). -/
def pkginfoInstalled (junk : Nat × Nat) (db : Db) : List Str := (instDb junk db).map installedLine

/-- `cards list`, /repo/src/list.cxx:20-22, pkginfo.cxx:8-25 and 207-228 without `m_fulllist_mode`: automatically installed packages are passed over. -/
def cardsList (junk : Nat × Nat) (db : Db) : List Str := ((instDb junk db).filter (fun p => !p.2.dependency)).map shortLine

/-- `pkginfo -n`, /repo/src/pkginfo.cxx:197-199. -/
def pkginfoNumber (db : Db) : Str := dec db.length

/-- `pkginfo -l`, `cards files`, /repo/src/pkginfo.cxx:229-249, for an argument that is not the name of a file. `none`: error, not installed. -/
def pkginfoList (db : Db) (arg : Str) : Option (List Str) :=
  match mget (loadAlias db) arg with
  | none => none
  | some p => match mget db p with | some i => some i.files | none => some []

/-- `pkginfo -b`, /repo/src/pkginfo.cxx:353-360: the record is looked up under the argument itself, and created with uninitialised numbers (`junk`) when the
argument is an alias. -/
def pkginfoBuild (junk : Nat × Nat) (db : Db) (arg : Str) : Str :=
  match mget (loadAlias db) arg with
  | none => "0".toList
  | some _ => match mget db arg with | some i => showTime (i.inst junk).build | none => showTime junk.1

/-- What `cards info` and `pkginfo -d` tell about the package (a selection), /repo/src/pkginfo.cxx:361-419. -/
structure Details where
  name : Str
  version : Str
  release : Nat
  collection : Str
  /-- `Man. installed : Yes` -/
  byHand : Bool
  /-- the names of the line `Dependencies`, which is left out when the argument has none -/
  deps : List Str
deriving DecidableEq, Repr

/-- One dependency line, /repo/src/pkgdbh.cxx:571-577. -/
def depStep (acc : List (Str × Nat)) (l : Str) : List (Str × Nat) := match parseDep l with | some d => dinsert d acc | none => acc

/-- The dependencies of a record, /repo/src/pkgdbh.cxx:571-577 (lines too short for a date make the tool throw; they are left out here). -/
def Info.depPairs (i : Info) : List (Str × Nat) :=
  (i.md.filter (fun l => l.head? = some 'R')).foldl depStep []

/-- `pkginfo -d`, `cards info`, /repo/src/pkginfo.cxx:361-419: the mark and the presence of dependencies are looked up under the argument, all else under the
name it resolves to. The mark of a record created by the look-up is not initialised (`junkDep`). -/
def pkginfoDetails (junkDep : Bool) (junk : Nat × Nat) (db : Db) (arg : Str) : Option Details :=
  match mget (loadAlias db) arg with
  | none => none
  | some p =>
    match mget db p with
    | none => none
    | some i =>
      some { name := p, version := (i.inst junk).version, release := (i.inst junk).release, collection := (i.inst junk).collection,
             byHand := !(match mget db arg with | some j => j.dependency | none => junkDep),
             deps := if (match mget db arg with | some j => j.depPairs | none => []) = [] then [] else i.depPairs.map (·.1) }

/-- A row of `pkginfo -o` and `cards query`. -/
structure OwnerRow where
  collection : Str
  name : Str
  file : Str
deriving DecidableEq, Repr

/-- The rows of one package, /repo/src/pkginfo.cxx:444-461. -/
def ownerRows (m : Str → Bool) (p : Str × Info) : List OwnerRow :=
  (p.2.files.filter (fun f => m ('/' :: f))).map (fun f => { collection := p.2.lastField 'c', name := p.1, file := f })

/-- `pkginfo -o`, `cards query`, /repo/src/pkginfo.cxx:421-478: the rows below the heading; `none`: the pattern does not compile. `rx`: what `regcomp`
and `regexec` do with the pattern. -/
def pkginfoOwner (rx : Str → Option (Str → Bool)) (db : Db) (pat : Str) : Option (List OwnerRow) :=
  match rx pat with
  | none => none
  | some m => some (db.flatMap (ownerRows m))

end Cards
