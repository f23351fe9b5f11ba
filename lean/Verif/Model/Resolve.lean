import Verif.Model.Repo
import Verif.Model.RemoveCmd
/-!
# Up-to-date decisions, dependency resolution and verification of package files

Dates are numbers below 2^63 (`time_t`).
-/
namespace Cards

/-- The fields of `cards::db` the decisions look at (/repo/src/db.h, pkg.h). -/
structure Inst where
  version : Str
  release : Nat
  build : Nat
  collection : Str
  group : Str
  dependency : Bool
  space : Nat
deriving DecidableEq, Repr

/-- What `buildDatabase` /repo/src/pkgdbh.cxx:481-573 reads from a META file: the last line of a field counts, release is an
`unsigned short` and 1 without a line. `junk` stands for the build date and the space never set by the constructor of `cards::pkg`. -/
def Info.inst (junk : Nat × Nat) (i : Info) : Inst :=
  { version := i.lastField 'V'
    release := match (i.fields 'r').getLast? with | some s => (atoi s % 65536).toNat | none => 1
    build := match (i.fields 'B').getLast? with | some s => strtoul0 s | none => junk.1
    collection := i.lastField 'c'
    group := i.lastField 'g'
    dependency := i.dependency
    space := match (i.fields 'S').getLast? with | some s => ((atoi32 s) % 2 ^ 32).toNat | none => junk.2 }

/-- `m_listOfPackages` of `pkgdbh` after `buildDatabase`, its keys are `m_listOfPackagesNames`. -/
abbrev InstDb := List (Str × Inst)

/-- The database as the decisions see it. -/
def instDb (junk : Nat × Nat) (db : Db) : InstDb := db.map (fun p => (p.1, p.2.inst junk))

/-- What an archive says about itself: the first line of a field counts, release 0 and empty texts without a line
(/repo/src/archive.cxx:221-258, 374-). -/
structure ArchMeta where
  name : Str
  version : Str
  release : Int
  build : Nat
  collection : Str
  /-- the `R` lines, `getRunTimeDependenciesEpoch` /repo/src/archive.cxx:107-117 -/
  deps : List (Str × Nat)
deriving DecidableEq, Repr

/-- `checkPackageNameUptodate` /repo/src/pkgdbh.cxx:847-886. -/
def upToDate (db : InstDb) (a : ArchMeta) : Bool :=
  match mget db a.name with
  | none => false
  | some i =>
    if i.version ≠ a.version then false
    else if (i.release : Int) ≠ a.release then false
    else if i.build < a.build then false
    else if i.collection = [] then true
    else if a.collection = [] then true
    else if i.collection ≠ a.collection then false
    else true

/-- `checkPackageNameBuildDateSame` /repo/src/pkgdbh.cxx:888-901. -/
def dateSame (db : InstDb) (d : Str × Nat) : Bool :=
  if d.2 = 0 then false
  else match mget db d.1 with
    | none => false
    | some i => if i.build < d.2 then false else true

/-- The result of a download, `dwl::get` /repo/src/dwl.cxx:69-105: it throws, it receives no byte (the file on disk is not opened), or it
replaces the file. -/
inductive Fetch where
  | failed
  | empty
  | got (content : Str)
deriving DecidableEq, Repr

/-- What resolution depends on. `hash` is SHA-512 in hexadecimal, `verify` the ED25519 verification with the public key in a directory
(`none`: an exception), `opens` reads an archive. `fetch k n` is what the `k`th download, of package `n`, gives. -/
structure Net where
  /-- `m_config.url()`: the global `url` line of cards.conf. -/
  url : Str
  repo : List (Str × RepoPkg)
  db : InstDb
  hash : Str → Str
  verify : (dir sig hash : Str) → Option Bool
  opens : Str → Option ArchMeta
  fetch : Nat → Str → Fetch

/-- Why resolution stops. -/
inductive ResErr where
  /-- ERROR_ENUM_PACKAGE_NOT_EXIST -/
  | missing (n : Str)
  /-- ERROR_ENUM_WRONG_SIGNATURE -/
  | badSignature (n : Str)
  /-- any other exception: download, file that cannot be opened, archive that cannot be read, malformed signature -/
  | io (n : Str)
  /-- the steps allowed are used up (the code goes on) -/
  | hang
deriving DecidableEq, Repr

/-- The state of `generateDependencies`: `dependenciesWeMustAdd`, the keys of `m_listOfRepoPackages`, `depencenciestoSort`, the files on
disk by path, the number of downloads done. -/
structure ResSt where
  work : List (Str × Nat)
  cached : List Str
  out : List (Str × Nat)
  files : List (Str × Str)
  clock : Nat

/-- `dirName(name) + "/" + fileName(name)`. -/
def RepoPkg.path (p : RepoPkg) : Str := p.dirName ++ '/' :: p.fileName

/-- `downloadPackageFileName` /repo/src/pkgrepo.cxx:239-246. -/
def download (net : Net) (p : RepoPkg) (n : Str) (s : ResSt) : Except ResErr ResSt :=
  match net.fetch s.clock n with
  | .failed => .error (.io n)
  | .empty => .ok { s with clock := s.clock + 1 }
  | .got c => .ok { s with clock := s.clock + 1, files := mset p.path c s.files }

/-- `checkSign` /repo/src/pkgrepo.cxx:942-995 on the file of the package. -/
def checkSign (net : Net) (p : RepoPkg) (n : Str) (s : ResSt) : Except ResErr ResSt :=
  match mget s.files p.path with
  | none => .error (.io n)
  | some c =>
    match net.verify p.dirName p.signature (net.hash c) with
    | none => .error (.io n)
    | some true => .ok s
    | some false => .error (.badSignature n)

/-- Download a package file that is missing, /repo/src/pkgrepo.cxx:170-171. -/
def ensureFile (net : Net) (p : RepoPkg) (n : Str) (s : ResSt) : Except ResErr ResSt :=
  if (mget s.files p.path).isNone then download net p n s else .ok s

/-- Download again a package file with another hash than the one listed, /repo/src/pkgrepo.cxx:174-182. `generateHash` throws when the file
cannot be opened. -/
def recheckFile (net : Net) (p : RepoPkg) (n : Str) (s : ResSt) : Except ResErr ResSt :=
  match mget s.files p.path with
  | none => .error (.io n)
  | some c => if hashEq (net.hash c) p.hash then .ok s else download net p n s

/-- The verification of one package file, /repo/src/pkgrepo.cxx:169-190. -/
def fetchAndCheck (net : Net) (p : RepoPkg) (n : Str) (s : ResSt) : Except ResErr ResSt :=
  if net.url = [] then .ok s
  else ensureFile net p n s >>= recheckFile net p n >>= checkSign net p n

/-- `std::set` of dependencies. -/
def dofList (l : List (Str × Nat)) : List (Str × Nat) := l.foldl (fun s x => dinsert x s) []

/-- The dependencies an archive gives, itself included: `listofDependenciesBuildDate` /repo/src/archive.cxx:222-230. -/
def ArchMeta.depSet (a : ArchMeta) : List (Str × Nat) := dofList ((a.name, a.build) :: a.deps)

/-- `getPackageDependencies` /repo/src/pkgrepo.cxx:629-672: the dependencies not satisfied, and the name remembered in
`m_listOfRepoPackages` (that of the archive). -/
def packageDependencies (net : Net) (p : RepoPkg) (n : Str) (s : ResSt) : Except ResErr (ResSt × List (Str × Nat)) :=
  match mget s.files p.path with
  | none => .error (.io n)
  | some c =>
    match net.opens c with
    | none => .error (.io n)
    | some a =>
      if upToDate net.db a then .ok (s, [])
      else .ok ({ s with cached := sinsert a.name s.cached }, a.depSet.filter (fun d => !dateSame net.db d))

/-- The direct dependencies of a package popped from the list, /repo/src/pkgrepo.cxx:150-192: from the repository file when the package was
seen before, from its archive otherwise. `m_listOfPackages[name]` of an unknown name is an empty entry. -/
def directDeps (net : Net) (n : Str) (s : ResSt) : Except ResErr (ResSt × List (Str × Nat)) :=
  if s.cached.contains n then .ok (s, match mget net.repo n with | some p => p.deps | none => [])
  else match mget net.repo n with
    | none => .error (.missing n)
    | some p => do
      let s ← fetchAndCheck net p n s
      packageDependencies net p n s

/-- What the pop of `(n, t)` does to the list once its dependencies are known, /repo/src/pkgrepo.cxx:194-220. -/
def enqueue (net : Net) (n : Str) (deps work : List (Str × Nat)) : List (Str × Nat) :=
  (deps.filter (fun d => d.1 ≠ n)).foldl List.erase work ++ deps.filter (fun d => d.1 ≠ n && !dateSame net.db d)

/-- One pass of the main loop, /repo/src/pkgrepo.cxx:142-221. -/
def resolveStep (net : Net) (x : Str × Nat) (s : ResSt) : Except ResErr ResSt := do
  let (s, deps) ← directDeps net x.1 s
  .ok { s with out := if dateSame net.db x then s.out else s.out ++ [x], work := enqueue net x.1 deps s.work }

/-- The main loop; the first argument bounds the number of passes. -/
def depLoop (net : Net) : Nat → ResSt → Except ResErr ResSt
  | 0, _ => .error .hang
  | fuel + 1, s =>
    match s.work with
    | [] => .ok s
    | x :: work => resolveStep net x { s with work := work } >>= depLoop net fuel

/-- The last loop, /repo/src/pkgrepo.cxx:223-238: in reverse order, a name already in the list is not added. -/
def mergeDeps (list out : List (Str × Nat)) : List (Str × Nat) :=
  out.reverse.foldl (fun l x => if l.any (fun y => y.1 = x.1) then l else l ++ [x]) list

/-- What survives a call of `generateDependencies`: `m_dependenciesList`, the keys of `m_listOfRepoPackages`, the files and downloads. -/
structure RepoSess where
  list : List (Str × Nat)
  cached : List Str
  files : List (Str × Str)
  clock : Nat

/-- `generateDependencies(name)` /repo/src/pkgrepo.cxx:128-238. -/
def generateDeps (net : Net) (fuel : Nat) (root : Str) (r : RepoSess) : Except ResErr RepoSess :=
  match depLoop net fuel { work := [(root, 0)], cached := r.cached, out := [], files := r.files, clock := r.clock } with
  | .error e => .error e
  | .ok s => .ok { list := mergeDeps r.list s.out, cached := s.cached, files := s.files, clock := s.clock }

end Cards
