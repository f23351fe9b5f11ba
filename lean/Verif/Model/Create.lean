import Verif.Model.Install
import Verif.Model.Ports
/-!
# cards create: build ports in a chroot

Simplifications: the process is root in a prepared chroot (`tmp/setup` exists), the log file is left out, and the search for missing shared
libraries of /repo/src/create.cxx:360-532 is left out: it only prints.
-/
namespace Cards

/-- `openArchivePackage` /repo/src/pkgdbh.cxx:1121-1177 with the constructor of `archive`, archive.cxx:8-18: the checks. -/
def openPackage (a : Archive) : Option Err :=
  if a.md.isEmpty || a.mtree.isEmpty then some .emptyPackage
  else if !a.archOk then some .wrongArch
  else if a.name.isEmpty then some .noName
  else none

/-- The upgrade block of `create::run`, /repo/src/create.cxx:268-277: the record goes before the files. -/
def createUpgrade (env : Env) (rules : List Rule) (st : St) (name : Str) (files : List Str) : St × List Str × Option Err :=
  let st := match mget st.mem name with
    | some i => if st.nameExists name && i.dependency then { st with dep := true } else st
    | none => st
  if !env.lockUpgrade then (st, [], some .locked)
  else
    let keep := keepFileList env.rx files rules
    match removeRecord st name with
    | (st, some e) => (st, keep, some e)
    | (st, none) => (removeFiles st name keep, keep, none)

/-- The rest of `create::run`, /repo/src/create.cxx:279-296. The lock of line 280 is released at once: the object is the whole body of the `if`.
With `--no-meta` the meta files, the `.POST` script among them, are removed before `postRun`, and nothing is recorded on disk. -/
def createInstall (env : Env) (noMeta : Bool) (st : St) (a : Archive) (files keep nonInst : List Str) : St × Option Err :=
  if !noMeta && !env.lockInstall then (st, some .locked)
  else
    let st := { st with fs := installArchive env keep nonInst st.fs a.entries }
    if noMeta then ({ st with mem := mset a.name { md := a.md, files := files } st.mem }, none)
    else
      let st := addRefs (moveMeta st a.name a.md) a.name { md := a.md, files := files }
      ({ st with fs := a.post st.fs }, none)

/-- `create::run` /repo/src/create.cxx:247-298; `upgrade` is `m_upgrade`. -/
def createRun (env : Env) (rules : List Rule) (noMeta upgrade : Bool) (a : Archive) (st : St) : St × Option Err :=
  match openPackage a with
  | some e => (st, some e)
  | none =>
    let sets := applyInstallRules env.rx a.files rules
    let pre := a.pre st.fs
    let st := { st with fs := pre.1 }
    if !pre.2 then (st, some .preFailed)
    else if !(conflicts st a.name sets.1).isEmpty then (st, some .conflict)
    else if upgrade then
      match createUpgrade env rules st a.name sets.1 with
      | (st, _, some e) => (st, some e)
      | (st, keep, none) => createInstall env noMeta st a sets.1 keep sets.2
    else createInstall env noMeta st a sets.1 [] sets.2

/-- What `cards create` depends on besides what `cards install` does (`E.net.repo` is the list of binaries at the start). `tree` is the loaded ports
tree, `baseLock k` whether the lock of the `k`th `base()` is free, `portDir` whether the directory of a port is found from the one the command was started in
(/repo/src/create.cxx:14, 581-585), `cwd k` the directory the program is in before the `k`th run of `pkgmk`, when that is not so (/repo/src/create.cxx:31, 208, 650),
`make k n` what the `k`th run of `pkgmk`, in the directory of port `n`, makes of the file tree, of the lists of binaries (after `cards repo`) and of the package files; `none`: it fails. -/
structure CreEnv where
  E : InstEnv
  tree : Ports
  noMeta : Bool
  dry : Bool
  baseLock : Nat → Bool
  portDir : Str → Bool
  cwd : Nat → Str
  make : Nat → Str → Fs → List (Str × RepoPkg) → List (Str × Str) → Fs × Option (List (Str × RepoPkg) × List (Str × Str))

/-- How the command ends when it does not succeed. -/
inductive CreErr where
  | inst (e : InstErr)
  /-- ERROR_ENUM_CANNOT_PARSE_FILE: pkgmk failed -/
  | buildFailed (n : Str)
  /-- the steps allowed are used up (C18 proves that they never are) -/
  | hang
deriving DecidableEq, Repr

/-- What one run of `pkgmk` finds: the port it is run for, the port whose directory it is run in, the file tree, the database on disk, the lists of binaries and the package files. -/
structure Seen where
  port : Str
  dir : Str
  fs : Fs
  disk : Db
  repo : List (Str × RepoPkg)
  files : List (Str × Str)

/-- The state of the command: that of the installing process, the lists of binaries in memory, and the history: what each run of `pkgmk` found, the
last one first (nothing in the program depends on it, besides the number of builds). -/
structure CreSt where
  inst : InstSt
  repo : List (Str × RepoPkg)
  seen : List Seen

/-- `run()` on a package file just read, with the flags set before. -/
def createFile (C : CreEnv) (upgrade dep : Bool) (a : Archive) (s : InstSt) : InstSt × Option InstErr :=
  let r := createRun (C.E.env s.count) C.E.rules C.noMeta upgrade a { s.st with dep := s.st.dep || dep }
  ({ s with st := r.1, count := s.count + 1 }, r.2.map .run)

/-- `run()` unless the name exists, /repo/src/create.cxx:58-67 and 212-243. -/
def createIfNew (C : CreEnv) (dep : Bool) (a : Archive) (s : InstSt) : InstSt × Option InstErr :=
  if s.st.nameExists a.name then (s, none) else createFile C false dep a s

/-- The sets `chroot` and `devel`, /repo/src/create.cxx:45-54, 103-106. -/
def setChroot : Str := "chroot".toList
/-- See `setChroot`. -/
def setDevel : Str := "devel".toList
/-- The package always asked for, /repo/src/create.cxx:55. -/
def cardsDevel : Str := "cards.devel".toList

/-- A member of a base set, /repo/src/create.cxx:45-54. -/
def baseMember (C : CreEnv) (i : Str) (s : InstSt) : InstSt × Option InstErr :=
  if s.st.nameExists i then (s, none) else resolveArg C.E i s

/-- The check of a sub-package of a configured group, /repo/src/create.cxx:78-88. -/
def createPrefetch (C : CreEnv) (n : Str) (s : InstSt) : InstSt × Option InstErr :=
  match mget C.E.net.repo n with
  | none => (s, none)
  | some p => if (mget s.sess.files p.path).isSome then (s, none) else (s, some (.notFound p.path))

/-- `getLocalePackagesList` /repo/src/create.cxx:69-96. -/
def createGroups (C : CreEnv) (s : InstSt) : InstSt × Option InstErr :=
  let names := groupNames C.E s.sess.list
  match seqSteps (createPrefetch C) names s with
  | (s, some e) => (s, some e)
  | (s, none) => seqSteps (resolveArg C.E) names s

/-- One package of the list of `core`, /repo/src/create.cxx:58-67. -/
def coreListed (C : CreEnv) (i : Str × Nat) (s : InstSt) : InstSt × Option InstErr :=
  match listedFile C.E s i.1 with
  | none => (s, some .unreadable)
  | some a => createIfNew C (decide (0 < i.2)) a s

/-- `create::core` /repo/src/create.cxx:43-68. -/
def core (C : CreEnv) (s : InstSt) : InstSt × Option InstErr :=
  match seqSteps (baseMember C) (packagesOfSet C.E.net.repo setChroot ++ packagesOfSet C.E.net.repo setDevel) s with
  | (s, some e) => (s, some e)
  | (s, none) =>
    match resolveArg C.E cardsDevel s with
    | (s, some e) => (s, some e)
    | (s, none) =>
      match createGroups C s with
      | (s, some e) => (s, some e)
      | (s, none) => seqSteps (coreListed C) s.sess.list s

/-- Whether the record of a package names one of the base sets, /repo/src/create.cxx:101-107. -/
def Info.inBase (i : Info) : Bool := (i.fields 's').any (fun x => x = setChroot || x = setDevel)

/-- The packages `base` removes, /repo/src/create.cxx:97-112. -/
def doomed (mem : Db) : List Str := (mem.filter (fun p => !p.2.inBase)).map (·.1)

/-- One removal of `base`, /repo/src/create.cxx:115-124: no script is run. -/
def baseStep (noMeta : Bool) (n : Str) (s : InstSt) : InstSt × Option InstErr :=
  if noMeta then ({ s with st := removeFiles s.st n [] }, none) else deleteListed false n s

/-- `create::base` /repo/src/create.cxx:97-125. The lock of line 114 is released at once. -/
def base (C : CreEnv) (k : Nat) (s : InstSt) : InstSt × Option InstErr :=
  if !C.noMeta && !C.baseLock k then (s, some (.run .locked))
  else seqSteps (baseStep C.noMeta) (doomed s.st.mem) s

/-- `archive::group()`, `archive::nls()` /repo/src/archive.cxx:289-308: the first META line with the letter. -/
def Archive.firstLine (a : Archive) (c : Char) : Str :=
  ((a.md.filterMap (fun l => if l.head? = some c then some (l.drop 1) else none)).head?).getD []

/-- How often `installDependencies` runs a package whose name does not exist, /repo/src/create.cxx:215-243: once for a main package, else once per
configured group that is its group. -/
def depCopies (groups : List Str) (a : Archive) : List Str :=
  if a.firstLine 'g' = [] ∧ a.firstLine 'n' = [] then [[]] else groups.filter (fun k => a.firstLine 'g' = k)

/-- One package file of a dependency, /repo/src/create.cxx:212-243. -/
def depFile (C : CreEnv) (path : Str) (s : InstSt) : InstSt × Option InstErr :=
  match (mget s.sess.files path).bind C.E.pkgOf with
  | none => (s, some .unreadable)
  | some a => seqSteps (fun _ => createIfNew C false a) (depCopies C.E.groups a) s

/-- `m_dependencies` of `installDependencies`, /repo/src/create.cxx:196-211, up to the port itself. -/
def depOrder (T : Ports) (list : List Str) (name : Str) : List Str :=
  ((List.range (portLevel T name)).flatMap (fun l => list.filter (fun i => portLevel T i = l))).takeWhile (fun i => i ≠ name)

/-- One dependency, /repo/src/create.cxx:209-244. -/
def depPort (C : CreEnv) (repo : List (Str × RepoPkg)) (i : Str) (s : InstSt) : InstSt × Option InstErr :=
  seqSteps (depFile C) (pathsOfGroup repo i) s

/-- `installDependencies` /repo/src/create.cxx:192-246. -/
def installDeps (C : CreEnv) (repo : List (Str × RepoPkg)) (list : List Str) (name : Str) (s : InstSt) : InstSt × Option InstErr :=
  seqSteps (depPort C repo) (depOrder C.tree list name) s

/-- One package file after the build, /repo/src/create.cxx:653-669. -/
def builtFile (C : CreEnv) (path : Str) (s : InstSt) : InstSt × Option InstErr :=
  match (mget s.sess.files path).bind C.E.pkgOf with
  | none => (s, some .unreadable)
  | some a => createFile C (s.st.nameExists a.name) false a s

/-- The environment of a build: `base`, `list`, `installDependencies`, /repo/src/create.cxx:571-574. `create::list` (lines 172-191) is `depends::list`. -/
def prepare (C : CreEnv) (name : Str) (s : CreSt) : CreSt × Option CreErr :=
  match base C s.seen.length s.inst with
  | (i, some e) => ({ s with inst := i }, some (.inst e))
  | (i, none) =>
    match dependsList C.tree (C.tree.length + 1) name [] with
    | none => ({ s with inst := i }, some .hang)
    | some list =>
      let r := installDeps C s.repo list name i
      ({ s with inst := r.1 }, r.2.map .inst)

/-- `pkgmk`, `refresh` and the installation of what was built, /repo/src/create.cxx:576-690. The test of line 576 never succeeds: `getPortDir` always
has a slash in it. When the directory cannot be entered `treatErrors` does nothing, since /repo/src/pkgdbh.cxx:61-194 has no case for
ERROR_ENUM_CANNOT_CHANGE_DIRECTORY, and `pkgmk` is run where the program is. -/
def makeAndInstall (C : CreEnv) (name : Str) (s : CreSt) : CreSt × Option CreErr :=
  let dir := if C.portDir name then name else C.cwd s.seen.length
  let m := C.make s.seen.length dir s.inst.st.fs s.repo s.inst.sess.files
  let seen := ⟨name, dir, s.inst.st.fs, s.inst.st.disk, s.repo, s.inst.sess.files⟩ :: s.seen
  let i := { s.inst with st := { s.inst.st with fs := m.1 } }
  match m.2 with
  | none => ({ s with inst := i, seen := seen }, some (.buildFailed name))
  | some (repo, files) =>
    let r := seqSteps (builtFile C) (pathsOfGroup repo name) { i with sess := { i.sess with files := files } }
    ({ inst := r.1, repo := repo, seen := seen }, r.2.map .inst)

/-- `create::buildBinary` /repo/src/create.cxx:535-691. -/
def buildBinary (C : CreEnv) (name : Str) (s : CreSt) : CreSt × Option CreErr :=
  match prepare C name s with
  | (s, some e) => (s, some e)
  | (s, none) => makeAndInstall C name s

/-- The decision of `buildCollection`, /repo/src/create.cxx:304-358. -/
def needsBuild (T : Ports) (repo : List (Str × RepoPkg)) (files : List (Str × Str)) (i : Str) : Bool :=
  match mget repo i with
  | none => true
  | some p =>
    (mget files p.path).isNone ||
      (match mget T i with
        | some q => p.version ≠ q.version || p.release ≠ q.release
        | none => p.version ≠ [] || p.release ≠ 1)

/-- The loop of `buildCollection` /repo/src/create.cxx:304-533: the ports it is announced for, besides the state. -/
def buildPorts (C : CreEnv) : List Str → CreSt → CreSt × Option CreErr × List Str
  | [], s => (s, none, [])
  | i :: is, s =>
    if needsBuild C.tree s.repo s.inst.sess.files i then
      if C.dry then
        let r := buildPorts C is s
        (r.1, r.2.1, i :: r.2.2)
      else
        match buildBinary C i s with
        | (s, some e) => (s, some e, [i])
        | (s, none) =>
          let r := buildPorts C is s
          (r.1, r.2.1, i :: r.2.2)
    else buildPorts C is s

/-- The binaries of a collection without port, /repo/src/create.cxx:145-148. -/
def obsoleteBins (C : CreEnv) (repo : List (Str × RepoPkg)) (coll : Str) : List Str :=
  (packagesOfCollection repo coll).filter (fun i => (mget C.tree i).isNone)

/-- The removal of one file of the depot, /repo/src/create.cxx:159-163; `removeFile` stops at the directory of the collection. -/
def dropBinary (repo : List (Str × RepoPkg)) (files : List (Str × Str)) (i : Str) : List (Str × Str) :=
  match mget repo i with
  | none => files
  | some p => merase p.path files

/-- `checkBinaries` /repo/src/create.cxx:143-171. -/
def checkBinaries (C : CreEnv) (coll : Str) (s : CreSt) : CreSt :=
  if C.dry then s
  else { s with inst := { s.inst with sess := { s.inst.sess with
    files := (obsoleteBins C s.repo coll).foldl (dropBinary s.repo) s.inst.sess.files } } }

/-- `buildCollection` /repo/src/create.cxx:299-534. -/
def buildCollection (C : CreEnv) (coll : Str) (s : CreSt) : CreSt × Option CreErr × List Str :=
  match portsOfCollection C.tree coll [] with
  | none => (checkBinaries C coll s, some .hang, [])
  | some ports => buildPorts C ports (checkBinaries C coll s)

/-- `cards create` /repo/src/create.cxx:5-37 on a collection (`isColl`: the argument is a directory) or a port. The last component: the ports announced. -/
def cardsCreate (C : CreEnv) (arg : Str) (isColl : Bool) (s : Sys) (sess : RepoSess) : CreSt × Option CreErr × List Str :=
  let s0 : InstSt := { st := load s false, sess := sess, count := 0 }
  let c := if C.dry then (s0, none) else core C s0
  let s1 : CreSt := { inst := c.1, repo := C.E.net.repo, seen := [] }
  match c.2 with
  | some e => (s1, some (.inst e), [])
  | none =>
    if isColl then buildCollection C arg s1
    else
      let r := buildBinary C arg s1
      (r.1, r.2, [arg])

end Cards
