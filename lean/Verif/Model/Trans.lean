import Verif.Model.Fs
import Verif.Model.Rules
/-!
# The package transactions: pkgadd and pkgrm
-/
namespace Cards

/-- A package record, in memory (`cards::db`, /repo/src/db.h) and on disk (the files `META` and `files` of
`var/lib/pkg/DB/<name>/`). `md` are the lines of META, `files` the recorded file list. All the fields of
`cards::db` derive from META lines (/repo/src/pkgdbh.cxx:499-580). -/
structure Info where
  md : List Str
  files : List Str
deriving DecidableEq, Repr

/-- The database: package records by name. -/
abbrev Db := List (Str × Info)

/-- The line that marks a package as automatically installed, /repo/src/pkgdbh.cxx:578-579, 697. -/
def d1 : Str := "d1".toList

/-- `info.dependency()`: `buildDatabase` sets it iff some line equals "d1" (/repo/src/pkgdbh.cxx:578-579). -/
def Info.dependency (i : Info) : Bool := i.md.contains d1

/-- The aliases declared by META lines `A<alias>` (/repo/src/pkgdbh.cxx:562-565). -/
def Info.aliases (i : Info) : List Str :=
  i.md.filterMap (fun l => match l with | 'A' :: r => some r | _ => none)

/-- One entry of a package archive. -/
structure Entry where
  path : Str
  node : Node
deriving DecidableEq, Repr

/-- A package archive as the tools see it. `md` are the lines of `.META`, `mtree` the lines of
`.MTREE` (the file list the tools record), `entries` all entries in archive order except the meta files
`.META .MTREE .PRE .POST .PRER .POSTR`, `pre`/`post` the effect on the file
tree of running the `.PRE`/`.POST` script (the Boolean: exit status 0). Simplification: scripts change the file tree only,
not the database. `archOk` tells whether the architecture test of /repo/src/pkgdbh.cxx:1134-1146 accepts it. -/
structure Archive where
  name : Str
  archOk : Bool
  md : List Str
  mtree : List Str
  entries : List Entry
  pre : Fs → Fs × Bool
  post : Fs → Fs

/-- The state outside the processes: the file tree and the package database on disk. -/
structure Sys where
  fs : Fs
  disk : Db

/-- Command line options of pkgadd (/repo/src/pkgadd.cxx:20-55), plus `asDep`: the caller called `setDependency()`
(cards install, /repo/src/install.cxx) before `run()`. -/
structure Opts where
  upgrade : Bool
  force : Bool
  runPrePost : Bool
  asDep : Bool
deriving DecidableEq, Repr

/-- What the environment decides: the regular expression matcher, which extractions fail, and whether each
of the three lock acquisitions of pkgadd::run succeeds. -/
structure Env where
  rx : Matcher
  extractFails : List Str → Bool
  lockForce : Bool
  lockUpgrade : Bool
  lockInstall : Bool

/-- The ways a command ends with an error. -/
inductive Err where
  | emptyPackage | wrongArch | noName
  | alreadyInstalled | notInstalled | preFailed | conflict | locked | cannotRead
deriving DecidableEq, Repr

/-- The state of a running process together with the state it acts on. -/
structure St where
  fs : Fs
  disk : Db
  /-- `m_listOfPackages` -/
  mem : Db
  /-- the keys of `m_listOfAlias` with the name each resolves to -/
  alias : List (Str × Str)
  /-- `m_dependency` -/
  dep : Bool

/-- `m_listOfAlias` as filled by `buildDatabase` /repo/src/pkgdbh.cxx:498, 562-565: every name, and every alias. -/
def loadAlias (db : Db) : List (Str × Str) :=
  db.foldl (fun m p => p.2.aliases.foldl (fun m a => mset a p.1 m) (mset p.1 p.1 m)) []

/-- `buildDatabase(true)` /repo/src/pkgdbh.cxx:468-649 on a database directory in which every package directory has a
readable `files` file. (Incomplete directories are modelled in `Model/Crash.lean`.) -/
def load (s : Sys) (dep : Bool) : St :=
  { fs := s.fs, disk := s.disk, mem := s.disk, alias := loadAlias s.disk, dep := dep }

/-- `checkPackageNameExist` /repo/src/pkgdbh.cxx:813-816. -/
def St.nameExists (st : St) (name : Str) : Bool := (mget st.alias name).isSome

/-- The archive's tracked files, `archive::setofFiles`: the names listed in `.MTREE` not starting with '.'
(/repo/src/archive.cxx:21-25, copied at pkgdbh.cxx:1168-1171). -/
def Archive.files (a : Archive) : List Str :=
  sofList (a.mtree.filter (fun p => p.head? ≠ some '.'))

/-- `getConflictsFilesList` /repo/src/pkgdbh.cxx:1061-1120. -/
def conflicts (st : St) (name : Str) (files : List Str) : List Str :=
  -- phase 1: files of the package listed by other packages
  let c1 := st.mem.foldl (fun acc p =>
    if p.1 ≠ name then (files.filter (fun f => p.2.files.contains f)).foldl (fun s x => sinsert x s) acc
    else acc) []
  -- phase 2: files of the package existing on disk
  let c2 := files.foldl (fun acc f => if st.fs.exist f && !acc.contains f then sinsert f acc else acc) c1
  -- phase 3: directories excluded
  let c3 := c2.foldl (fun acc f => if endsSlash f then serase f acc else acc) c2
  -- phase 4: files already owned by this package excluded
  match mget st.mem name with
  | some i => seraseAll i.files c3
  | none => c3

/-- `addPackageFilesRefsToDB` /repo/src/pkgdbh.cxx:768-812: memory record replaced, `files` on disk replaced (the
directory is created if missing). The system call sequence is modelled in `Model/Crash.lean`. -/
def addRefs (st : St) (name : Str) (info : Info) : St :=
  let md := match mget st.disk name with | some i => i.md | none => []
  { st with mem := mset name info st.mem, disk := mset name { md := md, files := info.files } st.disk }

/-- Inner loop of `removePackageFilesRefsFromDB(files,keep)` /repo/src/pkgdbh.cxx:1031-1037 for one package. -/
def dropRefs (st : St) (name : Str) (info : Info) (files : List Str) : St × Info :=
  files.foldl (fun (acc : St × Info) j =>
    let info' : Info := { acc.2 with files := serase j acc.2.files }
    if acc.2.files.length ≠ info'.files.length then (addRefs acc.1 name info', info') else (acc.1, info')) (st, info)

/-- `removePackageFilesRefsFromDB(files,keep)` /repo/src/pkgdbh.cxx:1022-1059: drop the references from every package,
then delete the files that are not in the keep list, in reverse order. -/
def removeRefsOfFiles (st : St) (files keep : List Str) : St :=
  let st1 := st.mem.foldl (fun s p => (dropRefs s p.1 p.2 files).1) st
  { st1 with fs := st1.fs.removeRev (seraseAll keep files) }

/-- The set difference of `removePackageFiles` /repo/src/pkgdbh.cxx:937-953, 977-1001: the recorded files of the package,
minus the keep list, minus every file some remaining package lists. -/
def toDelete (mem : Db) (name : Str) (keep : List Str) : List Str :=
  let files := match mget mem name with | some i => i.files | none => []
  (merase name mem).foldl (fun s p => seraseAll p.2.files s) (seraseAll keep files)

/-- `removePackageFiles(name)` and `removePackageFiles(name, keep)` /repo/src/pkgdbh.cxx:935-972, 974-1020 (the former is the
case of an empty keep list). -/
def removeFiles (st : St) (name : Str) (keep : List Str) : St :=
  { st with
    mem := merase name st.mem
    alias := merase name st.alias
    fs := st.fs.removeRev (toDelete st.mem name keep) }

/-- `removePackageFilesRefsFromDB(name)` /repo/src/pkgdbh.cxx:903-932: fails when the package directory cannot be read,
else removes it. Line 912 re-inserts a default record into the memory map. -/
def removeRecord (st : St) (name : Str) : St × Option Err :=
  let mem := match mget st.mem name with
    | some _ => st.mem
    | none => mset name { md := [], files := [] } st.mem
  match mget st.disk name with
  | none => ({ st with mem := mem }, some .cannotRead)
  | some _ => ({ st with mem := mem, disk := merase name st.disk }, none)

/-- `PKG_REJECTED` /repo/src/define.h:93 as component list. -/
def rejectedDir : List Str := ["var".toList, "lib".toList, "pkg".toList, "rejected".toList]

/-- `checkPermissionsEqual` /repo/src/file_utils.cxx:160-174 on two nodes. -/
def Node.permEq : Node → Node → Bool
  | .file _ p, .file _ q => p = q
  | .dir p, .dir q => p = q
  | _, _ => false

/-- Whether the rejected copy is dropped, /repo/src/pkgdbh.cxx:1302-1312: same type and permissions and, for
non-directories, empty or with identical content (`checkFilesEqual`, file_utils.cxx:101-159). -/
def dropRejected (new old : Option Node) : Bool :=
  match new, old with
  | some (.dir p), some o => Node.permEq (.dir p) o
  | some (.file c p), some o =>
    Node.permEq (.file c p) o && (c.isEmpty || (match o with | .file c' _ => c = c' | _ => false))
  | _, _ => false

/-- One iteration of the extraction loop of `installArchivePackage` /repo/src/pkgdbh.cxx:1256-1315. -/
def installEntry (env : Env) (keep nonInst : List Str) (fs : Fs) (e : Entry) : Fs :=
  if nonInst.contains e.path then fs
  else if fs.exist e.path && keep.contains e.path then
    let k := rejectedDir ++ comps e.path
    if env.extractFails k then fs
    else match fs.extract k e.node with
      | none => fs
      | some fs1 =>
        if dropRejected (fs1.get k) (fs1.lstat e.path) then fs1.removeUp rejectedDir (comps e.path).reverse else fs1
  else if env.extractFails (comps e.path) then fs
  else match fs.extract (comps e.path) e.node with
    | none => fs
    | some fs1 => fs1

/-- `installArchivePackage` /repo/src/pkgdbh.cxx:1230-1332 (the archive has at least the entry `.MTREE`, so the
empty-package error of lines 1318-1330 cannot occur). -/
def installArchive (env : Env) (keep nonInst : List Str) (fs : Fs) (entries : List Entry) : Fs :=
  entries.foldl (installEntry env keep nonInst) fs

/-- `moveMetaFilesPackage` /repo/src/pkgdbh.cxx:650-705: META of the archive is moved to the package directory, with the
line "d1" added when the dependency flag is set; the flag is then reset. `info.files` never holds names starting
with '.' here, so lines 657-665 change nothing. -/
def moveMeta (st : St) (name : Str) (md : List Str) : St :=
  let files := match mget st.disk name with | some i => i.files | none => []
  let m := sofList (if st.dep then d1 :: md else md)
  { st with disk := mset name { md := m, files := files } st.disk, dep := false }

/-- What a finished process leaves behind. -/
def St.sys (st : St) : Sys := { fs := st.fs, disk := st.disk }

/-- The upgrade phase of pkgadd::run /repo/src/pkgadd.cxx:112-121: carry the dependency flag over, remove the old version.
Returns the keep list for the install phase. -/
def upgradePhase (env : Env) (rules : List Rule) (st : St) (name : Str) (files : List Str) : St × List Str × Option Err :=
  let st := match mget st.mem name with
    | some i => if st.nameExists name && i.dependency then { st with dep := true } else st
    | none => st
  if !env.lockUpgrade then (st, [], some .locked) else
  let keep := keepFileList env.rx files rules
  let st := removeFiles st name keep
  let (st, e) := removeRecord st name
  (st, keep, e)

/-- The install phase of pkgadd::run /repo/src/pkgadd.cxx:122-136. -/
def installPhase (env : Env) (opts : Opts) (st : St) (a : Archive) (files keep nonInst : List Str) : St × Option Err :=
  if !env.lockInstall then (st, some .locked) else
  let st := { st with fs := installArchive env keep nonInst st.fs a.entries }
  let st := moveMeta st a.name a.md
  let st := addRefs st a.name { md := a.md, files := files }
  let st := if opts.runPrePost then { st with fs := a.post st.fs } else st
  (st, none)

/-- The checks of pkgadd::run before anything is changed, /repo/src/pkgadd.cxx:70-85: the archive constructor
(archive.cxx:8-18), `openArchivePackage` (pkgdbh.cxx:1121-1177) and the install/upgrade mode test. -/
def precheck (opts : Opts) (a : Archive) (st : St) : Option Err :=
  if a.md.isEmpty || a.mtree.isEmpty then some .emptyPackage
  else if !a.archOk then some .wrongArch
  else if a.name.isEmpty then some .noName
  else if st.nameExists a.name && !opts.upgrade then some .alreadyInstalled
  else if !st.nameExists a.name && opts.upgrade then some .notInstalled
  else none

/-- `preRun`, /repo/src/pkgadd.cxx:58-66, 90-91 and `extractAndRunPREfromPackage`, pkgdbh.cxx:1178-1229: the effect of the
pre-install script on the file tree and whether it succeeded. -/
def preRun (opts : Opts) (a : Archive) (fs : Fs) : Fs × Bool :=
  if opts.runPrePost then a.pre fs else (fs, true)

/-- Forced conflict resolution, /repo/src/pkgadd.cxx:95-103. -/
def forcePhase (env : Env) (rules : List Rule) (opts : Opts) (st : St) (conf : List Str) : St :=
  if conf.isEmpty then st
  else removeRefsOfFiles st conf (if opts.upgrade then keepFileList env.rx conf rules else [])

/-- The rest of pkgadd::run once conflicts are dealt with, /repo/src/pkgadd.cxx:111-136. -/
def commit (env : Env) (rules : List Rule) (opts : Opts) (a : Archive) (files nonInst : List Str) (st : St) :
    St × Option Err :=
  if opts.upgrade then
    match upgradePhase env rules st a.name files with
    | (st, _, some e) => (st, some e)
    | (st, keep, none) => installPhase env opts st a files keep nonInst
  else installPhase env opts st a files [] nonInst

/-- `pkgadd::run` /repo/src/pkgadd.cxx:67-137 in a process that has loaded the database. -/
def runAdd (env : Env) (rules : List Rule) (opts : Opts) (a : Archive) (st : St) : St × Option Err :=
  match precheck opts a st with
  | some e => (st, some e)
  | none =>
    let sets := applyInstallRules env.rx a.files rules
    let pre := preRun opts a st.fs
    let st := { st with fs := pre.1 }
    if !pre.2 then (st, some .preFailed)
    else
      let conf := conflicts st a.name sets.1
      if !conf.isEmpty && !opts.force then (st, some .conflict)
      else if !conf.isEmpty && !env.lockForce then (st, some .locked)
      else commit env rules opts a sets.1 sets.2 (forcePhase env rules opts st conf)

/-- A complete pkgadd command: load the database, run (/repo/src/tools.cxx, pkgadd.cxx:54, 67). -/
def pkgadd (env : Env) (rules : List Rule) (opts : Opts) (a : Archive) (s : Sys) : Sys × Option Err :=
  let (st, e) := runAdd env rules opts a (load s opts.asDep)
  (st.sys, e)

/-- The scripts of a package to remove (PRER and POSTR in its database directory). -/
structure RmScripts where
  pre : Fs → Fs × Bool
  post : Fs → Fs

/-- `pkgrm::run` /repo/src/pkgrm.cxx:59-87 in a process that has loaded the database. -/
def runRm (locked : Bool) (sc : RmScripts) (name : Str) (st : St) : St × Option Err :=
  if locked then (st, some .locked)
  else if !st.nameExists name then (st, some .notInstalled)
  else
  let (fs, ok) := sc.pre st.fs
  let st := { st with fs := fs }
  if !ok then (st, some .preFailed)
  else
  let st := removeFiles st name []
  let st := { st with fs := sc.post st.fs }
  removeRecord st name

/-- A complete pkgrm command. -/
def pkgrm (locked : Bool) (sc : RmScripts) (name : Str) (s : Sys) : Sys × Option Err :=
  let (st, e) := runRm locked sc name (load s false)
  (st.sys, e)

/-- A package command, with whatever the environment decides for it. -/
inductive Cmd where
  | add (env : Env) (rules : List Rule) (opts : Opts) (a : Archive)
  | rm (locked : Bool) (sc : RmScripts) (name : Str)

/-- Run one command (/repo/src/tools.cxx dispatches to pkgadd and pkgrm). -/
def Cmd.exec : Cmd → Sys → Sys × Option Err
  | .add env rules opts a, s => pkgadd env rules opts a s
  | .rm locked sc name, s => pkgrm locked sc name s

/-- Run a history of commands, one process after the other, whether they succeed or not. -/
def runHistory (cmds : List Cmd) (s : Sys) : Sys := cmds.foldl (fun s c => (c.exec s).1) s

end Cards
