import Verif.Model.Trans
import Verif.Model.Crash
/-!
# The moments at which pkgadd and pkgrm can be killed

`AddHalt` and `RmHalt` relate the system before a command to every state (tree and database directory) it goes through: killing the process, a power
loss of the machine with everything so far on disk, an aborting signal all leave one of these. Steps taken as one: the deletion of one name, the replacement
of one file list (`Model/Crash.lean` shows that it is atomic), the drop of one rejected copy, the creation of the missing parents of one file. Not one step: the
extraction of a file (its place can be empty, or have any content and permissions meanwhile), a script (every place it works on can hold anything meanwhile), the removal and the
making of a record. The meta files in the root directory are left out (C60).
-/
namespace Cards

/-- One step of the deletion loops, /repo/src/pkgdbh.cxx:962-970, 1006-1017, 1049-1058. -/
def rmOne (fs : Fs) (f : Str) : Fs := if fs.exist f then (fs.remove f).1 else fs

/-- Where `installArchivePackage` extracts an entry, /repo/src/pkgdbh.cxx:1262-1288: nowhere, under the directory of rejected files, or in place. -/
def extractPlace (keep nonInst : List Str) (fs : Fs) (e : Entry) : Option (List Str) :=
  if nonInst.contains e.path then none
  else if fs.exist e.path && keep.contains e.path then some (rejectedDir ++ comps e.path)
  else some (comps e.path)

/-- The tree while something is being written at `k`: nothing there yet, or something. -/
def Fs.torn (fs : Fs) (k : List Str) : Option Node → Fs
  | none => (fs.mkParents k).del k
  | some v => (fs.mkParents k).set k v

/-- The files the new version is going to own, /repo/src/pkgadd.cxx:86-88. -/
def addFiles (env : Env) (rules : List Rule) (a : Archive) : List Str := (applyInstallRules env.rx a.files rules).1

/-- The names kept by an upgrade, /repo/src/pkgadd.cxx:111, 117. -/
def addKeep (env : Env) (rules : List Rule) (opts : Opts) (a : Archive) : List Str :=
  if opts.upgrade then keepFileList env.rx (addFiles env rules a) rules else []

/-- The process after the pre-install script, /repo/src/pkgadd.cxx:90-91. -/
def addPre (opts : Opts) (a : Archive) (s : Sys) : St := { load s opts.asDep with fs := (preRun opts a s.fs).1 }

/-- The conflicts found, /repo/src/pkgadd.cxx:93-94. -/
def addConf (env : Env) (rules : List Rule) (opts : Opts) (a : Archive) (s : Sys) : List Str :=
  conflicts (addPre opts a s) a.name (addFiles env rules a)

/-- The conflicting names that may be deleted, /repo/src/pkgadd.cxx:98-103. -/
def addVictims (env : Env) (rules : List Rule) (opts : Opts) (a : Archive) (s : Sys) : List Str :=
  seraseAll (if opts.upgrade then keepFileList env.rx (addConf env rules opts a s) rules else []) (addConf env rules opts a s)

/-- The process after the conflicts, /repo/src/pkgadd.cxx:95-109. -/
def addForced (env : Env) (rules : List Rule) (opts : Opts) (a : Archive) (s : Sys) : St :=
  forcePhase env rules opts (addPre opts a s) (addConf env rules opts a s)

/-- The process after the removal of the old version, /repo/src/pkgadd.cxx:112-121. -/
def addGone (env : Env) (rules : List Rule) (opts : Opts) (a : Archive) (s : Sys) : St :=
  if opts.upgrade then (upgradePhase env rules (addForced env rules opts a s) a.name (addFiles env rules a)).1 else addForced env rules opts a s

/-- The names the rules exclude, /repo/src/pkgadd.cxx:86-88. -/
def addSkip (env : Env) (rules : List Rule) (a : Archive) : List Str := (applyInstallRules env.rx a.files rules).2

/-- The record of the new version. -/
def addRecord (env : Env) (rules : List Rule) (opts : Opts) (a : Archive) (s : Sys) : Info :=
  { md := sofList (if (addGone env rules opts a s).dep then d1 :: a.md else a.md), files := addFiles env rules a }

/-- The checks passed, and so did the pre-install script, /repo/src/pkgadd.cxx:70-91. -/
def PastPre (opts : Opts) (a : Archive) (s : Sys) : Prop :=
  precheck opts a (load s opts.asDep) = none ∧ (preRun opts a s.fs).2 = true

/-- There is no conflict, or it is to be overridden, /repo/src/pkgadd.cxx:95-109. -/
def PastConf (env : Env) (rules : List Rule) (opts : Opts) (a : Archive) (s : Sys) : Prop :=
  PastPre opts a s ∧ (addConf env rules opts a s = [] ∨ (opts.force = true ∧ env.lockForce = true))

/-- The old version is gone, or there was none, and the lock for the installation was obtained, /repo/src/pkgadd.cxx:112-123. -/
def PastOld (env : Env) (rules : List Rule) (opts : Opts) (a : Archive) (s : Sys) : Prop :=
  PastConf env rules opts a s ∧
  (opts.upgrade = true → (upgradePhase env rules (addForced env rules opts a s) a.name (addFiles env rules a)).2.2 = none) ∧ env.lockInstall = true

/-- The states of `pkgadd::run` /repo/src/pkgadd.cxx:67-137. -/
inductive AddHalt (env : Env) (rules : List Rule) (opts : Opts) (a : Archive) (s : Sys) : RawSys → Prop
  /-- nothing done -/
  | start : AddHalt env rules opts a s ⟨s.fs, unloadDb s.disk⟩
  /-- during or after the pre-install script (90-91) -/
  | inPre (fs : Fs) (hc : precheck opts a (load s opts.asDep) = none) (hr : opts.runPrePost = true)
      (h : ∀ k, (∀ t, (a.pre t).1.get k = t.get k) → fs.get k = s.fs.get k) : AddHalt env rules opts a s ⟨fs, unloadDb s.disk⟩
  /-- while the references to conflicting files are dropped (103; pkgdbh.cxx:1030-1037): some packages are done, one has lost some -/
  | dropping (hp : PastConf env rules opts a s) (done : Db) (p : Str × Info) (rest : Db) (hs : s.disk = done ++ p :: rest) (js : List Str)
      (hj : js <+: addConf env rules opts a s) :
      AddHalt env rules opts a s ⟨(addPre opts a s).fs, unloadDb (dropRefs (done.foldl (fun st q => (dropRefs st q.1 q.2 (addConf env rules opts a s)).1)
        (addPre opts a s)) p.1 p.2 js).1.disk⟩
  /-- while the conflicting files are deleted (103; pkgdbh.cxx:1048-1058) -/
  | victims (hp : PastConf env rules opts a s) (l : List Str) (hl : l <+: removalOrder (addVictims env rules opts a s)) :
      AddHalt env rules opts a s ⟨l.foldl rmOne (addPre opts a s).fs, unloadDb (addForced env rules opts a s).disk⟩
  /-- while the files of the old version are deleted (118) -/
  | oldFiles (hp : PastConf env rules opts a s) (hu : opts.upgrade = true) (hlk : env.lockUpgrade = true) (l : List Str)
      (hl : l <+: removalOrder (toDelete (addForced env rules opts a s).mem a.name (addKeep env rules opts a))) :
      AddHalt env rules opts a s ⟨l.foldl rmOne (addForced env rules opts a s).fs, unloadDb (addForced env rules opts a s).disk⟩
  /-- while the record of the old version is deleted (120) -/
  | oldRecord (hp : PastConf env rules opts a s) (hu : opts.upgrade = true) (hlk : env.lockUpgrade = true) (i : Info) (hi : mget (addForced env rules opts a s).disk a.name = some i)
      (r : RawDb) (hr : r ∈ removeRecordSteps (unloadDb (addForced env rules opts a s).disk) a.name ⟨some i.md, some i.files⟩) :
      AddHalt env rules opts a s ⟨(addForced env rules opts a s).fs.removeRev
        (toDelete (addForced env rules opts a s).mem a.name (addKeep env rules opts a)), r⟩
  /-- between two files of the extraction (125-126; pkgdbh.cxx:1256-1315) -/
  | between (hp : PastOld env rules opts a s) (es : List Entry) (he : es <+: a.entries) :
      AddHalt env rules opts a s ⟨installArchive env (addKeep env rules opts a) (addSkip env rules a) (addGone env rules opts a s).fs es,
        unloadDb (addGone env rules opts a s).disk⟩
  /-- during the extraction of `e`: its place is empty, or has something of that kind with any content and permissions -/
  | torn (hp : PastOld env rules opts a s) (es : List Entry) (e : Entry) (rest : List Entry) (he : a.entries = es ++ e :: rest) (k : List Str)
      (hk : extractPlace (addKeep env rules opts a) (addSkip env rules a)
        (installArchive env (addKeep env rules opts a) (addSkip env rules a) (addGone env rules opts a s).fs es) e = some k) (v : Option Node) (hv : ∀ n, v = some n → ((∃ m, n = .dir m) ↔ ∃ m, e.node = .dir m)) :
      AddHalt env rules opts a s ⟨(installArchive env (addKeep env rules opts a) (addSkip env rules a) (addGone env rules opts a s).fs es).torn k v,
        unloadDb (addGone env rules opts a s).disk⟩
  /-- while the record of the new version is made (128-132) -/
  | newRecord (hp : PastOld env rules opts a s) (r : RawDb)
      (hr : r ∈ addRecordSteps (unloadDb (addGone env rules opts a s).disk) a.name (addRecord env rules opts a s)) :
      AddHalt env rules opts a s ⟨installArchive env (addKeep env rules opts a) (addSkip env rules a) (addGone env rules opts a s).fs a.entries, r⟩
  /-- during or after the post-install script (134) -/
  | inPost (hp : PastOld env rules opts a s) (hr : opts.runPrePost = true) (fs : Fs)
      (h : ∀ k, (∀ t, (a.post t).get k = t.get k) →
        fs.get k = (installArchive env (addKeep env rules opts a) (addSkip env rules a) (addGone env rules opts a s).fs a.entries).get k) :
      AddHalt env rules opts a s ⟨fs, unloadDb (mset a.name (addRecord env rules opts a s) (addGone env rules opts a s).disk)⟩

/-- The tree when pkgrm has run the pre-remove script. -/
def rmPre (sc : RmScripts) (s : Sys) : Fs := (sc.pre s.fs).1

/-- The states of `pkgrm::run` /repo/src/pkgrm.cxx:59-87. -/
inductive RmHalt (sc : RmScripts) (name : Str) (s : Sys) : RawSys → Prop
  /-- nothing done -/
  | start : RmHalt sc name s ⟨s.fs, unloadDb s.disk⟩
  /-- during or after the pre-remove script (77-78), if there is one -/
  | inPre (hs : ¬ ∀ t, sc.pre t = (t, true)) (fs : Fs) (hn : (load s false).nameExists name = true)
      (h : ∀ k, (∀ t, (sc.pre t).1.get k = t.get k) → fs.get k = s.fs.get k) : RmHalt sc name s ⟨fs, unloadDb s.disk⟩
  /-- while the files are deleted (81) -/
  | files (hn : (load s false).nameExists name = true) (ho : (sc.pre s.fs).2 = true) (l : List Str) (hl : l <+: removalOrder (toDelete s.disk name [])) :
      RmHalt sc name s ⟨l.foldl rmOne (rmPre sc s), unloadDb s.disk⟩
  /-- during or after the post-remove script (83-84), if there is one -/
  | inPost (hs : ¬ ∀ t, sc.post t = t) (hn : (load s false).nameExists name = true) (ho : (sc.pre s.fs).2 = true) (fs : Fs)
      (h : ∀ k, (∀ t, (sc.post t).get k = t.get k) → fs.get k = ((rmPre sc s).removeRev (toDelete s.disk name [])).get k) :
      RmHalt sc name s ⟨fs, unloadDb s.disk⟩
  /-- while the record is deleted (87) -/
  | record (hn : (load s false).nameExists name = true) (ho : (sc.pre s.fs).2 = true) (i : Info) (hi : mget s.disk name = some i) (r : RawDb)
      (hr : r ∈ removeRecordSteps (unloadDb s.disk) name ⟨some i.md, some i.files⟩) :
      RmHalt sc name s ⟨sc.post ((rmPre sc s).removeRev (toDelete s.disk name [])), r⟩

end Cards
