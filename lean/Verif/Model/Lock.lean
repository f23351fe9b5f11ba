import Verif.Model.Trans
/-!
# Processes, the database lock and schedules

The commands as sequences of small actions on the shared system state, executed by any number of processes under any
schedule, with crashes at any moment.
-/
namespace Cards

/-- What a process still has to do. Its private memory (the loaded database) lives in the continuations.
* `peek`: read the shared state (`buildDatabase`, `getConflictsFilesList`, ...);
* `modify`: the tools change the database or the tracked files; the continuation gets the state read;
* `script`: a maintainer script runs; it changes the file tree only (simplification as in `Archive`);
* `acquire`: the constructor `cards::lock(root, exclusive)` /repo/src/lock.cxx:6-31;
* `release`: its destructor, lock.cxx:33-47. -/
inductive Prog where
  | ret (e : Option Err)
  | dead
  | peek (k : Sys → Prog)
  | modify (f : Sys → Sys) (k : Sys → Prog)
  | script (f : Fs → Fs × Bool) (k : Bool → Prog)
  | acquire (excl : Bool) (k : Prog)
  | release (k : Prog)

/-- The machine: the shared state, the processes holding a `flock` on the database directory (process, exclusive?),
and what every process still has to do. -/
structure Machine where
  sys : Sys
  holders : List (Nat × Bool)
  procs : Nat → Prog

/-- One scheduling decision: let process `i` do its next action, or kill it (SIGKILL, power of the OOM killer...). -/
inductive Move where
  | run (i : Nat)
  | kill (i : Nat)

/-- The process an event is about. -/
def Move.pid : Move → Nat
  | .run i => i
  | .kill i => i

/-- `flock(2)` with `LOCK_NB` as used at /repo/src/lock.cxx:24: an exclusive lock is granted when nobody holds any lock, a
shared one when nobody holds an exclusive lock. -/
def canLock (hs : List (Nat × Bool)) (excl : Bool) : Bool :=
  if excl then hs.isEmpty else hs.all (fun h => !h.2)

/-- The kernel drops the locks of a process (close of its descriptors, or `LOCK_UN` at lock.cxx:41). -/
def dropLocks (i : Nat) (hs : List (Nat × Bool)) : List (Nat × Bool) := hs.filter (fun h => h.1 ≠ i)

/-- Replace the program of process `i`. -/
def setProc (procs : Nat → Prog) (i : Nat) (p : Prog) : Nat → Prog := fun j => if j = i then p else procs j

/-- One step of the machine. A refused lock throws (lock.cxx:25-28): the process ends with an error. A process that
returned or was killed loses its locks. -/
def Machine.step (w : Machine) : Move → Machine
  | .kill i => { w with holders := dropLocks i w.holders, procs := setProc w.procs i .dead }
  | .run i =>
    match w.procs i with
    | .ret _ => { w with holders := dropLocks i w.holders }
    | .dead => w
    | .peek k => { w with procs := setProc w.procs i (k w.sys) }
    | .modify f k => { w with sys := f w.sys, procs := setProc w.procs i (k w.sys) }
    | .script f k =>
      { w with sys := { w.sys with fs := (f w.sys.fs).1 }, procs := setProc w.procs i (k (f w.sys.fs).2) }
    | .acquire x k =>
      if canLock w.holders x then { w with holders := (i, x) :: w.holders, procs := setProc w.procs i k }
      else { w with procs := setProc w.procs i (.ret (some .locked)) }
    | .release k => { w with holders := dropLocks i w.holders, procs := setProc w.procs i k }

/-- Run a schedule. -/
def Machine.runs (w : Machine) (es : List Move) : Machine := es.foldl Machine.step w

/-- The process memory `st` with the shared state as it is now. -/
def St.on (st : St) (s : Sys) : St := { st with fs := s.fs, disk := s.disk }

/-- Apply a phase to the process memory and the current shared state, and go on with the new memory. -/
def Prog.phase (st : St) (g : St → St) (k : St → Prog) : Prog :=
  .modify (fun s => (g (st.on s)).sys) (fun s => k (g (st.on s)))

/-- The installation part of pkgadd::run under its own lock, and `postRun`, /repo/src/pkgadd.cxx:124-136. -/
def installProg (env : Env) (opts : Opts) (a : Archive) (files keep nonInst : List Str) (st : St) : Prog :=
  .acquire true <|
  .phase st (fun st => { st with fs := installArchive env keep nonInst st.fs a.entries }) fun st =>
  .phase st (fun st => moveMeta st a.name a.md) fun st =>
  .phase st (fun st => addRefs st a.name { md := a.md, files := files }) fun _ =>
  .release <|
  if opts.runPrePost then .script (fun fs => (a.post fs, true)) (fun _ => .ret none) else .ret none

/-- The upgrade part of pkgadd::run under its own lock, /repo/src/pkgadd.cxx:112-122. -/
def upgradeProg (env : Env) (rules : List Rule) (opts : Opts) (a : Archive) (files nonInst : List Str) (st : St) :
    Prog :=
  let st := match mget st.mem a.name with
    | some i => if st.nameExists a.name && i.dependency then { st with dep := true } else st
    | none => st
  let keep := keepFileList env.rx files rules
  .acquire true <|
  .phase st (fun st => removeFiles st a.name keep) fun st =>
  .modify (fun s => (removeRecord (st.on s) a.name).1.sys) fun s =>
  match removeRecord (st.on s) a.name with
  | (_, some e) => .release (.ret (some e))
  | (st, none) => .release (installProg env opts a files keep nonInst st)

/-- The part of pkgadd::run after the conflict handling, /repo/src/pkgadd.cxx:111-136. -/
def commitProg (env : Env) (rules : List Rule) (opts : Opts) (a : Archive) (files nonInst : List Str) (st : St) : Prog :=
  if opts.upgrade then upgradeProg env rules opts a files nonInst st
  else installProg env opts a files [] nonInst st

/-- The conflict handling of pkgadd::run and what follows, /repo/src/pkgadd.cxx:92-136. The conflicts are computed before the
lock is taken. -/
def conflictProg (env : Env) (rules : List Rule) (opts : Opts) (a : Archive) (st : St) : Prog :=
  let sets := applyInstallRules env.rx a.files rules
  .peek fun s =>
    let st := st.on s
    let conf := conflicts st a.name sets.1
    if conf.isEmpty then commitProg env rules opts a sets.1 sets.2 st
    else if opts.force then
      .acquire true <|
      .phase st (fun st => forcePhase env rules opts st conf) fun st =>
      .release (commitProg env rules opts a sets.1 sets.2 st)
    else .ret (some .conflict)

/-- `pkgadd` as a process: constructor with `buildDatabase` /repo/src/pkgadd.cxx:28-57, then `run` 67-137. The lock answers in
`env` are not used here: they come from the machine. -/
def addProg (env : Env) (rules : List Rule) (opts : Opts) (a : Archive) : Prog :=
  .peek fun s =>
    let st := load s opts.asDep
    match precheck opts a st with
    | some e => .ret (some e)
    | none =>
      if opts.runPrePost then
        .script a.pre fun ok => if ok then conflictProg env rules opts a st else .ret (some .preFailed)
      else conflictProg env rules opts a st

/-- `pkgrm` as a process: the database is loaded first (constructor, /repo/src/pkgrm.cxx via tools.cxx), then `run`
pkgrm.cxx:59-87 takes the lock. -/
def rmProg (sc : RmScripts) (name : Str) : Prog :=
  .peek fun s =>
    let st := load s false
    .acquire true <|
    if !st.nameExists name then .ret (some .notInstalled)
    else
      .script sc.pre fun ok =>
      if !ok then .ret (some .preFailed)
      else
        .phase st (fun st => removeFiles st name []) fun st =>
        .script (fun fs => (sc.post fs, true)) fun _ =>
        .modify (fun s => (removeRecord (st.on s) name).1.sys) fun s =>
        .ret (removeRecord (st.on s) name).2

/-- The deletion loop of `cards upgrade` /repo/src/upgrade.cxx:153-159 for one package: the database is reloaded under the
lock. `buildDatabase` returns at once when the process has loaded before (pkgdbh.cxx:472-473 with `m_DB_Empty`),
which is what the second argument tells: `some st` is the memory of a process that has. -/
def upgradeDeleteProg (name : Str) (st? : Option St) : Prog :=
  .acquire true <|
  .peek fun s =>
    let st := match st? with | some st => st | none => load s false
    .modify (fun s => (removeRecord (st.on s) name).1.sys) fun s =>
    match removeRecord (st.on s) name with
    | (_, some e) => .ret (some e)
    | (st, none) => .phase st (fun st => removeFiles st name []) fun _ => .release (.ret none)

/-- `pkginfo` in the modes that lock /repo/src/pkginfo.cxx:200-290: a shared lock is held while the database is read, here in
`n` separate reads (one per package directory). -/
def infoProg : Nat → Prog
  | n => .acquire false (reads n)
where
  /-- the reads -/
  reads : Nat → Prog
    | 0 => .release (.ret none)
    | n + 1 => .peek fun _ => reads n

/-- `create::base` /repo/src/create.cxx:93-122, the part that removes the listed packages. The lock object is the
whole body of an `if`: it is destroyed at the end of that statement, before the loop starts. -/
def createBaseProg (st : St) (names : List Str) : Prog :=
  .acquire true <| .release <| go st names
where
  /-- the loop, lines 115-124 -/
  go : St → List Str → Prog
    | _, [] => .ret none
    | st, n :: ns =>
      .modify (fun s => (removeRecord (st.on s) n).1.sys) fun s =>
      match removeRecord (st.on s) n with
      | (_, some e) => .ret (some e)
      | (st, none) => .phase st (fun st => removeFiles st n []) fun st => go st ns

end Cards
