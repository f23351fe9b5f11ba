import Verif.Model.Root
import Verif.Model.Meta
/-!
# The command lines of pkgadd, pkgrm and pkginfo
-/
namespace Cards

/-- Why a command line is refused: `assertArgument` /repo/src/system_utils.cxx:26-30 and the errors of /repo/src/pkgdbh.cxx:135-146. -/
inductive ArgErr where
  | needsArg (option : Str)
  | invalid (option : Str)
  | missing
  | tooMany
  | notRoot
deriving DecidableEq, Repr

/-- The members of pkgadd that its options set, /repo/src/pkgadd.cxx:8-13, pkgdbh.cxx:14-27. -/
structure AddArgs where
  root : Str
  runScripts : Bool
  upgrade : Bool
  force : Bool
  progress : Bool
  file : Str
deriving DecidableEq, Repr

/-- As the constructors leave them, /repo/src/pkgadd.cxx:8-13, pkgdbh.cxx:14-27. -/
def AddArgs.start : AddArgs := ⟨"/".toList, true, false, false, false, []⟩

/-- The loop of `pkgadd::parseArguments` /repo/src/pkgadd.cxx:22-42. -/
def addLoop (a : AddArgs) : List Str → Except ArgErr AddArgs
  | [] => .ok a
  | o :: rest =>
    if o = "-r".toList ∨ o = "--root".toList then
      match rest with
      | [] => .error (.needsArg o)
      | v :: rest => addLoop { a with root := v ++ a.root } rest
    else if o = "-i".toList ∨ o = "--ignore".toList then addLoop { a with runScripts := false } rest
    else if o = "-u".toList ∨ o = "--upgrade".toList then addLoop { a with upgrade := true } rest
    else if o = "-f".toList ∨ o = "--force".toList then addLoop { a with force := true } rest
    else if o = "-p".toList ∨ o = "--progress".toList then addLoop { a with progress := true } rest
    else if o.head? = some '-' ∨ a.file ≠ [] then .error (.invalid o)
    else addLoop { a with file := o } rest

/-- `pkgadd::parseArguments` before the test of the user, /repo/src/pkgadd.cxx:20-46. -/
def addArgs (argv : List Str) : Except ArgErr AddArgs :=
  match addLoop .start argv with
  | .error e => .error e
  | .ok a => if a.file = [] then .error .missing else .ok a

/-- What a tool did: printed its version or help, refused the command line, or ran. -/
inductive ToolEnd (α : Type) where
  | version
  | help
  | refused (e : ArgErr)
  | ran (a : α)
deriving DecidableEq, Repr

/-- The common options, /repo/src/tools.cxx:43-52: the first of them anywhere on the line, also where it is the argument of another option. -/
def commonOption {α : Type} : List Str → Option (ToolEnd α)
  | [] => none
  | o :: rest =>
    if o = "-v".toList ∨ o = "--version".toList then some .version
    else if o = "-h".toList ∨ o = "--help".toList then some .help
    else commonOption rest

/-- `pkgadd`: /repo/src/tools.cxx:34-62, pkgdbh.cxx:55-59, pkgadd.cxx:20-56. `run` is all that happens after the database has been read; `uid` is the user. -/
def pkgaddTool (run : AddArgs → Fs → Fs) (uid : Nat) (argv : List Str) (fs : Fs) : Fs × ToolEnd AddArgs :=
  match commonOption argv with
  | some e => (fs, e)
  | none =>
    match addArgs argv with
    | .error e => (fs, .refused e)
    | .ok a => if uid ≠ 0 then (fs, .refused .notRoot) else (run a (cleanupMeta a.root fs), .ran a)

/-- The members of pkgrm that its options set. -/
structure RmArgs where
  root : Str
  progress : Bool
  name : Str
deriving DecidableEq, Repr

/-- As the constructor leaves them, /repo/src/pkgdbh.cxx:14-27. -/
def RmArgs.start : RmArgs := ⟨"/".toList, false, []⟩

/-- The loop of `pkgdbh::parseArguments` /repo/src/pkgdbh.cxx:37-51. -/
def rmLoop (a : RmArgs) : List Str → Except ArgErr RmArgs
  | [] => .ok a
  | o :: rest =>
    if o = "-r".toList ∨ o = "--root".toList then
      match rest with
      | [] => .error (.needsArg o)
      | v :: rest => rmLoop { a with root := v ++ a.root } rest
    else if o = "-p".toList ∨ o = "--progress".toList then rmLoop { a with progress := true } rest
    else if o.head? = some '-' ∨ a.name ≠ [] then .error (.invalid o)
    else rmLoop { a with name := o } rest

/-- `pkgrm`: /repo/src/tools.cxx:34-62, pkgdbh.cxx:35-59, pkgrm.cxx:59-87: the database is read, and the root directory cleaned up, before the user is
tested. -/
def pkgrmTool (run : RmArgs → Fs → Fs) (uid : Nat) (argv : List Str) (fs : Fs) : Fs × ToolEnd RmArgs :=
  match commonOption argv with
  | some e => (fs, e)
  | none =>
    match rmLoop .start argv with
    | .error e => (fs, .refused e)
    | .ok a => if uid ≠ 0 then (cleanupMeta a.root fs, .refused .notRoot) else (run a (cleanupMeta a.root fs), .ran a)

/-- The modes of pkginfo, /repo/src/pkginfo.h:15-31. -/
inductive InfoMode where
  | installed | number | details | list | runtime | owner | archive | «meta» | footprint | libraries | runtimeFiles | runtimeLibs | build
deriving DecidableEq, Repr

/-- The mode an option selects, /repo/src/pkginfo.cxx:50-112. -/
def infoOption (o : Str) : Option InfoMode :=
  if o = "-i".toList ∨ o = "--installed".toList then some .installed
  else if o = "-n".toList ∨ o = "--number".toList then some .number
  else if o = "-d".toList ∨ o = "--details".toList then some .details
  else if o = "-l".toList ∨ o = "--list".toList then some .list
  else if o = "-R".toList ∨ o = "--runtimedep".toList then some .runtime
  else if o = "-o".toList ∨ o = "--owner".toList then some .owner
  else if o = "-a".toList ∨ o = "--archive".toList then some .archive
  else if o = "-m".toList ∨ o = "--meta".toList then some .meta
  else if o = "-f".toList ∨ o = "--footprint".toList then some .footprint
  else if o = "-L".toList ∨ o = "--libraries".toList then some .libraries
  else if o = "--runtimedepfiles".toList then some .runtimeFiles
  else if o = "--runtimelibs".toList then some .runtimeLibs
  else if o = "-b".toList ∨ o = "--buildtime".toList then some .build
  else none

/-- Whether the mode takes an argument: all but `-i` and `-n`, /repo/src/pkginfo.cxx:50-53. -/
def InfoMode.takesArg : InfoMode → Bool
  | .installed => false
  | .number => false
  | _ => true

/-- The members of pkginfo that its options set: `seen` are the counted modes, in the order of the line; `arg` is `m_arg`. -/
structure InfoArgs where
  root : Str
  seen : List InfoMode
  arg : Str
deriving DecidableEq, Repr

/-- As the constructor leaves them. -/
def InfoArgs.start : InfoArgs := ⟨"/".toList, [], []⟩

/-- The loop of `pkginfo::parseArguments` /repo/src/pkginfo.cxx:44-117. -/
def infoLoop (a : InfoArgs) : List Str → Except ArgErr InfoArgs
  | [] => .ok a
  | o :: rest =>
    if o = "-r".toList ∨ o = "--root".toList then
      match rest with
      | [] => .error (.needsArg o)
      | v :: rest => infoLoop { a with root := v ++ a.root } rest
    else match infoOption o with
      | none => .error (.invalid o)
      | some m =>
        if m.takesArg then
          match rest with
          | [] => .error (.needsArg o)
          | v :: rest => infoLoop { a with seen := a.seen ++ [m], arg := v } rest
        else infoLoop { a with seen := a.seen ++ [m] } rest

/-- What the members `m_number_mode` and `m_runtimelibs_mode` hold at the start: `pkginfo::pkginfo()` does not initialise them, /repo/src/pkginfo.cxx:26-41,
and the object is on the heap, tools.cxx:28. -/
structure InfoJunk where
  number : Int
  runtimeLibs : Int
deriving DecidableEq, Repr

/-- The counter of a mode after the loop. Simplification: no overflow. -/
def InfoArgs.counter (j : InfoJunk) (a : InfoArgs) (m : InfoMode) : Int :=
  (a.seen.count m : Int) + (match m with | .number => j.number | .runtimeLibs => j.runtimeLibs | _ => 0)

/-- The two tests after the loop, /repo/src/pkginfo.cxx:118-152. -/
def infoCheck (j : InfoJunk) (a : InfoArgs) : Except ArgErr InfoArgs :=
  let c := a.counter j
  if c .runtimeFiles + c .runtimeLibs + c .footprint + c .details + c .installed + c .list + c .owner + c .build + c .archive + c .meta + c .footprint
      + c .libraries + c .runtime + c .number = 0 then .error .missing
  else if c .runtimeFiles + c .runtimeLibs + c .footprint + c .installed + c .archive + c .list + c .owner + c .number > 1 then .error .tooMany
  else .ok a

/-- What `pkginfo::run` does, /repo/src/pkginfo.cxx:160-478, as the modes whose branches are taken, in their order. The branch of lines 309-352 serves `-L` and
`-R`. -/
def infoRun (j : InfoJunk) (a : InfoArgs) : List InfoMode :=
  let c := a.counter j
  (if c .meta ≠ 0 then [.meta] else []) ++ (if c .archive ≠ 0 then [.archive] else []) ++
  (if c .footprint ≠ 0 then [.footprint] else if c .number ≠ 0 then [.number] else if c .installed ≠ 0 then [.installed] else if c .list ≠ 0 then [.list]
   else if c .runtimeLibs ≠ 0 then [.runtimeLibs] else if c .runtimeFiles ≠ 0 then [.runtimeFiles]
   else if c .libraries + c .runtime > 0 then (if c .runtime ≠ 0 then [.runtime] else [.libraries])
   else if c .build ≠ 0 then [.build] else if c .details ≠ 0 then [.details] else if c .owner ≠ 0 then [.owner] else [])

/-- `pkginfo`: /repo/src/tools.cxx:34-62, pkginfo.cxx:42-478. The result tells the root, the branches taken and the argument they all share. -/
def pkginfoTool (j : InfoJunk) (argv : List Str) : ToolEnd (Str × List InfoMode × Str) :=
  match commonOption argv with
  | some e => e
  | none =>
    match infoLoop .start argv with
    | .error e => .refused e
    | .ok a =>
      match infoCheck j a with
      | .error e => .refused e
      | .ok a => .ran (a.root, infoRun j a, a.arg)

end Cards
