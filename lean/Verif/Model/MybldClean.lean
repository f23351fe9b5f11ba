import Verif.Model.Base
/-!
# mybld: the build tree, its mounts and the clean up (/repo/scripts/mybld.in)

`mybld` builds in `$ROOT/VERSION/COLLECTION`, a tree in which the packages already built, the logs, the sources and the git project of the developer are bind mounted.
When it ends it unmounts them and removes the tree with `sudo rm -r`.

Paths are lists of components below `$ROOT`. What is mounted is not modelled, only where; `lost` lists the mount points through which `rm -r` went, whose content it removed.
Not modelled: symbolic links; a program killed in the middle of one command (it is killed between two, or between two directories of the last loop); the messages.
-/
namespace Cards

/-- A path below `$ROOT`. -/
abbrev CPath := List Str

/-- `q` is strictly below `p`. -/
def below (p q : CPath) : Bool := p.isPrefixOf q && p != q

/-- The tree below `$ROOT` outside of the mounts, the mount points, the mount points whose content was removed, and those whose files were offered for removal one by one. -/
structure BldTree where
  dirs : List CPath
  files : List CPath
  mounts : List CPath
  lost : List CPath
  asked : List CPath

/-- What mybld does not decide: which `umount` fail, which `mount` fail, what the user answers to `rm -i`, what install-nutyx leaves in the tree and whether it succeeds,
after how many commands mybld is killed, and after how many directories of the last loop. -/
structure BldEnv where
  busy : CPath → Bool
  mountFails : CPath → Bool
  yes : CPath → Bool
  newDirs : List CPath
  newFiles : List CPath
  newMounts : List CPath
  installOk : Bool
  kill : Nat
  tops : Nat

/-- A command: whether mybld goes on, and the tree. -/
abbrev BldOp := BldTree → Bool × BldTree

/-- `[ -d p ]`. -/
def BldTree.isDir (t : BldTree) (p : CPath) : Bool := p ∈ t.dirs || p ∈ t.mounts

/-- `umount -R p`: the mount at `p` (the last one) and all those below. -/
def umountR (p : CPath) (t : BldTree) : BldTree := { t with mounts := (t.mounts.erase p).filter (fun m => !below p m) }

/-- `if mountpoint -q p; then sudo umount -R p || exit 1; fi`, /repo/scripts/mybld.in:340-342. -/
def opUmount (env : BldEnv) (p : CPath) : BldOp := fun t =>
  if p ∈ t.mounts then (if env.busy p then (false, t) else (true, umountR p t)) else (true, t)

/-- `rm -d p`: refused for a mount point and for a directory that is not empty, /repo/scripts/mybld.in:343 (`-f`: no error if there is no `p`), 373. -/
def opRmdir (p : CPath) : BldOp := fun t =>
  if p ∈ t.mounts ∨ t.dirs.any (below p) ∨ t.files.any (below p) ∨ t.mounts.any (below p) then (false, t)
  else (true, { t with dirs := t.dirs.filter (fun d => d ≠ p), files := t.files.filter (fun f => f ≠ p) })

/-- `umount_all`, /repo/scripts/mybld.in:338-345. -/
def umountAll (env : BldEnv) (base : CPath) (points : List CPath) : List BldOp :=
  points.flatMap (fun p => [opUmount env (base ++ p), opRmdir (base ++ p)])

/-- `if [ -d p ]; then exit 1`, /repo/scripts/mybld.in:348-351. -/
def opNotDir (p : CPath) : BldOp := fun t => (!t.isDir p, t)

/-- `if [ ! -d base ]; then exit 0`, /repo/scripts/mybld.in:356-358. -/
def opBase (base : CPath) : BldOp := fun t => (t.isDir base, t)

/-- The mounts of the system, /repo/scripts/mybld.in:359. -/
def sysPoints : List CPath := [["run".toList], ["sys".toList], ["proc".toList], ["dev".toList, "pts".toList], ["dev".toList, "shm".toList], ["dev".toList]]

/-- One of them, /repo/scripts/mybld.in:360-362: the directory is looked for in the tree, the mount below the argument of `remove_all`. -/
def opSys (env : BldEnv) (base arg i : CPath) : BldOp := fun t =>
  if t.isDir (base ++ i) then opUmount env (arg ++ i) t else (true, t)

/-- `sudo rm -r d`: it goes through the mounts below `d`, and then cannot remove their mount points. -/
def rmr (d : CPath) (t : BldTree) : Bool × BldTree :=
  let ms := t.mounts.filter (below d)
  let keep (q : CPath) : Bool := !d.isPrefixOf q
  if ms.isEmpty then (true, { t with dirs := t.dirs.filter keep, files := t.files.filter keep })
  else (false, { t with dirs := t.dirs.filter (fun q => keep q || ms.any (fun m => q.isPrefixOf m)), files := t.files.filter keep, lost := t.lost ++ ms })

/-- The loop on the directories, /repo/scripts/mybld.in:364-368, killed after `n` of them. -/
def rmTops : Nat → List CPath → BldOp
  | _, [], t => (true, t)
  | 0, _ :: _, t => (false, t)
  | n + 1, d :: ds, t =>
    if d ∈ t.mounts then rmTops n ds t
    else match rmr d t with
      | (true, t') => rmTops n ds t'
      | (false, t') => (false, t')

/-- `base/*`: the directories in `base`, without the hidden ones. -/
def topDirs (base : CPath) (t : BldTree) : List CPath :=
  t.dirs.filter (fun d => decide (d.dropLast = base ∧ d ≠ []) && (match d.getLast? with
    | some x => x.head? != some '.'
    | none => false))

/-- The loop with its list, /repo/scripts/mybld.in:364-368. -/
def opTops (env : BldEnv) (base : CPath) : BldOp := fun t => rmTops env.tops (topDirs base t) t

/-- `rm -i` on all that is left, the files in the mounts included, /repo/scripts/mybld.in:369-372. -/
def opAsk (env : BldEnv) (base : CPath) : BldOp := fun t =>
  (true, { t with files := t.files.filter (fun f => !(below base f && env.yes f)), asked := t.asked ++ t.mounts.filter (below base) })

/-- `remove_all`, /repo/scripts/mybld.in:346-377. -/
def removeAll (env : BldEnv) (base arg : CPath) (points : List CPath) : List BldOp :=
  points.map (fun p => opNotDir (base ++ p)) ++ ([opBase base] ++ (sysPoints.map (opSys env base arg) ++ ([opTops env base, opAsk env base] ++ [opRmdir base])))

/-- Commands in turn; each has the commands of its `|| error`, none for `|| exit 1`. The first argument is the number of commands before mybld is killed. -/
def runBld : Nat → List (BldOp × List BldOp) → BldTree → Bool × BldTree
  | _, [], t => (true, t)
  | 0, _ :: _, t => (false, t)
  | k + 1, (op, h) :: rest, t => match op t with
    | (true, t') => runBld k rest t'
    | (false, t') => (false, (runErr k h t').2)
where
  /-- The commands of `error`. -/
  runErr : Nat → List BldOp → BldTree → Bool × BldTree
    | _, [], t => (true, t)
    | 0, _ :: _, t => (false, t)
    | k + 1, op :: rest, t => match op t with
      | (true, t') => runErr k rest t'
      | (false, t') => (false, t')

/-- `... || exit 1`. -/
def orExit (ops : List BldOp) : List (BldOp × List BldOp) := ops.map (fun o => (o, []))

/-- `MOUNT_POINTS`, /repo/scripts/mybld.in:646, 901-926: `proj` is the name of the directory of the git project. -/
def mybldPoints (proj : Str) : List CPath := [["DEPOT".toList], ["LOGS".toList], ["sources".toList], ["mybld".toList, proj]]

/-- The clean up, /repo/scripts/mybld.in:645-650. -/
def cleanOps (env : BldEnv) (base : CPath) (proj : Str) : List BldOp :=
  umountAll env base (mybldPoints proj) ++ removeAll env base base (mybldPoints proj)

/-- `error`, /repo/scripts/mybld.in:387-392: `remove_all` without its argument. -/
def errorOps (env : BldEnv) (base : CPath) (points : List CPath) : List BldOp :=
  umountAll env base points ++ removeAll env base [] points

/-- `mkdir -p p`. -/
def opMkdir (p : CPath) : BldOp := fun t =>
  (true, { t with dirs := t.dirs ++ ((List.range (p.length + 1)).map (fun n => p.take n)).filter (fun d => !decide (d ∈ t.dirs)) })

/-- `sudo mount --bind ... p`. -/
def opMount (env : BldEnv) (p : CPath) : BldOp := fun t =>
  if env.mountFails p then (false, t) else (true, { t with mounts := p :: t.mounts })

/-- `install-nutyx`, /repo/scripts/mybld.in:928. -/
def opInstall (env : BldEnv) (base : CPath) : BldOp := fun t =>
  (env.installOk, { t with dirs := t.dirs ++ env.newDirs.map (base ++ ·), files := t.files ++ env.newFiles.map (base ++ ·), mounts := env.newMounts.map (base ++ ·) ++ t.mounts })

/-- The mounts, /repo/scripts/mybld.in:888-926: `done` are those in `MOUNT_POINTS`. -/
def mountOps (env : BldEnv) (base : CPath) : List CPath → List CPath → List (BldOp × List BldOp)
  | _, [] => []
  | done, p :: ps => (opMkdir (base ++ p), errorOps env base done) :: (opMount env (base ++ p), errorOps env base done) :: mountOps env base (done ++ [p]) ps

/-- From the mounts to the end of the build, /repo/scripts/mybld.in:797-932. `MOUNT_POINTS` is still that of the clean up when the first mount fails, if there was one. -/
def buildOps (env : BldEnv) (base : CPath) (proj : Str) (cleaned : Bool) : List (BldOp × List BldOp) :=
  let p0 := if cleaned then mybldPoints proj else []
  orExit [opMkdir (base ++ ["etc".toList])] ++
  ((opMkdir (base ++ ["DEPOT".toList]), errorOps env base p0) :: (opMount env (base ++ ["DEPOT".toList]), errorOps env base p0) ::
    mountOps env base [["DEPOT".toList]] (mybldPoints proj).tail) ++
  ([(opInstall env base, errorOps env base (mybldPoints proj))] ++ orExit (cleanOps env base proj))

/-- `mybld NAME` from the git project `proj`, /repo/scripts/mybld.in:635-932: the tree of a former run is cleaned up first. -/
def mybldBuild (env : BldEnv) (base : CPath) (proj : Str) (t : BldTree) : Bool × BldTree :=
  if t.isDir base then runBld env.kill (orExit (cleanOps env base proj) ++ buildOps env base proj true) t
  else runBld env.kill (buildOps env base proj false) t

/-- `mybld -c COLLECTION`, /repo/scripts/mybld.in:645-650. -/
def mybldClean (env : BldEnv) (base : CPath) (proj : Str) (t : BldTree) : Bool × BldTree := runBld env.kill (orExit (cleanOps env base proj)) t

end Cards
