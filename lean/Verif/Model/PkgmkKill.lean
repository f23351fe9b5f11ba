import Verif.Model.PkgmkRun
import Verif.Model.PkgmkRepo
import Verif.Model.PkgmkDeps
/-!
# `pkgmk`: a run that is killed or interrupted (/repo/scripts/pkgmk.in:905-1100, 1192-1212, 1241-1258, 1602)

A run is the list of the changes it makes, one after the other; a killed run has made the first ones. `interrupted` (1249-1258, the trap of line 1602) removes the work directory and
ends the run: it touches neither the packages nor the lists nor what was installed. Simplifications: the time between the changes is a clock; a package goes through the states begun, packed
without description, finished; the directories of a sub-package are packed in one step.
-/
namespace Cards

/-- What there is in a package file: `part`: `bsdtar` is writing it; `bare`: its files, without `.META`; `whole`: it is finished. -/
inductive TarState
  | part
  | bare
  | whole
  deriving DecidableEq, Repr

/-- A change of the directory of the packages: `rm`, or a package file gets a new content. -/
inductive DirOp
  | rm (f : Str)
  | put (f : Str) (s : TarState)
  deriving DecidableEq, Repr

/-- The directory of the packages: the files, with their state and their date. -/
abbrev TarDir := List (Str × (TarState × Nat))

/-- One change, made at the time `t`. -/
def DirOp.run (t : Nat) (d : TarDir) : DirOp → TarDir
  | .rm f => merase f d
  | .put f s => mset f (s, t) d

/-- The changes, one after the other; the clock says when. -/
def runOps (clock : Nat → Nat) : Nat → List DirOp → TarDir → TarDir
  | _, [], d => d
  | i, o :: os, d => runOps clock (i + 1) os (o.run (clock i) d)

/-- A package is packed, /repo/scripts/pkgmk.in:494-617, 1036, 1056. -/
def packOps (f : Str) : List DirOp := [.put f .part, .put f .bare]

/-- `add_meta_files` (719-742; `bsdtar -r` only when there are scripts) and the end of `add_meta_to_archive` (880-893): the package is removed and packed again with its description,
/repo/scripts/pkgmk.in. -/
def metaOps (scripts : Str → Bool) (f : Str) : List DirOp := (if scripts f then packOps f else []) ++ [.rm f, .put f .part, .put f .whole]

/-- What `build_package` changes in the directory of the packages, /repo/scripts/pkgmk.in:975 and 1241-1248 (`old`: the packages of the port, as `find` lists them), 984-1043 (`subs`), 1056
(`main`), 1081-1084 (`order`: the new packages, as `find` lists them). -/
def pkgBuildOps (scripts : Str → Bool) (old subs : List Str) (main : Str) (order : List Str) : List DirOp :=
  old.map .rm ++ subs.flatMap packOps ++ packOps main ++ order.flatMap (metaOps scripts)

/-- The directory after a run that was killed when it had made `k` changes. -/
def killedDir (clock : Nat → Nat) (ops : List DirOp) (k : Nat) (d : TarDir) : TarDir := runOps clock 0 (ops.take k) d

/-- The dates of the files, for `-nt`, /repo/scripts/pkgmk.in:1186. -/
def dates (d : TarDir) : List (Str × Nat) := d.map (fun p => (p.1, p.2.2))

/-- What a killed loop of `update_repo_file` has appended, /repo/scripts/pkgmk.in:1199-1209: each line is written by a command of its own, so some of the lines. -/
def killedLoop (lines : BuiltPkg → List Str) (ps : List BuiltPkg) (k : Nat) : List Str := (ps.flatMap lines).take k

/-- `.REPO` and `.FILES` after an `update_repo_file` that was killed, /repo/scripts/pkgmk.in:1192-1209: `stage` 0: before the first `sed`; 1: between the two; 2: in the loop, with `j`
lines appended to `.REPO` and `k` to `.FILES`. `sed -i` writes another file and renames it. -/
def killedUpdate (name : Str) (dir : List BuiltPkg) (repo files : List Str) (stage j k : Nat) : List Str × List Str :=
  if stage = 0 then (repo, files)
  else if stage = 1 then (sedDelete (atName name) false repo, files)
  else (sedDelete (atName name) false repo ++ killedLoop repoLines (globPkgs name dir) j,
        sedDelete (atName name) false files ++ killedLoop filesLines (globPkgs name dir) k)

/-- The packages on the machine after a build that was interrupted when `j` packages had been handed to `pkgadd`, /repo/scripts/pkgmk.in:928-933, 1249-1258: `interrupted` does not run
`remove_dependencies`. -/
def afterInterrupt (holds : Str → Option (Str × Nat)) (db : OnMachine) (files : Str → List (Str × Str)) (colls depends : List Str) (j : Nat) : OnMachine :=
  addDependencies holds db ((getDependencies db files colls depends).take j)

/-- `interrupted`, /repo/scripts/pkgmk.in:1249-1258: is the work directory still there, and the status (`E_GENERAL`). -/
def interrupted (keepWork work : Bool) : Bool × Nat := (if keepWork then work else false, 1)

end Cards
