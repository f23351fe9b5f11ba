import Verif.Model.PkgmkRepo
/-!
# `pkgmk`: several runs at the same time in one collection (/repo/scripts/pkgmk.in:1192-1209)

`pkgmk` takes no lock. The steps that other runs can come between are: `sed -i` has read `.REPO`; `sed -i` renames what it wrote; a line is appended. Simplification: `.REPO` only (`.FILES`
is written in the same way); what a run appends is fixed when it begins.
-/
namespace Cards

/-- Where a run is: before `sed`, in `sed` (with what it has read), or in the loop. -/
inductive RacePhase
  | start
  | read (snap : List Str)
  | loop
  deriving DecidableEq, Repr

/-- A run of `update_repo_file`, /repo/scripts/pkgmk.in:1192-1209: the name of the port, where it is, and the lines it still has to append. -/
structure RaceRun where
  name : Str
  phase : RacePhase
  todo : List Str
  deriving DecidableEq, Repr

/-- `.REPO` and the runs. -/
structure RaceSt where
  repo : List Str
  runs : List RaceRun
  deriving DecidableEq, Repr

/-- A run that begins: what it will append are the records of the packages it finds, /repo/scripts/pkgmk.in:1199-1209. -/
def raceBegin (dir : List BuiltPkg) (name : Str) : RaceRun := ⟨name, .start, (globPkgs name dir).flatMap repoLines⟩

/-- The next step of one run, /repo/scripts/pkgmk.in:1196 (`sed -i`: read, then rename), 1201-1207 (`echo … >>`). -/
def raceOne (repo : List Str) (r : RaceRun) : List Str × RaceRun :=
  match r.phase with
  | .start => (repo, { r with phase := .read repo })
  | .read snap => (sedDelete (atName r.name) false snap, { r with phase := .loop })
  | .loop =>
    match r.todo with
    | [] => (repo, r)
    | l :: ls => (repo ++ [l], { r with todo := ls })

/-- The run with the number `i` makes a step. -/
def raceStep (s : RaceSt) (i : Nat) : RaceSt :=
  match s.runs[i]? with
  | none => s
  | some r => ⟨(raceOne s.repo r).1, s.runs.set i (raceOne s.repo r).2⟩

/-- The steps of all runs, in the order of the schedule. -/
def raceAll (s : RaceSt) (sched : List Nat) : RaceSt := sched.foldl raceStep s

end Cards
