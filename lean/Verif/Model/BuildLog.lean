import Verif.Model.Base
/-!
# The log of a build (/repo/src/process.cxx:114-118, 138-177; /repo/src/create.cxx:537-557, 594-596)

`cards create` starts `pkgmk` with its output in a pipe, and copies the pipe to the screen and to the log. `pkgmk` (the child) can start other processes that hold the
same pipe (helpers) and outlive it. The scheduler chooses who goes next: a schedule is a list of events.
Simplifications: `fork`, `pipe`, `read` and `write` succeed, `waitpid` is not disturbed by a signal (its failures: C41).
-/
namespace Cards

/-- Where the parent stands: before `waitpid` (line 161), in the inner loop (line 162), or behind both. -/
inductive LogPc
  | waiting | reading | done
deriving DecidableEq, Repr

/-- The state of the pipe, the log and the processes. `written` is all that was written to the pipe since the start. -/
structure LogRun where
  pipe : Str
  log : Str
  shown : Str
  alive : Bool
  childOpen : Bool
  helpers : Nat
  pc : LogPc
  written : Str
deriving DecidableEq, Repr

/-- What the child and its helpers can do. -/
inductive ChildAct
  | write (w : Str)
  | start
  | close
  | exit
  | helperWrite (w : Str)
  | helperEnd
deriving DecidableEq, Repr

/-- One event: the parent goes on, or the other side. -/
inductive LogEv
  | parent
  | child (a : ChildAct)
deriving DecidableEq, Repr

/-- After `fork`, /repo/src/process.cxx:144-155. -/
def logStart : LogRun := ⟨[], [], [], true, true, 0, .waiting, []⟩

/-- `sizeof(readbuf) - 1`, /repo/src/process.cxx:158, 162. -/
def readMax : Nat := 1023

/-- `printf("%s", readbuf)`, /repo/src/process.cxx:164: up to the first NUL. -/
def asCString (s : Str) : Str := s.takeWhile (· ≠ '\x00')

/-- The parent, /repo/src/process.cxx:161-172: `waitpid` with `WNOHANG` gives 0 while the child lives; the inner loop reads until the end of the file, that is until nobody
holds the pipe any more. `none`: it has to wait, or is done. -/
def parentStep (s : LogRun) : Option LogRun :=
  match s.pc with
  | .waiting => some (if s.alive then { s with pc := .reading } else { s with pc := .done })
  | .reading =>
    if s.pipe ≠ [] then
      some { s with pipe := s.pipe.drop readMax, log := s.log ++ s.pipe.take readMax, shown := s.shown ++ asCString (s.pipe.take readMax) }
    else if s.childOpen = false ∧ s.helpers = 0 then some { s with pc := .waiting }
    else none
  | .done => none

/-- The child and the processes it has started, /repo/src/process.cxx:145-152: `cap` is how much the pipe holds, who writes more has to wait. -/
def childStep (cap : Nat) (a : ChildAct) (s : LogRun) : Option LogRun :=
  match a with
  | .write w => if s.alive ∧ s.childOpen ∧ s.pipe.length + w.length ≤ cap then some { s with pipe := s.pipe ++ w, written := s.written ++ w } else none
  | .start => if s.alive ∧ s.childOpen then some { s with helpers := s.helpers + 1 } else none
  | .close => if s.alive ∧ s.childOpen then some { s with childOpen := false } else none
  | .exit => if s.alive then some { s with alive := false, childOpen := false } else none
  | .helperWrite w => if 0 < s.helpers ∧ s.pipe.length + w.length ≤ cap then some { s with pipe := s.pipe ++ w, written := s.written ++ w } else none
  | .helperEnd => if 0 < s.helpers then some { s with helpers := s.helpers - 1 } else none

/-- One event, /repo/src/process.cxx:138-177. -/
def logStep (cap : Nat) : LogEv → LogRun → Option LogRun
  | .parent => parentStep
  | .child a => childStep cap a

/-- A schedule. `none`: an event was not possible. -/
def logExec (cap : Nat) : List LogEv → LogRun → Option LogRun
  | [], s => some s
  | e :: es, s => (logStep cap e s).bind (logExec cap es)

/-- The log files of the ports of a collection, /repo/src/create.cxx:537-557: `open` takes a new descriptor for every port; that of the port before is not closed (only the
destructor closes one, lines 38-42). `limit` descriptors may be open, `used` are. The ports whose log could be opened; at the first refusal the command ends. -/
def logsOpened (limit used : Nat) : List Str → List Str
  | [] => []
  | p :: ps => if used < limit then p :: logsOpened limit (used + 1) ps else []

end Cards
