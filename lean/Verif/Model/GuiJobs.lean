import Verif.Model.Base
/-!
# The threads of flcards (/repo/fltk/cards_wrapper.cxx, mainWindow.cxx:100-130, progressbox.cxx)

The window is served by the main thread; loading the list of packages, synchronising, performing the marked jobs and showing the information of a package are done by threads of their own.
A schedule is a list of events: what the main thread does, and which thread takes its next step.
Simplifications: an event of the main thread is one step (it holds `Fl::lock`, which the callbacks of the threads take), a thread takes a step at each access to the shared data;
the lists of packages in memory are numbered, `gen` is the number of the present one, the others are freed.
-/
namespace Cards

/-- The threads, /repo/fltk/cards_wrapper.cxx:144-181. -/
inductive JobKind
  | refresh | sync | doJob | info
deriving DecidableEq, Repr

/-- A thread and the place it has reached. -/
structure Worker where
  kind : JobKind
  pc : Nat
deriving DecidableEq, Repr

/-- The shared data: `m_job_running`, the list in memory, the list the rows of the table point into, the list the entries of `m_arrJobList` point into (`none`: it is empty, and then
"Go !" is not active), whether a package of the present list is marked, the threads, the progress window (modal), and whether freed memory was used. -/
structure Wrap where
  running : Bool
  gen : Nat
  rowsGen : Nat
  jobsGen : Option Nat
  marked : Bool
  workers : List Worker
  box : Option JobKind
  bad : Bool
deriving DecidableEq, Repr

/-- Events. `click`: the user clicks on a row, and takes an item of the menu (`some m`: some package is marked afterwards just when `m`) or clicks with another button (`none`);
`press`: the buttons "Sync" and "Go !"; `worker i`: thread `i` takes a step. -/
inductive WEv
  | redraw
  | search
  | click (take : Option Bool)
  | press (k : JobKind)
  | worker (i : Nat)
deriving DecidableEq, Repr

/-- `m_IsThreadFree` and the start of the thread, /repo/fltk/cards_wrapper.cxx:144-181, 372-384: the flag is set by the thread itself. -/
def Wrap.start (s : Wrap) (k : JobKind) : Wrap :=
  if s.running then s else { s with workers := s.workers ++ [⟨k, 0⟩] }

/-- Reading the packages of the rows (drawing, clicking), /repo/fltk/table_package.cxx:126-141, 158-175: a freed one when the rows belong to an older list. -/
def Wrap.useRows (s : Wrap) : Wrap := { s with bad := s.bad || (s.rowsGen != s.gen) }

/-- `refreshJobList` with its callbacks, /repo/fltk/cards_wrapper.cxx:93-110. -/
def Wrap.refreshJobs (s : Wrap) : Wrap := { s with jobsGen := if s.marked then some s.gen else none, rowsGen := s.gen }

/-- `m_ClearPackagesList` and the filling of the new list, /repo/fltk/cards_wrapper.cxx:286-302, 386-396. `m_arrJobList` is not touched. -/
def Wrap.newList (s : Wrap) : Wrap := { s with gen := s.gen + 1, marked := false }

/-- One step of a thread: the new data, and the thread unless it has ended. `root`: the program runs as root. -/
def workerStep (root : Bool) (s : Wrap) (w : Worker) : Wrap × Option Worker :=
  let next := some ⟨w.kind, w.pc + 1⟩
  match w.kind with
  | .refresh => -- /repo/fltk/cards_wrapper.cxx:280-304
    match w.pc with
    | 0 => ({ s with running := true }, next)
    | 1 => (s.newList, next)
    | 2 => ({ s with rowsGen := s.gen }, next)
    | _ => ({ s with running := false }, none)
  | .info => -- /repo/fltk/cards_wrapper.cxx:183-194
    match w.pc with
    | 0 => ({ s with running := true }, next)
    | _ => ({ s with running := false }, none)
  | .sync => -- /repo/fltk/cards_wrapper.cxx:201-225, 312-319, progressbox.cxx:57-62
    match w.pc with
    | 0 => ({ s with running := true }, next)
    | 1 => ({ s with running := false }, next)
    | 2 => (if root then s.start .refresh else s, next)
    | _ => ({ s with box := none }, none)
  | .doJob => -- /repo/fltk/cards_wrapper.cxx:228-276, progressbox.cxx:64-70
    match w.pc with
    | 0 => ({ s with running := true }, if root then next else some ⟨.doJob, 6⟩)
    | 1 => ({ s with bad := s.bad || (s.jobsGen.isSome && s.jobsGen != some s.gen) }, next)
    | 2 => ({ s with running := true }, next)
    | 3 => (s.newList, next)
    | 4 => ({ s with rowsGen := s.gen }, next)
    | 5 => ({ s with running := false }, next)
    | 6 => (s.refreshJobs, next)
    | 7 => ({ s with running := false }, next)
    | _ => ({ s with box := none }, none)

/-- One event. The progress window is modal: while it is open there are no clicks and no other button. -/
def Wrap.step (root : Bool) (s : Wrap) : WEv → Wrap
  | .redraw => s.useRows
  | .search => if s.box.isSome then s else { s with rowsGen := s.gen } -- table_base.cxx:229-233
  | .click take =>
    if s.box.isSome then s
    else
      let s := s.useRows
      let s := match take with | some m => { s with marked := m }.refreshJobs | none => s
      s.start .info -- table_package.cxx:240
  | .press k =>
    if s.box.isSome ∨ (k = .doJob ∧ s.jobsGen = none) ∨ k = .refresh ∨ k = .info then s
    else { s.start k with box := some k } -- mainWindow.cxx:105-126
  | .worker i =>
    match s.workers[i]? with
    | none => s
    | some w =>
      match workerStep root s w with
      | (t, some w') => { t with workers := t.workers.set i w' }
      | (t, none) => { t with workers := t.workers.eraseIdx i }

/-- A schedule. -/
def Wrap.run (root : Bool) (s : Wrap) (es : List WEv) : Wrap := es.foldl (Wrap.step root) s

/-- The program has just started: the table loads the list, /repo/fltk/table_package.cxx:20. -/
def wrapStart : Wrap := ⟨false, 0, 0, none, false, [⟨.refresh, 0⟩], none, false⟩

end Cards
