import Verif.Model.Base
/-!
# Progress display: the percentages on the console and in flcards
-/
namespace Cards

/-- The calls of `progressInfo` that matter, with the numbers they read. Other actions show no number and change nothing. -/
inductive PEv where
  /-- ACTION_ENUM_DB_OPEN_RUN, `names`: size of `m_listOfPackagesNames` -/
  | openRun (names : Nat)
  /-- ACTION_ENUM_DB_OPEN_END -/
  | openEnd
  /-- ACTION_ENUM_PKG_INSTALL_START -/
  | instStart
  /-- ACTION_ENUM_PKG_INSTALL_RUN, `done`: `m_installedFilesNumber`, `files`: `m_filesNumber` -/
  | instRun (done files : Nat)
  /-- ACTION_ENUM_PKG_INSTALL_END -/
  | instEnd
  /-- ACTION_ENUM_RM_PKG_FILES_START -/
  | rmStart
  /-- ACTION_ENUM_RM_PKG_FILES_RUN, `files`: size of `m_filesList`, `known`: `m_filesNumber` -/
  | rmRun (files known : Nat)
  /-- ACTION_ENUM_RM_PKG_FILES_END -/
  | rmEnd
deriving DecidableEq, Repr

/-- `pkgdbh::progressInfo` /repo/src/pkgdbh.cxx:199-308 with `m_progress`: the static counter and the percentage printed. `none`: an integer is
divided by zero, the process is killed. Simplification: no overflow, i.e. less than 2^31/100 packages and files. -/
def conStep (j : Nat) : PEv → Option (Nat × Option Nat)
  | .openRun n => if n = 0 then none else some (j + 1, some ((j + 1) * 100 / n))
  | .openEnd => some (0, some 100)
  | .instStart => some (0, none)
  | .instRun d n => if n = 0 then none else some (j + 1, some (d * 100 / n))
  | .instEnd => some (j, some 100)
  | .rmStart => some (0, none)
  | .rmRun n _ => if n = 0 then none else some (j + 1, some ((j + 1) * 100 / n))
  | .rmEnd => some (j, some 100)

/-- `cards_client::progressInfo` /repo/fltk/cards_client.cxx:98-147: the static counter and the value given to the progress bar. Simplification as
above. -/
def guiStep (j : Nat) : PEv → Option (Nat × Option Nat)
  | .openRun n => if n / 100 = 0 then none else some (j + 1, some (j / (n / 100)))
  | .openEnd => some (j, some 0)
  | .instStart => some (j, some 0)
  | .instRun d n => some (j + 1, some (if 100 < n then d / (n / 100) else j))
  | .instEnd => some (j, some 0)
  | .rmStart => some (0, some 0)
  | .rmRun _ n => some (j + 1, some (if 100 < n then j / (n / 100) else j))
  | .rmEnd => some (j, some 0)

/-- What a process does with progress display. -/
inductive POp where
  /-- `buildDatabase` with that many packages, /repo/src/pkgdbh.cxx:478-648 -/
  | openDb (names : Nat)
  /-- `installArchivePackage` of an archive with that many entries and lines in `.MTREE`, /repo/src/pkgdbh.cxx:1253-1317 (`m_filesNumber` is the
  number of lines, pkgdbh.cxx:1128, archive.cxx:60-63) -/
  | install (entries lines : Nat)
  /-- `removePackageFiles` with that many files to delete, /repo/src/pkgdbh.cxx:959-971, 1008-1019; `known`: the value `m_filesNumber` has -/
  | remove (files known : Nat)
deriving DecidableEq, Repr

/-- The calls an operation makes. -/
def POp.events : POp → List PEv
  | .openDb n => (List.range n).map (fun _ => PEv.openRun n) ++ [.openEnd]
  | .install e n => .instStart :: (List.range e).map (fun d => PEv.instRun d n) ++ [.instEnd]
  | .remove f k => .rmStart :: (List.range f).map (fun _ => PEv.rmRun f k) ++ [.rmEnd]

/-- The numbers shown by a list of calls, from the value of the counter; `none`: killed. -/
def showEvents (step : Nat → PEv → Option (Nat × Option Nat)) : List PEv → Nat → Option (Nat × List Nat)
  | [], j => some (j, [])
  | e :: es, j =>
    match step j e with
    | none => none
    | some (j, v) =>
      match showEvents step es j with
      | none => none
      | some (j, vs) => some (j, v.toList ++ vs)

/-- The numbers shown by each of the operations of a process: the counter is static, it starts with 0 (pkgdbh.cxx:206, cards_client.cxx:101). -/
def showOps (step : Nat → PEv → Option (Nat × Option Nat)) : List POp → Nat → Option (List (List Nat))
  | [], _ => some []
  | o :: os, j =>
    match showEvents step o.events j with
    | none => none
    | some (j, vs) => (showOps step os j).map (vs :: ·)

end Cards
