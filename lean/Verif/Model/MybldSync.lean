import Verif.Model.Base
/-!
# mybld --rsync: the binaries of a collection are fetched (/repo/scripts/mybld.in: rsync_binaries, answer)

A directory of binaries is its files by name; the content stands for the content, the size and the time of a file (rsync takes two files with one size and one time to be
the same). Not modelled: directories inside the collection, the owners and permissions (`chown`), names with characters that mean something to the shell, and the form
without a collection.
-/
namespace Cards

/-- The pattern `NAME.*`, /repo/scripts/mybld.in:187-190. -/
def ofPort (n f : Str) : Bool := (n ++ ['.']).isPrefixOf f

/-- What becomes of the connection: `listed` when the list of the server's files arrives, `stop` when it breaks, after how many files (rsync, as
/repo/scripts/mybld.in:188-190 and 206-208 call it). -/
structure NetLink where
  listed : Bool
  stop : Option Nat

/-- The files that arrive. -/
def NetLink.arrive (w : NetLink) (l : List (Str × Str)) : List (Str × Str) := match w.stop with
  | none => l
  | some k => l.take k

/-- Files written one after the other; each is put in its place when it is complete. -/
def putFiles (l dir : List (Str × Str)) : List (Str × Str) := l.foldl (fun d e => mset e.1 e.2 d) dir

/-- `rsync -avd --no-r --delete URL/NAME.* DIR/`: with files as the source, `--delete` deletes nothing. /repo/scripts/mybld.in:188-190. -/
def rsyncPort (w : NetLink) (n : Str) (server dir : List (Str × Str)) : List (Str × Str) :=
  if w.listed then putFiles (w.arrive (server.filter (fun e => ofPort n e.1))) dir else dir

/-- `rsync -avd --no-r --delete URL/ DIR/`: what the server does not have is deleted first, when its list is there. /repo/scripts/mybld.in:206-208. -/
def rsyncAll (w : NetLink) (server dir : List (Str × Str)) : List (Str × Str) :=
  if w.listed then putFiles (w.arrive server) (dir.filter (fun e => (keys server).contains e.1)) else dir

/-- The answers that are a yes, /repo/scripts/mybld.in:380. -/
def yesAnswers : List Str := ["y".toList, "Y".toList, "yes".toList]

/-- `mybld --rsync [NAME]` for a collection: the exit status and the directory, /repo/scripts/mybld.in:174-211 and 378-386. With a name, the files of that name are
deleted (`rm -f`) before the new ones are asked for. -/
def rsyncBinaries (version answer : Str) (name : Option Str) (w : NetLink) (server dir : List (Str × Str)) : Nat × List (Str × Str) :=
  if version = [] then (1, dir)
  else if answer ∉ yesAnswers then (1, dir)
  else match name with
    | some n => (0, rsyncPort w n server (dir.filter (fun e => !ofPort n e.1)))
    | none => (0, rsyncAll w server dir)

end Cards
