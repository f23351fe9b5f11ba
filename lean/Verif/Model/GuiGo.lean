import Verif.Model.Install
/-!
# flcards: what "Go !" does to the system

One thread removes the packages marked for removal with one client, then installs the packages marked to install with another client.
-/
namespace Cards

/-- One turn of the loop of `RemovePackages`, /repo/fltk/cards_client.cxx:80-94. The lock is taken before the loop. No script of the package is run,
nothing is checked but that the name is known. -/
def guiRemoveOne (n : Str) (s : InstSt) : InstSt × Option InstErr :=
  if !s.st.nameExists n then (s, some (.run .notInstalled)) else deleteListed false n s

/-- `cards_client::RemovePackages` /repo/fltk/cards_client.cxx:62-95. Simplification: nothing but the messages happens between the lock and the
load of the database. -/
def guiRemove (locked : Bool) (names : List Str) (s : Sys) (sess : RepoSess) : InstSt × Option InstErr :=
  let s0 : InstSt := { st := load s false, sess := sess, count := 0 }
  if names.isEmpty then (s0, none)
  else if locked then (s0, some (.run .locked))
  else seqSteps guiRemoveOne names s0

/-- `cards_client::InstallPackages` /repo/fltk/cards_client.cxx:18-59: all names are resolved, then the list is installed by force. -/
def guiInstall (E : InstEnv) (opts : Opts) (names : List Str) (s : Sys) (sess : RepoSess) : InstSt × Option InstErr :=
  let s0 : InstSt := { st := load s false, sess := sess, count := 0 }
  if names.isEmpty then (s0, none)
  else match seqSteps (resolveArg E) names s0 with
    | (s, some e) => (s, some e)
    | (s, none) => seqSteps (installListed E { opts with force := true }) s.sess.list s

/-- The environment with the database the resolver of a new client reads, /repo/src/pkgrepo.cxx:8-12: the one on disk when the client is made. -/
def InstEnv.withDb (E : InstEnv) (junk : Nat × Nat) (disk : Db) : InstEnv := { E with net := { E.net with db := instDb junk disk } }

/-- The work of "Go !" by root, /repo/fltk/cards_wrapper.cxx:233-262, for the two sets of names. An exception ends it. The second client is new: it
has its own lists and reads the database again. -/
def guiGo (E : InstEnv) (junk : Nat × Nat) (opts : Opts) (locked : Bool) (remove install : List Str) (s : Sys) (sess : RepoSess) :
    InstSt × Option InstErr :=
  match guiRemove locked remove s sess with
  | (r, some e) => (r, some e)
  | (r, none) => guiInstall (E.withDb junk r.st.disk) opts install r.st.sys sess

end Cards
