import Verif.Model.Argv
import Verif.Model.Root
import Verif.Model.Meta
import Verif.Model.Upgrade
/-!
# The program `cards`: which command does what, for which user

The bodies of the commands are modelled elsewhere; here is what stands before them: the clean-up every reading of the database begins with, the
synchronisation `cards diff` and `cards upgrade` begin with, and the tests of the user.
-/
namespace Cards

/-- The numbers of the options in `cardsOptList`. -/
def optConf : Nat := 2
/-- `--ready` -/
def optReady : Nat := 3
/-- `--download-only` -/
def optDownloadOnly : Nat := 4
/-- `--no-sync` -/
def optNoSync : Nat := 5
/-- `--size` -/
def optSize : Nat := 7
/-- `--check` -/
def optCheck : Nat := 8
/-- `--root` -/
def optRoot : Nat := 10
/-- `--binaries` -/
def optBinaries : Nat := 11
/-- `--sets` -/
def optSets : Nat := 12

/-- `isSet` /repo/src/argument_parser.cxx:312-320. -/
def AState.isSet (s : AState) (id : Nat) : Bool := (s.value id).isSome

/-- The configuration file, /repo/src/cards.cxx:34-50: `--root` counts only together with `--conf`. -/
def mainConf (s : AState) : Str :=
  match s.value optConf with
  | none => "/etc/cards.conf".toList
  | some c => cardsRoot (s.value optRoot) ++ c

/-- What a command does to the system, in order. -/
inductive Deed where
  /-- `buildDatabase` with this root: `cleanupMetaFiles`, /repo/src/pkgdbh.cxx:471 -/
  | cleanup (root : Str)
  /-- `sync::run` with this configuration file -/
  | sync (conf : Str)
  /-- the body of the command: it installs, removes, upgrades, compiles, publishes, deletes files of the cache, makes keys -/
  | body (conf : Str)
deriving DecidableEq, Repr

/-- What the examinations of `cards remove` and `cards upgrade` find. `removeRefused`: an argument is in use or in the base system, remove.cxx:28-64;
`removeRuns`: there is a package to remove; `tooMany`: more than 20 % and no `--proceed`, upgrade.cxx:36-53; `noDepot`: 54-64; `work`: there is something
to update or delete, 101-105. -/
structure Facts where
  removeRefused : Bool
  removeRuns : Bool
  tooMany : Bool
  noDepot : Bool
  work : Bool
deriving DecidableEq, Repr

/-- The rest of `upgrade::upgrade` after the synchronisation, /repo/src/upgrade.cxx:14-115; the flag: an error. -/
def upgradeDeeds (f : Facts) (uid : Nat) (s : AState) : List Deed × Bool :=
  if s.isSet optCheck ∨ s.isSet optSize then ([], false)
  else if f.tooMany then ([.cleanup (upgradeRoot (s.value optRoot))], false)
  else if f.noDepot then ([.cleanup (upgradeRoot (s.value optRoot))], true)
  else if !f.work then ([.cleanup (upgradeRoot (s.value optRoot))], false)
  else if !s.isSet optDownloadOnly ∧ uid ≠ 0 then ([.cleanup (upgradeRoot (s.value optRoot))], true)
  else if s.isSet optReady ∨ s.isSet optDownloadOnly then ([.cleanup (upgradeRoot (s.value optRoot))], false)
  else ([.cleanup (upgradeRoot (s.value optRoot)), .body (mainConf s)], false)

/-- The switch of /repo/src/cards.cxx:52-276 and the beginnings of the commands; the flag: an error. `diff::diff` diff.cxx:7-22 and with it `upgrade::upgrade`
upgrade.cxx:7-12 synchronise when the user is root (sync.cxx:18); `pkgrepo::pkgrepo` pkgrepo.cxx:7-16 reads the database of `/`. Simplification: where a
command may or may not read the database (a file is given as argument), it is taken to read it. -/
def cardsDeeds (f : Facts) (uid : Nat) (cmd : Str) (s : AState) : List Deed × Bool :=
  let home : Deed := .cleanup "/".toList
  if cmd = "files".toList ∨ cmd = "query".toList then (if s.isSet optBinaries then [] else [home], false)
  else if cmd = "list".toList then (if s.isSet optBinaries ∨ s.isSet optSets then [] else [home], false)
  else if cmd = "search".toList ∨ cmd = "info".toList then ([home], false)
  else if cmd = "sync".toList then (if uid ≠ 0 then ([], true) else ([.sync (mainConf s)], false))
  else if cmd = "keys".toList ∨ cmd = "repo".toList then (if uid = 0 then ([], true) else ([home, .body (mainConf s)], false))
  else if cmd = "diff".toList then ((if uid = 0 then [.sync (mainConf s)] else []) ++ [home], false)
  else if cmd = "upgrade".toList then
    ((if uid = 0 then [.sync (mainConf s)] else []) ++ home :: (upgradeDeeds f uid s).1, (upgradeDeeds f uid s).2)
  else if cmd = "install".toList then
    (if uid ≠ 0 then ([home], true) else ([home, .cleanup (cardsRoot (s.value optRoot)), .body (mainConf s)], false))
  else if cmd = "remove".toList then
    (if f.removeRefused then ([.cleanup (cardsRoot (s.value optRoot))], true)
     else if f.removeRuns then
      (if uid ≠ 0 then ([.cleanup (cardsRoot (s.value optRoot))], true) else ([.cleanup (cardsRoot (s.value optRoot)), .body (mainConf s)], false))
     else ([.cleanup (cardsRoot (s.value optRoot))], false))
  else if cmd = "purge".toList then (if uid ≠ 0 then ([], true) else ([.body (mainConf s)], false))
  else if cmd = "create".toList then (if uid ≠ 0 then ([home], true) else ([home, .body "/etc/cards.conf".toList], false))
  else ([], false)

/-- How a `cards` line ends. -/
inductive MainEnd where
  | badLine
  | help
  | failed
  | done
deriving DecidableEq, Repr

/-- One deed on the file system; `body` and `sync` are the bodies. -/
def Deed.run (body : Str → Str → Fs → Fs) (sync : Str → Fs → Fs) (cmd : Str) (fs : Fs) : Deed → Fs
  | .cleanup r => cleanupMeta r fs
  | .sync c => sync c fs
  | .body c => body cmd c fs

/-- `main` /repo/src/cards.cxx:29-283. -/
def cardsMain (body : Str → Str → Fs → Fs) (sync : Str → Fs → Fs) (f : Facts) (uid : Nat) (argv : List Str) (fs : Fs) : Fs × MainEnd :=
  match parseArgs cardsTables argv with
  | .error => (fs, .badLine)
  | .help => (fs, .help)
  | .ok cmd s =>
    let d := cardsDeeds f uid cmd.name s
    (d.1.foldl (Deed.run body sync cmd.name) fs, if d.2 then .failed else .done)

/-- `upgrade::Isdownload` /repo/src/upgrade.cxx:116-127: `checkHash` (pkgrepo.cxx:848-853) compares with `m_packageFileNameHash`, which no one has set: it is
empty. The result: exit code 0. -/
def isDownload (repo : List (Str × RepoPkg)) (update : List (Str × Nat)) : Bool :=
  update.all (fun u => hashEq [] (match mget repo u.1 with | some p => p.hash | none => []))

/-- `cards upgrade --ready`, /repo/src/cards.cxx:219-225: whether the exit code is 0. The list `m_ListOfPackagesToUpdate` is empty when the constructor returned
early. -/
def upgradeReady (junk : Nat) (o : UpgOpts) (groups : List Str) (db : InstDb) (repo : List (Str × RepoPkg)) : Bool :=
  match upgradePlan junk o groups db db repo with
  | .noDepot => false
  | .notRoot => false
  | .nothing => isDownload repo (upgradeScan db repo (groupUpdates db repo groups [])).1
  | _ => true

end Cards
