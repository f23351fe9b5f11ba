import Verif.Model.Upgrade
/-!
# cards install and cards upgrade: several packages in one process

`m_listOfPackages` and `m_listOfAlias` are filled once, at the start; every package handled changes them.
-/
namespace Cards

/-- One package handled by the process: its archive, what the environment decides, whether `setDependency()` is called before, and whether the
command looks up the mode (install or upgrade) under another name than that of the archive (`cards upgrade` uses the name of its list). -/
structure Job where
  env : Env
  a : Archive
  dep : Bool
  modeName : Str

/-- Decide between install and upgrade and `run()`, /repo/src/install.cxx:41-53, 77-95 and upgrade.cxx:137-147. `opts.upgrade` and
`opts.asDep` are not used. -/
def runJob (rules : List Rule) (opts : Opts) (j : Job) (st : St) : St × Option Err :=
  runAdd j.env rules { opts with upgrade := st.nameExists j.modeName } j.a { st with dep := st.dep || j.dep }

/-- Handle a list of packages; an error ends the process. The rules are read once: `readRulesFile` returns when there are some,
/repo/src/pkgdbh.cxx:1335-1336 (a file without rules is read again, with the same result). -/
def runJobs (rules : List Rule) (opts : Opts) : List Job → St → St × Option Err
  | [], st => (st, none)
  | j :: js, st =>
    match runJob rules opts j st with
    | (st, some e) => (st, some e)
    | (st, none) => runJobs rules opts js st

/-- What `cards install` and `cards upgrade` depend on. `pkgOf` reads a package file (the same file `net.opens` reads), `localFile` the file named
by an argument, when it is a regular file (`none`: it is not), `fileExists` tells whether anything has that name. `env k` is what the environment
decides for the `k`th package. `fuel` bounds each resolution. -/
structure InstEnv where
  net : Net
  pkgOf : Str → Option Archive
  localFile : Str → Option (Option Archive)
  fileExists : Str → Bool
  env : Nat → Env
  rules : List Rule
  groups : List Str
  fuel : Nat

/-- How the command ends when it does not succeed. -/
inductive InstErr where
  /-- ERROR_ENUM_PACKAGE_NOT_FOUND -/
  | notFound (n : Str)
  | resolve (e : ResErr)
  /-- a package file that cannot be read as archive -/
  | unreadable
  | run (e : Err)
deriving DecidableEq, Repr

/-- The state of the command: the process, the resolver, the number of packages handled. -/
structure InstSt where
  st : St
  sess : RepoSess
  count : Nat

/-- The check of the arguments before anything is done, /repo/src/install.cxx:15-25: the first argument that is neither a file nor known. -/
def unknownArg (E : InstEnv) (args : List Str) : Option Str :=
  args.find? (fun i => !E.fileExists i && (packagesOfCollection E.net.repo i).isEmpty && (mget E.net.repo i).isNone &&
    (packagesOfSet E.net.repo i).isEmpty)

/-- `generateDependencies` as a step of the command. -/
def resolveArg (E : InstEnv) (n : Str) (s : InstSt) : InstSt × Option InstErr :=
  match generateDeps E.net E.fuel n s.sess with
  | .error e => (s, some (.resolve e))
  | .ok sess => ({ s with sess := sess }, none)

/-- Run the steps until one ends with an error. -/
def seqSteps {α : Type} (f : α → InstSt → InstSt × Option InstErr) : List α → InstSt → InstSt × Option InstErr
  | [], s => (s, none)
  | x :: xs, s =>
    match f x s with
    | (s, some e) => (s, some e)
    | (s, none) => seqSteps f xs s

/-- Handle one package file, /repo/src/install.cxx:41-53 and 74-95; `none`: it cannot be read. -/
def runFile (E : InstEnv) (opts : Opts) (a : Option Archive) (dep : Bool) (modeName : Option Str) (s : InstSt) : InstSt × Option InstErr :=
  match a with
  | none => (s, some .unreadable)
  | some a =>
    let r := runJob E.rules opts { env := E.env s.count, a := a, dep := dep, modeName := modeName.getD a.name } s.st
    ({ s with st := r.1, count := s.count + 1 }, r.2.map .run)

/-- The packages an argument stands for: a set before a collection, /repo/src/install.cxx:29-31. -/
def memberPackages (repo : List (Str × RepoPkg)) (i : Str) : List Str :=
  if (packagesOfSet repo i).isEmpty then packagesOfCollection repo i else packagesOfSet repo i

/-- One argument, /repo/src/install.cxx:28-69. -/
def installArg (E : InstEnv) (opts : Opts) (arg : Str) (s : InstSt) : InstSt × Option InstErr :=
  if !(memberPackages E.net.repo arg).isEmpty then
    seqSteps (fun i s => if s.st.nameExists i then (s, none) else resolveArg E i s) (memberPackages E.net.repo arg) s
  else match E.localFile arg with
    | some a => runFile E opts a false none s
    | none => resolveArg E arg s

/-- The sub-packages of the configured groups, /repo/src/install.cxx:126-142. -/
def groupNames (E : InstEnv) (list : List (Str × Nat)) : List Str :=
  sofList (E.groups.flatMap (fun g => (list.map (fun j => j.1 ++ '.' :: g)).filter (fun n => (mget E.net.repo n).isSome)))

/-- The download of a sub-package whose file is missing, /repo/src/install.cxx:137-138. -/
def prefetch (E : InstEnv) (n : Str) (s : InstSt) : InstSt × Option InstErr :=
  match mget E.net.repo n with
  | none => (s, none)
  | some p =>
    if (mget s.sess.files p.path).isSome then (s, none)
    else match E.net.fetch s.sess.clock n with
      | .failed => (s, some (.resolve (.io n)))
      | .empty => ({ s with sess := { s.sess with clock := s.sess.clock + 1 } }, none)
      | .got c => ({ s with sess := { s.sess with clock := s.sess.clock + 1, files := mset p.path c s.sess.files } }, none)

/-- `getLocalePackagesList` /repo/src/install.cxx:118-152. Simplification: the downloads happen in the order of the set, each name once (a file just
downloaded exists). -/
def addGroupPackages (E : InstEnv) (s : InstSt) : InstSt × Option InstErr :=
  let names := groupNames E s.sess.list
  match seqSteps (prefetch E) names s with
  | (s, some e) => (s, some e)
  | (s, none) => seqSteps (resolveArg E) names s

/-- The file of a package of the list, `dirName(name) + "/" + fileName(name)` (an unknown name gives "/"). -/
def listedFile (E : InstEnv) (s : InstSt) (n : Str) : Option Archive :=
  match mget E.net.repo n with
  | none => none
  | some p => (mget s.sess.files p.path).bind E.pkgOf

/-- The final loop of `cards install`, /repo/src/install.cxx:73-99. -/
def installListed (E : InstEnv) (opts : Opts) (i : Str × Nat) (s : InstSt) : InstSt × Option InstErr :=
  runFile E opts (listedFile E s i.1) (decide (0 < i.2)) none s

/-- `cards install` /repo/src/install.cxx:7-100 by a process that may (root). -/
def cardsInstall (E : InstEnv) (opts : Opts) (args : List Str) (s : Sys) (sess : RepoSess) : InstSt × Option InstErr :=
  let s0 : InstSt := { st := load s false, sess := sess, count := 0 }
  match unknownArg E args with
  | some n => (s0, some (.notFound n))
  | none =>
    match seqSteps (installArg E opts) args s0 with
    | (s, some e) => (s, some e)
    | (s, none) =>
      match addGroupPackages E s with
      | (s, some e) => (s, some e)
      | (s, none) => seqSteps (installListed E opts) s.sess.list s

/-- One package of the list of `cards upgrade`, /repo/src/upgrade.cxx:137-147: forced, the mode is looked up with the name of the list, and
`setDependency()` is not called. -/
def upgradeListed (E : InstEnv) (opts : Opts) (i : Str × Nat) (s : InstSt) : InstSt × Option InstErr :=
  runFile E { opts with force := true } (listedFile E s i.1) false (some i.1) s

/-- One deletion of `cards upgrade`, /repo/src/upgrade.cxx:153-159: `buildDatabase` does nothing, the process has loaded the database before
(pkgdbh.cxx:472-473). No script is run. -/
def deleteListed (locked : Bool) (n : Str) (s : InstSt) : InstSt × Option InstErr :=
  if locked then (s, some (.run .locked))
  else
    match removeRecord s.st n with
    | (st, some e) => ({ s with st := st }, some (.run e))
    | (st, none) => ({ s with st := removeFiles st n [] }, none)

/-- `upgradePackages` /repo/src/upgrade.cxx:127-160 for the lists `upgradePlan` made. -/
def performUpgrade (E : InstEnv) (opts : Opts) (locked : Str → Bool) (update : List (Str × Nat)) (delete : List Str) (s : InstSt) :
    InstSt × Option InstErr :=
  match seqSteps (fun x => resolveArg E x.1) update s with
  | (s, some e) => (s, some e)
  | (s, none) =>
    match seqSteps (upgradeListed E opts) s.sess.list s with
    | (s, some e) => (s, some e)
    | (s, none) => seqSteps (fun n => deleteListed (locked n) n) delete s

/-- `cards upgrade` /repo/src/upgrade.cxx:7-160 on the database of the host: nothing is changed unless the plan is to perform. -/
def cardsUpgrade (E : InstEnv) (junk : Nat) (o : UpgOpts) (opts : Opts) (locked : Str → Bool) (s : Sys) (sess : RepoSess) :
    InstSt × Option InstErr :=
  let s0 : InstSt := { st := load s false, sess := sess, count := 0 }
  match upgradePlan junk o E.groups E.net.db E.net.db E.net.repo with
  | .perform u d => performUpgrade E opts locked u d s0
  | _ => (s0, none)

end Cards
