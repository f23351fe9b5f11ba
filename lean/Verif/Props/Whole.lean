import Verif.Props.TransFs
import Verif.Props.Remove
import Verif.Props.Lock
import Verif.Props.RemoveCmd
import Verif.Props.Alias
import Verif.Props.Ports
import Verif.Props.Create
import Verif.Props.Sync
import Verif.Props.Purge
import Verif.Props.Halt
import Verif.Props.PkgmkNames
import Verif.Props.SplitAll
import Verif.Props.ResolveLibs
import Verif.Props.WebReq
import Verif.Props.Keys
import Verif.Props.Trigger
import Verif.Props.Progress
import Verif.Props.ElfMem
import Verif.Props.Tools
import Verif.Props.Main
import Verif.Props.MybldClean
import Verif.Props.Query
import Verif.Props.Upgrade
import Verif.Props.Strings
/-!
What a user can rely on without exception. Many properties of the list (C01, C04, C08, C14, …) hold only in part because the program breaks
some of what they ask for. Here the parts that it never breaks are properties of their own, stated whole and proved whole, from the theorems
about the parts. No theorem of this file has a hypothesis that only serves to avoid a defect of the program.
-/
namespace Cards.Props
open Cards Cards.Spec Relation

/-- **C128.** Let any number of pkgadd, pkgrm, pkginfo processes and upgrade deletions run, scheduled and killed in any way, from a state in which
nobody holds the lock of the database. (1) Only the process that holds the exclusive lock, alone, changes the database. (2) While a process holds a lock nothing
the others do changes the database. (3) Who asks for the lock while another process holds the exclusive one (or asks for the exclusive one while another
holds any) is refused and changes nothing. (4) A process that is killed or ends holds no lock any more. -/
theorem C128_locking (s : Sys) (procs : Nat → Prog) (ht : ∀ i, Tool (procs i)) (es : List Move) :
    let w := (Machine.mk s [] procs).runs es
    (∀ e, (w.step e).sys.disk ≠ w.sys.disk → w.holders = [(e.pid, true)]) ∧
    (∀ i x, (i, x) ∈ w.holders → ∀ es', (∀ e ∈ es', e.pid ≠ i) → (w.runs es').sys.disk = w.sys.disk) ∧
    (∀ i x j y k, (i, x) ∈ w.holders → (x = true ∨ y = true) → w.procs j = .acquire y k →
      (w.step (.run j)).procs j = .ret (some .locked) ∧ (w.step (.run j)).sys = w.sys) ∧
    (∀ i x, (i, x) ∉ (w.step (.kill i)).holders ∧ ∀ e, w.procs i = .ret e → (i, x) ∉ (w.step (.run i)).holders) := by
  intro w
  refine ⟨fun e he => C14_only_holder_writes s procs ht es e he,
    fun i x hi es' h' => C14_section_undisturbed s procs ht es es' i x hi h', ?_, fun i x => C14_released w i x⟩
  intro i x j y k hi hxy hp
  have h := C14_locked_out w i j x y k hi hxy hp
  exact ⟨h.1, h.2.1⟩

/-- A schedule in which the first part is not empty: process 0 changes the database. -/
example : (∀ i, Tool (xProcs i)) ∧ (((Machine.mk xSys [] xProcs).runs (steps 0 5)).step (.run 0)).sys.disk ≠ ((Machine.mk xSys [] xProcs).runs (steps 0 5)).sys.disk := by
  refine ⟨?_, by decide⟩
  intro i
  simp only [xProcs]
  split
  · exact .pkgrm ..
  · split
    · exact .pkgadd ..
    · exact .none

/-- **C129.** `cards remove` with the argument `base`, or with an argument that an installed package has as a run time dependency, among whatever other
arguments and with whatever configuration, is refused and changes nothing. -/
theorem C129_refused (env : RmEnv) (args : List Str) (s : Sys)
    (h : "base".toList ∈ args ∨ ∃ a ∈ args, ∃ p, DependsOn s.disk p a) : cardsRemove env args s = some (s, some .inUse) := by
  rcases h with h | ⟨a, ha, p, hp⟩
  · exact C17_base_refused env args s h
  · exact C17_dependency_refused env args s a p ha hp

example : "libc".toList ∈ ["app".toList, "libc".toList] ∧ DependsOn rSys.disk "old".toList "libc".toList :=
  ⟨by decide, (rPkg "old" ["Rliba1700000000", "Rlibc1700000000"]).2, by decide, "1700000000".toList, by decide, by decide⟩

/-- **C130.** After a successful pkgadd the package is recorded with exactly the files it ships (those of the archive that no INSTALL rule excludes); without
--force every other record is as it was. Whatever the outcome, installing without -u a package that is installed fails and changes nothing, and
upgrading one that is not installed fails and, without --force, leaves all records. -/
theorem C130_recorded (env : Env) (rules : List Rule) (opts : Opts) (a : Archive) (s : Sys) (hw : WF s.disk) :
    ((pkgadd env rules opts a s).2 = none →
      (∀ f, Owns (pkgadd env rules opts a s).1.disk a.name f ↔ Ships env.rx rules a f) ∧ Installed (pkgadd env rules opts a s).1.disk a.name ∧
      (opts.force = false → ∀ n i, n ≠ a.name → ((n, i) ∈ (pkgadd env rules opts a s).1.disk ↔ (n, i) ∈ s.disk))) ∧
    (opts.upgrade = false → Installed s.disk a.name → (∃ e, (pkgadd env rules opts a s).2 = some e) ∧ (pkgadd env rules opts a s).1 = s) ∧
    (opts.upgrade = true → ¬ Installed s.disk a.name → (∃ e, (pkgadd env rules opts a s).2 = some e) ∧
      (opts.force = false → ∀ n, mget (pkgadd env rules opts a s).1.disk n = mget s.disk n)) :=
  ⟨fun h => C08_record_exact env rules opts a s hw h, fun h h' => C01_install_installed_refused env rules opts a s h h',
    fun h h' => C01_upgrade_missing_fails env rules opts a s hw h h'⟩

example : (pkgadd xEnv [] xOpts (xArch "new" ["usr/", "usr/new"]) xSys).2 = none ∧ WF xSys.disk := ⟨by decide, xSys_wf⟩

/-- **C131.** Whatever the outcome of pkgrm, with or without the lock: the records of all other packages are what they were, and a place that no line of the
file list of the package names is as it was, if the remove scripts of the package leave it. -/
theorem C131_only_its_own (locked : Bool) (sc : RmScripts) (name : Str) (s : Sys) (hw : WF s.disk) :
    (∀ n i, n ≠ name → ((n, i) ∈ (pkgrm locked sc name s).1.disk ↔ (n, i) ∈ s.disk)) ∧
    (∀ k, Leaves (fun fs => (sc.pre fs).1) k → Leaves sc.post k → (∀ f, Owns s.disk name f → comps f ≠ k) →
      (pkgrm locked sc name s).1.fs.get k = s.fs.get k) :=
  ⟨fun n i h => C04_other_records_unchanged locked sc name s hw n i h, fun k h1 h2 h3 => C04_unlisted_untouched locked sc name s k h1 h2 h3⟩

example : WF xSys.disk ∧ (pkgrm false noScripts "foo".toList xSys).2 = none ∧ (pkgrm false noScripts "foo".toList xSys).1.disk ≠ xSys.disk :=
  ⟨xSys_wf, by decide, by decide⟩

/-- **C132.** At whatever moment pkgadd or pkgrm is killed, the directory of every other package in the database is what it was; a pkgadd with --force can
only have taken from its file list files that the new package ships. -/
theorem C132_killed (s : Sys) (hw : WF s.disk) :
    (∀ env rules opts a r, AddHalt env rules opts a s r → ∀ n i, n ≠ a.name → (n, i) ∈ s.disk →
      ∃ d, (n, d) ∈ r.raw ∧ RecordKept (fun f => opts.force = true ∧ Ships env.rx rules a f) i d) ∧
    (∀ sc name r, RmHalt sc name s r → ∀ n, n ≠ name → mget r.raw n = mget (unloadDb s.disk) n) :=
  ⟨fun env rules opts a r h n i hn hi => C77_records env rules opts a s hw n hn i hi r h,
    fun sc name r h n hn => (C77_rm_others sc name s hw r h).2 n hn⟩

/-- A pkgrm killed after its first file. -/
example : WF ySys.disk ∧ RmHalt noScripts "p".toList ySys ⟨["d/own/x".toList].foldl rmOne ySys.fs, unloadDb ySys.disk⟩ :=
  ⟨by refine ⟨by decide, ?_⟩; decide, .files (by decide) rfl ["d/own/x".toList] (by rw [← List.isPrefixOf_iff_prefix]; decide)⟩

/-- **C133.** Once a process has loaded the database, it reports a name as installed exactly when an installed package has it as name or alias, and
resolves it to the last (in the order of names) of the installed packages that have it; `cards files` prints the file list of this package, and
refuses exactly the names no package has. -/
theorem C133_resolved (s : Sys) (d : Bool) (hw : WF s.disk) (n : Str) :
    ((load s d).nameExists n = true ↔ ∃ p, Called s.disk p n) ∧
    (∀ p, mget (load s d).alias n = some p ↔ Called s.disk p n ∧ ∀ q, Called s.disk q n → q ≤ p) ∧
    (∀ fs, pkginfoList s.disk n = some fs ↔ ∃ p i, (p, i) ∈ s.disk ∧ fs = i.files ∧ Called s.disk p n ∧ ∀ q, Called s.disk q n → q ≤ p) ∧
    (pkginfoList s.disk n = none ↔ ∀ p, ¬ Called s.disk p n) :=
  ⟨C42_reported s d n, fun p => C42_resolves s d hw n p, (C54_files s.disk hw n).1, (C54_files s.disk hw n).2⟩

example : WF xSys.disk ∧ ∃ p, Called xSys.disk p "foo".toList := by
  refine ⟨xSys_wf, "foo".toList, ?_⟩
  have h : (mget xSys.disk "foo".toList).isSome = true := by decide
  obtain ⟨i, hi⟩ := Option.isSome_iff_exists.mp h
  exact ⟨i, mget_some_mem hi, Or.inl rfl⟩

/-- **C134.** Whatever the tree of ports, cyclic or not: the search for the dependencies of a port ends and finds exactly the names reachable through declared
dependencies, each once; the printer of the tree of dependencies ends, prints only reachable names, and a port that has dependencies
is expanded exactly once if it is printed. -/
theorem C134_dependencies (T : Ports) (hs : Sorted (keys T)) (name : Str) :
    (∃ l, dependsList T (T.length + 1) name [] = some l ∧ l.Nodup ∧ ∀ x, x ∈ l ↔ ReflTransGen (Declares T) name x) ∧
    (∃ list lines, deptree T (T.length + 1) name 0 [] = some (list, lines) ∧
      (∀ x, (∃ l ∈ lines, l.name = x) → ReflTransGen (Declares T) name x) ∧
      (∀ x, portDeps T x ≠ [] → (∃ l ∈ lines, l.name = x) → (lines.filter (fun l => l.name = x ∧ l.arrow = false)).length = 1)) := by
  refine ⟨C18_list T hs name, ?_⟩
  obtain ⟨list, lines, h1, _, h2, h3, _⟩ := C20_deptree_partial T hs name
  exact ⟨list, lines, h1, h2, h3⟩

example : Sorted (keys sampleTree) ∧ (dependsList sampleTree (sampleTree.length + 1) "app".toList []).map List.length = some 4 := by
  refine ⟨by unfold Sorted; decide +kernel, by decide +kernel⟩

/-- **C135.** However `cards create` ends, of a port or a collection, whatever pkgmk does: the database is well formed and no file has two owners, if it was so
before (with records, that is, without --no-meta). -/
theorem C135_one_owner (C : CreEnv) (hm : C.noMeta = false) (arg : Str) (isColl : Bool) (s : Sys) (sess : RepoSess) (hw : WF s.disk) (hu : UniqueOwner s.disk) :
    WF (cardsCreate C arg isColl s sess).1.inst.st.disk ∧ UniqueOwner (cardsCreate C arg isColl s sess).1.inst.st.disk :=
  C64_unique_owner C hm arg isColl s sess hw hu

/-- A run that builds and records a package. -/
example : (cEnv cTree).noMeta = false ∧ WF cSys.disk ∧ (cardsCreate (cEnv cTree) "app".toList false cSys cSess).2.1 = none := by
  refine ⟨rfl, ⟨by decide, ?_⟩, by decide +kernel⟩
  intro p hp; simp only [cSys, List.mem_singleton] at hp; subst hp; decide

/-- **C136.** Whatever the servers send, and whether `cards sync` succeeds, fails or is stopped at any moment, only keys and lists of collections that have an
address change; when it fails, no list changes; when an ordinary user calls it, nothing changes and it fails. -/
theorem C136_sync_frame (net : Nat → Str → Transfer) (unz : Str → Option Str) (arch version : Str) (dirs : List DirUrl) (fs : Fs) :
    (∀ root k, ¬ SyncPath dirs k → (cardsSync root net unz arch version dirs fs).1.get k = fs.get k ∧
      ∀ n m, (syncStopped net unz arch version dirs fs n m).get k = fs.get k) ∧
    (∀ root, (cardsSync root net unz arch version dirs fs).2 = false → ∀ k, ∀ n ∈ listNames, (cardsSync root net unz arch version dirs fs).1.get (k ++ [n]) = fs.get (k ++ [n])) ∧
    cardsSync false net unz arch version dirs fs = (fs, false) :=
  ⟨fun root k hk => C68_only_lists root net unz arch version dirs fs k hk,
    fun root h k n hn => C69_failed_keeps_lists root net unz arch version dirs fs _ (Prod.ext rfl h) k n hn,
    C68_only_root net unz arch version dirs fs⟩

/-- **C137.** `cards purge` of root deletes exactly the visible files below the directories of the collections that have an address (`Purged`), nothing
whose name begins with a point, and nothing else; of an ordinary user, nothing. -/
theorem C137_purge (dirs : List DirUrl) (fs : Fs) (ht : ParentsDirs fs) :
    (∀ k, (Purged dirs fs k → (cardsPurge true dirs fs).get k = none) ∧ (¬ Purged dirs fs k → (cardsPurge true dirs fs).get k = fs.get k)) ∧
    (∀ k n, (cardsPurge true dirs fs).get (k ++ [('.' :: n)]) = fs.get (k ++ [('.' :: n)])) ∧
    cardsPurge false dirs fs = fs :=
  ⟨fun k => C71_purges_exactly dirs fs ht k, fun k n => C71_lists_stay dirs fs ht k n, C71_only_root dirs fs⟩

example : ParentsDirs pgFs ∧ (cardsPurge true [⟨"base".toList, "/var/d".toList, "http://s".toList⟩] pgFs).length < pgFs.length := ⟨pg_parents, by decide +kernel⟩

/-- **C138.** Of every port pkgmk accepts: from the file of each package its name is found again, from the name the group or language, and
no two packages, of one port or of two, whatever their versions, have the same file name. -/
theorem C138_file_names (v v' : PkgVars) (h : checkPkgfile v = true) (h' : checkPkgfile v' = true) (sub sub' : Option Str) (hs : SubOk sub) (hs' : SubOk sub') :
    getPackageName (pkgFileName v.name sub v.version v.release) = fullName v.name sub ∧
    cutSecond (fullName v.name sub) = (match sub with | none => v.name | some g => g) ∧
    (pkgFileName v.name sub v.version v.release = pkgFileName v'.name sub' v'.version v'.release → v.name = v'.name ∧ sub = sub') :=
  ⟨C95_name_back _ _ _ _ (C95_no_point h) hs, C95_group_back _ _ (C95_no_point h) hs,
    C95_distinct _ _ _ _ _ _ _ _ (C95_no_point h) (C95_no_point h') hs hs'⟩

example : checkPkgfile ⟨"gtk-doc".toList, "1.33".toList, "2".toList, "a library".toList⟩ = true ∧ SubOk (some "devel".toList) := by
  refine ⟨by decide +kernel, fun g hg => ?_⟩
  cases hg
  decide

/-- **C139.** When pkgmk has packed a build, nothing is in a package that the build has not made (but for directories above something it made), and no file is in two packages
or twice in one. (`Alone`: nothing else has the path of the file, as in every file system.) -/
theorem C139_packed (groups locales : List Str) (keepLa : Bool) (t : List PEnt) (archs : List (Str × List PEnt))
    (hrun : splitPackages groups locales keepLa t = some archs) :
    (∀ a, ∀ f ∈ (mget archs a).getD [], f ∈ t ∨ (f.dir = true ∧ ∃ g ∈ t, f.path <+: g.path ∧ (g.dir = true ∨ g.path ≠ f.path))) ∧
    (∀ e, t.count e = 1 → e.dir = false → e.path ≠ [] → Alone e t → PackedOnce archs e ∨ Lost archs e) :=
  ⟨fun a => C93_nothing_else groups locales keepLa t archs hrun a, fun e h1 h2 h3 h4 => C93_never_twice groups locales keepLa t archs hrun e h1 h2 h3 h4⟩

example : (splitPackages ["devel".toList, "man".toList, "lib".toList] ["as".toList] false xBuild).isSome = true ∧
    xBuild.count ⟨["usr".toList, "bin".toList, "tool".toList], false⟩ = 1 ∧ Alone ⟨["usr".toList, "bin".toList, "tool".toList], false⟩ xBuild :=
  ⟨by decide +kernel, by decide +kernel, alone_of_all (by decide +kernel)⟩

/-- **C140.** resolve-libs reports every file of an installed package that needs a library which is not found, with that library. -/
theorem C140_nothing_missed (db : List (Str × List Str)) (files : List LinkFile) (f : LinkFile) (hf : f ∈ files) (lib : Str) (hb : BrokenLink f lib)
    (ho : ∃ pkg, OwnsFile db pkg f.path) : ∃ name, (name, f.path, lib) ∈ resolveLibs db files :=
  ho.elim fun pkg h => C121_complete db files f hf lib hb pkg h

example : resolveLibs rlDb rlFiles = [("vim".toList, "usr/bin/vim".toList, "libgpm.so.2".toList), ("wget".toList, "usr/bin/wget".toList, "libidn.so.11".toList)] := by decide +kernel

/-- **C141.** Whatever the schedule of simultaneous searches, what the log of visits held before stays, and searches made one after the other are one line each, in order. -/
theorem C141_log_kept (line : Nat → Str) (file : Str) :
    (∀ es, file <+: visitRun line file es) ∧ (∀ is : List Nat, visitRun line file (is.flatMap (fun i => [.seek i, .write i])) = file ++ (is.map line).flatten) :=
  ⟨fun es => C92_old_lines line file es, fun is => C92_serial line file is⟩

/-- **C142.** At whatever moment `cards keys` ends or is killed, no file but the private and the public key has changed; without a configured path or when no
pair can be made the command fails and changes nothing. -/
theorem C142_keys_frame (E : KeyEnv) (keypath : Str) (w : KeyFs) :
    (∀ w' ∈ (makeKeys E keypath w).1, ∀ p, p ≠ keypath ++ privateName → p ≠ publicPath → mget w' p = mget w p) ∧
    (keypath = [] ∨ E.pair = none → keysEnd E keypath w = w ∧ (makeKeys E keypath w).1 = [w] ∧ (makeKeys E keypath w).2 ≠ none) :=
  ⟨C84_only_keys E keypath w, C84_refused E keypath w⟩

theorem once_first {α : Type} (P : α → Prop) [DecidablePred P] (l : List α) (hf : ∀ p q r, l = p ++ r :: q → P r → p = []) :
    (l.filter (fun r => P r)).length ≤ 1 ∧ ∀ r ∈ l, P r → l.head? = some r := by
  constructor
  · cases l with
    | nil => simp
    | cons x xs =>
      have h3 : xs.filter (fun r => decide (P r)) = [] := by
        rw [List.filter_eq_nil_iff]
        intro r hr ha
        obtain ⟨p, q, e⟩ := List.append_of_mem hr
        have := hf (x :: p) q r (by rw [e]; rfl) (by simpa using ha)
        cases this
      rw [List.filter_cons, h3]
      split <;> simp
  · intro r hr ha
    obtain ⟨p, q, e⟩ := List.append_of_mem hr
    rw [e, hf p q r e ha]; rfl

example : (makeKeys xKeys "/k".toList []).2 = none ∧ keysEnd xKeys "/k".toList [] ≠ [] := by decide +kernel

/-- **C143.** Whatever pkgadd does, ldconfig is the first program it starts after the installation, if it starts it, and it starts it once. -/
theorem C143_ldconfig (env : Env) (rules : List Rule) (opts : Opts) (root : Str) (there : Str → Bool) (a : Archive) (s : Sys) :
    ((pkgaddRuns env rules opts root there a s).filter (fun r => r.app = "usr/bin/ldconfig".toList)).length ≤ 1 ∧
    ∀ r ∈ pkgaddRuns env rules opts root there a s, r.app = "usr/bin/ldconfig".toList → (pkgaddRuns env rules opts root there a s).head? = some r := by
  exact once_first (fun r : Run => r.app = "usr/bin/ldconfig".toList) _ fun p q r e ha => C80_ldconfig_first env rules opts root there a s p q r e ha

/-- **C144.** On the console the display of the progress never ends the program, whatever is opened, installed and removed, in which order. -/
theorem C144_progress (os : List POp) (h : ∀ o ∈ os, POp.ok o) (j : Nat) : (showOps conStep os j).isSome = true := C116_never_killed os h j

example : ∀ o ∈ [POp.openDb 1, POp.install 4 2, POp.remove 3 0], POp.ok o := by
  intro o ho
  simp only [List.mem_cons, List.not_mem_nil, or_false] at ho
  rcases ho with rfl | rfl | rfl <;> simp [POp.ok]

/-- **C145.** pkgadd and pkgrm carry out exactly the lines that consist of their options in any order and number, with their arguments, and one file or package: what
is carried out for root is what the line says; a pkgadd line of an ordinary user, or one that is not such a line, changes nothing. -/
theorem C145_lines :
    (∀ argv a, addArgs argv = .ok a ↔ ∃ items : List AddItem, argv = items.flatMap AddItem.text ∧ AddSays items a) ∧
    (∀ argv a, rmLoop .start argv = .ok a ↔ ∃ items : List RmItem, argv = items.flatMap RmItem.text ∧ RmSays items a) ∧
    (∀ run items a fs, AddSays items a → NoCommon (items.flatMap AddItem.text) →
      pkgaddTool run 0 (items.flatMap AddItem.text) fs = (run a (cleanupMeta a.root fs), .ran a)) ∧
    (∀ run items a fs, RmSays items a → NoCommon (items.flatMap RmItem.text) →
      pkgrmTool run 0 (items.flatMap RmItem.text) fs = (run a (cleanupMeta a.root fs), .ran a)) ∧
    (∀ run uid argv fs, (uid ≠ 0 ∨ ¬ ∃ items a, argv = items.flatMap AddItem.text ∧ AddSays items a) → (pkgaddTool run uid argv fs).1 = fs) :=
  ⟨C74_add_line, C74_rm_line, fun run items a fs h hc => C74_add_runs run items a fs h hc, fun run items a fs h hc => C74_rm_runs run items a fs h hc,
    fun run uid argv fs h => (C74_add_refused run uid argv fs (h.elim Or.inl fun h => Or.inr (Or.inr h))).1⟩

/-- **C146.** Whatever line an ordinary user gives to cards, except for keys and repo, and whatever query root makes, no file of the system changes except the six names of
meta files in the root directory; and an ordinary user who asks for install, create, sync or purge is told that it failed. -/
theorem C146_no_change (body : Str → Str → Fs → Fs) (sync : Str → Fs → Fs) (f : Facts) (uid : Nat) (argv : List Str) (fs : Fs) :
    (∀ k, ¬ MetaName k → k ≠ [] →
      (uid ≠ 0 → (∀ cmd s, parseArgs cardsTables argv = .ok cmd s → cmd.name ≠ "keys".toList ∧ cmd.name ≠ "repo".toList) →
        (cardsMain body sync f uid argv fs).1.get k = fs.get k) ∧
      (∀ cmd s, parseArgs cardsTables argv = .ok cmd s → cmd.name ∈ queries → (cardsMain body sync f uid argv fs).1.get k = fs.get k)) ∧
    (uid ≠ 0 → ∀ cmd s, parseArgs cardsTables argv = .ok cmd s → cmd.name ∈ ["install".toList, "create".toList, "sync".toList, "purge".toList] →
      (cardsMain body sync f uid argv fs).2 = .failed) :=
  ⟨fun k hk h0 => ⟨fun hu hc => C75_user body sync f uid hu argv fs hc k hk h0, fun cmd s hp hc => C75_queries body sync f uid argv fs cmd s hp hc k hk h0⟩,
    fun hu cmd s hp hc => C75_user_told body sync f uid hu argv fs cmd s hp (Or.inl hc)⟩

/-- **C147.** A clean up of mybld that says it succeeded has left nothing of the tree, and whatever ends `mybld -c`, no directory, file or mount outside of the tree has gone. -/
theorem C147_clean (env : BldEnv) (base : CPath) (proj : Str) (t : BldTree) :
    ((mybldClean env base proj t).1 = true → TreeGone base (mybldClean env base proj t).2) ∧
    ((mybldBuild env base proj t).1 = true → TreeGone base (mybldBuild env base proj t).2) ∧
    (∀ p, ¬ base <+: p → (p ∈ (mybldClean env base proj t).2.files ↔ p ∈ t.files) ∧ (p ∈ t.dirs → p ∈ (mybldClean env base proj t).2.dirs) ∧
      (p ∈ (mybldClean env base proj t).2.mounts ↔ p ∈ t.mounts)) :=
  ⟨(C120_all env base proj t).1, (C120_all env base proj t).2, fun p hp => C120_only_clean env base proj t p hp⟩

/-- **C148.** `cards query PATTERN`: one row for each installed package and each of its files that matches, none else, none twice, in order of package and file; a text that is
no regular expression is refused. -/
theorem C148_query (rx : Str → Option (Str → Bool)) (db : Db) (hw : WF db) (pat : Str) :
    (∀ m, rx pat = some m → ∃ rows, pkginfoOwner rx db pat = some rows ∧
      (∀ n f, (∃ c, (⟨c, n, f⟩ : OwnerRow) ∈ rows) ↔ Owns db n f ∧ m ("/".toList ++ f) = true) ∧
      rows.Pairwise (fun a b => a.name < b.name ∨ (a.name = b.name ∧ a.file < b.file))) ∧
    (rx pat = none → pkginfoOwner rx db pat = none) := by
  refine ⟨fun m hm => ?_, fun h => C54_bad_pattern rx db pat h⟩
  obtain ⟨rows, h1, h2, _, h3⟩ := C54_owner rx db hw pat m hm
  exact ⟨rows, h1, h2, h3⟩

/-- **C149.** When `cards upgrade` goes to work, it updates exactly the installed packages with a newer build in the repository and the sub-packages for the configured groups
that are missing or have a newer build, deletes exactly the installed dependencies that are no longer there, and it never goes to
work when no installed package is in the repository. -/
theorem C149_selected (junk : Nat) (o : UpgOpts) (groups : List Str) (diffDb db : InstDb) (repo : List (Str × RepoPkg)) (update : List (Str × Nat)) (delete : List Str)
    (h : upgradePlan junk o groups diffDb db repo = .perform update delete) :
    (∀ n t, (n, t) ∈ update ↔ ToUpdate db repo groups n t) ∧ (∀ n, n ∈ delete ↔ ToDelete db repo n) ∧ ∃ n ∈ keys db, n ∈ keys repo := by
  refine ⟨(C29_selected h).1, (C29_selected h).2, ?_⟩
  by_contra hn
  exact C29_no_repository (fun n h1 h2 => hn ⟨n, h1, h2⟩) update delete h

example : upgradePlan 0 uOpts ["fr".toList] uDb uDb uRepo =
    .perform [("bash".toList, 20), ("bash.fr".toList, 20), ("gcc".toList, 30)] ["libx".toList] := by decide +kernel

/-- **C150.** Splitting at a character or at a set of characters gives exactly the maximal pieces between them, in order; stripping removes exactly the white space at
both ends; a line `key=value` is cut at the first delimiter and nothing of it is lost; changing the case keeps the length. For every text. -/
theorem C150_text (s : Str) :
    (∀ c ps, splitChar c s = ps ↔ Pieces (fun x => x = c) s ps) ∧ (∀ ds ps, strtokAll ds s = ps ↔ Pieces (fun x => ds.contains x) s ps) ∧
    (∀ r, stripWhiteSpace s = r ↔ Stripped s r) ∧
    (∀ c, (c ∈ s → s = getValueBefore s c ++ c :: getValue s c) ∧ c ∉ getValueBefore s c ∧ (c ∉ s → getValueBefore s c = s ∧ getValue s c = [])) ∧
    (convertToUpperCase s).length = s.length ∧ (convertToLowerCase s).length = s.length :=
  ⟨fun c ps => C37_split_exact c s ps, fun ds ps => C37_strtok_exact ds s ps, fun r => C37_strip_exact s r, fun c => C37_key_value s c,
    (C37_upperString s).1, (C37_lowerString s).1⟩

end Cards.Props
