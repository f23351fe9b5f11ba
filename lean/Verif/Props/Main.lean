import Mathlib.Tactic.Common
import Verif.Model.Main
import Verif.Props.Argv
import Verif.Props.Tools
import Verif.Props.Upgrade
/-!
# C75: who may do what; C76: `cards upgrade --ready`
-/
namespace Cards.Props
open Cards Cards.Spec

/-! ## The clean-up for any root -/

theorem dirname_top {n : Str} (h : n ∈ cleanupNames) : dirname ('/' :: n) = slash := by
  have : ∀ n ∈ cleanupNames, dirname ('/' :: n) = slash := by decide +kernel
  exact this n h

theorem remove_get (fs : Fs) (p : Str) (k : List Str) (hk : k ≠ comps p) : (fs.remove p).1.get k = fs.get k := by
  unfold Fs.remove
  cases fs.lstat p with
  | none => rfl
  | some v =>
    cases v with
    | file c m => simp only; rw [Fs.get_del, if_neg (fun e => hk e.symm)]
    | dir m =>
      simp only
      split
      · rfl
      · simp only; rw [Fs.get_del, if_neg (fun e => hk e.symm)]

theorem removeFile_top_any (base : Str) (fs : Fs) {n : Str} (h : n ∈ cleanupNames) (k : List Str) (h1 : k ≠ [n]) (h2 : k ≠ []) :
    (removeFile base fs ('/' :: n)).get k = fs.get k := by
  have hc : comps ('/' :: n) = [n] := comps_top1 (cleanup_mem h)
  rw [removeFile]
  split
  · rfl
  split
  · split
    · rw [dirname_top h, removeFile]
      split
      · exact remove_get fs _ k (by rw [hc]; exact h1)
      split
      · rw [if_neg (show ¬ (dirname slash).length < slash.length by decide)]
        rw [remove_get _ _ k (by show k ≠ comps slash; exact h2), remove_get fs _ k (by rw [hc]; exact h1)]
      · exact remove_get fs _ k (by rw [hc]; exact h1)
    · exact remove_get fs _ k (by rw [hc]; exact h1)
  · rfl

/-- The six names of meta files in the root directory. -/
def MetaName (k : List Str) : Prop :=
  k ∈ [[".INFO".toList], [".META".toList], [".PRE".toList], [".POST".toList], [".MTREE".toList], [".README".toList]]

/-- The clean-up changes nothing but the six names in the root directory, whatever root it is told. -/
theorem C60_cleanup_any_root (root : Str) (fs : Fs) (k : List Str) (hk : ¬ MetaName k) (h0 : k ≠ []) : (cleanupMeta root fs).get k = fs.get k := by
  have key : ∀ ns : List Str, (∀ n ∈ ns, n ∈ cleanupNames) → ∀ fs : Fs, (ns.foldl (cleanupOne root) fs).get k = fs.get k := by
    intro ns
    induction ns with
    | nil => intro _ fs; rfl
    | cons n ns ih =>
      intro hn fs
      rw [List.foldl_cons, ih (fun x hx => hn x (List.mem_cons_of_mem _ hx))]
      unfold cleanupOne
      split
      · refine removeFile_top_any root fs (hn n (by simp)) k ?_ h0
        rintro rfl
        apply hk
        have : ∀ n ∈ cleanupNames, [n] ∈ [[".INFO".toList], [".META".toList], [".PRE".toList], [".POST".toList], [".MTREE".toList], [".README".toList]] := by
          decide
        exact this n (hn n (by simp))
      · rfl
  exact key _ (fun _ h => h) fs

/-! ## C75 -/

/-- Only clean-ups. -/
def OnlyCleanup (l : List Deed) : Prop := ∀ d ∈ l, ∃ r, d = .cleanup r

theorem cleanups_get (body : Str → Str → Fs → Fs) (sync : Str → Fs → Fs) (cmd : Str) (k : List Str) (hk : ¬ MetaName k) (h0 : k ≠ []) :
    ∀ (l : List Deed), OnlyCleanup l → ∀ fs : Fs, (l.foldl (Deed.run body sync cmd) fs).get k = fs.get k := by
  intro l
  induction l with
  | nil => intro _ fs; rfl
  | cons d l ih =>
    intro h fs
    obtain ⟨r, rfl⟩ := h d (by simp)
    rw [List.foldl_cons, ih (fun x hx => h x (List.mem_cons_of_mem _ hx))]
    exact C60_cleanup_any_root r fs k hk h0

theorem onlyCleanup_nil : OnlyCleanup [] := nofun
theorem onlyCleanup_cons {r : Str} {l : List Deed} (h : OnlyCleanup l) : OnlyCleanup (.cleanup r :: l) := by
  intro d hd
  rcases List.mem_cons.1 hd with rfl | hd
  · exact ⟨r, rfl⟩
  · exact h d hd

theorem upgradeDeeds_user (f : Facts) (uid : Nat) (hu : uid ≠ 0) (s : AState) : OnlyCleanup (upgradeDeeds f uid s).1 := by
  unfold upgradeDeeds
  split
  · exact onlyCleanup_nil
  split
  · exact onlyCleanup_cons onlyCleanup_nil
  split
  · exact onlyCleanup_cons onlyCleanup_nil
  split
  · exact onlyCleanup_cons onlyCleanup_nil
  split
  · exact onlyCleanup_cons onlyCleanup_nil
  split
  · exact onlyCleanup_cons onlyCleanup_nil
  · rename_i h1 h2
    exfalso
    rw [not_or] at h2
    cases hd : s.isSet optDownloadOnly with
    | true => exact h2.2 hd
    | false => exact h1 ⟨by simp [hd], hu⟩

theorem onlyCleanup_ite {p : Prop} [Decidable p] {a b : List Deed × Bool} (ha : p → OnlyCleanup a.1) (hb : ¬ p → OnlyCleanup b.1) :
    OnlyCleanup (if p then a else b).1 := by
  by_cases h : p
  · rw [if_pos h]; exact ha h
  · rw [if_neg h]; exact hb h

theorem onlyCleanup_if {p : Prop} [Decidable p] {r : Str} : OnlyCleanup (if p then [] else [.cleanup r]) := by
  by_cases h : p
  · rw [if_pos h]; exact onlyCleanup_nil
  · rw [if_neg h]; exact onlyCleanup_cons onlyCleanup_nil

theorem cardsDeeds_user (f : Facts) (uid : Nat) (hu : uid ≠ 0) (cmd : Str) (s : AState) (hc : cmd ≠ "keys".toList ∧ cmd ≠ "repo".toList) :
    OnlyCleanup (cardsDeeds f uid cmd s).1 := by
  unfold cardsDeeds
  refine onlyCleanup_ite (fun _ => onlyCleanup_if) (fun _ => ?_)
  refine onlyCleanup_ite (fun _ => onlyCleanup_if) (fun _ => ?_)
  refine onlyCleanup_ite (fun _ => onlyCleanup_cons onlyCleanup_nil) (fun _ => ?_)
  refine onlyCleanup_ite (fun _ => onlyCleanup_ite (fun _ => onlyCleanup_nil) (fun h => absurd hu h)) (fun _ => ?_)
  refine onlyCleanup_ite (fun h => absurd h (not_or.2 hc)) (fun _ => ?_)
  refine onlyCleanup_ite (fun _ => by rw [if_neg hu]; exact onlyCleanup_cons onlyCleanup_nil) (fun _ => ?_)
  refine onlyCleanup_ite (fun _ => by rw [if_neg hu]; exact onlyCleanup_cons (upgradeDeeds_user f uid hu s)) (fun _ => ?_)
  refine onlyCleanup_ite (fun _ => onlyCleanup_ite (fun _ => onlyCleanup_cons onlyCleanup_nil) (fun h => absurd hu h)) (fun _ => ?_)
  refine onlyCleanup_ite (fun _ => ?_) (fun _ => ?_)
  · refine onlyCleanup_ite (fun _ => onlyCleanup_cons onlyCleanup_nil) (fun _ => ?_)
    refine onlyCleanup_ite (fun _ => ?_) (fun _ => onlyCleanup_cons onlyCleanup_nil)
    exact onlyCleanup_ite (fun _ => onlyCleanup_cons onlyCleanup_nil) (fun h => absurd hu h)
  refine onlyCleanup_ite (fun _ => onlyCleanup_ite (fun _ => onlyCleanup_nil) (fun h => absurd hu h)) (fun _ => ?_)
  refine onlyCleanup_ite (fun _ => onlyCleanup_ite (fun _ => onlyCleanup_cons onlyCleanup_nil) (fun h => absurd hu h)) (fun _ => ?_)
  exact onlyCleanup_nil

/-- **C75.** Whatever line an ordinary user gives to `cards`, other than for its commands `keys` and `repo`: no file of the system changes, except for the six
names of meta files in the root directory. (The kernel forbids even those, as a rule.) -/
theorem C75_user (body : Str → Str → Fs → Fs) (sync : Str → Fs → Fs) (f : Facts) (uid : Nat) (hu : uid ≠ 0) (argv : List Str) (fs : Fs)
    (hc : ∀ cmd s, parseArgs cardsTables argv = .ok cmd s → cmd.name ≠ "keys".toList ∧ cmd.name ≠ "repo".toList)
    (k : List Str) (hk : ¬ MetaName k) (h0 : k ≠ []) : (cardsMain body sync f uid argv fs).1.get k = fs.get k := by
  unfold cardsMain
  cases h : parseArgs cardsTables argv with
  | error => rfl
  | help => rfl
  | ok cmd s => exact cleanups_get body sync cmd.name k hk h0 _ (cardsDeeds_user f uid hu cmd.name s (hc cmd s h)) fs

/-- **C75.** The commands that change the system tell an ordinary user that they failed: always `install`, `create`, `sync` and `purge`; `remove` when there
is something to remove; `upgrade` when there is something to do and the line does not ask for information only. -/
theorem C75_user_told (body : Str → Str → Fs → Fs) (sync : Str → Fs → Fs) (f : Facts) (uid : Nat) (hu : uid ≠ 0) (argv : List Str) (fs : Fs) (cmd : ACmd) (s : AState)
    (hp : parseArgs cardsTables argv = .ok cmd s)
    (hc : cmd.name ∈ ["install".toList, "create".toList, "sync".toList, "purge".toList] ∨
      (cmd.name = "remove".toList ∧ f.removeRuns = true) ∨
      (cmd.name = "upgrade".toList ∧ f.tooMany = false ∧ f.work = true ∧ s.value optCheck = none ∧ s.value optSize = none ∧ s.value optDownloadOnly = none)) :
    (cardsMain body sync f uid argv fs).2 = .failed := by
  unfold cardsMain
  rw [hp]
  simp only
  have : (cardsDeeds f uid cmd.name s).2 = true := by
    rcases hc with hc | ⟨hc, h1⟩ | ⟨hc, h1, h2, h3, h4, h5⟩
    · simp only [List.mem_cons, List.not_mem_nil, or_false] at hc
      rcases hc with hc | hc | hc | hc <;> rw [hc] <;> unfold cardsDeeds <;> simp only [ne_eq, hu, not_false_eq_true, if_true] <;> rfl
    · rw [hc]
      unfold cardsDeeds
      simp only [ne_eq, hu, not_false_eq_true, if_true, h1]
      cases f.removeRefused <;> rfl
    · rw [hc]
      show (upgradeDeeds f uid s).2 = true
      unfold upgradeDeeds
      simp only [AState.isSet, h3, h4, h5, h1, h2]
      cases f.noDepot <;> simp [hu]
  rw [this]
  rfl

/-- **C75.** `keys` and `repo` refuse to run as root, and change nothing. -/
theorem C75_root_told (body : Str → Str → Fs → Fs) (sync : Str → Fs → Fs) (f : Facts) (argv : List Str) (fs : Fs) (cmd : ACmd) (s : AState)
    (hp : parseArgs cardsTables argv = .ok cmd s) (hc : cmd.name = "keys".toList ∨ cmd.name = "repo".toList) :
    cardsMain body sync f 0 argv fs = (fs, .failed) := by
  unfold cardsMain
  rw [hp]
  simp only
  rcases hc with hc | hc <;> rw [hc] <;> rfl

/-- The commands that only look. -/
def queries : List Str := ["help", "config", "files", "query", "list", "search", "info", "level", "depends", "dependent", "deptree"].map String.toList

/-- **C75.** A query changes nothing, whoever makes it, except for the six names. -/
theorem C75_queries (body : Str → Str → Fs → Fs) (sync : Str → Fs → Fs) (f : Facts) (uid : Nat) (argv : List Str) (fs : Fs) (cmd : ACmd) (s : AState)
    (hp : parseArgs cardsTables argv = .ok cmd s) (hc : cmd.name ∈ queries) (k : List Str) (hk : ¬ MetaName k) (h0 : k ≠ []) :
    (cardsMain body sync f uid argv fs).1.get k = fs.get k := by
  unfold cardsMain
  rw [hp]
  simp only
  apply cleanups_get body sync cmd.name k hk h0
  simp only [queries, List.map_cons, List.map_nil, List.mem_cons, List.not_mem_nil, or_false] at hc
  rcases hc with hc | hc | hc | hc | hc | hc | hc | hc | hc | hc | hc <;> rw [hc]
  · exact onlyCleanup_nil
  · exact onlyCleanup_nil
  · show OnlyCleanup (if s.isSet optBinaries then [] else [Deed.cleanup "/".toList])
    split
    · exact onlyCleanup_nil
    · exact onlyCleanup_cons onlyCleanup_nil
  · show OnlyCleanup (if s.isSet optBinaries then [] else [Deed.cleanup "/".toList])
    split
    · exact onlyCleanup_nil
    · exact onlyCleanup_cons onlyCleanup_nil
  · show OnlyCleanup (if s.isSet optBinaries ∨ s.isSet optSets then [] else [Deed.cleanup "/".toList])
    split
    · exact onlyCleanup_nil
    · exact onlyCleanup_cons onlyCleanup_nil
  · exact onlyCleanup_cons onlyCleanup_nil
  · exact onlyCleanup_cons onlyCleanup_nil
  · exact onlyCleanup_nil
  · exact onlyCleanup_nil
  · exact onlyCleanup_nil
  · exact onlyCleanup_nil

/-- **C75.** Root is served: the commands that change the system run their body. -/
theorem C75_root_runs (f : Facts) (s : AState) : (∀ cmd ∈ ["install".toList, "create".toList, "purge".toList], ∃ c, .body c ∈ (cardsDeeds f 0 cmd s).1) ∧
    .sync (mainConf s) ∈ (cardsDeeds f 0 "sync".toList s).1 ∧
    (f.removeRefused = false → f.removeRuns = true → .body (mainConf s) ∈ (cardsDeeds f 0 "remove".toList s).1) := by
  refine ⟨?_, ?_, ?_⟩
  · intro cmd hc
    simp only [List.mem_cons, List.not_mem_nil, or_false] at hc
    rcases hc with rfl | rfl | rfl
    · exact ⟨_, List.mem_cons_of_mem _ (List.mem_cons_of_mem _ (List.mem_cons_self ..))⟩
    · exact ⟨_, List.mem_cons_of_mem _ (List.mem_cons_self ..)⟩
    · exact ⟨_, List.mem_cons_self ..⟩
  · exact List.mem_cons_self ..
  · intro h1 h2
    show _ ∈ (if f.removeRefused then ([Deed.cleanup (cardsRoot (s.value optRoot))], true)
      else if f.removeRuns then
        (if (0 : Nat) ≠ 0 then ([Deed.cleanup (cardsRoot (s.value optRoot))], true) else ([.cleanup (cardsRoot (s.value optRoot)), .body (mainConf s)], false))
      else ([.cleanup (cardsRoot (s.value optRoot))], false)).1
    rw [h1, h2]
    exact List.mem_cons_of_mem _ (List.mem_cons_self ..)

/-- The numbers used for the options are those of the table, and a line of an ordinary user. -/
example : (["conf", "ready", "download-only", "no-sync", "size", "check", "root", "binaries", "sets"].map (fun n => (find cardsTables.long n.toList).map (·.id))) =
    [optConf, optReady, optDownloadOnly, optNoSync, optSize, optCheck, optRoot, optBinaries, optSets].map some := by decide +kernel

example : cardsMain (fun _ _ fs => fs.del ["usr".toList]) (fun _ fs => fs) ⟨false, true, false, false, true⟩ 1000 ["remove".toList, "vim".toList]
    [(["usr".toList], .dir 0o755)] = ([(["usr".toList], .dir 0o755)], .failed) := by decide +kernel

/-- **C75 fails**: the option `--no-sync` is accepted and not looked at. `cards upgrade --check --no-sync` by root synchronises all the same, and so does
`cards diff`, which only informs. -/
theorem C75_no_sync_counterexample (body : Str → Str → Fs → Fs) (sync : Str → Fs → Fs) (f : Facts) (fs : Fs) :
    cardsMain body sync f 0 ["upgrade".toList, "--check".toList, "--no-sync".toList] fs = (cleanupMeta "/".toList (sync "/etc/cards.conf".toList fs), .done) ∧
    cardsMain body sync f 0 ["diff".toList] fs = (cleanupMeta "/".toList (sync "/etc/cards.conf".toList fs), .done) := by
  have h1 : parseArgs cardsTables ["upgrade".toList, "--check".toList, "--no-sync".toList] = .ok ⟨"upgrade".toList, .none, 0, []⟩ ⟨[(5, []), (8, [])], []⟩ ∨
    parseArgs cardsTables ["upgrade".toList, "--check".toList, "--no-sync".toList] = .ok ⟨"upgrade".toList, .none, 0, []⟩ ⟨[(8, []), (5, [])], []⟩ := by decide +kernel
  have h2 : parseArgs cardsTables ["diff".toList] = .ok ⟨"diff".toList, .none, 0, []⟩ ⟨[], []⟩ := by decide +kernel
  unfold cardsMain
  refine ⟨?_, ?_⟩
  · rcases h1 with h1 | h1 <;> rw [h1] <;> rfl
  · rw [h2]; rfl

/-- **C75.** The configuration file `cards sync` works with is the one of `--conf`, below the `--root` given, or else `/etc/cards.conf`. -/
theorem C75_conf (body : Str → Str → Fs → Fs) (sync : Str → Fs → Fs) (f : Facts) (argv : List Str) (fs : Fs) (cmd : ACmd) (s : AState)
    (h : parseArgs cardsTables argv = .ok cmd s) (hn : cmd.name = "sync".toList) :
    (∀ c r, s.value optConf = some c → s.value optRoot = some r → cardsMain body sync f 0 argv fs = (sync (r ++ '/' :: c) fs, .done)) ∧
    (∀ c, s.value optConf = some c → s.value optRoot = none → cardsMain body sync f 0 argv fs = (sync ('/' :: c) fs, .done)) ∧
    (s.value optConf = none → cardsMain body sync f 0 argv fs = (sync "/etc/cards.conf".toList fs, .done)) := by
  have e : cardsMain body sync f 0 argv fs = (sync (mainConf s) fs, .done) := by
    unfold cardsMain
    rw [h]
    simp only [hn]
    rfl
  rw [e]
  refine ⟨?_, ?_, ?_⟩
  · intro c r h1 h2
    unfold mainConf
    rw [h1, h2]
    have : "/".toList = ['/'] := by decide
    simp only [cardsRoot, this, List.append_assoc, List.cons_append, List.nil_append]
  · intro c h1 h2
    unfold mainConf
    rw [h1, h2]
    have : "/".toList = ['/'] := by decide
    simp only [cardsRoot, this, List.cons_append, List.nil_append]
  · intro h1
    unfold mainConf
    rw [h1]

example : parseArgs cardsTables ["sync".toList, "--conf=my.conf".toList, "--root=/mnt".toList] =
    .ok ⟨"sync".toList, .none, 0, []⟩ ⟨[(optRoot, "/mnt".toList), (optConf, "my.conf".toList)], []⟩ := by decide +kernel

/-- **C75 fails**: `--root` without `--conf` reads the configuration, and so the repository, of the host. -/
theorem C75_conf_root_counterexample (v : Str) : mainConf ⟨[(optRoot, v)], []⟩ = "/etc/cards.conf".toList := rfl

/-! ## C76 -/

theorem hashEq_nil (h : Str) : hashEq [] h = true ↔ h = [] := by
  unfold hashEq convertToLowerCase
  cases h <;> simp

/-- **C76, when it says yes.** With hashes in the repository: when `cards upgrade --ready` of root ends with success, no package has to be updated, or the
examination stopped before (more than 20 % to do). -/
theorem C76_ready_partial (junk : Nat) (o : UpgOpts) (groups : List Str) (db : InstDb) (repo : List (Str × RepoPkg)) (ho : o.downloadReady = true)
    (hc : o.check = false) (hz : o.size = false) (hh : ∀ n p, mget repo n = some p → p.hash ≠ []) :
    upgradeReady junk o groups db repo = true →
      upgradePlan junk o groups db db repo = .refused ∨ ¬ ∃ n t, ToUpdate db repo groups n t := by
  intro h
  obtain ⟨s1, -⟩ := upgrade_selected db repo groups
  unfold upgradeReady at h
  unfold upgradePlan at h ⊢
  simp only [hc, hz, ho, Bool.false_eq_true, if_false, Bool.true_or, if_true] at h ⊢
  split at h
  · cases h
  · cases h
  · right
    rintro ⟨n, t, hu⟩
    have hm := (s1 n t).2 hu
    unfold isDownload at h
    rw [List.all_eq_true] at h
    have := h (n, t) hm
    obtain ⟨⟨p, hp, -, -⟩, -⟩ := hu
    simp only [hp] at this
    exact hh n p hp ((hashEq_nil _).1 this)
  · rename_i h1 h2 h3
    split
    · exact Or.inl rfl
    · right
      rename_i h4
      rw [if_neg h4] at h1 h2 h3
      split at h1
      · exact absurd rfl h1
      rename_i h5
      rw [if_neg h5] at h2 h3
      split at h3
      · rename_i h6
        rintro ⟨n, t, hu⟩
        have hm := (s1 n t).2 hu
        rw [h6.1] at hm
        cases hm
      rename_i h6
      rw [if_neg h6] at h2
      split at h2
      · exact absurd rfl h2
      rename_i h7
      rw [if_neg h7] at h3
      exact absurd rfl h3

/-- **C76, up to date.** With nothing to update it says yes. -/
theorem C76_up_to_date (junk : Nat) (o : UpgOpts) (groups : List Str) (db : InstDb) (repo : List (Str × RepoPkg)) (hr : o.root = true)
    (hd : ∃ n, n ∈ keys db ∧ n ∈ keys repo) (hn : ¬ ∃ n t, ToUpdate db repo groups n t) (ho : o.downloadReady = true) :
    upgradeReady junk o groups db repo = true := by
  obtain ⟨s1, -⟩ := upgrade_selected db repo groups
  have he : (upgradeScan db repo (groupUpdates db repo groups [])).1 = [] := by
    cases h : (upgradeScan db repo (groupUpdates db repo groups [])).1 with
    | nil => rfl
    | cons x l => exact absurd ⟨x.1, x.2, (s1 x.1 x.2).1 (by rw [h]; exact List.mem_cons_self ..)⟩ hn
  have hany : db.any (fun p => (mget repo p.1).isSome) = true := by
    obtain ⟨n, h1, h2⟩ := hd
    rw [List.any_eq_true]
    obtain ⟨p, hp, rfl⟩ := List.mem_map.1 h1
    exact ⟨p, hp, Option.isSome_iff_exists.mpr (mem_keys_iff.mp h2)⟩
  unfold upgradeReady
  have : ∃ pl, upgradePlan junk o groups db db repo = pl ∧ pl ≠ .noDepot ∧ pl ≠ .notRoot := by
    refine ⟨_, rfl, ?_⟩
    unfold upgradePlan
    simp only [hany, hr, ho, Bool.not_true, Bool.and_false, Bool.true_or, Bool.false_eq_true, if_false, if_true]
    split
    · simp
    split
    · simp
    split
    · simp
    split <;> simp
  obtain ⟨pl, h1, h2, h3⟩ := this
  rw [h1]
  cases pl with
  | noDepot => exact absurd rfl h2
  | notRoot => exact absurd rfl h3
  | nothing => simp only; rw [he]; rfl
  | _ => rfl

/-- **C76 fails**: the hash of no file is computed, so as soon as one package has to be updated the answer is no, whatever has been downloaded. -/
theorem C76_never_counterexample (junk : Nat) (o : UpgOpts) (groups : List Str) (db : InstDb) (repo : List (Str × RepoPkg)) (ho : o.downloadReady = true)
    (hc : o.check = false) (hz : o.size = false) (hp : o.proceed = true) (n : Str) (t : Nat) (p : RepoPkg) (hu : ToUpdate db repo groups n t)
    (hm : mget repo n = some p) (hh : p.hash ≠ []) : upgradeReady junk o groups db repo = false := by
  obtain ⟨s1, -⟩ := upgrade_selected db repo groups
  have hmem := (s1 n t).2 hu
  unfold upgradeReady upgradePlan
  simp only [hc, hz, ho, hp, Bool.false_eq_true, if_false, Bool.true_or, if_true, Bool.not_true, and_false]
  by_cases h1 : (!db.any (fun p => (mget repo p.1).isSome)) = true
  · rw [if_pos h1]
  rw [if_neg h1, if_neg (by rintro ⟨h2, -⟩; rw [h2] at hmem; cases hmem)]
  by_cases h3 : (!o.downloadOnly && !o.root) = true
  · rw [if_pos h3]
  rw [if_neg h3]
  simp only
  unfold isDownload
  rw [List.all_eq_false]
  refine ⟨(n, t), hmem, ?_⟩
  simp only [hm]
  intro h
  exact hh ((hashEq_nil _).1 h)

/-- **C76 fails**: with more than 20 % to do and no `--proceed` the answer is yes, though nothing has been downloaded: here one package of one is out of
date. And the case of the other theorem. -/
theorem C76_refused_counterexample :
    let db : InstDb := [("bash".toList, uInst "5" 10 false)]
    let repo := [("bash".toList, { uPkg "6" 20 with hash := "ab".toList })]
    upgradeReady 0 { uOpts with downloadReady := true, proceed := false } [] db repo = true ∧
    upgradeReady 0 { uOpts with downloadReady := true, proceed := true } [] db repo = false := by decide +kernel

end Cards.Props
