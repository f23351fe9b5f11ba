import Verif.Model.Halt
import Verif.Props.TransFs
import Verif.Props.Crash
import Verif.Props.Alias
import Verif.Lemmas.Create
/-!
# C77: what pkgadd and pkgrm leave behind when they are killed
-/
namespace Cards.Props
open Cards Cards.Spec

/-! ### The tree -/

theorem addGone_fs {env : Env} {rules : List Rule} {opts : Opts} {a : Archive} {s : Sys} (h : PastOld env rules opts a s) :
    (addGone env rules opts a s).fs = fsOld env rules opts a s := by
  unfold addGone fsOld
  by_cases hu : opts.upgrade = true
  · rw [if_pos hu, if_pos hu]
    have hl : env.lockUpgrade = true := by
      rw [← Bool.not_eq_false]
      intro hl
      have := h.2.1 hu
      simp [upgradePhase, hl] at this
    rw [upgradePhase_eq _ _ _ _ _ hl]
    show (removeRecord (afterUpgrade env rules (stForce env rules opts a s) a.name (shipped env rules a)) a.name).1.fs = _
    rw [removeRecord_fs, (afterUpgrade_disk env rules _ a.name _).2.1]
  · rw [if_neg hu, if_neg hu]
    rfl

theorem rmOne_fold (l : List Str) (fs : Fs) : l.foldl rmOne fs = l.foldl Fs.rmStep fs := rfl

theorem removeRev_rmOne (fs : Fs) (names : List Str) : fs.removeRev names = (removalOrder names).foldl rmOne fs := rfl

theorem torn_ne (fs : Fs) (x k : List Str) (v : Option Node) (h : ¬ k <+: x) (hk : k ≠ []) : (fs.torn x v).get k = fs.get k := by
  have hx : x ≠ k := by rintro rfl; exact h (List.prefix_refl _)
  have hm : (fs.mkParents x).get k = fs.get k := by
    apply Fs.mkParents_ne
    rw [mem_parents]; rintro ⟨_, h', _⟩; exact h h'
  cases v with
  | none => simp only [Fs.torn, Fs.get_del, hx, if_false, hm]
  | some v => simp only [Fs.torn, Fs.get_set, hx, if_false, hm]

/-- The forced removal really deletes the victims. -/
theorem addForced_fs (env : Env) (rules : List Rule) (opts : Opts) (a : Archive) (s : Sys) (hw : WF s.disk) :
    (addForced env rules opts a s).fs = (addPre opts a s).fs.removeRev (addVictims env rules opts a s) := by
  unfold addForced forcePhase
  by_cases hc : addConf env rules opts a s = []
  · simp [hc, addVictims, seraseAll, Fs.removeRev, removalOrder]
    split <;> rfl
  · rw [if_neg (by simpa using hc)]
    exact (removeRefsOfFiles_spec (addPre opts a s) _ _ hw (fun _ => rfl)).2.2.1

/-- A place that no deletion and no extraction changes is the same at every moment. -/
theorem halt_get {env : Env} {rules : List Rule} {opts : Opts} {a : Archive} {s : Sys} (hw : WF s.disk) {r : RawSys} (h : AddHalt env rules opts a s r)
    (k : List Str) (haway : AwayFromRejected k) (hsc : ScriptsLeave a k)
    (hforce : ∀ l, l <+: removalOrder (addVictims env rules opts a s) → ∀ fs : Fs, fs.get k = s.fs.get k → (l.foldl rmOne fs).get k = s.fs.get k)
    (hold : opts.upgrade = true → ∀ l, l <+: removalOrder (toDelete (addForced env rules opts a s).mem a.name (addKeep env rules opts a)) →
      ∀ fs : Fs, fs.get k = s.fs.get k → (l.foldl rmOne fs).get k = s.fs.get k)
    (hent : ∀ fs : Fs, fs.get k = s.fs.get k → ∀ e ∈ a.entries, e.path ∉ addSkip env rules a → k <+: comps e.path →
      e.path ∈ addKeep env rules opts a ∧ fs.exist e.path = true) :
    r.fs.get k = s.fs.get k := by
  have hk : k ≠ [] := by rintro rfl; exact haway.2 List.nil_prefix
  have hpre : (addPre opts a s).fs.get k = s.fs.get k := fsPre_get hsc.1
  have hforced : (addForced env rules opts a s).fs.get k = s.fs.get k := by
    rw [addForced_fs env rules opts a s hw, removeRev_rmOne]
    exact hforce _ (List.prefix_refl _) _ hpre
  have hgone : PastOld env rules opts a s → (addGone env rules opts a s).fs.get k = s.fs.get k := by
    intro hp
    rw [addGone_fs hp]
    unfold fsOld
    by_cases hu : opts.upgrade = true
    · rw [if_pos hu, removeRev_rmOne]
      have := hold hu _ (List.prefix_refl _) _ hforced
      unfold addKeep at this
      rw [if_pos hu] at this
      exact this
    · rw [if_neg hu]; exact hforced
  have hinst : ∀ es : List Entry, (∀ e ∈ es, e ∈ a.entries) → ∀ fs : Fs, fs.get k = s.fs.get k →
      (installArchive env (addKeep env rules opts a) (addSkip env rules a) fs es).get k = s.fs.get k := by
    intro es
    unfold installArchive
    induction es with
    | nil => intro _ fs h; exact h
    | cons e es ih =>
      intro hes fs hfs
      simp only [List.foldl_cons]
      apply ih (fun e' he' => hes e' (by simp [he']))
      rw [installEntry_ne env _ _ fs e k haway.1 haway.2 (fun hn hp => hent fs hfs e (hes e (by simp)) hn hp), hfs]
  cases h with
  | start => rfl
  | inPre fs hc hr h => exact h k hsc.1
  | dropping hp done p rest hs js hj => exact hpre
  | victims hp l hl => exact hforce l hl _ hpre
  | oldFiles hp hu _ l hl => exact hold hu l hl _ hforced
  | oldRecord hp hu _ i hi r hr => rw [removeRev_rmOne]; exact hold hu _ (List.prefix_refl _) _ hforced
  | between hp es he => exact hinst es (fun e h => he.subset h) _ (hgone hp)
  | torn hp es e rest he k' hk' v _ =>
    have hi := hinst es (fun e h => by rw [he]; simp [h]) _ (hgone hp)
    generalize installArchive env (addKeep env rules opts a) (addSkip env rules a) (addGone env rules opts a s).fs es = fs at hk' hi
    rw [torn_ne _ _ _ _ ?_ hk, hi]
    intro hkk
    unfold extractPlace at hk'
    split at hk'
    · simp at hk'
    · rename_i hn
      split at hk'
      · cases hk'
        exact prefix_incomparable haway.1 haway.2 hkk
      · rename_i hex
        cases hk'
        obtain ⟨h1, h2⟩ := hent fs hi e (by rw [he]; simp) (by simpa using hn) hkk
        apply hex; simp [h1, h2]
  | newRecord hp r hr => exact hinst _ (fun _ h => h) _ (hgone hp)
  | inPost hp hr fs h => rw [h k hsc.2]; exact hinst _ (fun _ h => h) _ (hgone hp)

/-- Whenever pkgadd is killed, the regular file that an UPGRADE rule protects has its content and permissions. -/
theorem C77_protected (env : Env) (rules : List Rule) (opts : Opts) (a : Archive) (s : Sys) (hw : WF s.disk)
    (hg : GoodArchive a) (hup : opts.upgrade = true) (f : Str) (hship : Ships env.rx rules a f)
    (hprot : Protected env.rx rules f) (hd : ¬ IsDirName f) (c : Str) (m : Nat)
    (hfile : s.fs.get (comps f) = some (.file c m))
    (haway : AwayFromRejected (comps f)) (hsc : ScriptsLeave a (comps f))
    (hspell : ∀ g, Owns s.disk a.name g → comps g = comps f → g = f ∨ IsDirName g) (r : RawSys) (h : AddHalt env rules opts a s r) :
    r.fs.get (comps f) = some (.file c m) := by
  obtain ⟨e, he, hef⟩ := good_entry hg hship
  have hkeep : f ∈ addKeep env rules opts a := by
    unfold addKeep; rw [if_pos hup]
    exact mem_keepFileList.mpr ⟨mem_shipped.mpr hship, hprot⟩
  have hsl : endsSlash f = false := by rw [Bool.eq_false_iff]; intro h; exact hd (endsSlash_iff.mp h)
  rw [halt_get hw h (comps f) haway hsc ?_ ?_ ?_, hfile]
  · intro l hl fs hfs
    rw [hfile] at hfs ⊢
    apply Fs.rmFold_file _ _ _ _ _ hfs
    intro p hp hpc
    exfalso
    have hp' : p ∈ addVictims env rules opts a s := by have := hl.subset hp; simpa [removalOrder] using this
    obtain ⟨h1, h2⟩ := mem_seraseAll.mp hp'
    rw [if_pos hup] at h2
    obtain ⟨e', he', hpe⟩ := good_entry hg (mem_shipped.mp (mem_conflicts.mp h1).1)
    have : e' = e := pairwise_once hg he' he (by rw [hpe, hef, hpc])
    subst this
    have hpf : p = f := by rw [← hpe, hef]
    subst hpf
    exact h2 (mem_keepFileList.mpr ⟨h1, hprot⟩)
  · intro _ l hl fs hfs
    rw [hfile] at hfs ⊢
    apply Fs.rmFold_file _ _ _ _ _ hfs
    intro p hp hpc
    have hp' : p ∈ toDelete (stForce env rules opts a s).mem a.name (addKeep env rules opts a) := by
      exact List.mem_reverse.mp (hl.subset hp)
    obtain ⟨h1, h2⟩ := mem_toDelete_force hw hp'
    rcases hspell p h1 hpc with rfl | h
    · exact absurd hkeep h2
    · exact endsSlash_iff.mpr h
  · intro fs hfs e' he' _ hp
    have := good_leaf hg he he' (by rw [hef]; exact hd) (by rw [hef]; exact hp)
    rw [this, hef]
    exact ⟨hkeep, by rw [hfile] at hfs; simp [Fs.exist, Fs.lstat, hfs, hsl]⟩

/-- Whenever pkgadd is killed, a place at or inside which the archive has nothing but excluded files is as it was, unless the old version listed it. -/
theorem C77_elsewhere (env : Env) (rules : List Rule) (opts : Opts) (a : Archive) (s : Sys) (hw : WF s.disk) (k : List Str)
    (hg : GoodArchive a) (hin : ∀ e ∈ a.entries, e.path ∈ a.mtree → ¬ Excluded env.rx rules e.path → ¬ k <+: comps e.path)
    (hlisted : ∀ e ∈ a.entries, e.path ∈ a.mtree ∧ e.path.head? ≠ some '.')
    (haway : AwayFromRejected k) (hsc : ScriptsLeave a k)
    (hold : opts.upgrade = true → ∀ g, Owns s.disk a.name g → comps g ≠ k) (r : RawSys) (h : AddHalt env rules opts a s r) :
    r.fs.get k = s.fs.get k := by
  apply halt_get hw h k haway hsc
  · intro l hl fs hfs
    rw [rmOne_fold, Fs.rmFold_ne, hfs]
    intro p hp hpc
    have hp' : p ∈ addVictims env rules opts a s := by have := hl.subset hp; simpa [removalOrder] using this
    obtain ⟨h1, _⟩ := mem_seraseAll.mp hp'
    have hs := mem_shipped.mp (mem_conflicts.mp h1).1
    obtain ⟨e, he, hpe⟩ := good_entry hg hs
    refine hin e he (hpe ▸ hs.1) (hpe ▸ hs.2.2) ?_
    rw [hpe, hpc]
  · intro hu l hl fs hfs
    rw [rmOne_fold, Fs.rmFold_ne, hfs]
    intro p hp hpc
    have hp' : p ∈ toDelete (stForce env rules opts a s).mem a.name (addKeep env rules opts a) := by
      exact List.mem_reverse.mp (hl.subset hp)
    exact hold hu p (mem_toDelete_force hw hp').1 hpc
  · intro fs hfs e he hn hp
    exfalso
    refine hin e he (hlisted e he).1 ?_ hp
    intro hx
    exact hn (mem_applyInstallRules.2.mpr ⟨mem_sofList.mpr (by simp [hlisted e he]), hx⟩)


theorem pastConf_nil {env : Env} {rules : List Rule} {opts : Opts} {a : Archive} {s : Sys} (hf : opts.force = false) (h : PastConf env rules opts a s) :
    addConf env rules opts a s = [] := by
  rcases h.2 with h | ⟨h, _⟩
  · exact h
  · rw [hf] at h; simp at h

/-- Without --force, whenever pkgadd is killed, a file of another package is as it was. (`hin`: the archive does not turn a file into a directory.) -/
theorem C77_others (env : Env) (rules : List Rule) (opts : Opts) (a : Archive) (s : Sys) (hw : WF s.disk) (hf : opts.force = false) (n f : Str) (hn : n ≠ a.name)
    (hown : Owns s.disk n f) (hmine : ¬ Owns s.disk a.name f) (hd : ¬ IsDirName f)
    (hin : ∀ e ∈ a.entries, comps f <+: comps e.path → e.path = f) (hlisted : ∀ e ∈ a.entries, e.path ∈ a.mtree ∧ e.path.head? ≠ some '.')
    (hspell : ∀ g, Owns s.disk a.name g → comps g ≠ comps f)
    (haway : AwayFromRejected (comps f)) (hsc : ScriptsLeave a (comps f)) (r : RawSys) (h : AddHalt env rules opts a s r) :
    r.fs.get (comps f) = s.fs.get (comps f) := by
  by_cases hc : addConf env rules opts a s = []
  · apply halt_get hw h (comps f) haway hsc
    · intro l hl fs hfs
      have : addVictims env rules opts a s = [] := by
        unfold addVictims; rw [hc]; simp only [seraseAll]; split <;> rfl
      rw [this] at hl
      have hl' : l = [] := List.prefix_nil.mp hl
      subst hl'
      exact hfs
    · intro hu l hl fs hfs
      rw [rmOne_fold, Fs.rmFold_ne, hfs]
      intro p hp hpc
      have hp' : p ∈ toDelete (stForce env rules opts a s).mem a.name (addKeep env rules opts a) := by
        exact List.mem_reverse.mp (hl.subset hp)
      exact hspell p (mem_toDelete_force hw hp').1 hpc
    · intro fs hfs e he hns hp
      exfalso
      have hef := hin e he hp
      have hl := hlisted e he
      have hship : Ships env.rx rules a f := by
        refine ⟨hef ▸ hl.1, hef ▸ hl.2, ?_⟩
        intro hx
        exact hns (mem_applyInstallRules.2.mpr ⟨mem_sofList.mpr (by simp [hl]), hef ▸ hx⟩)
      have : f ∈ addConf env rules opts a s := by
        refine (mem_conflicts_spec (st := addPre opts a s) hw).mpr ⟨mem_shipped.mpr hship, hd, Or.inl ⟨n, hn, hown⟩, hmine⟩
      rw [hc] at this; simp at this
  · have hp : ¬ PastConf env rules opts a s := fun hp => hc (pastConf_nil hf hp)
    cases h with
    | start => rfl
    | inPre fs _ _ h => exact h _ hsc.1
    | dropping h => exact absurd h hp
    | victims h => exact absurd h hp
    | oldFiles h => exact absurd h hp
    | oldRecord h => exact absurd h hp
    | between h => exact absurd h.1 hp
    | torn h => exact absurd h.1 hp
    | newRecord h => exact absurd h.1 hp
    | inPost h => exact absurd h.1 hp

/-! ### The database -/

theorem mget_unload (db : Db) (n : Str) : mget (unloadDb db) n = (mget db n).map (fun i => ⟨some i.md, some i.files⟩) := by
  induction db with
  | nil => rfl
  | cons p db ih =>
    obtain ⟨k, i⟩ := p
    simp only [unloadDb, List.map_cons] at ih ⊢
    simp only [mget]
    split
    · rfl
    · exact ih

theorem unload_mset (db : Db) (n : Str) (i : Info) : unloadDb (mset n i db) = mset n ⟨some i.md, some i.files⟩ (unloadDb db) := by
  induction db with
  | nil => rfl
  | cons p db ih =>
    obtain ⟨k, j⟩ := p
    simp only [unloadDb, List.map_cons, mset] at ih ⊢
    split
    · rfl
    · split
      · rfl
      · simp only [List.map_cons]; rw [ih]

theorem unload_merase (db : Db) (n : Str) : unloadDb (merase n db) = merase n (unloadDb db) := by
  unfold merase unloadDb
  induction db with
  | nil => rfl
  | cons p db ih =>
    obtain ⟨k, j⟩ := p
    simp only [List.map_cons, List.filter_cons] at ih ⊢
    split
    · simp only [List.map_cons]; rw [ih]
    · exact ih

/-- The record on disk after the old version is gone. -/
theorem addGone_disk {env : Env} {rules : List Rule} {opts : Opts} {a : Archive} {s : Sys} (h : PastOld env rules opts a s) :
    (addGone env rules opts a s).disk =
      if opts.upgrade then merase a.name (addForced env rules opts a s).disk else (addForced env rules opts a s).disk := by
  unfold addGone
  by_cases hu : opts.upgrade = true
  · rw [if_pos hu, if_pos hu]
    have h0 := h.2.1 hu
    have hl : env.lockUpgrade = true := by
      rw [← Bool.not_eq_false]
      intro hl
      simp [upgradePhase, hl] at h0
    rw [upgradePhase_eq _ _ _ _ _ hl] at h0 ⊢
    simp only [removeRecord, (afterUpgrade_disk env rules _ a.name _).1] at h0 ⊢
    cases hg : mget (addForced env rules opts a s).disk a.name with
    | none => rw [hg] at h0; simp at h0
    | some i => rfl
  · rw [if_neg hu, if_neg hu]

/-- Another package in the database after the conflicts are resolved. -/
theorem addForced_other {env : Env} {rules : List Rule} {opts : Opts} {a : Archive} {s : Sys} (hw : WF s.disk) (n : Str) :
    mget (addForced env rules opts a s).disk n = (mget s.disk n).map (dropInfo (addConf env rules opts a s)) :=
  (forcePhase_disk env rules opts (addPre opts a s) (addConf env rules opts a s) hw hw (fun _ => rfl)).2.2.2.2.1 n

/-- The database at any moment: a database in which, of every package, some files that the new package ships and that are in its way are missing (only with --force),
or that database while the record of the package is removed, or (perhaps without the old record) while the new one is made. -/
theorem halt_raw {env : Env} {rules : List Rule} {opts : Opts} {a : Archive} {s : Sys} (hw : WF s.disk) {r : RawSys} (h : AddHalt env rules opts a s r) :
    ∃ D : Db, WF D ∧ (∀ n, ∃ js, (∀ f ∈ js, opts.force = true ∧ Ships env.rx rules a f) ∧ mget D n = (mget s.disk n).map (dropInfo js)) ∧
      (r.raw = unloadDb D ∨ (∃ i, mget D a.name = some i ∧ r.raw ∈ removeRecordSteps (unloadDb D) a.name ⟨some i.md, some i.files⟩) ∨
        r.raw ∈ addRecordSteps (unloadDb (if opts.upgrade then merase a.name D else D)) a.name (addRecord env rules opts a s)) := by
  have hconf : PastConf env rules opts a s → ∀ f ∈ addConf env rules opts a s, opts.force = true ∧ Ships env.rx rules a f := by
    intro hp f hf
    refine ⟨?_, mem_shipped.mp (mem_conflicts.mp hf).1⟩
    rcases hp.2 with h | ⟨h, _⟩
    · rw [h] at hf; simp at hf
    · exact h
  have hself : ∀ n, ∃ js, (∀ f ∈ js, opts.force = true ∧ Ships env.rx rules a f) ∧ mget s.disk n = (mget s.disk n).map (dropInfo js) := by
    intro n
    refine ⟨[], by simp, ?_⟩
    cases mget s.disk n <;> rfl
  have hfor : PastConf env rules opts a s → ∀ n, ∃ js, (∀ f ∈ js, opts.force = true ∧ Ships env.rx rules a f) ∧
      mget (addForced env rules opts a s).disk n = (mget s.disk n).map (dropInfo js) :=
    fun hp n => ⟨_, hconf hp, addForced_other hw n⟩
  have hwf : WF (addForced env rules opts a s).disk :=
    (forcePhase_disk env rules opts (addPre opts a s) (addConf env rules opts a s) hw hw (fun _ => rfl)).2.1
  have hhead : ∀ (x : RawDb) (n : Str) (i : Info), x ∈ addRecordSteps x n i := fun x n i => by simp [addRecordSteps]
  cases h with
  | start => exact ⟨s.disk, hw, hself, Or.inl rfl⟩
  | inPre => exact ⟨s.disk, hw, hself, Or.inl rfl⟩
  | dropping hp done p rest hs js hj =>
    have hms := wf_msorted hw
    have hdone : MSorted done := by
      rw [hs] at hms; unfold MSorted Sorted keys at hms ⊢
      rw [List.map_append, List.pairwise_append] at hms
      exact hms.1
    have hpn : p.1 ∉ keys done := by
      intro hk
      rw [hs] at hms; unfold MSorted Sorted keys at hms
      rw [List.map_append, List.pairwise_append] at hms
      exact str_lt_irrefl _ (hms.2.2 p.1 hk p.1 (by simp))
    have hin : ∀ q ∈ s.disk, mget s.disk q.1 = some q.2 := fun q hq => (mget_iff_mem hms).mpr hq
    obtain ⟨d1, d2, d3, _⟩ := dropFold_spec (addConf env rules opts a s) done hdone (addPre opts a s)
      (fun q hq => hin q (by rw [hs]; simp [hq])) (fun q hq => by
        show (mget s.disk q.1).map _ = _
        rw [hin q (by rw [hs]; simp [hq])]; rfl)
    have dw := dropFold_wf (addConf env rules opts a s) done (fun q hq => hw.2 q (by rw [hs]; simp [hq])) (addPre opts a s) hw hw
    generalize hst : done.foldl (fun st q => (dropRefs st q.1 q.2 (addConf env rules opts a s)).1) (addPre opts a s) = st at d1 d2 dw
    have hp1 : mget s.disk p.1 = some p.2 := hin p (by rw [hs]; simp)
    obtain ⟨_, _, e3, _⟩ := dropRefs_spec js st p.1 p.2
      (by rw [d1, if_neg hpn]; exact hp1) (by rw [d2, if_neg hpn]; show (mget s.disk p.1).map _ = _; rw [hp1]; rfl)
    refine ⟨_, (dropRefs_wf js st p.1 p.2 dw.1 dw.2 (hw.2 p (by rw [hs]; simp))).2, ?_, Or.inl rfl⟩
    intro n
    rw [e3]
    by_cases hnp : n = p.1
    · rw [if_pos hnp, d2, if_neg (by rw [hnp]; exact hpn)]
      exact ⟨js, fun f hf => hconf hp f (hj.subset hf), rfl⟩
    · rw [if_neg hnp, d2]
      split
      · exact ⟨_, hconf hp, rfl⟩
      · exact hself n
  | victims hp => exact ⟨_, hwf, hfor hp, Or.inl rfl⟩
  | oldFiles hp => exact ⟨_, hwf, hfor hp, Or.inl rfl⟩
  | oldRecord hp hu _ j hj r hr => exact ⟨_, hwf, hfor hp, Or.inr (Or.inl ⟨j, hj, hr⟩)⟩
  | between hp => exact ⟨_, hwf, hfor hp.1, Or.inr (Or.inr (by rw [← addGone_disk hp]; exact hhead _ _ _))⟩
  | torn hp => exact ⟨_, hwf, hfor hp.1, Or.inr (Or.inr (by rw [← addGone_disk hp]; exact hhead _ _ _))⟩
  | newRecord hp r hr => exact ⟨_, hwf, hfor hp.1, Or.inr (Or.inr (by rw [← addGone_disk hp]; exact hr))⟩
  | inPost hp hr fs h =>
    refine ⟨_, hwf, hfor hp.1, Or.inr (Or.inr ?_)⟩
    rw [← addGone_disk hp]
    simp [unload_mset, addRecordSteps]

/-- What is left of a record at any moment: the same META, and every file except possibly some of the files `taken`. -/
def RecordKept (taken : Str → Prop) (i : Info) (d : PkgDir) : Prop :=
  d.md = some i.md ∧ ∃ fl, d.files = some fl ∧ ∀ f, (f ∈ fl → f ∈ i.files) ∧ (f ∈ i.files → ¬ taken f → f ∈ fl)

/-- Whenever pkgadd is killed, every other package has its record: META as it was and the file list, from which at most files that the new package ships
are missing, and that only with --force. -/
theorem C77_records (env : Env) (rules : List Rule) (opts : Opts) (a : Archive) (s : Sys) (hw : WF s.disk) (n : Str) (hn : n ≠ a.name) (i : Info)
    (hi : (n, i) ∈ s.disk) (r : RawSys) (h : AddHalt env rules opts a s r) :
    ∃ d, (n, d) ∈ r.raw ∧ RecordKept (fun f => opts.force = true ∧ Ships env.rx rules a f) i d := by
  obtain ⟨D, _, h2, h3⟩ := halt_raw hw h
  obtain ⟨js, hj, hD⟩ := h2 n
  rw [(mget_iff_mem (wf_msorted hw)).mpr hi] at hD
  have hg : mget r.raw n = mget (unloadDb D) n := by
    rcases h3 with h3 | ⟨j, _, h3⟩ | h3
    · rw [h3]
    · exact C45_others_intact _ a.name _ ⟨[], []⟩ _ (Or.inl h3) n hn
    · rw [C45_others_intact _ a.name ⟨none, none⟩ _ _ (Or.inr (Or.inl h3)) n hn]
      split
      · rw [unload_merase, mget_merase, if_neg (fun e => hn e.symm)]
      · rfl
  rw [mget_unload, hD] at hg
  exact ⟨_, mget_some_mem hg, rfl, _, rfl, fun f => ⟨fun hf => (mem_seraseAll.mp hf).1, fun hf ht => mem_seraseAll.mpr ⟨hf, fun hj' => ht (hj f hj')⟩⟩⟩

theorem loadRaw_mset (D : Db) (n : Str) (md : Option (List Str)) (fl : List Str) :
    loadRaw (mset n ⟨md, some fl⟩ (unloadDb D)) = some (mset n ⟨md.getD [], fl⟩ D) := by
  induction D with
  | nil => rfl
  | cons p D ih =>
    obtain ⟨k, j⟩ := p
    have hr := C45_readable D
    simp only [unloadDb, List.map_cons, mset] at ih hr ⊢
    split
    · simp [loadRaw, hr]
    · split
      · simp [loadRaw, hr]
      · simp [loadRaw, ih]

/-- A database that can be read after a kill: the other packages as before except for files taken over, and the package installed or not. -/
theorem halt_loads {env : Env} {rules : List Rule} {opts : Opts} {a : Archive} {s : Sys} (hw : WF s.disk) {r : RawSys} (h : AddHalt env rules opts a s r) {db : Db}
    (hdb : loadRaw r.raw = some db) :
    WF db ∧ ∀ n, n ≠ a.name → ∃ js, (∀ f ∈ js, opts.force = true ∧ Ships env.rx rules a f) ∧ mget db n = (mget s.disk n).map (dropInfo js) := by
  obtain ⟨D, h1, h2, h3⟩ := halt_raw hw h
  have hmiss : ∀ (raw : RawDb) (d : PkgDir), d.files = none → loadRaw (mset a.name d raw) = none := by
    intro raw d hd
    rw [loadRaw_none_iff]
    exact ⟨a.name, d, mget_some_mem (by simp [mget_mset]), hd⟩
  have hset : ∀ (D' : Db) (i : Info), WF D' → (∀ n, n ≠ a.name → mget D' n = mget D n) → Sorted i.files → db = mset a.name i D' →
      WF db ∧ ∀ n, n ≠ a.name → ∃ js, (∀ f ∈ js, opts.force = true ∧ Ships env.rx rules a f) ∧ mget db n = (mget s.disk n).map (dropInfo js) := by
    rintro D' i hw' ho hs rfl
    refine ⟨wf_mset hw' hs, fun n hn => ?_⟩
    rw [mget_mset, if_neg (fun e => hn e.symm), ho n hn]
    exact h2 n
  have hsame : ∀ (D' : Db), WF D' → (∀ n, n ≠ a.name → mget D' n = mget D n) → db = D' →
      WF db ∧ ∀ n, n ≠ a.name → ∃ js, (∀ f ∈ js, opts.force = true ∧ Ships env.rx rules a f) ∧ mget db n = (mget s.disk n).map (dropInfo js) := by
    rintro D' hw' ho rfl
    exact ⟨hw', fun n hn => by rw [ho n hn]; exact h2 n⟩
  have her : ∀ n, n ≠ a.name → mget (merase a.name D) n = mget D n := fun n hn => by rw [mget_merase, if_neg (fun e => hn e.symm)]
  rcases h3 with h3 | ⟨i, hi, h3⟩ | h3
  · rw [h3, C45_readable] at hdb
    cases hdb
    exact ⟨h1, fun n _ => h2 n⟩
  · simp only [removeRecordSteps, List.mem_cons, List.not_mem_nil, or_false] at h3
    rcases h3 with h3 | h3 | h3 | h3 <;> rw [h3] at hdb
    · rw [C45_readable] at hdb; cases hdb
      exact ⟨h1, fun n _ => h2 n⟩
    · rw [loadRaw_mset] at hdb; cases hdb
      exact hset D { md := [], files := i.files } h1 (fun _ _ => rfl) (h1.2 _ (mget_some_mem hi)) rfl
    · rw [hmiss _ _ rfl] at hdb; cases hdb
    · rw [← unload_merase, C45_readable] at hdb; cases hdb
      exact hsame _ (wf_merase h1) her rfl
  · have hwD : WF (if opts.upgrade then merase a.name D else D) := by
      split
      · exact wf_merase h1
      · exact h1
    have hoD : ∀ n, n ≠ a.name → mget (if opts.upgrade then merase a.name D else D) n = mget D n := by
      intro n hn
      split
      · exact her n hn
      · rfl
    generalize (if opts.upgrade then merase a.name D else D) = D' at h3 hwD hoD
    simp only [addRecordSteps, List.mem_cons, List.not_mem_nil, or_false] at h3
    rcases h3 with h3 | h3 | h3 | h3 <;> rw [h3] at hdb
    · rw [C45_readable] at hdb; cases hdb
      exact hsame _ hwD hoD rfl
    · rw [hmiss _ _ rfl] at hdb; cases hdb
    · rw [hmiss _ _ rfl] at hdb; cases hdb
    · rw [loadRaw_mset] at hdb; cases hdb
      exact hset D' _ hwD hoD sorted_applyInstallRules rfl

/-! ### Running the command again -/

/-- pkgadd with --force succeeds when it is given -u exactly if the package is installed, the archive is readable, the locks are free and the pre-install script succeeds. -/
theorem pkgadd_forced_succeeds (env : Env) (rules : List Rule) (opts : Opts) (a : Archive) (s : Sys) (hw : WF s.disk)
    (hmd : a.md ≠ [] ∧ a.mtree ≠ [] ∧ a.archOk = true ∧ a.name ≠ [])
    (hlk : env.lockForce = true ∧ env.lockUpgrade = true ∧ env.lockInstall = true) (hf : opts.force = true)
    (hpre : opts.runPrePost = true → (a.pre s.fs).2 = true)
    (hup : opts.upgrade = true ↔ Installed s.disk a.name) (halias : ¬ Installed s.disk a.name → ∀ p ∈ s.disk, 'A' :: a.name ∉ p.2.md) :
    (pkgadd env rules opts a s).2 = none := by
  have hne : (load s opts.asDep).nameExists a.name = opts.upgrade := by
    rw [Bool.eq_iff_iff, nameExists_load, hup, keys_iff_installed]
    constructor
    · rintro (h | ⟨p, hp, h⟩)
      · exact h
      · apply Classical.byContradiction
        intro hni
        exact halias hni p hp (mem_aliases.mp h)
    · exact Or.inl
  have hpc : precheck opts a (load s opts.asDep) = none := by
    unfold precheck
    rw [hne]
    simp [hmd]
  simp only [pkgadd, runAdd_eq, hpc]
  have hpr : (preRun opts a s.fs).2 = true := by
    unfold preRun
    split
    · rename_i h; exact hpre h
    · rfl
  rw [if_neg (by simp [hpr]), if_neg (by simp [hf]), if_neg (by simp [hlk])]
  show (commit env rules opts a _ _ (stForce env rules opts a s)).2 = none
  have hin : ∀ (st : St) (files keep non : List Str), (installPhase env opts st a files keep non).2 = none := by
    intro st files keep non
    simp [installPhase, hlk]
  unfold commit
  by_cases hu : opts.upgrade = true
  · rw [if_pos hu, upgradePhase_eq _ _ _ _ _ hlk.2.1]
    have hd : (mget (stForce env rules opts a s).disk a.name).isSome = true := by
      rw [show mget (stForce env rules opts a s).disk a.name = _ from addForced_other hw a.name, Option.isSome_map]
      exact mget_isSome_installed.mpr (hup.mp hu)
    have hr : (removeRecord (afterUpgrade env rules (stForce env rules opts a s) a.name (shipped env rules a)) a.name).2 = none := by
      simp only [removeRecord, (afterUpgrade_disk env rules _ a.name _).1]
      cases hg : mget (stForce env rules opts a s).disk a.name with
      | none => rw [hg] at hd; simp at hd
      | some i => rfl
    generalize removeRecord (afterUpgrade env rules (stForce env rules opts a s) a.name (shipped env rules a)) a.name = rr at hr
    obtain ⟨st', e⟩ := rr
    simp only at hr
    subst hr
    exact hin _ _ _ _
  · rw [if_neg hu]; exact hin _ _ _ _

theorem installEntry_nodir (env : Env) (keep nonInst : List Str) (fs : Fs) (e : Entry) (k : List Str) (haway : AwayFromRejected k)
    (h : k <+: comps e.path → comps e.path = k ∧ ∀ m, e.node ≠ .dir m) (hd : ∀ m, fs.get k ≠ some (.dir m)) :
    ∀ m, (installEntry env keep nonInst fs e).get k ≠ some (.dir m) := by
  intro m
  by_cases hk : k <+: comps e.path
  · obtain ⟨h1, h2⟩ := h hk
    by_cases hx : fs.exist e.path = true ∧ e.path ∈ keep
    · rw [installEntry_ne env keep nonInst fs e k haway.1 haway.2 (fun _ _ => ⟨hx.2, hx.1⟩)]
      exact hd m
    · unfold installEntry
      split
      · exact hd m
      · rw [if_neg (by simpa using hx)]
        split
        · exact hd m
        · split
          · exact hd m
          · rename_i fs1 hfs1
            rw [← h1, Fs.extract_self hfs1]
            intro he
            exact h2 m (by simpa using he)
  · rw [installEntry_ne env keep nonInst fs e k haway.1 haway.2 (fun _ h => absurd h hk)]
    exact hd m

/-- A killed pkgadd does not leave a directory where it is to put a file. -/
theorem halt_nodir {env : Env} {rules : List Rule} {opts : Opts} {a : Archive} {s : Sys} (hw : WF s.disk) (hg : GoodArchive a) {r : RawSys}
    (h : AddHalt env rules opts a s r) (e : Entry) (he : e ∈ a.entries) (hd : ¬ IsDirName e.path)
    (haway : AwayFromRejected (comps e.path)) (hsc : ScriptsLeave a (comps e.path)) (h0 : ∀ m, s.fs.get (comps e.path) ≠ some (.dir m)) :
    ∀ m, r.fs.get (comps e.path) ≠ some (.dir m) := by
  have hk : comps e.path ≠ [] := by intro h; rw [h] at haway; exact haway.2 List.nil_prefix
  have hleaf : ∀ e' ∈ a.entries, comps e.path <+: comps e'.path → comps e'.path = comps e.path ∧ ∀ m, e'.node ≠ .dir m := by
    intro e' he' hp
    have := good_leaf hg he he' hd hp
    subst this
    exact ⟨rfl, fun m hm => hd ((hg.kind e' he').mpr ⟨m, hm⟩)⟩
  have hpre : ∀ m, (addPre opts a s).fs.get (comps e.path) ≠ some (.dir m) := by
    intro m; rw [show (addPre opts a s).fs.get (comps e.path) = _ from fsPre_get hsc.1]; exact h0 m
  have hrm : ∀ (l : List Str) (fs : Fs), (∀ m, fs.get (comps e.path) ≠ some (.dir m)) → ∀ m, (l.foldl rmOne fs).get (comps e.path) ≠ some (.dir m) := by
    intro l fs hfs m
    rw [rmOne_fold]
    rcases Fs.rmFold_le l fs (comps e.path) with h | h <;> rw [h]
    · exact hfs m
    · simp
  have hforced : ∀ m, (addForced env rules opts a s).fs.get (comps e.path) ≠ some (.dir m) := by
    rw [addForced_fs env rules opts a s hw, removeRev_rmOne]
    exact hrm _ _ hpre
  have hgone : PastOld env rules opts a s → ∀ m, (addGone env rules opts a s).fs.get (comps e.path) ≠ some (.dir m) := by
    intro hp
    rw [addGone_fs hp]
    unfold fsOld
    split
    · rw [removeRev_rmOne]; exact hrm _ _ hforced
    · exact hforced
  have hinst : ∀ es : List Entry, (∀ e ∈ es, e ∈ a.entries) → ∀ fs : Fs, (∀ m, fs.get (comps e.path) ≠ some (.dir m)) → ∀ m,
      (installArchive env (addKeep env rules opts a) (addSkip env rules a) fs es).get (comps e.path) ≠ some (.dir m) := by
    intro es
    unfold installArchive
    induction es with
    | nil => intro _ fs h; exact h
    | cons e' es ih =>
      intro hes fs hfs
      simp only [List.foldl_cons]
      apply ih (fun e'' he'' => hes e'' (by simp [he'']))
      exact installEntry_nodir env _ _ fs e' _ haway (hleaf e' (hes e' (by simp))) hfs
  cases h with
  | start => exact h0
  | inPre fs hc hr h => intro m; rw [h _ hsc.1]; exact h0 m
  | dropping hp done p rest hs js hj => exact hpre
  | victims hp l hl => exact hrm l _ hpre
  | oldFiles hp hu _ l hl => exact hrm l _ hforced
  | oldRecord hp hu _ i hi r hr => show ∀ m, (Fs.removeRev _ _).get _ ≠ _; rw [removeRev_rmOne]; exact hrm _ _ hforced
  | between hp es he => exact hinst es (fun e h => he.subset h) _ (hgone hp)
  | torn hp es e' rest hes k' hk' v hv =>
    have hi := hinst es (fun e h => by rw [hes]; simp [h]) _ (hgone hp)
    have he' : e' ∈ a.entries := by rw [hes]; simp
    show ∀ m, (Fs.torn _ _ _).get _ ≠ _
    generalize installArchive env (addKeep env rules opts a) (addSkip env rules a) (addGone env rules opts a s).fs es = fs at hk' hi
    intro m
    by_cases hkk : comps e.path <+: k'
    · have hk2 : k' = comps e'.path := by
        unfold extractPlace at hk'
        split at hk'
        · simp at hk'
        · split at hk'
          · cases hk'
            exact absurd hkk (prefix_incomparable haway.1 haway.2)
          · cases hk'; rfl
      subst hk2
      obtain ⟨h1, h2⟩ := hleaf e' he' hkk
      cases v with
      | none => simp [Fs.torn, Fs.get_del, h1]
      | some n =>
        simp only [Fs.torn, Fs.get_set, h1, if_true]
        intro hn
        obtain ⟨m', hm'⟩ := (hv n rfl).mp ⟨m, by simpa using hn⟩
        exact h2 m' hm'
    · rw [torn_ne _ _ _ _ hkk hk]; exact hi m
  | newRecord hp r hr => exact hinst _ (fun _ h => h) _ (hgone hp)
  | inPost hp hr fs h => intro m; rw [h _ hsc.2]; exact hinst _ (fun _ h => h) _ (hgone hp) m

/-- Recovery: whenever pkgadd was killed, if the database can be read then running it again with --force (and -u exactly if the package is still recorded)
succeeds, the package then owns exactly the files it ships, each of them is on disk, and a regular file that no UPGRADE rule protects is exactly the one of the archive. -/
theorem C77_rerun (env env' : Env) (rules : List Rule) (opts : Opts) (a : Archive) (s : Sys) (hw : WF s.disk) (hg : GoodArchive a)
    (r : RawSys) (h : AddHalt env rules opts a s r) (db : Db) (hdb : loadRaw r.raw = some db)
    (hmd : a.md ≠ [] ∧ a.mtree ≠ [] ∧ a.archOk = true ∧ a.name ≠ [])
    (hlk : env'.lockForce = true ∧ env'.lockUpgrade = true ∧ env'.lockInstall = true) (hrx : env'.rx = env.rx)
    (hpre : ∀ fs, (a.pre fs).2 = true) (halias : ∀ p ∈ s.disk, 'A' :: a.name ∉ p.2.md)
    (opts' : Opts) (hf : opts'.force = true) (hup : opts'.upgrade = true ↔ Installed db a.name) :
    let e := pkgadd env' rules opts' a ⟨r.fs, db⟩
    e.2 = none ∧ (∀ f, Owns e.1.disk a.name f ↔ Ships env.rx rules a f) ∧
    ∀ f, Ships env.rx rules a f → env'.extractFails (comps f) = false → ScriptsLeave a (comps f) →
      (¬ IsDirName f → AwayFromRejected (comps f) ∧ ∀ m, s.fs.get (comps f) ≠ some (.dir m)) → (IsDirName f → ¬ Inside (comps f) rejectedDir) →
      Present e.1.fs f ∧
      (¬ IsDirName f → ¬ (opts'.upgrade = true ∧ Protected env.rx rules f) → ∀ x ∈ a.entries, x.path = f → e.1.fs.get (comps f) = some x.node) := by
  intro e
  obtain ⟨w1, w2⟩ := halt_loads hw h hdb
  have hal : ¬ Installed db a.name → ∀ p ∈ db, 'A' :: a.name ∉ p.2.md := by
    intro hni p hp
    have hne : p.1 ≠ a.name := fun he => hni ⟨p.2, he ▸ hp⟩
    obtain ⟨js, _, hj⟩ := w2 p.1 hne
    rw [(mget_iff_mem (wf_msorted w1)).mpr hp] at hj
    obtain ⟨i, hi, hpi⟩ := Option.map_eq_some_iff.mp hj.symm
    rw [← hpi]
    exact halias _ (mget_some_mem hi)
  have hok : e.2 = none := pkgadd_forced_succeeds env' rules opts' a ⟨r.fs, db⟩ w1 hmd hlk hf (fun _ => hpre _) hup hal
  have hown : ∀ f, Owns e.1.disk a.name f ↔ Ships env.rx rules a f := by
    intro f
    rw [← hrx]
    exact C07_recorded_iff_not_excluded env' rules opts' a ⟨r.fs, db⟩ w1 hok f
  refine ⟨hok, hown, ?_⟩
  intro f hs hx hsc hfile hdir
  have := C08_recorded_on_disk env' rules opts' a ⟨r.fs, db⟩ w1 hg hok f ((hown f).mpr hs) hx ?_ hdir (fun hd => (hfile hd).1) hsc
  · rw [hrx] at this; exact this
  · intro hd
    obtain ⟨x, hx1, hx2⟩ := good_entry hg hs
    have := halt_nodir hw hg h x hx1 (by rw [hx2]; exact hd) (by rw [hx2]; exact (hfile hd).1) (by rw [hx2]; exact hsc) (by rw [hx2]; exact (hfile hd).2)
    rw [hx2] at this
    exact this

/-- The state in which pkgadd ends, however it ends, is one of these states. -/
theorem C77_final (env : Env) (rules : List Rule) (opts : Opts) (a : Archive) (s : Sys) (hw : WF s.disk) :
    AddHalt env rules opts a s ⟨(pkgadd env rules opts a s).1.fs, unloadDb (pkgadd env rules opts a s).1.disk⟩ := by
  simp only [pkgadd, runAdd_eq]
  cases hp : precheck opts a (load s opts.asDep) with
  | some e => exact .start
  | none =>
    simp only
    have hpre : AddHalt env rules opts a s ⟨(stPre opts a s).fs, unloadDb (stPre opts a s).disk⟩ := by
      by_cases hr : opts.runPrePost = true
      · refine .inPre _ hp hr (fun k hk => ?_)
        show (preRun opts a s.fs).1.get k = _
        unfold preRun; rw [if_pos hr]; exact hk _
      · have : (stPre opts a s).fs = s.fs := by
          show (preRun opts a s.fs).1 = _
          unfold preRun; rw [if_neg hr]
        rw [this]; exact .start
    split
    · exact hpre
    · rename_i hok
      split
      · exact hpre
      · rename_i hcf
        split
        · exact hpre
        · rename_i hlk
          have hpc : PastConf env rules opts a s := by
            refine ⟨⟨hp, by simpa using hok⟩, ?_⟩
            show conflicts (stPre opts a s) a.name (shipped env rules a) = [] ∨ _
            generalize conflicts (stPre opts a s) a.name (shipped env rules a) = c at hcf hlk
            cases c with
            | nil => exact Or.inl rfl
            | cons x c =>
              right
              simp only [List.isEmpty_cons, Bool.not_false, Bool.true_and, Bool.not_eq_true', Bool.not_eq_false] at hcf hlk
              exact ⟨hcf, hlk⟩
          have hvict : AddHalt env rules opts a s ⟨(addForced env rules opts a s).fs, unloadDb (addForced env rules opts a s).disk⟩ := by
            rw [addForced_fs env rules opts a s hw, removeRev_rmOne]
            exact .victims hpc _ (List.prefix_refl _)
          show AddHalt env rules opts a s ⟨(commit env rules opts a (addFiles env rules a) (addSkip env rules a) (addForced env rules opts a s)).1.fs,
            unloadDb (commit env rules opts a (addFiles env rules a) (addSkip env rules a) (addForced env rules opts a s)).1.disk⟩
          have hinst : env.lockInstall = true → PastOld env rules opts a s →
              AddHalt env rules opts a s ⟨(installPhase env opts (addGone env rules opts a s) a (addFiles env rules a) (addKeep env rules opts a) (addSkip env rules a)).1.fs,
                unloadDb (installPhase env opts (addGone env rules opts a s) a (addFiles env rules a) (addKeep env rules opts a) (addSkip env rules a)).1.disk⟩ := by
            intro hl hpo
            have hd : (installPhase env opts (addGone env rules opts a s) a (addFiles env rules a) (addKeep env rules opts a) (addSkip env rules a)).1.disk =
                mset a.name (addRecord env rules opts a s) (addGone env rules opts a s).disk := by
              simp only [installPhase, hl, Bool.not_true, Bool.false_eq_true, if_false, moveMeta, addRefs, addRecord]
              split <;> simp [mget_mset, mset_mset]
            have hf := (installPhase_fs env opts (addGone env rules opts a s) a (addFiles env rules a) (addKeep env rules opts a) (addSkip env rules a)).1
              (by simp [installPhase, hl])
            rw [hd, hf]
            by_cases hr : opts.runPrePost = true
            · rw [if_pos hr]
              exact .inPost hpo hr _ (fun k hk => hk _)
            · rw [if_neg hr]
              refine .newRecord hpo _ ?_
              simp [unload_mset, addRecordSteps]
          unfold commit
          by_cases hu : opts.upgrade = true
          · rw [if_pos hu]
            by_cases hlu : env.lockUpgrade = true
            · cases hg : mget (addForced env rules opts a s).disk a.name with
              | none =>
                have h2 : (upgradePhase env rules (addForced env rules opts a s) a.name (addFiles env rules a)).2.2 = some .cannotRead := by
                  rw [upgradePhase_eq _ _ _ _ _ hlu]
                  simp only [removeRecord, (afterUpgrade_disk env rules _ a.name _).1, hg]
                have h1 : (upgradePhase env rules (addForced env rules opts a s) a.name (addFiles env rules a)).1.fs =
                    (removalOrder (toDelete (addForced env rules opts a s).mem a.name (addKeep env rules opts a))).foldl rmOne (addForced env rules opts a s).fs := by
                  rw [upgradePhase_eq _ _ _ _ _ hlu, removeRecord_fs, (afterUpgrade_disk env rules _ a.name _).2.1, ← removeRev_rmOne]
                  unfold addKeep; rw [if_pos hu]
                have h3 : (upgradePhase env rules (addForced env rules opts a s) a.name (addFiles env rules a)).1.disk = (addForced env rules opts a s).disk := by
                  rw [upgradePhase_eq _ _ _ _ _ hlu]
                  simp only [removeRecord, (afterUpgrade_disk env rules _ a.name _).1, hg]
                generalize upgradePhase env rules (addForced env rules opts a s) a.name (addFiles env rules a) = u at h1 h2 h3
                obtain ⟨st', k, e⟩ := u
                simp only at h1 h2 h3
                subst h2
                simp only [h1, h3]
                exact .oldFiles hpc hu hlu _ (List.prefix_refl _)
              | some i =>
                have h2 : (upgradePhase env rules (addForced env rules opts a s) a.name (addFiles env rules a)).2.2 = none := by
                  rw [upgradePhase_eq _ _ _ _ _ hlu]
                  simp only [removeRecord, (afterUpgrade_disk env rules _ a.name _).1, hg]
                have hkk : (upgradePhase env rules (addForced env rules opts a s) a.name (addFiles env rules a)).2.1 = addKeep env rules opts a := by
                  rw [upgradePhase_eq _ _ _ _ _ hlu]
                  unfold addKeep; rw [if_pos hu]
                have hgo : (upgradePhase env rules (addForced env rules opts a s) a.name (addFiles env rules a)).1 = addGone env rules opts a s := by
                  unfold addGone; rw [if_pos hu]
                by_cases hli : env.lockInstall = true
                · have hpo : PastOld env rules opts a s := ⟨hpc, fun _ => h2, hli⟩
                  have := hinst hli hpo
                  generalize upgradePhase env rules (addForced env rules opts a s) a.name (addFiles env rules a) = u at h2 hkk hgo
                  obtain ⟨st', k, e⟩ := u
                  simp only at h2 hkk hgo
                  subst h2 hkk hgo
                  exact this
                · have hrec : AddHalt env rules opts a s ⟨(addGone env rules opts a s).fs, unloadDb (addGone env rules opts a s).disk⟩ := by
                    have h1 : (addGone env rules opts a s).fs = (addForced env rules opts a s).fs.removeRev
                        (toDelete (addForced env rules opts a s).mem a.name (addKeep env rules opts a)) := by
                      rw [← hgo, upgradePhase_eq _ _ _ _ _ hlu, removeRecord_fs, (afterUpgrade_disk env rules _ a.name _).2.1]
                      unfold addKeep; rw [if_pos hu]
                    have h3 : (addGone env rules opts a s).disk = merase a.name (addForced env rules opts a s).disk := by
                      rw [← hgo, upgradePhase_eq _ _ _ _ _ hlu]
                      simp only [removeRecord, (afterUpgrade_disk env rules _ a.name _).1, hg]
                    rw [h1, h3, unload_merase]
                    exact .oldRecord hpc hu hlu i hg _ (by simp [removeRecordSteps])
                  generalize upgradePhase env rules (addForced env rules opts a s) a.name (addFiles env rules a) = u at h2 hkk hgo
                  obtain ⟨st', k, e⟩ := u
                  simp only at h2 hkk hgo
                  subst h2 hkk hgo
                  simp only [installPhase, hli, Bool.not_false, if_true]
                  exact hrec
            · have hl' : env.lockUpgrade = false := by simpa using hlu
              have h2 : (upgradePhase env rules (addForced env rules opts a s) a.name (addFiles env rules a)).2.2 = some .locked := by
                simp only [upgradePhase, hl', Bool.not_false, if_true]
              have h1 : (upgradePhase env rules (addForced env rules opts a s) a.name (addFiles env rules a)).1.fs = (addForced env rules opts a s).fs ∧
                  (upgradePhase env rules (addForced env rules opts a s) a.name (addFiles env rules a)).1.disk = (addForced env rules opts a s).disk := by
                simp only [upgradePhase, hl', Bool.not_false, if_true]
                split
                · split <;> exact ⟨rfl, rfl⟩
                · exact ⟨rfl, rfl⟩
              generalize upgradePhase env rules (addForced env rules opts a s) a.name (addFiles env rules a) = u at h1 h2
              obtain ⟨st', k, e⟩ := u
              simp only at h1 h2
              subst h2
              simp only [h1.1, h1.2]
              exact hvict
          · rw [if_neg hu]
            have hgo : addGone env rules opts a s = addForced env rules opts a s := by unfold addGone; rw [if_neg hu]
            have hk : addKeep env rules opts a = [] := by unfold addKeep; rw [if_neg hu]
            by_cases hli : env.lockInstall = true
            · have := hinst hli ⟨hpc, fun h => absurd h hu, hli⟩
              rw [hgo, hk] at this
              exact this
            · simp only [installPhase, hli, Bool.not_false, if_true]
              exact hvict

/-! ### What does not hold -/

/-- The database of `pkgadd -u` of `foo` when it has removed the old version and extracted nothing yet. -/
def xHalfDb : Db := [("bar".toList, { md := ["Nbar".toList, "Abaz".toList], files := ["etc/".toList, "etc/bar".toList] })]
/-- Its tree and database directory. -/
def xHalf : RawSys := ⟨xSys.fs, unloadDb xHalfDb⟩

theorem xHalf_halt : AddHalt xEnv xRules xUp xFoo2 xSys xHalf := by
  have hp : PastOld xEnv xRules xUp xFoo2 xSys := by
    refine ⟨⟨⟨by decide, by decide⟩, Or.inl (by decide)⟩, fun _ => by decide, rfl⟩
  have := AddHalt.between hp [] (List.nil_prefix)
  have h1 : (addGone xEnv xRules xUp xFoo2 xSys).fs = xSys.fs := by decide
  have h2 : (addGone xEnv xRules xUp xFoo2 xSys).disk = xHalfDb := by decide
  rw [h2] at this
  show AddHalt xEnv xRules xUp xFoo2 xSys ⟨_, _⟩
  simp only [installArchive, List.foldl_nil, h1] at this
  exact this

/-- An upgrade cannot simply be repeated. Killed after the removal of the old version it leaves a database without the package: the same command is refused, an
installation is refused because of the file the UPGRADE rule protected, and a forced installation overwrites that file. -/
theorem C77_upgrade_again_counterexample :
    ∃ r db, AddHalt xEnv xRules xUp xFoo2 xSys r ∧ loadRaw r.raw = some db ∧
      xSys.fs.get (comps "etc/foo.conf".toList) = some (.file "x".toList 0o600) ∧ Protected xEnv.rx xRules "etc/foo.conf".toList ∧
      (pkgadd xEnv xRules xUp xFoo2 ⟨r.fs, db⟩).2 = some .notInstalled ∧
      (pkgadd xEnv xRules xOpts xFoo2 ⟨r.fs, db⟩).2 = some .conflict ∧
      (pkgadd xEnv xRules { xOpts with force := true } xFoo2 ⟨r.fs, db⟩).2 = none ∧
      (pkgadd xEnv xRules { xOpts with force := true } xFoo2 ⟨r.fs, db⟩).1.fs.get (comps "etc/foo.conf".toList) = some (.file "etc/foo.conf".toList 0o644) := by
  refine ⟨xHalf, xHalfDb, xHalf_halt, by decide, by decide,
    ⟨_, ⟨[], [], rfl, rfl, by decide, by simp⟩, rfl⟩, by decide, by decide, by decide, by decide⟩

/-- And there are moments at which the database cannot be read, so that no command works (C45). -/
theorem C77_unreadable_counterexample : ∃ r, AddHalt xEnv [] xOpts (xArch "new" ["etc/new"]) xSys r ∧ loadRaw r.raw = none := by
  have hp : PastOld xEnv [] xOpts (xArch "new" ["etc/new"]) xSys := by
    refine ⟨⟨⟨by decide, by decide⟩, Or.inl (by decide)⟩, fun h => by simp [xOpts] at h, rfl⟩
  refine ⟨_, .newRecord hp _ (List.mem_cons_of_mem _ (List.mem_cons_self ..)), ?_⟩
  rw [loadRaw_none_iff]
  exact ⟨_, ⟨none, none⟩, mget_some_mem (by rw [mget_mset, if_pos rfl]), rfl⟩

-- the file of the other package, and a place nobody ships, at this moment
example : xHalf.fs.get (comps "etc/bar".toList) = xSys.fs.get (comps "etc/bar".toList) ∧ xHalf.fs.get (comps "etc/other".toList) = xSys.fs.get (comps "etc/other".toList) := by
  have hc : ∀ g, Owns xSys.disk xFoo2.name g → g = "etc/".toList ∨ g = "etc/foo.conf".toList := by
    rintro g ⟨i, hi, hg⟩
    simp only [xSys, List.mem_cons, List.not_mem_nil, or_false] at hi
    rcases hi with hi | hi
    · have h2 : xFoo2.name = "bar".toList := congrArg Prod.fst hi
      exact absurd h2 (by decide)
    · cases hi
      simpa using hg
  have haw : ∀ k ∈ [comps "etc/bar".toList, comps "etc/other".toList], AwayFromRejected k := by
    intro k hk
    refine ⟨?_, ?_⟩ <;> rw [← List.isPrefixOf_iff_prefix] <;> revert k <;> decide
  have hent : ∀ k ∈ [comps "etc/bar".toList, comps "etc/other".toList], ∀ e ∈ xFoo2.entries, ¬ k <+: comps e.path := by
    intro k hk e he
    rw [← List.isPrefixOf_iff_prefix]
    revert e; revert k; decide
  have hl : ∀ e ∈ xFoo2.entries, e.path ∈ xFoo2.mtree ∧ e.path.head? ≠ some '.' := by decide
  constructor
  · refine C77_others xEnv xRules xUp xFoo2 xSys xSys_wf rfl "bar".toList "etc/bar".toList (by decide)
      ⟨_, List.mem_cons_self .., by decide⟩ ?_ (by rw [← endsSlash_iff]; decide) (fun e he h => absurd h (hent _ (by simp) e he)) hl ?_ (haw _ (by simp))
      ⟨fun _ => rfl, fun _ => rfl⟩ xHalf xHalf_halt
    · intro h; rcases hc _ h with h | h <;> exact absurd h (by decide)
    · intro g hg; rcases hc g hg with rfl | rfl <;> decide
  · refine C77_elsewhere xEnv xRules xUp xFoo2 xSys xSys_wf (comps "etc/other".toList) xFoo2_good (fun e he _ _ => hent _ (by simp) e he) hl (haw _ (by simp))
      ⟨fun _ => rfl, fun _ => rfl⟩ (fun _ g hg => ?_) xHalf xHalf_halt
    rcases hc g hg with rfl | rfl <;> decide

-- the hypotheses of C77_rerun hold here
example : ∃ opts', (pkgadd xEnv xRules opts' xFoo2 ⟨xHalf.fs, xHalfDb⟩).2 = none := by
  have hni : ¬ Installed xHalfDb xFoo2.name := by
    rintro ⟨i, h⟩
    have h2 : xFoo2.name ∈ xHalfDb.map (·.1) := List.mem_map_of_mem (f := (·.1)) h
    exact absurd h2 (by decide)
  have hal : ∀ p ∈ xSys.disk, 'A' :: xFoo2.name ∉ p.2.md := by decide
  have := C77_rerun xEnv xEnv xRules xUp xFoo2 xSys xSys_wf xFoo2_good xHalf xHalf_halt xHalfDb (by decide) ⟨by decide, by decide, rfl, by decide⟩ ⟨rfl, rfl, rfl⟩ rfl
    (fun _ => rfl) hal { xOpts with force := true } rfl ⟨fun h => absurd h (by decide), fun h => absurd h hni⟩
  exact ⟨_, this.1⟩

/-! ### pkgrm -/

/-- Whenever pkgrm is killed, every place is as it was except those of the files that only the package lists, and every other package has its record. -/
theorem C77_rm_others (sc : RmScripts) (name : Str) (s : Sys) (hw : WF s.disk) (r : RawSys) (h : RmHalt sc name s r) :
    (∀ k, Leaves (fun fs => (sc.pre fs).1) k → Leaves sc.post k → (∀ f, OnlyOwner s.disk name f → comps f ≠ k) → r.fs.get k = s.fs.get k) ∧
    ∀ n, n ≠ name → mget r.raw n = mget (unloadDb s.disk) n := by
  constructor
  · intro k hpre hpost hk
    have hp : (rmPre sc s).get k = s.fs.get k := hpre s.fs
    have hrm : ∀ l, l <+: removalOrder (toDelete s.disk name []) → (l.foldl rmOne (rmPre sc s)).get k = s.fs.get k := by
      intro l hl
      rw [rmOne_fold, Fs.rmFold_ne, hp]
      intro p hpl
      exact hk p ((mem_toDelete_iff hw).mp (List.mem_reverse.mp (hl.subset hpl)))
    have hall : ((rmPre sc s).removeRev (toDelete s.disk name [])).get k = s.fs.get k := by
      rw [removeRev_rmOne]; exact hrm _ (List.prefix_refl _)
    cases h with
    | start => rfl
    | inPre _ fs _ h => exact h k hpre
    | files _ _ l hl => exact hrm l hl
    | inPost _ _ _ fs h => rw [h k hpost]; exact hall
    | record => show (sc.post _).get k = _; rw [hpost]; exact hall
  · intro n hn
    cases h with
    | start => rfl
    | inPre => rfl
    | files => rfl
    | inPost => rfl
    | record _ _ i _ r hr => exact C45_others_intact _ name _ ⟨[], []⟩ r (Or.inl hr) n hn

/-- `p` cannot be deleted: there is nothing, or a file under the name of a directory, or a directory that is not empty. -/
def Stuck (fs : Fs) (p : Str) : Prop :=
  fs.get (comps p) = none ∨ (∃ c m, fs.get (comps p) = some (.file c m) ∧ endsSlash p = true) ∨
    (∃ m, fs.get (comps p) = some (.dir m) ∧ fs.hasChild (comps p) = true)

theorem stuck_noop {fs : Fs} {p : Str} (h : Stuck fs p) : fs.rmStep p = fs := by
  unfold Fs.rmStep Fs.remove
  rcases h with h | ⟨c, m, h, hs⟩ | ⟨m, h, hc⟩
  · simp [Fs.exist, Fs.lstat, h]
  · simp [Fs.exist, Fs.lstat, h, hs]
  · simp [Fs.exist, Fs.lstat, h, hc]

theorem stuck_after (fs : Fs) (p : Str) : Stuck (fs.rmStep p) p := by
  cases hg : fs.get (comps p) with
  | none => rw [stuck_noop (Or.inl hg)]; exact Or.inl hg
  | some n =>
    cases n with
    | file c m =>
      by_cases hs : endsSlash p = true
      · have : Stuck fs p := Or.inr (Or.inl ⟨c, m, hg, hs⟩)
        rw [stuck_noop this]; exact this
      · exact Or.inl (Fs.rmStep_file fs p c m hg (by simpa using hs))
    | dir m =>
      by_cases hc : fs.hasChild (comps p) = true
      · have : Stuck fs p := Or.inr (Or.inr ⟨m, hg, hc⟩)
        rw [stuck_noop this]; exact this
      · left
        simp [Fs.rmStep, Fs.remove, Fs.exist, Fs.lstat, hg, hc, Fs.get_del]

theorem stuck_step {fs : Fs} {p q : Str} (h : Stuck fs p) (hq : ¬ Inside (comps q) (comps p)) : Stuck (fs.rmStep q) p := by
  have hle := Fs.rmStep_le fs q (comps p)
  rcases hle with hle | hle
  · rcases h with h | ⟨c, m, h, hs⟩ | ⟨m, h, hc⟩
    · exact Or.inl (hle.trans h)
    · exact Or.inr (Or.inl ⟨c, m, hle.trans h, hs⟩)
    · refine Or.inr (Or.inr ⟨m, hle.trans h, ?_⟩)
      obtain ⟨x, hp, hne, hx⟩ := Fs.hasChild_iff.mp hc
      refine Fs.hasChild_iff.mpr ⟨x, hp, hne, ?_⟩
      rw [Fs.rmStep_ne]
      · exact hx
      rintro rfl
      exact hq (inside_iff.mpr ⟨hp, hne⟩)
  · exact Or.inl hle

theorem stuck_fold {p : Str} (l : List Str) (fs : Fs) (h : Stuck fs p) (hq : ∀ q ∈ l, ¬ Inside (comps q) (comps p)) : Stuck (l.foldl Fs.rmStep fs) p := by
  induction l generalizing fs with
  | nil => exact h
  | cons q l ih =>
    simp only [List.foldl_cons]
    exact ih _ (stuck_step h (hq q (by simp))) (fun q' h' => hq q' (by simp [h']))

theorem stuck_noops (l : List Str) (fs : Fs) (h : ∀ p ∈ l, Stuck fs p) : l.foldl Fs.rmStep fs = fs := by
  induction l with
  | nil => rfl
  | cons q l ih =>
    simp only [List.foldl_cons]
    rw [stuck_noop (h q (by simp))]
    exact ih (fun p hp => h p (by simp [hp]))

/-- Starting again after the first names of the list gives the same tree as going on, when nothing comes after the directory it is in. -/
theorem rm_resume (l l' : List Str) (fs : Fs) (h : ∀ l1 p l2, l = l1 ++ p :: l2 → ∀ q ∈ l2, ¬ Inside (comps q) (comps p)) :
    (l ++ l').foldl rmOne (l.foldl rmOne fs) = (l ++ l').foldl rmOne fs := by
  rw [rmOne_fold, rmOne_fold, rmOne_fold, List.foldl_append, List.foldl_append, stuck_noops l]
  intro p hp
  obtain ⟨l1, l2, hl⟩ := List.append_of_mem hp
  rw [hl, List.foldl_append, List.foldl_cons]
  exact stuck_fold l2 _ (stuck_after _ p) (h l1 p l2 hl)

/-- Recovery: whenever pkgrm (of an installed package without scripts, whose names are spelled plainly) was killed and the database can be read, either it had
finished or running it again gives the state in which the first run would have ended. -/
theorem C77_rm_rerun (sc : RmScripts) (hsc : (∀ t, sc.pre t = (t, true)) ∧ ∀ t, sc.post t = t) (name : Str) (s : Sys) (hw : WF s.disk) (hinst : Installed s.disk name)
    (hplain : ∀ f, Owns s.disk name f → PlainName f) (r : RawSys) (h : RmHalt sc name s r) (db : Db) (hdb : loadRaw r.raw = some db) :
    (pkgrm false sc name s).2 = none ∧
    ((⟨r.fs, db⟩ : Sys) = (pkgrm false sc name s).1 ∨ pkgrm false sc name ⟨r.fs, db⟩ = pkgrm false sc name s) := by
  have hrun : ∀ (fs : Fs) (D : Db), Installed D name →
      pkgrm false sc name ⟨fs, D⟩ = (⟨fs.removeRev (toDelete D name []), merase name D⟩, none) := by
    intro fs D hi
    have hn : (load ⟨fs, D⟩ false).nameExists name = true := (nameExists_load _ _ _).mpr (Or.inl (keys_iff_installed.mpr hi))
    obtain ⟨i, hi⟩ := Option.isSome_iff_exists.mp (mget_isSome_installed.mpr hi)
    simp only [pkgrm, runRm, Bool.false_eq_true, if_false, hn, Bool.not_true, hsc.1, hsc.2, removeRecord, removeFiles]
    show ((match mget D name with | none => _ | some _ => _ : St × Option Err).1.sys, (match mget D name with | none => _ | some _ => _ : St × Option Err).2) = _
    rw [hi]
    rfl
  obtain ⟨i, hi⟩ := Option.isSome_iff_exists.mp (mget_isSome_installed.mpr hinst)
  rw [show pkgrm false sc name s = _ from hrun s.fs s.disk hinst]
  refine ⟨rfl, ?_⟩
  have hpre : rmPre sc s = s.fs := by unfold rmPre; rw [hsc.1]
  have hres : ∀ l, l <+: removalOrder (toDelete s.disk name []) →
      (l.foldl rmOne s.fs).removeRev (toDelete s.disk name []) = s.fs.removeRev (toDelete s.disk name []) := by
    rintro l ⟨l', hl'⟩
    rw [removeRev_rmOne, removeRev_rmOne, ← hl']
    apply rm_resume
    intro l1 p l2 hl q hq hin
    have hs := sorted_toDelete (keep := []) (name := name) hw
    have hord : (removalOrder (toDelete s.disk name [])).Pairwise (fun x y => y < x) := by
      unfold removalOrder; rw [List.pairwise_reverse]; exact hs
    rw [← hl', hl, List.append_assoc, List.pairwise_append, List.cons_append, List.pairwise_cons] at hord
    have hlt := hord.2.1.1 q (by simp [hq])
    have hmem : ∀ x ∈ l, PlainName x := by
      intro x hx
      have : x ∈ removalOrder (toDelete s.disk name []) := by rw [← hl']; simp [hx]
      exact hplain x ((mem_toDelete_iff hw).mp (List.mem_reverse.mp this)).1
    have hlt' := plain_lt (hmem p (by rw [hl]; simp)) (hmem q (by rw [hl]; simp [hq])) hin
    exact str_lt_irrefl _ (str_lt_trans hlt hlt')
  cases h with
  | start =>
    rw [C45_readable] at hdb; cases hdb
    right; exact hrun _ _ hinst
  | inPre hs => exact absurd hsc.1 hs
  | inPost hs => exact absurd hsc.2 hs
  | files _ _ l hl =>
    rw [C45_readable] at hdb; cases hdb
    right
    rw [hrun _ _ hinst, hpre, hres l hl]
  | record _ _ j hj r hr =>
    rw [hi] at hj; cases hj
    have hfull : ∀ D, toDelete D name [] = toDelete s.disk name [] →
        (sc.post ((rmPre sc s).removeRev (toDelete s.disk name []))).removeRev (toDelete D name []) = s.fs.removeRev (toDelete s.disk name []) := by
      intro D hD
      rw [hsc.2, hpre, hD]
      conv_lhs => rw [removeRev_rmOne s.fs]
      exact hres _ (List.prefix_refl _)
    simp only [removeRecordSteps, List.mem_cons, List.not_mem_nil, or_false] at hr
    rcases hr with hr | hr | hr | hr <;> rw [hr] at hdb
    · rw [C45_readable] at hdb; cases hdb
      right
      rw [hrun _ _ hinst, hfull _ rfl]
    · rw [loadRaw_mset] at hdb; cases hdb
      right
      have hi' : Installed (mset name ({ md := [], files := i.files } : Info) s.disk) name := mget_isSome_installed.mp (by simp [mget_mset])
      have hme : merase name (mset name ({ md := [], files := i.files } : Info) s.disk) = merase name s.disk := by
        unfold merase
        clear * -
        generalize ({ md := [], files := i.files } : Info) = j
        induction s.disk with
        | nil => simp [mset]
        | cons p D ih =>
          obtain ⟨k, v⟩ := p
          simp only [mset]
          split
          · simp
          · split
            · rename_i h; simp [h]
            · simp only [List.filter_cons, ih]
      have hde : toDelete (mset name ({ md := [], files := i.files } : Info) s.disk) name [] = toDelete s.disk name [] := by
        unfold toDelete
        rw [hme, mget_mset, if_pos rfl, hi]
      rw [show (none : Option (List Str)).getD [] = [] from rfl, hrun _ _ hi', hfull _ hde, hme]
    · exfalso
      rw [(loadRaw_none_iff _).mpr ⟨name, ⟨none, none⟩, mget_some_mem (by simp [mget_mset]), rfl⟩] at hdb
      cases hdb
    · rw [← unload_merase, C45_readable] at hdb; cases hdb
      left
      show (⟨_, _⟩ : Sys) = ⟨_, _⟩
      rw [hsc.2, hpre]

-- killed between the two deletions
example : RmHalt noScripts "p".toList ySys ⟨["d/own/x".toList].foldl rmOne ySys.fs, unloadDb ySys.disk⟩ :=
  .files (by decide) rfl ["d/own/x".toList] (by rw [← List.isPrefixOf_iff_prefix]; decide)

example : (∀ t, noScripts.pre t = (t, true)) ∧ ∀ t, noScripts.post t = t := ⟨fun _ => rfl, fun _ => rfl⟩

/-! ### Refused locks (C14) -/

/-- pkgrm that does not get the lock does nothing. -/
theorem C14_rm_locked (sc : RmScripts) (name : Str) (s : Sys) : pkgrm true sc name s = (s, some .locked) := rfl

/-- pkgadd that does not get one of the locks it asks for does not succeed. -/
theorem C14_add_locked (env : Env) (rules : List Rule) (opts : Opts) (a : Archive) (s : Sys) (hw : WF s.disk)
    (hok : (pkgadd env rules opts a s).2 = none) :
    env.lockInstall = true ∧ (opts.upgrade = true → env.lockUpgrade = true) ∧
    ((∃ f, Ships env.rx rules a f ∧ InTheWay s.disk (if opts.runPrePost then (a.pre s.fs).1 else s.fs) a.name f) → env.lockForce = true) := by
  have hfs : (if opts.runPrePost then (a.pre s.fs).1 else s.fs) = fsPre opts a s := by
    unfold fsPre preRun; split <;> rfl
  rw [hfs]
  simp only [pkgadd, runAdd_eq] at hok
  cases hp : precheck opts a (load s opts.asDep) with
  | some e => rw [hp] at hok; simp at hok
  | none =>
    rw [hp] at hok
    simp only at hok
    split at hok
    · simp at hok
    · split at hok
      · simp at hok
      · split at hok
        · simp at hok
        · rename_i h3
          have hc : (commit env rules opts a (shipped env rules a) (applyInstallRules env.rx a.files rules).2 (stForce env rules opts a s)).2 = none := hok
          have hin : ∀ (st : St) (files keep non : List Str), (installPhase env opts st a files keep non).2 = none → env.lockInstall = true := by
            intro st files keep non h
            rw [← Bool.not_eq_false]
            intro hl
            simp [installPhase, hl] at h
          have h12 : env.lockInstall = true ∧ (opts.upgrade = true → env.lockUpgrade = true) := by
            unfold commit at hc
            by_cases hu : opts.upgrade = true
            · rw [if_pos hu] at hc
              cases hl : env.lockUpgrade with
              | false =>
                exfalso
                have h2 : (upgradePhase env rules (stForce env rules opts a s) a.name (shipped env rules a)).2.2 = some .locked := by
                  simp only [upgradePhase, hl, Bool.not_false, if_true]
                generalize upgradePhase env rules (stForce env rules opts a s) a.name (shipped env rules a) = u at h2 hc
                obtain ⟨st', k, e⟩ := u
                simp only at h2
                subst h2
                simp at hc
              | true =>
                refine ⟨?_, fun _ => rfl⟩
                generalize upgradePhase env rules (stForce env rules opts a s) a.name (shipped env rules a) = u at hc
                obtain ⟨st', k, e⟩ := u
                cases e with
                | some e => simp at hc
                | none => exact hin _ _ _ _ hc
            · rw [if_neg hu] at hc
              exact ⟨hin _ _ _ _ hc, fun h => absurd h hu⟩
          refine ⟨h12.1, h12.2, ?_⟩
          rintro ⟨f, hf, hway⟩
          have hm : f ∈ conflicts (stPre opts a s) a.name (shipped env rules a) :=
            (mem_conflicts_spec (st := stPre opts a s) hw).mpr ⟨mem_shipped.mpr hf, hway⟩
          cases hcf : conflicts (stPre opts a s) a.name (shipped env rules a) with
          | nil => rw [hcf] at hm; simp at hm
          | cons x l =>
            rw [hcf] at h3
            simpa using h3

example : (pkgadd { xEnv with lockInstall := false } [] xOpts (xArch "new" ["etc/new"]) xSys).2 = some .locked := by decide

end Cards.Props
