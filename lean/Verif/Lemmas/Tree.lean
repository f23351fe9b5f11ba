import Verif.Lemmas.Hist
import Verif.Lemmas.Names
namespace Cards
open Spec

/-! ### The file tree through pkgadd -/

/-- The conflict set of a pkgadd run. -/
def conf (env : Env) (rules : List Rule) (opts : Opts) (a : Archive) (s : Sys) : List Str :=
  conflicts (stPre opts a s) a.name (shipped env rules a)

/-- The process state after the forced removal of conflicting files. -/
def stForce (env : Env) (rules : List Rule) (opts : Opts) (a : Archive) (s : Sys) : St :=
  forcePhase env rules opts (stPre opts a s) (conf env rules opts a s)

/-- The tree after the removal of the old version. -/
def fsOld (env : Env) (rules : List Rule) (opts : Opts) (a : Archive) (s : Sys) : Fs :=
  if opts.upgrade then
    (stForce env rules opts a s).fs.removeRev
      (toDelete (stForce env rules opts a s).mem a.name (keepFileList env.rx (shipped env rules a) rules))
  else (stForce env rules opts a s).fs

/-- The keep list of the extraction loop. -/
def keepOf (env : Env) (rules : List Rule) (opts : Opts) (a : Archive) : List Str :=
  if opts.upgrade then keepFileList env.rx (shipped env rules a) rules else []

/-- The tree after extraction. -/
def fsNew (env : Env) (rules : List Rule) (opts : Opts) (a : Archive) (s : Sys) : Fs :=
  installArchive env (keepOf env rules opts a) (applyInstallRules env.rx a.files rules).2 (fsOld env rules opts a s) a.entries

/-- The tree after the post-install script. -/
def fsEnd (env : Env) (rules : List Rule) (opts : Opts) (a : Archive) (s : Sys) : Fs :=
  if opts.runPrePost then a.post (fsNew env rules opts a s) else fsNew env rules opts a s

theorem installPhase_fs (env : Env) (opts : Opts) (st : St) (a : Archive) (files keep nonInst : List Str) :
    ((installPhase env opts st a files keep nonInst).2 = none →
      (installPhase env opts st a files keep nonInst).1.fs =
        (if opts.runPrePost then a.post (installArchive env keep nonInst st.fs a.entries)
          else installArchive env keep nonInst st.fs a.entries)) ∧
    ((installPhase env opts st a files keep nonInst).2 ≠ none →
      (installPhase env opts st a files keep nonInst).1.fs = st.fs) := by
  unfold installPhase
  split
  · simp
  · simp only [not_true_eq_false, false_implies, and_true, forall_const, ne_eq]
    split <;> simp [addRefs, moveMeta]

theorem removeRecord_fs (st : St) (name : Str) : (removeRecord st name).1.fs = st.fs := by
  simp only [removeRecord]; split <;> rfl

theorem pkgadd_fs (env : Env) (rules : List Rule) (opts : Opts) (a : Archive) (s : Sys) :
    let r := pkgadd env rules opts a s
    (r.2 = none → r.1.fs = fsEnd env rules opts a s) ∧
    (r.1.fs = s.fs ∨ r.1.fs = fsPre opts a s ∨ r.1.fs = (stForce env rules opts a s).fs ∨
      r.1.fs = fsOld env rules opts a s ∨ r.1.fs = fsEnd env rules opts a s) := by
  simp only [pkgadd, runAdd_eq]
  cases hp : precheck opts a (load s opts.asDep) with
  | some e => simp [St.sys, load]
  | none =>
    simp only
    split
    · simp [St.sys, stPre]
    · split
      · simp [St.sys, stPre]
      · split
        · simp [St.sys, stPre]
        · show ((commit env rules opts a _ _ (stForce env rules opts a s)).2 = none → _) ∧ _
          simp only [St.sys]
          show (_ → (commit env rules opts a _ _ (stForce env rules opts a s)).1.fs = _) ∧
            ((commit env rules opts a _ _ (stForce env rules opts a s)).1.fs = _ ∨
             (commit env rules opts a _ _ (stForce env rules opts a s)).1.fs = _ ∨
             (commit env rules opts a _ _ (stForce env rules opts a s)).1.fs = _ ∨
             (commit env rules opts a _ _ (stForce env rules opts a s)).1.fs = _ ∨
             (commit env rules opts a _ _ (stForce env rules opts a s)).1.fs = _)
          generalize hst : stForce env rules opts a s = st
          unfold fsEnd fsNew fsOld keepOf commit
          rw [hst]
          by_cases hu : opts.upgrade = true
          · simp only [hu, if_true]
            by_cases hl : env.lockUpgrade = true
            · rw [upgradePhase_eq _ _ _ _ _ hl]
              have hfs : (removeRecord (afterUpgrade env rules st a.name (shipped env rules a)) a.name).1.fs =
                  st.fs.removeRev (toDelete st.mem a.name (keepFileList env.rx (shipped env rules a) rules)) := by
                rw [removeRecord_fs, (afterUpgrade_disk env rules st a.name _).2.1]
              generalize hrr : removeRecord (afterUpgrade env rules st a.name (shipped env rules a)) a.name = rr at *
              obtain ⟨st', e⟩ := rr
              cases e with
              | some e => simp only at hfs; simp [hfs]
              | none =>
                simp only at hfs
                have := installPhase_fs env opts st' a (shipped env rules a)
                  (keepFileList env.rx (shipped env rules a) rules) (applyInstallRules env.rx a.files rules).2
                rw [hfs] at this
                simp only
                by_cases he : (installPhase env opts st' a (shipped env rules a)
                  (keepFileList env.rx (shipped env rules a) rules) (applyInstallRules env.rx a.files rules).2).2 = none
                · exact ⟨this.1, Or.inr (Or.inr (Or.inr (Or.inr (this.1 he))))⟩
                · exact ⟨this.1, Or.inr (Or.inr (Or.inr (Or.inl (this.2 he))))⟩
            · have hl' : env.lockUpgrade = false := by simpa using hl
              have h2 : (upgradePhase env rules st a.name (shipped env rules a)).2.2 = some .locked := by
                simp only [upgradePhase, hl', Bool.not_false, if_true]
              have h1 : (upgradePhase env rules st a.name (shipped env rules a)).1.fs = st.fs := by
                simp only [upgradePhase, hl', Bool.not_false, if_true]
                split
                · split <;> rfl
                · rfl
              generalize upgradePhase env rules st a.name (shipped env rules a) = u at *
              obtain ⟨st', k, e⟩ := u
              simp only at h1 h2
              subst h2
              simp [h1]
          · have hu' : opts.upgrade = false := by simpa using hu
            simp only [hu', Bool.false_eq_true, if_false]
            have := installPhase_fs env opts st a (shipped env rules a) [] (applyInstallRules env.rx a.files rules).2
            by_cases he : (installPhase env opts st a (shipped env rules a) []
              (applyInstallRules env.rx a.files rules).2).2 = none
            · exact ⟨this.1, Or.inr (Or.inr (Or.inr (Or.inr (this.1 he))))⟩
            · exact ⟨this.1, Or.inr (Or.inr (Or.inl (this.2 he)))⟩

theorem stForce_fs (env : Env) (rules : List Rule) (opts : Opts) (a : Archive) (s : Sys) (hw : WF s.disk) :
    ∃ del, (stForce env rules opts a s).fs = (fsPre opts a s).removeRev del ∧
      ∀ f ∈ del, f ∈ conf env rules opts a s ∧ (opts.upgrade = true → ¬ Protected env.rx rules f) := by
  unfold stForce forcePhase
  split
  · exact ⟨[], rfl, by simp⟩
  · refine ⟨_, (removeRefsOfFiles_spec (stPre opts a s) _ _ hw (fun _ => rfl)).2.2.1, ?_⟩
    intro f hf
    obtain ⟨h1, h2⟩ := mem_seraseAll.mp hf
    refine ⟨h1, ?_⟩
    intro hu hp
    apply h2
    rw [if_pos hu]
    exact mem_keepFileList.mpr ⟨h1, hp⟩

theorem mem_toDelete_force {env : Env} {rules : List Rule} {opts : Opts} {a : Archive} {s : Sys} (hw : WF s.disk)
    {keep : List Str} {f : Str} (h : f ∈ toDelete (stForce env rules opts a s).mem a.name keep) :
    Owns s.disk a.name f ∧ f ∉ keep := by
  obtain ⟨⟨i, hi, hf⟩, hk, _⟩ := mem_toDelete.mp h
  have hm := (forcePhase_disk env rules opts (stPre opts a s) (conf env rules opts a s) hw hw (fun _ => rfl)).2.2.2.1 a.name
  rw [show mget (stForce env rules opts a s).mem a.name = _ from hm] at hi
  obtain ⟨j, hj, rfl⟩ := Option.map_eq_some_iff.mp hi
  exact ⟨(owns_iff_mget hw).mpr ⟨j, hj, (mem_seraseAll.mp hf).1⟩, hk⟩

/-! ### The extraction loop -/

theorem prefix_incomparable {k r x : List Str} (h1 : ¬ r <+: k) (h2 : ¬ k <+: r) : ¬ k <+: r ++ x := by
  intro h
  rcases List.prefix_or_prefix_of_prefix h (List.prefix_append r x) with h | h
  · exact h2 h
  · exact h1 h

/-- One extraction does not touch `k` unless the entry lies at or below `k` and is really extracted there. -/
theorem installEntry_ne (env : Env) (keep nonInst : List Str) (fs : Fs) (e : Entry) (k : List Str)
    (hr1 : ¬ rejectedDir <+: k) (hr2 : ¬ k <+: rejectedDir)
    (h : e.path ∉ nonInst → k <+: comps e.path → e.path ∈ keep ∧ fs.exist e.path = true) :
    (installEntry env keep nonInst fs e).get k = fs.get k := by
  have hk : k ≠ [] := by rintro rfl; exact hr2 (List.nil_prefix)
  unfold installEntry
  split
  · rfl
  · rename_i hn
    split
    · rename_i hex
      have hne : k ≠ rejectedDir ++ comps e.path := by
        rintro rfl; exact hr1 (List.prefix_append _ _)
      have hnp : k ∉ parents (rejectedDir ++ comps e.path) := by
        rw [mem_parents]; rintro ⟨_, h, _⟩; exact prefix_incomparable hr1 hr2 h
      simp only []
      split
      · rfl
      · split
        · rfl
        · rename_i fs1 hfs1
          split
          · rw [Fs.removeUp_ne _ _ _ _ hr1, Fs.extract_ne hfs1 hne hnp]
          · rw [Fs.extract_ne hfs1 hne hnp]
    · rename_i hex
      have hnp : ¬ k <+: comps e.path := by
        intro hp
        obtain ⟨h1, h2⟩ := h (by simpa using hn) hp
        apply hex; simp [h1, h2]
      split
      · rfl
      · split
        · rfl
        · rename_i fs1 hfs1
          rw [Fs.extract_ne hfs1 (by rintro rfl; exact hnp (List.prefix_refl _))
            (by rw [mem_parents]; rintro ⟨_, h, _⟩; exact hnp h)]

/-- The extraction loop keeps a regular file at `k` whose only entry is kept. -/
theorem installArchive_keeps (env : Env) (keep nonInst : List Str) (entries : List Entry) (fs : Fs) (f : Str) (c : Str) (m : Nat)
    (hr1 : ¬ rejectedDir <+: comps f) (hr2 : ¬ comps f <+: rejectedDir)
    (hf : fs.get (comps f) = some (.file c m)) (hsl : endsSlash f = false) (hkeep : f ∈ keep)
    (h : ∀ e ∈ entries, e.path ∉ nonInst → comps f <+: comps e.path → e.path = f) :
    (installArchive env keep nonInst fs entries).get (comps f) = some (.file c m) := by
  unfold installArchive
  induction entries generalizing fs with
  | nil => exact hf
  | cons e es ih =>
    simp only [List.foldl_cons]
    apply ih _ _ (fun e' he' => h e' (by simp [he']))
    rw [installEntry_ne env keep nonInst fs e _ hr1 hr2, hf]
    intro hn hp
    have := h e (by simp) hn hp
    rw [this]
    exact ⟨hkeep, by simp [Fs.exist, Fs.lstat, hf, hsl]⟩

/-- The extraction loop does not touch `k` when no extracted entry lies at or below it. -/
theorem installArchive_ne (env : Env) (keep nonInst : List Str) (entries : List Entry) (fs : Fs) (k : List Str)
    (hr1 : ¬ rejectedDir <+: k) (hr2 : ¬ k <+: rejectedDir)
    (h : ∀ e ∈ entries, e.path ∉ nonInst → ¬ k <+: comps e.path) :
    (installArchive env keep nonInst fs entries).get k = fs.get k := by
  unfold installArchive
  induction entries generalizing fs with
  | nil => rfl
  | cons e es ih =>
    simp only [List.foldl_cons]
    rw [ih _ (fun e' he' => h e' (by simp [he']))]
    apply installEntry_ne env keep nonInst fs e _ hr1 hr2
    intro hn hp
    exact absurd hp (h e (by simp) hn)

/-! ### Presence after extraction -/

theorem Fs.removeUp_notInside (fs : Fs) (base rest x : List Str) (h : ¬ Inside x base) :
    (fs.removeUp base rest).get x = fs.get x := by
  induction rest generalizing fs with
  | nil => rfl
  | cons c rest ih =>
    have hne : base ++ (c :: rest).reverse ≠ x := by
      rintro rfl; apply h
      rw [inside_iff]; refine ⟨List.prefix_append _ _, ?_⟩
      intro e; have := congrArg List.length e; simp at this
    simp only [Fs.removeUp]
    split
    · rfl
    · rw [ih, Fs.get_del]; simp only [hne, if_false]
    · split
      · rfl
      · rw [ih, Fs.get_del]; simp only [hne, if_false]

theorem Fs.mkParents_dir {fs : Fs} {k x : List Str} {m : Nat} (h : fs.get x = some (.dir m)) :
    (fs.mkParents k).get x = some (.dir m) := by
  unfold Fs.mkParents
  generalize parents k = ds
  induction ds generalizing fs with
  | nil => exact h
  | cons d ds ih =>
    simp only [List.foldl_cons]
    apply ih
    split
    · exact h
    · rename_i hnd
      rw [Fs.get_set]
      by_cases he : d = x
      · subst he; exact absurd h (hnd m)
      · simp [he, h]

/-- A directory outside the rejected tree stays a directory while entries with other paths are extracted. -/
theorem installEntry_dir (env : Env) (keep nonInst : List Str) (fs : Fs) (e : Entry) (k : List Str) (m : Nat)
    (hr : ¬ Inside k rejectedDir) (hk : comps e.path ≠ k) (hkn : k ≠ rejectedDir ++ comps e.path)
    (hd : fs.get k = some (.dir m)) : (installEntry env keep nonInst fs e).get k = some (.dir m) := by
  have hx : ∀ {fs1 : Fs} {x : List Str} {n : Node}, x ≠ k → fs.extract x n = some fs1 → fs1.get k = some (.dir m) := by
    intro fs1 x n hne h
    rw [Fs.extract_eq h, Fs.get_set]; simp [hne, Fs.mkParents_dir hd]
  unfold installEntry
  split
  · exact hd
  · split
    · simp only []
      split
      · exact hd
      · split
        · exact hd
        · rename_i fs1 hfs1
          have := hx (Ne.symm hkn) hfs1
          split
          · rw [Fs.removeUp_notInside _ _ _ _ hr]; exact this
          · exact this
    · split
      · exact hd
      · split
        · exact hd
        · rename_i fs1 hfs1
          exact hx hk hfs1

theorem installArchive_dir (env : Env) (keep nonInst : List Str) (entries : List Entry) (fs : Fs) (k : List Str) (m : Nat)
    (hr : ¬ Inside k rejectedDir) (hk : ∀ e ∈ entries, comps e.path ≠ k ∧ comps e.path ≠ [])
    (hd : fs.get k = some (.dir m)) : (installArchive env keep nonInst fs entries).get k = some (.dir m) := by
  unfold installArchive
  induction entries generalizing fs with
  | nil => exact hd
  | cons e es ih =>
    simp only [List.foldl_cons]
    apply ih _ (fun e' he' => hk e' (by simp [he']))
    apply installEntry_dir env keep nonInst fs e k m hr (hk e (by simp)).1 _ hd
    rintro rfl
    apply hr
    have := (hk e (by simp)).2
    rw [inside_iff]; refine ⟨List.prefix_append _ _, ?_⟩
    intro h; have := congrArg List.length h
    simp at this
    contradiction

end Cards
