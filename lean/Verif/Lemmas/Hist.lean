import Verif.Lemmas.Disk
namespace Cards
open Spec

theorem keys_iff_installed {db : Db} {n : Str} : n ∈ keys db ↔ Installed db n := by
  simp [keys, Installed]

theorem mget_isSome_installed {db : Db} {n : Str} : (mget db n).isSome ↔ Installed db n := by
  rw [mget_isSome_iff, keys_iff_installed]

theorem pkgrm_disk (locked : Bool) (sc : RmScripts) (name : Str) (s : Sys) (hw : WF s.disk) :
    let r := pkgrm locked sc name s
    WF r.1.disk ∧
    (∀ n, n ≠ name → mget r.1.disk n = mget s.disk n) ∧
    (r.2 = none → mget r.1.disk name = none) ∧
    (r.2 ≠ none → r.1.disk = s.disk) := by
  simp only [pkgrm, runRm]
  split
  · simp [load, St.sys, hw]
  · split
    · simp [load, St.sys, hw]
    · split
      · simp [load, St.sys, hw]
      · have h := removeRecord_disk { removeFiles { load s false with fs := (sc.pre (load s false).fs).1 } name [] with
            fs := sc.post (removeFiles { load s false with fs := (sc.pre (load s false).fs).1 } name []).fs } name hw
        obtain ⟨h1, _, _, h4, h5, h6⟩ := h
        exact ⟨h1, h4, h5, fun he => (h6 he).1⟩

theorem precheck_some_of_installed {opts : Opts} {a : Archive} {st : St} (h : st.nameExists a.name = true)
    (hu : opts.upgrade = false) : ∃ e, precheck opts a st = some e := by
  unfold precheck
  split
  · exact ⟨_, rfl⟩
  · split
    · exact ⟨_, rfl⟩
    · split
      · exact ⟨_, rfl⟩
      · rw [if_pos (by simp [h, hu])]; exact ⟨_, rfl⟩

theorem precheck_some_of_missing {opts : Opts} {a : Archive} {st : St} (h : st.nameExists a.name = false)
    (hu : opts.upgrade = true) : ∃ e, precheck opts a st = some e := by
  unfold precheck
  split
  · exact ⟨_, rfl⟩
  · split
    · exact ⟨_, rfl⟩
    · split
      · exact ⟨_, rfl⟩
      · rw [if_neg (by simp [h]), if_pos (by simp [h, hu])]; exact ⟨_, rfl⟩

theorem pkgadd_of_precheck {env : Env} {rules : List Rule} {opts : Opts} {a : Archive} {s : Sys} {e : Err}
    (h : precheck opts a (load s opts.asDep) = some e) : pkgadd env rules opts a s = (s, some e) := by
  unfold pkgadd
  rw [runAdd_eq, h]; rfl

theorem installPhase_err (env : Env) (opts : Opts) (st : St) (a : Archive) (files keep nonInst : List Str) :
    (installPhase env opts st a files keep nonInst).2 = none ∨
    (installPhase env opts st a files keep nonInst).2 = some .locked := by
  unfold installPhase; split <;> simp

theorem upgradePhase_err (env : Env) (rules : List Rule) (st : St) (name : Str) (files : List Str) :
    (upgradePhase env rules st name files).2.2 = none ∨
    (upgradePhase env rules st name files).2.2 = some .locked ∨
    (upgradePhase env rules st name files).2.2 = some .cannotRead := by
  by_cases hl : env.lockUpgrade = true
  · rw [upgradePhase_eq _ _ _ _ _ hl]
    simp only [removeRecord]
    split <;> simp
  · have hl' : env.lockUpgrade = false := by simpa using hl
    simp only [upgradePhase, hl', Bool.not_false, if_true, true_or, or_true]

theorem commit_err (env : Env) (rules : List Rule) (opts : Opts) (a : Archive) (files nonInst : List Str) (st : St) :
    (commit env rules opts a files nonInst st).2 = none ∨
    (commit env rules opts a files nonInst st).2 = some .locked ∨
    (commit env rules opts a files nonInst st).2 = some .cannotRead := by
  unfold commit
  split
  · have h := upgradePhase_err env rules st a.name files
    split
    · rename_i heq
      rw [heq] at h
      simpa using h
    · rcases installPhase_err env opts ‹St› a files ‹List Str› nonInst with h | h
      · exact Or.inl h
      · exact Or.inr (Or.inl h)
  · rcases installPhase_err env opts st a files [] nonInst with h | h
    · exact Or.inl h
    · exact Or.inr (Or.inl h)

theorem wf_exec (c : Cmd) (s : Sys) (hw : WF s.disk) : WF (c.exec s).1.disk := by
  cases c with
  | add env rules opts a => exact (pkgadd_disk env rules opts a s hw).1
  | rm locked sc name => exact (pkgrm_disk locked sc name s hw).1

theorem uniqueOwner_of_subset {db db' : Db} (hw : WF db) (hw' : WF db')
    (h : ∀ n i', mget db' n = some i' → ∃ i, mget db n = some i ∧ ∀ f ∈ i'.files, f ∈ i.files)
    (hu : UniqueOwner db) : UniqueOwner db' := by
  intro n n' f h1 h2 hf
  rw [owns_iff_mget hw'] at h1 h2
  obtain ⟨i1, e1, m1⟩ := h1
  obtain ⟨i2, e2, m2⟩ := h2
  obtain ⟨j1, g1, k1⟩ := h n i1 e1
  obtain ⟨j2, g2, k2⟩ := h n' i2 e2
  exact hu n n' f ((owns_iff_mget hw).mpr ⟨j1, g1, k1 f m1⟩) ((owns_iff_mget hw).mpr ⟨j2, g2, k2 f m2⟩) hf

theorem unique_exec (c : Cmd) (s : Sys) (hw : WF s.disk) (hu : UniqueOwner s.disk) :
    UniqueOwner (c.exec s).1.disk := by
  cases c with
  | rm locked sc name =>
    obtain ⟨h1, h2, h3, h4⟩ := pkgrm_disk locked sc name s hw
    apply uniqueOwner_of_subset hw h1 _ hu
    intro n i' hi
    by_cases hn : n = name
    · subst hn
      cases he : (pkgrm locked sc n s).2 with
      | none => rw [h3 he] at hi; simp at hi
      | some e => rw [h4 (by simp [he])] at hi; exact ⟨i', hi, fun f hf => hf⟩
    · rw [h2 n hn] at hi; exact ⟨i', hi, fun f hf => hf⟩
  | add env rules opts a =>
    obtain ⟨h1, h2, h3⟩ := pkgadd_disk env rules opts a s hw
    cases he : (pkgadd env rules opts a s).2 with
    | some e =>
      apply uniqueOwner_of_subset hw h1 _ hu
      intro n i' hi
      rcases h3 (by simp [he]) n with h | h | ⟨_, h⟩
      · rw [h] at hi; exact ⟨i', hi, fun f hf => hf⟩
      · rw [h] at hi
        obtain ⟨i, g, rfl⟩ := Option.map_eq_some_iff.mp hi
        exact ⟨i, g, fun f hf => (mem_seraseAll.mp hf).1⟩
      · rw [h] at hi; simp at hi
    | none =>
      obtain ⟨_, g2, dep, g3, _⟩ := h2 he
      have key : ∀ n f i', n ≠ a.name → f ∈ shipped env rules a → ¬ IsDirName f →
          mget (pkgadd env rules opts a s).1.disk n = some i' → f ∉ i'.files := by
        intro n f i' hn hf hd hi hm
        rw [g2 n hn] at hi
        obtain ⟨i, hi', rfl⟩ := Option.map_eq_some_iff.mp hi
        obtain ⟨hm1, hm2⟩ := mem_seraseAll.mp hm
        apply hm2
        rw [mem_conflicts_spec (st := stPre opts a s) hw]
        refine ⟨hf, hd, Or.inl ⟨n, hn, (owns_iff_mget hw).mpr ⟨i, hi', hm1⟩⟩, ?_⟩
        intro ho
        exact hn (hu n a.name f ((owns_iff_mget hw).mpr ⟨i, hi', hm1⟩) ho hd)
      show UniqueOwner (pkgadd env rules opts a s).1.disk
      intro n n' f o1 o2 hf
      rw [owns_iff_mget h1] at o1 o2
      obtain ⟨i1, e1, m1⟩ := o1
      obtain ⟨i2, e2, m2⟩ := o2
      by_cases hn : n = a.name <;> by_cases hn' : n' = a.name
      · rw [hn, hn']
      · subst hn
        replace e1 : some _ = some i1 := g3.symm.trans e1
        simp only [Option.some.injEq] at e1
        subst e1
        exact absurd m2 (key n' f i2 hn' m1 hf e2)
      · subst hn'
        replace e2 : some _ = some i2 := g3.symm.trans e2
        simp only [Option.some.injEq] at e2
        subst e2
        exact absurd m1 (key n f i1 hn m2 hf e1)
      · replace e1 := (g2 n hn).symm.trans e1
        replace e2 := (g2 n' hn').symm.trans e2
        obtain ⟨j1, q1, rfl⟩ := Option.map_eq_some_iff.mp e1
        obtain ⟨j2, q2, rfl⟩ := Option.map_eq_some_iff.mp e2
        exact hu n n' f ((owns_iff_mget hw).mpr ⟨j1, q1, (mem_seraseAll.mp m1).1⟩)
          ((owns_iff_mget hw).mpr ⟨j2, q2, (mem_seraseAll.mp m2).1⟩) hf

end Cards
