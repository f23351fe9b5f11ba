import Verif.Props.TransFs
import Verif.Props.Remove
import Verif.Props.RemoveCmd
/-!
# C79: installing a package and removing it again
-/
namespace Cards.Props
open Cards Cards.Spec

/-- The archive lists what it contains, and with everything it installs it also installs the directories above. -/
structure Whole (rx : Matcher) (rules : List Rule) (a : Archive) : Prop where
  good : GoodArchive a
  listed : ∀ e ∈ a.entries, e.path ∈ a.mtree ∧ e.path.head? ≠ some '.'
  parents : ∀ f, Ships rx rules a f → ∀ d, d ≠ [] → Inside (comps f) d → ∃ g, Ships rx rules a g ∧ IsDirName g ∧ comps g = d

/-- The tree is a tree: what lies inside something lies inside a directory. -/
def IsTree (fs : Fs) : Prop := ∀ x d n, d ≠ [] → fs.get x = some n → Inside x d → ∃ m, fs.get d = some (.dir m)

/-- Everything the database lists is on disk. -/
def AllThere (s : Sys) : Prop := ∀ n f, Owns s.disk n f → (s.fs.get (comps f)).isSome

/-- A first installation, without --force, of an archive whose scripts do nothing, that succeeded. -/
structure FreshInstall (env : Env) (rules : List Rule) (opts : Opts) (a : Archive) (s : Sys) : Prop where
  wf : WF s.disk
  noUpgrade : opts.upgrade = false
  noForce : opts.force = false
  quiet : ∀ fs, (a.pre fs).1 = fs ∧ a.post fs = fs
  ok : (pkgadd env rules opts a s).2 = none

/-- Removal scripts that do nothing and succeed. -/
def NoSideEffects (sc : RmScripts) : Prop := ∀ fs, sc.pre fs = (fs, true) ∧ sc.post fs = fs

section
variable {env : Env} {rules : List Rule} {opts : Opts} {a : Archive} {s : Sys}

theorem fresh_fsPre (h : FreshInstall env rules opts a s) : fsPre opts a s = s.fs := by
  unfold fsPre preRun
  split
  · exact (h.quiet _).1
  · rfl

theorem fresh_conf (h : FreshInstall env rules opts a s) : conflicts (stPre opts a s) a.name (shipped env rules a) = [] := by
  obtain ⟨_, h2, _⟩ := pkgadd_disk env rules opts a s h.wf
  by_cases hc : conflicts (stPre opts a s) a.name (shipped env rules a) = []
  · exact hc
  · exact absurd ((h2 h.ok).1 hc) (by rw [h.noForce]; simp)

/-- Nothing shipped was in the way. -/
theorem fresh_free (h : FreshInstall env rules opts a s) {f : Str} (hf : Ships env.rx rules a f) : ¬ InTheWay s.disk s.fs a.name f := by
  intro hw
  have : f ∈ conflicts (stPre opts a s) a.name (shipped env rules a) := by
    rw [mem_conflicts_spec (show WF (stPre opts a s).mem from h.wf)]
    refine ⟨mem_shipped.mpr hf, ?_⟩
    show InTheWay s.disk (fsPre opts a s) a.name f
    rw [fresh_fsPre h]; exact hw
  rw [fresh_conf h] at this
  simp at this

theorem fresh_absent (h : FreshInstall env rules opts a s) : mget s.disk a.name = none := by
  obtain ⟨_, h2, _⟩ := pkgadd_disk env rules opts a s h.wf
  obtain ⟨_, _, _, _, g, _⟩ := h2 h.ok
  exact mget_none_iff.mpr (g h.noUpgrade).2

/-- The database after the installation. -/
theorem fresh_disk (h : FreshInstall env rules opts a s) :
    WF (pkgadd env rules opts a s).1.disk ∧ (∀ n, n ≠ a.name → mget (pkgadd env rules opts a s).1.disk n = mget s.disk n) ∧
    ∃ md, mget (pkgadd env rules opts a s).1.disk a.name = some { md := md, files := shipped env rules a } := by
  obtain ⟨h1, h2, _⟩ := pkgadd_disk env rules opts a s h.wf
  obtain ⟨_, g2, dep, g3, _⟩ := h2 h.ok
  refine ⟨h1, ?_, _, g3⟩
  intro n hn
  rw [g2 n hn, fresh_conf h]
  cases mget s.disk n <;> rfl

/-- The tree after the installation. -/
theorem fresh_fs (h : FreshInstall env rules opts a s) :
    (pkgadd env rules opts a s).1.fs = installArchive env [] (applyInstallRules env.rx a.files rules).2 s.fs a.entries := by
  rw [(pkgadd_fs env rules opts a s).1 h.ok]
  have h1 : fsEnd env rules opts a s = fsNew env rules opts a s := by
    unfold fsEnd
    split
    · exact (h.quiet _).2
    · rfl
  rw [h1]
  unfold fsNew keepOf fsOld
  rw [h.noUpgrade]
  simp only [Bool.false_eq_true, if_false]
  have h2 : (stForce env rules opts a s).fs = s.fs := by
    unfold stForce forcePhase conf
    rw [fresh_conf h]
    exact fresh_fsPre h
  rw [h2]

/-- What the extraction loop leaves at a place was there, or is an entry, or a directory above one. -/
theorem extracted_src (env : Env) (nonInst : List Str) (entries : List Entry) (fs : Fs) (k : List Str) (n : Node)
    (h : (installArchive env [] nonInst fs entries).get k = some n) :
    fs.get k = some n ∨ (∃ e ∈ entries, e.path ∉ nonInst ∧ comps e.path = k ∧ n = e.node) ∨
      (∃ e ∈ entries, e.path ∉ nonInst ∧ k ∈ parents (comps e.path) ∧ n = .dir 0o755) := by
  unfold installArchive at h
  induction entries generalizing fs with
  | nil => exact Or.inl h
  | cons e es ih =>
    simp only [List.foldl_cons] at h
    rcases ih _ h with h | ⟨e', he', h⟩ | ⟨e', he', h⟩
    · unfold installEntry at h
      split at h
      · exact Or.inl h
      · next hn =>
        have hn' : e.path ∉ nonInst := by simpa using hn
        simp only [List.contains_nil, Bool.and_false, Bool.false_eq_true, if_false] at h
        split at h
        · exact Or.inl h
        · split at h
          · exact Or.inl h
          · next fs1 hfs1 =>
            rw [Fs.extract_eq hfs1, Fs.get_set] at h
            by_cases hk : comps e.path = k
            · rw [if_pos hk] at h
              exact Or.inr (Or.inl ⟨e, by simp, hn', hk, (Option.some.inj h).symm⟩)
            · rw [if_neg hk] at h
              by_cases hp : k ∈ parents (comps e.path)
              · -- either it was a directory, or it was made
                have key : ∀ (ds : List (List Str)) (fs : Fs), (ds.foldl (fun fs d => match fs.get d with
                    | some (.dir _) => fs
                    | _ => fs.set d (.dir 0o755)) fs).get k = some n → fs.get k = some n ∨ n = .dir 0o755 := by
                  intro ds
                  induction ds with
                  | nil => intro fs h; exact Or.inl h
                  | cons d ds ih2 =>
                    intro fs h
                    simp only [List.foldl_cons] at h
                    rcases ih2 _ h with h | h
                    · split at h
                      · exact Or.inl h
                      · rw [Fs.get_set] at h
                        split at h
                        · exact Or.inr (Option.some.inj h).symm
                        · exact Or.inl h
                    · exact Or.inr h
                rcases key _ _ h with h | h
                · exact Or.inl h
                · exact Or.inr (Or.inr ⟨e, by simp, hn', hp, h⟩)
              · rw [Fs.mkParents_ne hp] at h
                exact Or.inl h
    · exact Or.inr (Or.inl ⟨e', by simp [he'], h⟩)
    · exact Or.inr (Or.inr ⟨e', by simp [he'], h⟩)

/-- A place no extracted entry is at or below is left alone (fresh installation, no keep list). -/
theorem extracted_ne (env : Env) (nonInst : List Str) (entries : List Entry) (fs : Fs) (k : List Str)
    (h : ∀ e ∈ entries, e.path ∉ nonInst → comps e.path ≠ k ∧ k ∉ parents (comps e.path)) :
    (installArchive env [] nonInst fs entries).get k = fs.get k := by
  unfold installArchive
  induction entries generalizing fs with
  | nil => rfl
  | cons e es ih =>
    simp only [List.foldl_cons]
    rw [ih _ (fun e' he' => h e' (by simp [he']))]
    unfold installEntry
    split
    · rfl
    · next hn =>
      simp only [List.contains_nil, Bool.and_false, Bool.false_eq_true, if_false]
      split
      · rfl
      · split
        · rfl
        · next fs1 hfs1 =>
          obtain ⟨h1, h2⟩ := h e (by simp) (by simpa using hn)
          exact Fs.extract_ne hfs1 (Ne.symm h1) h2

theorem entry_ships (hw : Whole env.rx rules a) {e : Entry} (he : e ∈ a.entries)
    (hn : e.path ∉ (applyInstallRules env.rx a.files rules).2) : Ships env.rx rules a e.path := by
  obtain ⟨h1, h2⟩ := hw.listed e he
  refine ⟨h1, h2, fun hx => hn ?_⟩
  exact mem_applyInstallRules.2.mpr ⟨mem_files.mpr ⟨h1, h2⟩, hx⟩

theorem owned_iff (h : FreshInstall env rules opts a s) {f : Str} :
    Owns (pkgadd env rules opts a s).1.disk a.name f ↔ Ships env.rx rules a f := by
  obtain ⟨h1, _, md, h3⟩ := fresh_disk h
  rw [owns_iff_mget h1, h3]
  constructor
  · rintro ⟨i, hi, hf⟩
    have hi := Option.some.inj hi
    subst hi
    exact mem_shipped.mp hf
  · intro hf
    exact ⟨_, rfl, mem_shipped.mpr hf⟩

theorem other_owns (h : FreshInstall env rules opts a s) {n f : Str} (hn : n ≠ a.name) :
    Owns (pkgadd env rules opts a s).1.disk n f ↔ Owns s.disk n f := by
  obtain ⟨h1, h2, _⟩ := fresh_disk h
  rw [owns_iff_mget h1, owns_iff_mget h.wf, h2 n hn]

/-! ## The removal succeeds and the database is as before -/

theorem rm_fresh_ok (h : FreshInstall env rules opts a s) {sc : RmScripts} (hq : NoSideEffects sc) :
    (pkgrm false sc a.name (pkgadd env rules opts a s).1).2 = none := by
  obtain ⟨h1, _, md, h3⟩ := fresh_disk h
  generalize (pkgadd env rules opts a s).1 = t at h1 h3
  have hex : (load t false).nameExists a.name = true :=
    (nameExists_load t false a.name).mpr (Or.inl (by rw [← mget_isSome_iff, h3]; rfl))
  unfold pkgrm runRm
  simp only [Bool.false_eq_true, if_false, hex, Bool.not_true]
  simp only [(hq _).1, Bool.not_true, Bool.false_eq_true, if_false]
  unfold removeRecord removeFiles
  simp only
  have hd : mget (load t false).disk a.name = some { md := md, files := shipped env rules a } := h3
  rw [hd]

/-- After installing and removing the removal has succeeded and the database is the one before. -/
theorem C79_database (h : FreshInstall env rules opts a s) {sc : RmScripts} (hq : NoSideEffects sc) :
    (pkgrm false sc a.name (pkgadd env rules opts a s).1).2 = none ∧
    ∀ p, p ∈ (pkgrm false sc a.name (pkgadd env rules opts a s).1).1.disk ↔ p ∈ s.disk := by
  have hok := rm_fresh_ok h hq
  refine ⟨hok, ?_⟩
  obtain ⟨h1, h2, _⟩ := fresh_disk h
  obtain ⟨g1, g2, g3, _⟩ := pkgrm_disk false sc a.name (pkgadd env rules opts a s).1 h1
  refine sorted_db_ext (wf_msorted g1) (wf_msorted h.wf) ?_
  intro n
  by_cases hn : n = a.name
  · subst hn
    rw [fresh_absent h]
    exact g3 hok
  · rw [g2 n hn, h2 n hn]

/-! ## The tree -/

theorem rm_fresh_fs (h : FreshInstall env rules opts a s) {sc : RmScripts} (hq : NoSideEffects sc) :
    (pkgrm false sc a.name (pkgadd env rules opts a s).1).1.fs =
      (pkgadd env rules opts a s).1.fs.removeRev (toDelete (pkgadd env rules opts a s).1.disk a.name []) := by
  rw [(pkgrm_fs false sc a.name _).1 (rm_fresh_ok h hq), (hq _).2, (hq _).1]

/-- A regular file that was there is there with the same content and permissions, unless the archive has a directory in its place. -/
theorem C79_files_kept (h : FreshInstall env rules opts a s) (hwh : Whole env.rx rules a) {sc : RmScripts} (hq : NoSideEffects sc)
    (k : List Str) (c : Str) (m : Nat) (hfile : s.fs.get k = some (.file c m))
    (hclash : ∀ g, Ships env.rx rules a g → IsDirName g → comps g ≠ k) :
    (pkgrm false sc a.name (pkgadd env rules opts a s).1).1.fs.get k = some (.file c m) := by
  have hplain : ∀ g, Ships env.rx rules a g → comps g ≠ k := by
    intro g hg he
    by_cases hd : IsDirName g
    · exact hclash g hg hd he
    · refine fresh_free h hg ⟨hd, Or.inr ⟨_, he ▸ hfile, fun hd' => absurd hd' hd⟩, ?_⟩
      rw [owns_iff_mget h.wf, fresh_absent h]
      simp
  rw [rm_fresh_fs h hq]
  apply Fs.removeRev_file
  · rw [fresh_fs h, extracted_ne, hfile]
    intro e he hn
    have hs := entry_ships hwh he hn
    refine ⟨hplain _ hs, ?_⟩
    intro hp
    obtain ⟨h1, h2, h3⟩ := mem_parents.mp hp
    obtain ⟨g, hg, _, hgk⟩ := hwh.parents _ hs k h1 (inside_iff.mpr ⟨h2, Ne.symm h3⟩)
    exact hplain g hg hgk
  · intro p hp he
    obtain ⟨⟨i, hi, hf⟩, _⟩ := mem_toDelete.mp hp
    exact absurd he (hplain p ((owned_iff h).mp ⟨i, mget_some_mem hi, hf⟩))

/-- What the installation put at a place that was free is going to be deleted by name. -/
theorem new_covered (h : FreshInstall env rules opts a s) (hwh : Whole env.rx rules a) (hall : AllThere s)
    (x : List Str) (n : Node) (hx0 : s.fs.get x = none) (hx : (pkgadd env rules opts a s).1.fs.get x = some n) :
    ∃ g ∈ toDelete (pkgadd env rules opts a s).1.disk a.name [], comps g = x ∧ Deletes g n := by
  have hship : ∃ g, Ships env.rx rules a g ∧ comps g = x ∧ Deletes g n := by
    rw [fresh_fs h] at hx
    rcases extracted_src env _ _ _ _ _ hx with h0 | ⟨e, he, hn, hk, rfl⟩ | ⟨e, he, hn, hk, rfl⟩
    · rw [hx0] at h0; exact absurd h0 (by simp)
    · refine ⟨e.path, entry_ships hwh he hn, hk, ?_⟩
      intro c m hf
      rw [Bool.eq_false_iff]
      intro hs
      obtain ⟨p, hp⟩ := (hwh.good.kind e he).mp (endsSlash_iff.mp hs)
      rw [hp] at hf; simp at hf
    · obtain ⟨h1, h2, h3⟩ := mem_parents.mp hk
      obtain ⟨g, hg, _, hgk⟩ := hwh.parents _ (entry_ships hwh he hn) x h1 (inside_iff.mpr ⟨h2, Ne.symm h3⟩)
      exact ⟨g, hg, hgk, fun c m hf => by simp at hf⟩
  obtain ⟨g, hg, hgx, hdel⟩ := hship
  refine ⟨g, ?_, hgx, hdel⟩
  rw [mem_toDelete_iff (fresh_disk h).1]
  refine ⟨(owned_iff h).mpr hg, ?_⟩
  intro n' hn'
  by_cases he : n' = a.name
  · exact he
  · have := hall n' g ((other_owns h he).mp hn')
    rw [hgx, hx0] at this
    exact absurd this (by simp)

/-- Where there was nothing there is nothing again. -/
theorem C79_nothing_left (h : FreshInstall env rules opts a s) (hwh : Whole env.rx rules a) (htree : IsTree s.fs) (hall : AllThere s)
    {sc : RmScripts} (hq : NoSideEffects sc) (k : List Str) (hk : k ≠ []) (hnone : s.fs.get k = none) :
    (pkgrm false sc a.name (pkgadd env rules opts a s).1).1.fs.get k = none := by
  rw [rm_fresh_fs h hq]
  cases hx : (pkgadd env rules opts a s).1.fs.get k with
  | none =>
    rcases Fs.removeRev_le (toDelete (pkgadd env rules opts a s).1.disk a.name []) (pkgadd env rules opts a s).1.fs k with h' | h'
    · rw [h', hx]
    · exact h'
  | some n =>
    obtain ⟨g, hg, hgk, hdel⟩ := new_covered h hwh hall k n hnone hx
    rw [← hgk]
    apply removeRev_gone _ (sorted_toDelete (fresh_disk h).1)
    · intro f hf
      have hs := (owned_iff h).mp ((mem_toDelete_iff (fresh_disk h).1).mp hf).1
      obtain ⟨e, he, rfl⟩ := good_entry hwh.good hs
      exact hwh.good.plain e he
    · exact hg
    · intro n' hn'
      rw [hgk, hx] at hn'
      exact Option.some.inj hn' ▸ hdel
    · intro x n' hx' hin
      rw [hgk] at hin
      refine new_covered h hwh hall x n' ?_ hx'
      cases hx0 : s.fs.get x with
      | none => rfl
      | some w =>
        obtain ⟨m, hm⟩ := htree x k w hk hx0 hin
        rw [hnone] at hm
        exact absurd hm (by simp)

/-- The deletion loop leaves a directory with a file that is not deleted. -/
theorem rmFold_dir_kept (names : List Str) (fs : Fs) (k x : List Str) (m : Nat) (c : Str) (p : Nat)
    (hd : fs.get k = some (.dir m)) (hx : fs.get x = some (.file c p)) (hin : Inside x k)
    (hdel : ∀ f ∈ names, comps f = x → endsSlash f = true) :
    (names.foldl Fs.rmStep fs).get k = some (.dir m) := by
  induction names generalizing fs with
  | nil => exact hd
  | cons f fs' ih =>
    simp only [List.foldl_cons]
    have hx' : (Fs.rmStep fs f).get x = some (.file c p) := by
      have := Fs.rmFold_file [f] fs x c p hx (by simpa using hdel f (by simp))
      simpa using this
    refine ih _ ?_ hx' (fun g hg => hdel g (by simp [hg]))
    by_cases hk : comps f = k
    · unfold Fs.rmStep
      split
      · unfold Fs.remove
        have hl : fs.lstat f = some (.dir m) := by
          unfold Fs.lstat
          rw [hk, hd]
        rw [hl]
        simp only
        have hc : fs.hasChild (comps f) = true := by
          rw [Fs.hasChild_iff]
          obtain ⟨hp, hne⟩ := inside_iff.mp hin
          exact ⟨x, hk ▸ hp, hk ▸ hne, by rw [hx]; rfl⟩
        rw [if_pos hc]
        exact hd
      · exact hd
    · rw [Fs.rmStep_ne fs f k (Ne.symm hk)]
      exact hd

/-- A directory that was there and held a file is there again; its permissions are the old ones unless the archive has an entry for it, whose
permissions it then keeps. -/
theorem C79_dirs_kept (h : FreshInstall env rules opts a s) (hwh : Whole env.rx rules a)
    {sc : RmScripts} (hq : NoSideEffects sc) (k x : List Str) (m : Nat) (c : Str) (p : Nat)
    (hdir : s.fs.get k = some (.dir m)) (hx : s.fs.get x = some (.file c p)) (hin : Inside x k)
    (hclash : ∀ g, Ships env.rx rules a g → IsDirName g → comps g ≠ x) :
    ∃ m', (pkgrm false sc a.name (pkgadd env rules opts a s).1).1.fs.get k = some (.dir m') ∧
      (m' = m ∨ ∃ e ∈ a.entries, comps e.path = k ∧ e.node = .dir m') := by
  have hnames : ∀ f ∈ toDelete (pkgadd env rules opts a s).1.disk a.name [], comps f = x → endsSlash f = true := by
    intro f hf he
    have hs := (owned_iff h).mp ((mem_toDelete_iff (fresh_disk h).1).mp hf).1
    by_cases hd : IsDirName f
    · exact endsSlash_iff.mpr hd
    · refine absurd ⟨hd, Or.inr ⟨_, he ▸ hx, fun hd' => absurd hd' hd⟩, ?_⟩ (fresh_free h hs)
      rw [owns_iff_mget h.wf, fresh_absent h]
      simp
  have hinst : ∃ m', (pkgadd env rules opts a s).1.fs.get k = some (.dir m') ∧ (m' = m ∨ ∃ e ∈ a.entries, comps e.path = k ∧ e.node = .dir m') := by
    rw [fresh_fs h]
    have key : ∀ (es : List Entry) (fs : Fs), (∀ e ∈ es, e ∈ a.entries) →
        (∃ m', fs.get k = some (.dir m') ∧ (m' = m ∨ ∃ e ∈ a.entries, comps e.path = k ∧ e.node = .dir m')) →
        ∃ m', (installArchive env [] (applyInstallRules env.rx a.files rules).2 fs es).get k = some (.dir m') ∧
          (m' = m ∨ ∃ e ∈ a.entries, comps e.path = k ∧ e.node = .dir m') := by
      intro es
      induction es with
      | nil => intro fs _ hh; exact hh
      | cons e es ih =>
        intro fs hsub hh
        refine ih _ (fun e' he' => hsub e' (by simp [he'])) ?_
        unfold installEntry
        split
        · exact hh
        · next hn =>
          simp only [List.contains_nil, Bool.and_false, Bool.false_eq_true, if_false]
          split
          · exact hh
          · split
            · exact hh
            · next fs1 hfs1 =>
              rw [Fs.extract_eq hfs1]
              obtain ⟨m', hm', hor⟩ := hh
              by_cases hke : comps e.path = k
              · have hs := entry_ships hwh (hsub e (by simp)) (by simpa using hn)
                by_cases hd : IsDirName e.path
                · obtain ⟨q, hq'⟩ := (hwh.good.kind e (hsub e (by simp))).mp hd
                  refine ⟨q, ?_, Or.inr ⟨e, hsub e (by simp), hke, hq'⟩⟩
                  rw [Fs.get_set, if_pos hke, hq']
                · refine absurd ⟨hd, Or.inr ⟨_, hke ▸ hdir, fun hd' => absurd hd' hd⟩, ?_⟩ (fresh_free h hs)
                  rw [owns_iff_mget h.wf, fresh_absent h]
                  simp
              · refine ⟨m', ?_, hor⟩
                rw [Fs.get_set, if_neg hke]
                exact Fs.mkParents_dir hm'
    exact key a.entries s.fs (fun _ h => h) ⟨m, hdir, Or.inl rfl⟩
  obtain ⟨m', hm', hor⟩ := hinst
  refine ⟨m', ?_, hor⟩
  rw [rm_fresh_fs h hq, Fs.removeRev_eq]
  refine rmFold_dir_kept _ _ k x m' c p hm' ?_ hin (by simpa using hnames)
  rw [fresh_fs h, extracted_ne, hx]
  intro e he hn
  have hs := entry_ships hwh he hn
  have hplain : ∀ g, Ships env.rx rules a g → comps g ≠ x := by
    intro g hg he
    by_cases hd : IsDirName g
    · exact hclash g hg hd he
    · refine fresh_free h hg ⟨hd, Or.inr ⟨_, he ▸ hx, fun hd' => absurd hd' hd⟩, ?_⟩
      rw [owns_iff_mget h.wf, fresh_absent h]
      simp
  refine ⟨hplain _ hs, ?_⟩
  intro hp
  obtain ⟨h1, h2, h3⟩ := mem_parents.mp hp
  obtain ⟨g, hg, _, hgk⟩ := hwh.parents _ hs x h1 (inside_iff.mpr ⟨h2, Ne.symm h3⟩)
  exact hplain g hg hgk

end

/-! ## Examples and counterexamples -/

def xTrip : Archive := xArch "new" ["etc/", "etc/new.conf", "usr/", "usr/new"]

def xBoth (a : Archive) (s : Sys) : Sys := (pkgrm false noScripts a.name (pkgadd xEnv [] xOpts a s).1).1

theorem xTrip_good : GoodArchive xTrip := by
  refine ⟨?_, by decide, ?_, ?_, ?_⟩
  · intro e he
    have key : ∀ e ∈ xTrip.entries, e.path = "etc/".toList ∨ e.path = "etc/new.conf".toList ∨ e.path = "usr/".toList ∨ e.path = "usr/new".toList := by decide +kernel
    rcases key e he with h | h | h | h <;> rw [h]
    · exact ⟨["etc".toList], by decide, by decide, Or.inr (by decide)⟩
    · exact ⟨["etc".toList, "new.conf".toList], by decide, by decide, Or.inl (by decide)⟩
    · exact ⟨["usr".toList], by decide, by decide, Or.inr (by decide)⟩
    · exact ⟨["usr".toList, "new".toList], by decide, by decide, Or.inl (by decide)⟩
  · intro e he
    rw [← endsSlash_iff]
    have key : ∀ e ∈ xTrip.entries, (endsSlash e.path = true ∧ e.node = .dir 0o755) ∨ (endsSlash e.path = false ∧ e.node = .file e.path 0o644) := by decide +kernel
    rcases key e he with ⟨h1, h2⟩ | ⟨h1, h2⟩ <;> rw [h1, h2] <;> simp
  · intro e he e' he' hin
    rw [← endsSlash_iff]
    have key : ∀ e ∈ xTrip.entries, ∀ e' ∈ xTrip.entries, (comps e.path <+: comps e'.path ∧ comps e'.path ≠ comps e.path) → endsSlash e.path = true := by decide +kernel
    exact key e he e' he' (inside_iff.mp hin)
  · intro f hf _
    have key : ∀ f ∈ xTrip.mtree, ∃ e ∈ xTrip.entries, e.path = f := by decide +kernel
    exact key f hf

theorem xTrip_whole : Whole xEnv.rx [] xTrip where
  good := xTrip_good
  listed := by decide +kernel
  parents := by
    intro f hf d hd hin
    have hno : ∀ g, ¬ Excluded xEnv.rx [] g := by
      rintro g ⟨r, ⟨b, c, he, -⟩, -⟩
      exact absurd he (by simp)
    have hm : f ∈ ["etc/".toList, "etc/new.conf".toList, "usr/".toList, "usr/new".toList] := hf.1
    obtain ⟨hp, hne⟩ := inside_iff.mp hin
    have hpar : d ∈ parents (comps f) := mem_parents.mpr ⟨hd, hp, Ne.symm hne⟩
    have key : ∀ f ∈ ["etc/".toList, "etc/new.conf".toList, "usr/".toList, "usr/new".toList], ∀ d ∈ parents (comps f),
        ∃ g ∈ ["etc/".toList, "usr/".toList], comps g = d ∧ g ∈ xTrip.mtree ∧ g.head? ≠ some '.' ∧ endsSlash g = true := by decide +kernel
    obtain ⟨g, _, h1, h2, h3, h4⟩ := key f hm d hpar
    exact ⟨g, ⟨h2, h3, hno g⟩, endsSlash_iff.mp h4, h1⟩

theorem xTrip_fresh : FreshInstall xEnv [] xOpts xTrip xSys :=
  ⟨xSys_wf, rfl, rfl, fun _ => ⟨rfl, rfl⟩, by decide +kernel⟩

example : NoSideEffects noScripts ∧ AllThere xSys ∧ IsTree xSys.fs := by
  refine ⟨fun _ => ⟨rfl, rfl⟩, ?_, ?_⟩
  · rintro n f ⟨i, hi, hf⟩
    have key : ∀ p ∈ xSys.disk, ∀ f ∈ p.2.files, (xSys.fs.get (comps f)).isSome := by decide +kernel
    exact key _ hi f hf
  · intro x d n hd hx hin
    obtain ⟨w, hw⟩ := Fs.mem_keys_of_get hx
    obtain ⟨hp, hne⟩ := inside_iff.mp hin
    have hpar : d ∈ parents x := mem_parents.mpr ⟨hd, hp, Ne.symm hne⟩
    have key : ∀ e ∈ xSys.fs, ∀ d ∈ parents e.1, xSys.fs.get d = some (.dir 0o755) := by decide +kernel
    exact ⟨_, key _ hw d hpar⟩

example : (xBoth xTrip xSys).fs.get ["usr".toList] = none ∧ (xBoth xTrip xSys).fs.get ["etc".toList, "bar".toList] = some (.file "y".toList 0o600) ∧
    (pkgadd xEnv [] xOpts xTrip xSys).1.fs.get ["usr".toList, "new".toList] = some (.file "usr/new".toList 0o644) := by decide +kernel

/-- An empty directory that was there before, which the package has too, is gone afterwards. -/
theorem C79_empty_dir_counterexample :
    let s : Sys := { fs := [(["mnt".toList], .dir 0o755)], disk := [] }
    let a := xArch "new" ["mnt/"]
    FreshInstall xEnv [] xOpts a s ∧ (xBoth a s).fs.get ["mnt".toList] = none :=
  ⟨⟨wf_nil, rfl, rfl, fun _ => ⟨rfl, rfl⟩, by decide +kernel⟩, by decide +kernel⟩

/-- The permissions of a directory that was there before are those of the archive afterwards. -/
theorem C79_permissions_counterexample :
    let s : Sys := { fs := [(["root".toList], .dir 0o700), (["root".toList, "x".toList], .file [] 0o600)], disk := [] }
    let a := xArch "new" ["root/", "root/y"]
    FreshInstall xEnv [] xOpts a s ∧ (xBoth a s).fs.get ["root".toList] = some (.dir 0o755) :=
  ⟨⟨wf_nil, rfl, rfl, fun _ => ⟨rfl, rfl⟩, by decide +kernel⟩, by decide +kernel⟩

/-- A file in the place of a directory of the package is lost, without any message about a conflict. -/
theorem C79_clash_counterexample :
    let s : Sys := { fs := [(["srv".toList], .file "precious".toList 0o600)], disk := [] }
    let a := xArch "new" ["srv/"]
    FreshInstall xEnv [] xOpts a s ∧ (xBoth a s).fs.get ["srv".toList] = none :=
  ⟨⟨wf_nil, rfl, rfl, fun _ => ⟨rfl, rfl⟩, by decide +kernel⟩, by decide +kernel⟩

/-- A directory the rules exclude is made for the files inside it, and stays. -/
theorem C79_excluded_dir_counterexample :
    let s : Sys := { fs := [], disk := [] }
    let a := xArch "new" ["opt/", "opt/x"]
    let env : Env := { xEnv with rx := fun p f => p = f }
    let rules : List Rule := [⟨.INSTALL, "opt/".toList, false⟩]
    FreshInstall env rules xOpts a s ∧ GoodArchive a ∧
      (pkgrm false noScripts a.name (pkgadd env rules xOpts a s).1).1.fs.get ["opt".toList] = some (.dir 0o755) := by
  refine ⟨⟨wf_nil, rfl, rfl, fun _ => ⟨rfl, rfl⟩, by decide +kernel⟩, ⟨?_, by decide, ?_, ?_, ?_⟩, by decide +kernel⟩
  · intro e he
    simp [xArch] at he
    rcases he with rfl | rfl
    · exact ⟨["opt".toList], by decide, by decide, Or.inr (by decide)⟩
    · exact ⟨["opt".toList, "x".toList], by decide, by decide, Or.inl (by decide)⟩
  · intro e he
    rw [← endsSlash_iff]
    simp [xArch] at he
    rcases he with rfl | rfl <;> simp [endsSlash]
  · intro e he e' he' hin
    rw [← endsSlash_iff]
    have key : ∀ e ∈ (xArch "new" ["opt/", "opt/x"]).entries, ∀ e' ∈ (xArch "new" ["opt/", "opt/x"]).entries,
      (comps e.path <+: comps e'.path ∧ comps e'.path ≠ comps e.path) → endsSlash e.path = true := by decide +kernel
    exact key e he e' he' (inside_iff.mp hin)
  · intro f hf _
    have key : ∀ f ∈ (xArch "new" ["opt/", "opt/x"]).mtree, ∃ e ∈ (xArch "new" ["opt/", "opt/x"]).entries, e.path = f := by decide +kernel
    exact key f hf

end Cards.Props
