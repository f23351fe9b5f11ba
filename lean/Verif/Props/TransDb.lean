import Verif.Lemmas.Hist
/-!
# C01, C02, C03, C09, C10: what package transactions do to the database
-/
namespace Cards.Props
open Cards Cards.Spec

/-! ## A concrete system used to show that hypotheses are satisfiable -/

def xEnv : Env := { rx := fun p f => p.isPrefixOf f, extractFails := fun _ => false,
                    lockForce := true, lockUpgrade := true, lockInstall := true }
def xOpts : Opts := { upgrade := false, force := false, runPrePost := true, asDep := false }
def xArch (name : String) (fs : List String) : Archive :=
  { name := name.toList, archOk := true, md := [("N" ++ name).toList], mtree := fs.map String.toList,
    entries := fs.map (fun f => { path := f.toList, node := if endsSlash f.toList then .dir 0o755 else .file f.toList 0o644 }),
    pre := fun fs => (fs, true), post := fun fs => fs }
/-- `foo` owns `etc/` and `etc/foo.conf`, `bar` owns `etc/` and `etc/bar`; all are on disk. -/
def xSys : Sys :=
  { fs := [(["etc".toList], .dir 0o755), (["etc".toList, "foo.conf".toList], .file "x".toList 0o600),
           (["etc".toList, "bar".toList], .file "y".toList 0o600)],
    disk := [("bar".toList, { md := ["Nbar".toList, "Abaz".toList], files := ["etc/".toList, "etc/bar".toList] }),
             ("foo".toList, { md := ["Nfoo".toList, "d1".toList], files := ["etc/".toList, "etc/foo.conf".toList] })] }

theorem xSys_wf : WF xSys.disk := by
  refine ⟨by decide, ?_⟩
  intro p hp
  simp only [xSys, List.mem_cons, List.not_mem_nil, or_false] at hp
  rcases hp with rfl | rfl <;> decide

/-! ## C01 -/

/-- Installing, without -u, a package that is installed fails and leaves everything as it was. -/
theorem C01_install_installed_refused (env : Env) (rules : List Rule) (opts : Opts) (a : Archive) (s : Sys)
    (hopt : opts.upgrade = false) (hinst : Installed s.disk a.name) :
    (∃ e, (pkgadd env rules opts a s).2 = some e) ∧ (pkgadd env rules opts a s).1 = s := by
  have hn : (load s opts.asDep).nameExists a.name = true :=
    (nameExists_load s _ _).mpr (Or.inl (keys_iff_installed.mpr hinst))
  obtain ⟨e, he⟩ := precheck_some_of_installed hn hopt
  rw [pkgadd_of_precheck he]
  exact ⟨⟨e, rfl⟩, rfl⟩

example : xOpts.upgrade = false ∧ Installed xSys.disk (xArch "foo" ["etc/", "etc/new"]).name :=
  ⟨rfl, ⟨_, List.mem_cons_of_mem _ (List.mem_cons_self ..)⟩⟩

/-- Upgrading a package that is neither installed nor an alias of an installed package fails and leaves everything
as it was. -/
theorem C01_upgrade_missing_refused (env : Env) (rules : List Rule) (opts : Opts) (a : Archive) (s : Sys)
    (hopt : opts.upgrade = true) (hinst : ¬ Installed s.disk a.name)
    (halias : ∀ p ∈ s.disk, 'A' :: a.name ∉ p.2.md) :
    (∃ e, (pkgadd env rules opts a s).2 = some e) ∧ (pkgadd env rules opts a s).1 = s := by
  have hn : (load s opts.asDep).nameExists a.name = false := by
    rw [Bool.eq_false_iff]
    intro h
    rcases (nameExists_load s _ _).mp h with h | ⟨p, hp, h⟩
    · exact hinst (keys_iff_installed.mp h)
    · apply halias p hp
      simp only [Info.aliases, List.mem_filterMap] at h
      obtain ⟨l, hl, h⟩ := h
      split at h
      · simp at h; subst h; exact hl
      · simp at h
  obtain ⟨e, he⟩ := precheck_some_of_missing hn hopt
  rw [pkgadd_of_precheck he]
  exact ⟨⟨e, rfl⟩, rfl⟩

example : ¬ Installed xSys.disk (xArch "qux" ["etc/new"]).name ∧
    ∀ p ∈ xSys.disk, 'A' :: (xArch "qux" ["etc/new"]).name ∉ p.2.md := by
  constructor
  · rw [← keys_iff_installed]; decide
  · decide

/-- Upgrading a package that is not installed always fails, even when an installed package has its name as alias;
without --force the database is unchanged, and the tree changes only by the pre-install script. -/
theorem C01_upgrade_missing_fails (env : Env) (rules : List Rule) (opts : Opts) (a : Archive) (s : Sys)
    (hw : WF s.disk) (hopt : opts.upgrade = true) (hinst : ¬ Installed s.disk a.name) :
    (∃ e, (pkgadd env rules opts a s).2 = some e) ∧
    (opts.force = false → ∀ n, mget (pkgadd env rules opts a s).1.disk n = mget s.disk n) := by
  obtain ⟨h1, h2, h3⟩ := pkgadd_disk env rules opts a s hw
  have hnone : mget s.disk a.name = none := by
    cases h : mget s.disk a.name with
    | none => rfl
    | some i => exact absurd (mget_isSome_installed.mp (by simp [h])) hinst
  cases he : (pkgadd env rules opts a s).2 with
  | none =>
    obtain ⟨_, _, dep, _, _, g⟩ := h2 he
    exact absurd (keys_iff_installed.mp (g hopt).2) hinst
  | some e =>
    refine ⟨⟨e, rfl⟩, ?_⟩
    intro hf n
    -- without force an unempty conflict set stops before any change, an empty one drops nothing
    by_cases hc : conflicts (stPre opts a s) a.name (shipped env rules a) = []
    · rcases h3 (by simp [he]) n with h | h | ⟨rfl, h⟩
      · exact h
      · rw [h, hc]; cases mget s.disk n <;> rfl
      · rw [h, hnone]
    · have : (pkgadd env rules opts a s).1.disk = s.disk := by
        simp only [pkgadd, runAdd_eq]
        cases hp : precheck opts a (load s opts.asDep) with
        | some e => rfl
        | none =>
          simp only
          split
          · rfl
          · split
            · rfl
            · rename_i h2
              exfalso; apply h2
              simp [hf, hc]
      rw [this]

/-- The alias case: `bar` has the alias `baz`. A forced upgrade to a package `baz`, which is not installed, is
not refused up front: the conflicting file of `bar` is deleted and dropped from its list, and only then does the
command fail. So the full claim of C01 (a refused upgrade changes nothing) is false of the code. -/
theorem C01_alias_upgrade_counterexample :
    let a := xArch "baz" ["etc/bar"]
    let opts := { xOpts with upgrade := true, force := true }
    ¬ Installed xSys.disk a.name ∧
    (pkgadd xEnv [] opts a xSys).2 = some .cannotRead ∧
    xSys.fs.get (comps "etc/bar".toList) = some (.file "y".toList 0o600) ∧
    (pkgadd xEnv [] opts a xSys).1.fs.get (comps "etc/bar".toList) = none ∧
    mget (pkgadd xEnv [] opts a xSys).1.disk "bar".toList =
      some { md := ["Nbar".toList, "Abaz".toList], files := ["etc/".toList] } := by
  refine ⟨?_, ?_, ?_, ?_, ?_⟩
  · rw [← keys_iff_installed]; decide
  all_goals decide

/-! ## C02 -/

/-- Without --force, a shipped file in the way makes the command fail; the database is unchanged and the tree is
unchanged when the pre-install script (if any is run) leaves it unchanged. -/
theorem C02_conflict_refused_partial (env : Env) (rules : List Rule) (opts : Opts) (a : Archive) (s : Sys)
    (hw : WF s.disk) (hforce : opts.force = false)
    (hpre : opts.runPrePost = true → (a.pre s.fs).1 = s.fs)
    (f : Str) (hship : Ships env.rx rules a f) (hway : InTheWay s.disk s.fs a.name f) :
    (∃ e, (pkgadd env rules opts a s).2 = some e) ∧ (pkgadd env rules opts a s).1 = s := by
  have hfs : fsPre opts a s = s.fs := by
    unfold fsPre preRun
    split
    · rename_i h; exact hpre h
    · rfl
  have hst : stPre opts a s = load s opts.asDep := by
    unfold stPre; rw [hfs]; rfl
  have hc : conflicts (stPre opts a s) a.name (shipped env rules a) ≠ [] := by
    intro h
    have : f ∈ conflicts (stPre opts a s) a.name (shipped env rules a) := by
      rw [mem_conflicts_spec (st := stPre opts a s) hw, hst]
      exact ⟨mem_shipped.mpr hship, hway⟩
    rw [h] at this; simp at this
  simp only [pkgadd, runAdd_eq]
  cases hp : precheck opts a (load s opts.asDep) with
  | some e => simp [St.sys, load]
  | none =>
    simp only [hst] at hc ⊢
    split
    · simp [St.sys, load]
    · rw [if_pos (by simp [hc, hforce])]
      simp [St.sys, load]

example : Ships xEnv.rx [] (xArch "new" ["etc/bar"]) "etc/bar".toList ∧
    InTheWay xSys.disk xSys.fs "new".toList "etc/bar".toList := by
  refine ⟨⟨by decide, by decide, ?_⟩, ?_, Or.inl ⟨"bar".toList, by decide, ?_⟩, ?_⟩
  · rw [← installFile_iff]; decide
  · rw [← endsSlash_iff]; decide
  · rw [owns_iff_mget xSys_wf]; exact ⟨_, rfl, by decide⟩
  · rw [owns_iff_mget xSys_wf]; rintro ⟨i, h, _⟩
    have : mget xSys.disk "new".toList = none := by decide
    rw [this] at h; simp at h

/-- The pre-install script of the package is run before the conflict test, so its effect remains after the refusal:
the full claim of C02 (an unforced conflict changes nothing) is false of the code when the script does something. -/
theorem C02_script_effect_counterexample :
    let a := { xArch "new" ["etc/bar"] with pre := fun fs => (fs.set ["made-by-script".toList] (.dir 0o755), true) }
    (pkgadd xEnv [] xOpts a xSys).2 = some .conflict ∧
    xSys.fs.get ["made-by-script".toList] = none ∧
    (pkgadd xEnv [] xOpts a xSys).1.fs.get ["made-by-script".toList] = some (.dir 0o755) := by
  refine ⟨?_, ?_, ?_⟩ <;> decide

/-- The command reports a conflict only if some shipped file is in the way (in the tree the pre-install script left)
and --force was not given. -/
theorem C02_conflict_only_if (env : Env) (rules : List Rule) (opts : Opts) (a : Archive) (s : Sys)
    (hw : WF s.disk) (h : (pkgadd env rules opts a s).2 = some .conflict) :
    opts.force = false ∧ ∃ f, Ships env.rx rules a f ∧
      InTheWay s.disk (if opts.runPrePost then (a.pre s.fs).1 else s.fs) a.name f := by
  have hfs : (if opts.runPrePost then (a.pre s.fs).1 else s.fs) = fsPre opts a s := by
    unfold fsPre preRun; split <;> rfl
  rw [hfs]
  simp only [pkgadd, runAdd_eq] at h
  cases hp : precheck opts a (load s opts.asDep) with
  | some e =>
    rw [hp] at h; simp only [Option.some.injEq] at h
    subst h
    unfold precheck at hp
    grind
  | none =>
    rw [hp] at h; simp only at h
    split at h
    · simp at h
    · split at h
      · rename_i hc
        simp at hc
        refine ⟨hc.2, ?_⟩
        obtain ⟨f, hf⟩ := List.exists_mem_of_ne_nil _ hc.1
        rw [mem_conflicts_spec (st := stPre opts a s) hw] at hf
        exact ⟨f, mem_shipped.mp hf.1, hf.2⟩
      · split at h
        · simp at h
        · exfalso
          rcases commit_err env rules opts a (shipped env rules a) (applyInstallRules env.rx a.files rules).2
            (forcePhase env rules opts (stPre opts a s) (conflicts (stPre opts a s) a.name (shipped env rules a)))
            with h' | h' | h' <;> rw [h'] at h <;> simp at h

example : (pkgadd xEnv [] xOpts (xArch "new" ["etc/bar"]) xSys).2 = some .conflict := by decide

/-! ## C03 -/

/-- After any history of commands no non-directory is listed by two packages, if that was so before. -/
theorem C03_unique_owner (cmds : List Cmd) (s : Sys) (hw : WF s.disk) (hu : UniqueOwner s.disk) :
    UniqueOwner (runHistory cmds s).disk := by
  have : WF (runHistory cmds s).disk ∧ UniqueOwner (runHistory cmds s).disk := by
    unfold runHistory
    induction cmds generalizing s with
    | nil => exact ⟨hw, hu⟩
    | cons c cmds ih => exact ih _ (wf_exec c s hw) (unique_exec c s hw hu)
  exact this.2

/-- In particular from an empty database, whatever the tree contains. -/
theorem C03_unique_owner_from_empty (cmds : List Cmd) (fs : Fs) :
    UniqueOwner (runHistory cmds { fs := fs, disk := [] }).disk :=
  C03_unique_owner cmds _ wf_nil (by rintro n n' f ⟨i, h, _⟩; simp at h)

example : UniqueOwner xSys.disk := by
  intro n n' f h h' hf
  simp only [Owns, xSys, List.mem_cons, List.not_mem_nil, or_false] at h h'
  obtain ⟨i, hi, hif⟩ := h
  obtain ⟨j, hj, hjf⟩ := h'
  have hd : IsDirName "etc/".toList := ⟨"etc".toList, by decide⟩
  rcases hi with hi | hi <;> rcases hj with hj | hj <;> simp only [Prod.mk.injEq] at hi hj <;>
    obtain ⟨rfl, rfl⟩ := hi <;> obtain ⟨rfl, rfl⟩ := hj
  · rfl
  · simp at hif hjf; rcases hif with rfl | rfl
    · exact absurd hd (by simpa using hf)
    · simp at hjf
  · simp at hif hjf; rcases hif with rfl | rfl
    · exact absurd hd (by simpa using hf)
    · simp at hjf
  · rfl

/-! ## C09 -/

/-- After a forced install or upgrade that succeeds, every file that was in the way is listed by the new package and by
no other, and every other package keeps exactly its remaining files and its metadata. -/
theorem C09_forced_takeover (env : Env) (rules : List Rule) (opts : Opts) (a : Archive) (s : Sys) (hw : WF s.disk)
    (hok : (pkgadd env rules opts a s).2 = none) :
    let fs1 := if opts.runPrePost then (a.pre s.fs).1 else s.fs
    let taken := fun f => Ships env.rx rules a f ∧ InTheWay s.disk fs1 a.name f
    (∀ f, taken f → ∀ n, Owns (pkgadd env rules opts a s).1.disk n f ↔ n = a.name) ∧
    (∀ n i, n ≠ a.name → (n, i) ∈ s.disk → ∃ i', (n, i') ∈ (pkgadd env rules opts a s).1.disk ∧
      i'.md = i.md ∧ ∀ f, f ∈ i'.files ↔ f ∈ i.files ∧ ¬ taken f) ∧
    (∀ n, n ≠ a.name → Installed (pkgadd env rules opts a s).1.disk n → Installed s.disk n) := by
  intro fs1 taken
  have hfs : fs1 = fsPre opts a s := by
    show (if opts.runPrePost then (a.pre s.fs).1 else s.fs) = _
    unfold fsPre preRun; split <;> rfl
  have htaken : ∀ f, f ∈ conflicts (stPre opts a s) a.name (shipped env rules a) ↔ taken f := by
    intro f
    rw [mem_conflicts_spec (st := stPre opts a s) hw]
    unfold shipped
    rw [mem_shipped]
    show _ ↔ Ships env.rx rules a f ∧ InTheWay s.disk fs1 a.name f
    rw [hfs]; rfl
  obtain ⟨h1, h2, _⟩ := pkgadd_disk env rules opts a s hw
  obtain ⟨_, g2, dep, g3, _⟩ := h2 hok
  refine ⟨?_, ?_, ?_⟩
  · intro f hf n
    rw [owns_iff_mget h1]
    constructor
    · rintro ⟨i, hi, hm⟩
      apply Decidable.byContradiction
      intro hn
      rw [g2 n hn] at hi
      obtain ⟨j, hj, rfl⟩ := Option.map_eq_some_iff.mp hi
      exact (mem_seraseAll.mp hm).2 ((htaken f).mpr hf)
    · rintro rfl
      exact ⟨_, g3, mem_shipped.mpr hf.1⟩
  · intro n i hn hi
    have hg := mem_mget_of_sorted (wf_msorted hw) hi
    refine ⟨dropInfo _ i, (mget_iff_mem (wf_msorted h1)).mp (by rw [g2 n hn, hg]; rfl), rfl, ?_⟩
    intro f
    rw [← htaken f]
    exact mem_seraseAll
  · intro n hn hi
    rw [← mget_isSome_installed] at hi ⊢
    rw [g2 n hn] at hi
    cases h : mget s.disk n with
    | none => rw [h] at hi; simp at hi
    | some i => rfl

example : (pkgadd xEnv [] { xOpts with force := true } (xArch "new" ["etc/", "etc/bar", "etc/foo.conf"]) xSys).2 = none := by
  decide
example : (pkgadd xEnv [] { xOpts with force := true } (xArch "new" ["etc/", "etc/bar", "etc/foo.conf"]) xSys).1.disk =
    [("bar".toList, { md := ["Nbar".toList, "Abaz".toList], files := ["etc/".toList] }),
     ("foo".toList, { md := ["Nfoo".toList, "d1".toList], files := ["etc/".toList] }),
     ("new".toList, { md := ["Nnew".toList], files := ["etc/".toList, "etc/bar".toList, "etc/foo.conf".toList] })] := by
  decide

/-! ## C10 -/

/-- `n` is installed and marked as automatically installed. -/
def Marked (db : Db) (n : Str) : Prop := ∃ i, (n, i) ∈ db ∧ "d1".toList ∈ i.md

theorem marked_iff_mget {db : Db} (h : WF db) {n : Str} : Marked db n ↔ ∃ i, mget db n = some i ∧ d1 ∈ i.md := by
  unfold Marked d1
  constructor
  · rintro ⟨i, hm, hf⟩; exact ⟨i, (mget_iff_mem (wf_msorted h)).mpr hm, hf⟩
  · rintro ⟨i, hm, hf⟩; exact ⟨i, (mget_iff_mem (wf_msorted h)).mp hm, hf⟩

theorem dependency_iff (i : Info) : i.dependency = true ↔ d1 ∈ i.md := by
  simp [Info.dependency]

/-- One successful upgrade (with the dependency flag not preset): the mark stays as it was, and apart from the mark the
metadata is that of the archive. -/
theorem C10_upgrade_keeps_mark (env : Env) (rules : List Rule) (opts : Opts) (a : Archive) (s : Sys) (hw : WF s.disk)
    (hup : opts.upgrade = true) (hdep : opts.asDep = false) (harch : "d1".toList ∉ a.md)
    (hok : (pkgadd env rules opts a s).2 = none) :
    (Marked (pkgadd env rules opts a s).1.disk a.name ↔ Marked s.disk a.name) ∧
    ∃ i, (a.name, i) ∈ (pkgadd env rules opts a s).1.disk ∧ ∀ l, l ≠ "d1".toList → (l ∈ i.md ↔ l ∈ a.md) := by
  obtain ⟨h1, h2, _⟩ := pkgadd_disk env rules opts a s hw
  obtain ⟨_, _, dep, g3, _, g5⟩ := h2 hok
  obtain ⟨g5, hk⟩ := g5 hup
  rw [hdep, Bool.false_or] at g5
  constructor
  · rw [marked_iff_mget h1, marked_iff_mget hw]
    have hwas : wasDep s.disk a.name = true ↔ ∃ i, mget s.disk a.name = some i ∧ d1 ∈ i.md := by
      unfold wasDep
      cases h : mget s.disk a.name with
      | none => simp
      | some i => simp [dependency_iff]
    rw [← hwas, ← g5]
    constructor
    · rintro ⟨i, hi, hm⟩
      replace hi := g3.symm.trans hi
      simp only [Option.some.injEq] at hi
      subst hi
      simp only [newMd, mem_sofList] at hm
      cases dep with
      | true => rfl
      | false => simp at hm; exact absurd hm harch
    · intro hd
      refine ⟨_, g3, ?_⟩
      simp [newMd, hd]
  · refine ⟨_, (mget_iff_mem (wf_msorted h1)).mp g3, ?_⟩
    intro l hl
    simp only [newMd, mem_sofList]
    cases dep with
    | true => simp [d1]; intro e; exact absurd e (by simpa using hl)
    | false => simp

example : (pkgadd xEnv [] { xOpts with upgrade := true } (xArch "foo" ["etc/", "etc/foo2"]) xSys).2 = none ∧
    "d1".toList ∉ (xArch "foo" ["etc/", "etc/foo2"]).md ∧ Marked xSys.disk "foo".toList := by
  refine ⟨by decide, by decide, ?_⟩
  rw [marked_iff_mget xSys_wf]; exact ⟨_, rfl, by decide⟩

/-- A command that is an upgrade without preset flag, of an archive whose META does not itself carry the mark. -/
def IsUpgrade : Cmd → Prop
  | .add _ _ opts a => opts.upgrade = true ∧ opts.asDep = false ∧ "d1".toList ∉ a.md
  | .rm _ _ _ => False

/-- After any history of upgrades (of this and other packages, successful or not), a package that is still installed was
installed before and has the mark it had. -/
theorem C10_mark_survives_upgrades (cmds : List Cmd) (s : Sys) (hw : WF s.disk) (hall : ∀ c ∈ cmds, IsUpgrade c)
    (n : Str) (hi : Installed (runHistory cmds s).disk n) :
    Installed s.disk n ∧ (Marked (runHistory cmds s).disk n ↔ Marked s.disk n) := by
  unfold runHistory at *
  induction cmds generalizing s with
  | nil => exact ⟨hi, Iff.rfl⟩
  | cons c cmds ih =>
    have hc := hall c (by simp)
    obtain ⟨i1, i2⟩ := ih _ (wf_exec c s hw) (fun c' h => hall c' (by simp [h])) hi
    cases c with
    | rm l sc n => exact absurd hc (by simp [IsUpgrade])
    | add env rules opts a =>
      obtain ⟨hu, hd, ha⟩ := hc
      obtain ⟨h1, h2, h3⟩ := pkgadd_disk env rules opts a s hw
      have key : Installed s.disk n ∧ (Marked (pkgadd env rules opts a s).1.disk n ↔ Marked s.disk n) := by
        have hsame : ∀ i', mget (pkgadd env rules opts a s).1.disk n = some i' →
            (∃ i, mget s.disk n = some i ∧ i'.md = i.md) →
            Installed s.disk n ∧ (Marked (pkgadd env rules opts a s).1.disk n ↔ Marked s.disk n) := by
          rintro i' h' ⟨i, hi, he⟩
          refine ⟨mget_isSome_installed.mp (by simp [hi]), ?_⟩
          rw [marked_iff_mget h1, marked_iff_mget hw, h', hi]
          simp [he]
        have hsome : (mget (pkgadd env rules opts a s).1.disk n).isSome := mget_isSome_installed.mpr i1
        obtain ⟨i', h'⟩ := Option.isSome_iff_exists.mp hsome
        cases he : (pkgadd env rules opts a s).2 with
        | none =>
          by_cases hn : n = a.name
          · subst hn
            obtain ⟨_, _, dep, _, _, g⟩ := h2 he
            exact ⟨keys_iff_installed.mp (g hu).2, (C10_upgrade_keeps_mark env rules opts a s hw hu hd ha he).1⟩
          · obtain ⟨_, g2, _⟩ := h2 he
            apply hsame i' h'
            rw [g2 n hn] at h'
            obtain ⟨i, hi, rfl⟩ := Option.map_eq_some_iff.mp h'
            exact ⟨i, hi, rfl⟩
        | some e =>
          rcases h3 (by simp [he]) n with h | h | ⟨_, h⟩
          · exact hsame i' h' ⟨i', h.symm.trans h', rfl⟩
          · have := h.symm.trans h'
            obtain ⟨i, hi, rfl⟩ := Option.map_eq_some_iff.mp this
            exact hsame _ h' ⟨i, hi, rfl⟩
          · rw [h] at h'; simp at h'
      exact ⟨key.1, i2.trans key.2⟩

/-- A fresh install is marked exactly when the flag was set before the run. The flag (`m_dependency`, pkgdbh.h:37) is not
initialised by any constructor, so for a plain pkgadd its value, here `opts.asDep`, is arbitrary. -/
theorem C10_fresh_install_mark (env : Env) (rules : List Rule) (opts : Opts) (a : Archive) (s : Sys) (hw : WF s.disk)
    (hup : opts.upgrade = false) (harch : "d1".toList ∉ a.md) (hok : (pkgadd env rules opts a s).2 = none) :
    Marked (pkgadd env rules opts a s).1.disk a.name ↔ opts.asDep = true := by
  obtain ⟨h1, h2, _⟩ := pkgadd_disk env rules opts a s hw
  obtain ⟨_, _, dep, g3, g4, _⟩ := h2 hok
  rw [marked_iff_mget h1, ← (g4 hup).1]
  constructor
  · rintro ⟨i, hi, hm⟩
    replace hi := g3.symm.trans hi
    simp only [Option.some.injEq] at hi
    subst hi
    simp only [newMd, mem_sofList] at hm
    cases dep with
    | true => rfl
    | false => simp at hm; exact absurd hm harch
  · intro hd; exact ⟨_, g3, by simp [newMd, hd]⟩

example : (pkgadd xEnv [] xOpts (xArch "new" ["etc/", "etc/new"]) xSys).2 = none := by decide

end Cards.Props
