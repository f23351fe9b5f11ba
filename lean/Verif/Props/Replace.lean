import Verif.Props.RoundTrip
import Verif.Props.RemoveCmd
import Verif.Lemmas.UpgCmd
/-!
# C83: an upgrade and a removal followed by an installation
-/
namespace Cards.Props
open Cards Cards.Spec

/-! ## Specification -/

/-- The options of a first installation. -/
def _root_.Cards.Opts.fresh (opts : Opts) (asDep : Bool) : Opts := { opts with upgrade := false, asDep := asDep }

/-- The situation: the database is in order, no other package goes by the name of this one, what the installed version lists as a plain file is not a
directory on disk, its pre-install script does nothing and no rule protects a file of the new version. -/
structure Replaceable (rx : Matcher) (rules : List Rule) (opts : Opts) (a : Archive) (s : Sys) : Prop where
  wf : WF s.disk
  unique : UniqueOwner s.disk
  noAlias : ∀ p ∈ s.disk, p.1 ≠ a.name → a.name ∉ p.2.aliases
  plain : ∀ f, Owns s.disk a.name f → ¬ IsDirName f → ∀ m, s.fs.get (comps f) ≠ some (.dir m)
  quiet : ∀ fs, a.pre fs = (fs, true)
  unprotected : ∀ f, Ships rx rules a f → ¬ Protected rx rules f
  upgrade : opts.upgrade = true
  noForce : opts.force = false

theorem db_ext {db db' : Db} (h : MSorted db) (h' : MSorted db') (he : ∀ n, mget db n = mget db' n) : db = db' := by
  induction db generalizing db' with
  | nil =>
    cases db' with
    | nil => rfl
    | cons p t => have := he p.1; simp [mget] at this
  | cons p t ih =>
    have hp := sorted_db_ext h h' he
    cases db' with
    | nil => exact absurd ((hp p).mp (by simp)) (by simp)
    | cons q t' =>
      have hk := List.pairwise_cons.mp (show (p.1 :: keys t).Pairwise (· < ·) from h)
      have hk' := List.pairwise_cons.mp (show (q.1 :: keys t').Pairwise (· < ·) from h')
      have hpq : p = q := by
        rcases List.mem_cons.mp ((hp p).mp (by simp)) with e | e
        · exact e
        · rcases List.mem_cons.mp ((hp q).mpr (by simp)) with e' | e'
          · exact e'.symm
          · have h1 := hk'.1 p.1 (List.mem_map_of_mem e)
            have h2 := hk.1 q.1 (List.mem_map_of_mem e')
            exact absurd (str_lt_trans h1 h2) (str_lt_irrefl _)
      subst hpq
      congr 1
      refine ih hk.2 hk'.2 ?_
      intro n
      have := he n
      simp only [mget] at this
      by_cases hn : p.1 = n
      · subst hn
        have h1 : mget t p.1 = none := mget_none_iff.mpr (fun hc => str_lt_irrefl _ (hk.1 _ hc))
        have h2 : mget t' p.1 = none := mget_none_iff.mpr (fun hc => str_lt_irrefl _ (hk'.1 _ hc))
        rw [h1, h2]
      · simpa [hn] using this

section
variable {env : Env} {rules : List Rule} {opts : Opts} {a : Archive} {s : Sys} {sc : RmScripts}

theorem replace_conf (h : Replaceable env.rx rules opts a s) (hok : (pkgadd env rules opts a s).2 = none) :
    conflicts (stPre opts a s) a.name (shipped env rules a) = [] := by
  obtain ⟨_, h2, _⟩ := pkgadd_disk env rules opts a s h.wf
  by_cases hc : conflicts (stPre opts a s) a.name (shipped env rules a) = []
  · exact hc
  · exact absurd ((h2 hok).1 hc) (by rw [h.noForce]; simp)

theorem replace_pre (h : Replaceable env.rx rules opts a s) (o : Opts) (fs : Fs) : preRun o a fs = (fs, true) := by
  unfold preRun
  split
  · exact h.quiet fs
  · rfl

theorem replace_keep (h : Replaceable env.rx rules opts a s) : keepFileList env.rx (shipped env rules a) rules = [] := by
  rw [List.eq_nil_iff_forall_not_mem]
  intro f hf
  obtain ⟨h1, h2⟩ := mem_keepFileList.mp hf
  exact h.unprotected f (mem_shipped.mp h1) h2

theorem replace_rm (h : Replaceable env.rx rules opts a s) (hok : (pkgadd env rules opts a s).2 = none) (hq : NoSideEffects sc) :
    (pkgrm false sc a.name s).2 = none := by
  obtain ⟨_, h2, _⟩ := pkgadd_disk env rules opts a s h.wf
  obtain ⟨_, _, _, _, _, g⟩ := h2 hok
  have hk := (g h.upgrade).2
  have hex : (load s false).nameExists a.name = true := (nameExists_load s false a.name).mpr (Or.inl hk)
  unfold pkgrm runRm
  simp only [Bool.false_eq_true, if_false, hex, Bool.not_true]
  simp only [(hq _).1, Bool.not_true, Bool.false_eq_true, if_false]
  unfold removeRecord removeFiles
  simp only
  obtain ⟨i, hi⟩ := Option.isSome_iff_exists.mp (mget_isSome_iff.mpr hk)
  have hd : mget (load s false).disk a.name = some i := hi
  rw [hd]

/-- **C83.** A successful upgrade, without --force, of a package none of whose files is protected gives exactly the system - database and tree - that
removing the old version and installing the new one gives; both of these succeed. The new record is marked as automatically installed when the old one
was, or when that was asked for. -/
theorem C83_same_system (h : Replaceable env.rx rules opts a s) (hok : (pkgadd env rules opts a s).2 = none) (hq : NoSideEffects sc) :
    (pkgrm false sc a.name s).2 = none ∧
    pkgadd env rules (opts.fresh (opts.asDep || wasDep s.disk a.name)) a (pkgrm false sc a.name s).1 = ((pkgadd env rules opts a s).1, none) := by
  have hrm := replace_rm h hok hq
  refine ⟨hrm, ?_⟩
  obtain ⟨d1, d2, d3, _⟩ := pkgrm_disk false sc a.name s h.wf
  have hfs : (pkgrm false sc a.name s).1.fs = s.fs.removeRev (toDelete s.disk a.name []) := by
    rw [(pkgrm_fs false sc a.name s).1 hrm, (hq _).2, (hq _).1]
  have hcf := replace_conf h hok
  generalize ht : (pkgrm false sc a.name s).1 = t at d1 d2 d3 hfs
  have hgone : mget t.disk a.name = none := d3 hrm
  -- the name is free
  have hfree : ∀ d, (load t d).nameExists a.name = false := by
    intro d
    cases hx : (load t d).nameExists a.name with
    | false => rfl
    | true =>
      rcases (nameExists_load t d a.name).mp hx with hk | ⟨p, hp, hpa⟩
      · exact absurd hk (mget_none_iff.mp hgone)
      · have hn : p.1 ≠ a.name := by
          intro he
          have := (mget_iff_mem d1.1).mpr (show (p.1, p.2) ∈ t.disk from hp)
          rw [he, hgone] at this
          simp at this
        have : (p.1, p.2) ∈ s.disk := by
          rw [← mget_iff_mem h.wf.1, ← d2 p.1 hn, mget_iff_mem d1.1]; exact hp
        exact absurd hpa (h.noAlias _ this hn)
  -- nothing is in the way
  have hnc : conflicts (stPre (opts.fresh (opts.asDep || wasDep s.disk a.name)) a t) a.name (shipped env rules a) = [] := by
    rw [List.eq_nil_iff_forall_not_mem]
    intro f hf
    rw [mem_conflicts_spec (show WF (stPre _ a t).mem from d1)] at hf
    obtain ⟨hsh, hdir, hway, _⟩ := hf
    have hbefore : ¬ InTheWay s.disk s.fs a.name f := by
      intro hi
      have : f ∈ conflicts (stPre opts a s) a.name (shipped env rules a) := by
        rw [mem_conflicts_spec (show WF (stPre opts a s).mem from h.wf)]
        refine ⟨hsh, ?_⟩
        show InTheWay s.disk (fsPre opts a s) a.name f
        rw [show fsPre opts a s = s.fs from congrArg Prod.fst (replace_pre h opts s.fs)]; exact hi
      rw [hcf] at this; simp at this
    have hway' : (∃ n', n' ≠ a.name ∧ Owns s.disk n' f) ∨ Present t.fs f := by
      rcases hway with ⟨n', hn', ho⟩ | hp
      · left
        refine ⟨n', hn', ?_⟩
        have ho : Owns t.disk n' f := ho
        rw [owns_iff_mget d1, d2 n' hn', ← owns_iff_mget h.wf] at ho
        exact ho
      · right
        have hp : Present (fsPre _ a t) f := hp
        rw [show fsPre _ a t = t.fs from congrArg Prod.fst (replace_pre h _ t.fs)] at hp
        exact hp
    by_cases hown : Owns s.disk a.name f
    · rcases hway' with ⟨n', hn', ho⟩ | ⟨n, hp, _⟩
      · exact hn' (h.unique n' a.name f ho hown hdir)
      · rw [hfs] at hp
        have hdel : f ∈ toDelete s.disk a.name [] := by
          rw [mem_toDelete]
          refine ⟨(owns_iff_mget h.wf).mp hown, by simp, ?_⟩
          intro p hp' hn hf'
          exact hn (h.unique p.1 a.name f ⟨p.2, hp', hf'⟩ hown hdir)
        rw [removeRev_file_gone s.fs _ f hdel (by
          cases he : endsSlash f with
          | false => rfl
          | true => exact absurd (endsSlash_iff.mp he) hdir) (h.plain f hown hdir)] at hp
        simp at hp
    · apply hbefore
      refine ⟨hdir, ?_, hown⟩
      rcases hway' with h1 | ⟨n, hp, hd⟩
      · exact Or.inl h1
      · right
        rw [hfs] at hp
        rcases Fs.removeRev_le (toDelete s.disk a.name []) s.fs (comps f) with e | e
        · rw [e] at hp; exact ⟨n, hp, hd⟩
        · rw [e] at hp; simp at hp
  -- the upgrade passed the checks
  have hup : precheck opts a (load s opts.asDep) = none := by
    cases hp : precheck opts a (load s opts.asDep) with
    | none => rfl
    | some e => simp [pkgadd, runAdd_eq, hp] at hok
  have hpc : precheck (opts.fresh (opts.asDep || wasDep s.disk a.name)) a (load t (opts.asDep || wasDep s.disk a.name)) = none := by
    unfold precheck at hup ⊢
    simp only [hfree, Opts.fresh, Bool.false_and, Bool.and_false, Bool.false_eq_true, if_false]
    split at hup
    · simp at hup
    · split at hup
      · simp at hup
      · split at hup
        · simp at hup
        · rename_i q1 q2 q3
          simp only [q1, q2, q3, if_false, Bool.false_eq_true]
  have hlock : env.lockInstall = true := by
    cases hl : env.lockInstall with
    | true => rfl
    | false =>
      exfalso
      have hcf' : (conflicts (stPre opts a s) a.name (shipped env rules a)).isEmpty = true := by rw [hcf]; rfl
      simp only [pkgadd, runAdd_eq, hup, replace_pre h, hcf', Bool.not_true, Bool.false_and, Bool.false_eq_true, if_false, commit, h.upgrade, if_true] at hok
      revert hok
      split
      · simp
      · simp only [installPhase, hl, Bool.not_false, if_true]
        split <;> simp
  have hcn : (conflicts (stPre (opts.fresh (opts.asDep || wasDep s.disk a.name)) a t) a.name (shipped env rules a)).isEmpty = true := by rw [hnc]; rfl
  have hok' : (pkgadd env rules (opts.fresh (opts.asDep || wasDep s.disk a.name)) a t).2 = none := by
    simp only [pkgadd, runAdd_eq]
    rw [show precheck (opts.fresh (opts.asDep || wasDep s.disk a.name)) a
      (load t (opts.fresh (opts.asDep || wasDep s.disk a.name)).asDep) = none from hpc]
    simp only [replace_pre h, hcn, Bool.not_true, Bool.false_and, Bool.false_eq_true, if_false]
    simp only [commit, Opts.fresh, Bool.false_eq_true, if_false, installPhase, hlock, Bool.not_true]
    simp
  -- the same tree
  have e1 := (pkgadd_fs env rules opts a s).1 hok
  have e2 := (pkgadd_fs env rules (opts.fresh (opts.asDep || wasDep s.disk a.name)) a t).1 hok'
  have f1 : stForce env rules opts a s = stPre opts a s := by
    unfold stForce forcePhase conf; rw [hcf]; rfl
  have f2 : stForce env rules (opts.fresh (opts.asDep || wasDep s.disk a.name)) a t = stPre (opts.fresh (opts.asDep || wasDep s.disk a.name)) a t := by
    unfold stForce forcePhase conf; rw [hnc]; rfl
  have o1 : fsOld env rules opts a s = t.fs := by
    unfold fsOld
    rw [f1, if_pos h.upgrade, replace_keep h, hfs]
    show (fsPre opts a s).removeRev _ = _
    rw [show fsPre opts a s = s.fs from congrArg Prod.fst (replace_pre h opts s.fs)]
    rfl
  have o2 : fsOld env rules (opts.fresh (opts.asDep || wasDep s.disk a.name)) a t = t.fs := by
    unfold fsOld
    rw [f2]
    show fsPre _ a t = _
    exact congrArg Prod.fst (replace_pre h _ t.fs)
  have n1 : fsNew env rules opts a s = fsNew env rules (opts.fresh (opts.asDep || wasDep s.disk a.name)) a t := by
    unfold fsNew
    rw [o1, o2]
    unfold keepOf
    rw [if_pos h.upgrade, replace_keep h]
    rfl
  have efs : (pkgadd env rules (opts.fresh (opts.asDep || wasDep s.disk a.name)) a t).1.fs = (pkgadd env rules opts a s).1.fs := by
    rw [e1, e2]
    unfold fsEnd
    rw [n1]
    rfl
  -- the same database
  obtain ⟨w1, g1, _⟩ := pkgadd_disk env rules opts a s h.wf
  obtain ⟨w2, g2, _⟩ := pkgadd_disk env rules (opts.fresh (opts.asDep || wasDep s.disk a.name)) a t d1
  obtain ⟨_, p2, dep, p3, _, p5⟩ := g1 hok
  obtain ⟨_, q2, dep', q3, q4, _⟩ := g2 hok'
  have edisk : (pkgadd env rules (opts.fresh (opts.asDep || wasDep s.disk a.name)) a t).1.disk = (pkgadd env rules opts a s).1.disk := by
    refine db_ext w2.1 w1.1 ?_
    intro n
    by_cases hn : n = a.name
    · rw [hn, p3, q3, (p5 h.upgrade).1, (q4 rfl).1]; rfl
    · rw [p2 n hn, q2 n hn, d2 n hn, hcf, hnc]
  have : (pkgadd env rules (opts.fresh (opts.asDep || wasDep s.disk a.name)) a t).1 = (pkgadd env rules opts a s).1 := by
    cases hx : (pkgadd env rules (opts.fresh (opts.asDep || wasDep s.disk a.name)) a t).1
    cases hy : (pkgadd env rules opts a s).1
    rw [hx, hy] at efs edisk
    simp only at efs edisk
    rw [efs, edisk]
  exact Prod.ext this hok'

end

/-! ## Cases -/

/-- Version 2 of `foo`, whose configuration file has gone and which ships another one. -/
def wFoo : Archive := xArch "foo" ["etc/", "etc/foo2.conf", "usr/", "usr/foo"]

/-- The hypotheses of `C83_same_system` hold of the upgrade of `foo`, which keeps its mark, and the three systems are different. -/
example : Replaceable xEnv.rx [] { xOpts with upgrade := true } wFoo xSys ∧ (pkgadd xEnv [] { xOpts with upgrade := true } wFoo xSys).2 = none ∧
    wasDep xSys.disk wFoo.name = true ∧ (pkgadd xEnv [] { xOpts with upgrade := true } wFoo xSys).1 ≠ xSys ∧
    (pkgrm false noScripts wFoo.name xSys).1 ≠ xSys := by
  refine ⟨⟨xSys_wf, ?_, ?_, ?_, fun _ => rfl, ?_, rfl, rfl⟩, by decide +kernel, by decide +kernel, ?_, ?_⟩
  · rintro n n' f ⟨i, hi, hf⟩ ⟨j, hj, hf'⟩ hd
    have key : ∀ p ∈ xSys.disk, ∀ q ∈ xSys.disk, ∀ f ∈ p.2.files, f ∈ q.2.files → endsSlash f = false → p.1 = q.1 := by decide +kernel
    refine key (n, i) hi (n', j) hj f hf hf' ?_
    cases he : endsSlash f with
    | false => rfl
    | true => exact absurd (endsSlash_iff.mp he) hd
  · decide +kernel
  · rintro f ⟨i, hi, hf⟩ hd m
    have key : ∀ p ∈ xSys.disk, p.1 = wFoo.name → ∀ f ∈ p.2.files, endsSlash f = false →
        (match xSys.fs.get (comps f) with | some (.dir _) => false | _ => true) = true := by decide +kernel
    have := key (wFoo.name, i) hi rfl f hf (by
      cases he : endsSlash f with
      | false => rfl
      | true => exact absurd (endsSlash_iff.mp he) hd)
    intro hc
    rw [hc] at this
    simp at this
  · rintro f _ ⟨r, ⟨b, c, he, -⟩, -⟩
    simp at he
  · intro hc; have := congrArg (fun s => keys s.disk |>.length) hc; have h2 := congrArg (fun s => s.fs.length) hc; revert h2; decide +kernel
  · intro hc; have := congrArg (fun s => s.disk.length) hc; revert this; decide +kernel

/-- Without `--dep` the removal and installation lose the mark the upgrade keeps. -/
theorem C83_mark_counterexample :
    let up := (pkgadd xEnv [] { xOpts with upgrade := true } wFoo xSys).1
    let two := (pkgadd xEnv [] (Opts.fresh { xOpts with upgrade := true } false) wFoo (pkgrm false noScripts wFoo.name xSys).1).1
    wasDep up.disk wFoo.name = true ∧ wasDep two.disk wFoo.name = false := by
  decide +kernel

/-- When another package goes by the name, the package can be upgraded, but once removed it cannot be installed again. -/
theorem C83_alias_counterexample :
    let s : Sys := { fs := [], disk := [("bar".toList, { md := ["Nbar".toList, "Abaz".toList], files := [] }), ("baz".toList, { md := ["Nbaz".toList], files := [] })] }
    let a := xArch "baz" ["usr/", "usr/baz"]
    (pkgadd xEnv [] { xOpts with upgrade := true } a s).2 = none ∧
      (pkgrm false noScripts a.name s).2 = none ∧
      (pkgadd xEnv [] (Opts.fresh { xOpts with upgrade := true } false) a (pkgrm false noScripts a.name s).1).2 = some .alreadyInstalled := by
  decide +kernel

end Cards.Props
