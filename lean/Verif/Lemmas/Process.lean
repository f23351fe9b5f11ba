import Verif.Lemmas.Hist
import Verif.Model.Install
/-!
# One run of pkgadd in a process that has handled other packages before
-/
namespace Cards
open Spec

/-- What holds of a process between two packages. -/
structure Sane (st : St) : Prop where
  mem : WF st.mem
  disk : WF st.disk
  agree : Agree st

theorem sane_load {s : Sys} {d : Bool} (h : WF s.disk) : Sane (load s d) := ⟨h, h, agree_load s d⟩

/-- The state after the pre-install script. -/
def St.pre (opts : Opts) (a : Archive) (st : St) : St := { st with fs := (preRun opts a st.fs).1 }

/-- What stands in the way, as the code computes it. -/
def St.conf (env : Env) (rules : List Rule) (opts : Opts) (a : Archive) (st : St) : List Str :=
  conflicts (st.pre opts a) a.name (shipped env rules a)

theorem runAdd_step (env : Env) (rules : List Rule) (opts : Opts) (a : Archive) (st : St) :
    runAdd env rules opts a st =
      match precheck opts a st with
      | some e => (st, some e)
      | none =>
        if (preRun opts a st.fs).2 = false then (st.pre opts a, some .preFailed)
        else if (!(st.conf env rules opts a).isEmpty && !opts.force) = true then (st.pre opts a, some .conflict)
        else if (!(st.conf env rules opts a).isEmpty && !env.lockForce) = true then (st.pre opts a, some .locked)
        else commit env rules opts a (shipped env rules a) (applyInstallRules env.rx a.files rules).2
          (forcePhase env rules opts (st.pre opts a) (st.conf env rules opts a)) := by
  unfold runAdd
  cases precheck opts a st with
  | some e => rfl
  | none =>
    simp only
    cases h : (preRun opts a st.fs).2 with
    | true => simp only [Bool.not_true, Bool.false_eq_true, if_false]; rfl
    | false => simp only [Bool.not_false, if_true]; rfl

theorem sane_pre {opts : Opts} {a : Archive} {st : St} (h : Sane st) : Sane (st.pre opts a) := ⟨h.mem, h.disk, h.agree⟩

/-- Memory after a successful `commit`. -/
theorem commit_mem (env : Env) (rules : List Rule) (opts : Opts) (a : Archive) (files nonInst : List Str) (st : St)
    (hm : WF st.mem) (hf : Sorted files) (hok : (commit env rules opts a files nonInst st).2 = none) :
    WF (commit env rules opts a files nonInst st).1.mem ∧
    (∀ n, mget (commit env rules opts a files nonInst st).1.mem n =
      if n = a.name then some { md := a.md, files := files } else mget st.mem n) ∧
    (commit env rules opts a files nonInst st).1.alias = (if opts.upgrade then merase a.name st.alias else st.alias) ∧
    (commit env rules opts a files nonInst st).1.dep = false := by
  have inst : ∀ (st' : St) (keep : List Str), WF st'.mem → (installPhase env opts st' a files keep nonInst).2 = none →
      WF (installPhase env opts st' a files keep nonInst).1.mem ∧
      (∀ n, mget (installPhase env opts st' a files keep nonInst).1.mem n =
        if n = a.name then some { md := a.md, files := files } else mget st'.mem n) ∧
      (installPhase env opts st' a files keep nonInst).1.alias = st'.alias ∧
      (installPhase env opts st' a files keep nonInst).1.dep = false := by
    intro st' keep hm' ho
    simp only [installPhase] at ho ⊢
    split
    · rename_i hl; rw [if_pos hl] at ho; simp at ho
    · have hw : WF (mset a.name ({ md := a.md, files := files } : Info) st'.mem) := wf_mset hm' hf
      split <;>
        refine ⟨hw, ?_, rfl, rfl⟩ <;> intro n <;> simp only [addRefs, moveMeta, mget_mset] <;> simp only [eq_comm]
  unfold commit at hok ⊢
  by_cases hu : opts.upgrade = true
  · simp only [hu, if_true] at hok ⊢
    have hl : env.lockUpgrade = true := by
      cases hl : env.lockUpgrade with
      | true => rfl
      | false =>
        exfalso
        have : (upgradePhase env rules st a.name files).2.2 = some .locked := by
          simp only [upgradePhase, hl, Bool.not_false, if_true]
        revert hok
        cases h : upgradePhase env rules st a.name files with
        | mk x y => obtain ⟨k, e⟩ := y; rw [h] at this; simp only at this; subst this; simp
    have hu2 := upgradePhase_eq env rules st a.name files hl
    have hmem : (afterUpgrade env rules st a.name files).mem = merase a.name st.mem := by
      simp only [afterUpgrade, removeFiles]; split
      · split <;> rfl
      · rfl
    have hal : (afterUpgrade env rules st a.name files).alias = merase a.name st.alias := by
      simp only [afterUpgrade, removeFiles]; split
      · split <;> rfl
      · rfl
    rw [hu2] at hok ⊢
    have hrm : (removeRecord (afterUpgrade env rules st a.name files) a.name).1.mem =
        mset a.name { md := [], files := [] } (merase a.name st.mem) := by
      simp only [removeRecord, hmem]
      have : mget (merase a.name st.mem) a.name = none := by simp [mget_merase]
      rw [this]
      split <;> rfl
    have hra : (removeRecord (afterUpgrade env rules st a.name files) a.name).1.alias = merase a.name st.alias := by
      simp only [removeRecord, hal]
      split <;> simp
    cases he : (removeRecord (afterUpgrade env rules st a.name files) a.name).2 with
    | some e => simp [he] at hok
    | none =>
      simp only [he] at hok ⊢
      obtain ⟨i1, i2, i3, i4⟩ := inst _ _ (by rw [hrm]; exact wf_mset (wf_merase hm) List.Pairwise.nil) hok
      refine ⟨i1, ?_, ?_, i4⟩
      · intro n; rw [i2 n, hrm]; split
        · rfl
        · rename_i hn; simp [mget_mset, mget_merase, Ne.symm hn]
      · rw [i3, hra]
  · have hu' : opts.upgrade = false := by simpa using hu
    simp only [hu', Bool.false_eq_true, if_false] at hok ⊢
    exact inst st [] hm hok

/-- Everything needed to know about one run in a process. -/
theorem runAdd_spec (env : Env) (rules : List Rule) (opts : Opts) (a : Archive) (st : St) (hs : Sane st) :
    let r := runAdd env rules opts a st
    let conf := st.conf env rules opts a
    WF r.1.disk ∧
    (r.2 = none →
      Sane r.1 ∧
      (conf ≠ [] → opts.force = true) ∧
      opts.upgrade = st.nameExists a.name ∧
      (∀ n, n ≠ a.name → mget r.1.disk n = (mget st.disk n).map (dropInfo conf)) ∧
      (∀ n, n ≠ a.name → mget r.1.mem n = (mget st.mem n).map (dropInfo conf)) ∧
      mget r.1.mem a.name = some { md := a.md, files := shipped env rules a } ∧
      mget r.1.disk a.name = some
        { md := newMd (st.dep || (opts.upgrade && wasDep st.mem a.name)) a, files := shipped env rules a } ∧
      r.1.alias = (if opts.upgrade then merase a.name st.alias else st.alias) ∧
      r.1.dep = false) ∧
    (r.2 ≠ none → ∀ n,
      mget r.1.disk n = mget st.disk n ∨ mget r.1.disk n = (mget st.disk n).map (dropInfo conf) ∨
      (n = a.name ∧ mget r.1.disk n = none)) := by
  have hs' := sane_pre (opts := opts) (a := a) hs
  simp only [runAdd_step]
  cases hp : precheck opts a st with
  | some e => simp [hs.disk]
  | none =>
    simp only
    split
    · refine ⟨hs.disk, by simp, fun _ n => Or.inl rfl⟩
    · split
      · refine ⟨hs.disk, by simp, fun _ n => Or.inl rfl⟩
      · split
        · refine ⟨hs.disk, by simp, fun _ n => Or.inl rfl⟩
        · rename_i h1 h2 h3
          obtain ⟨f1, f2, f3, f4, f5, f6, f7⟩ := forcePhase_disk env rules opts (st.pre opts a)
            (st.conf env rules opts a) hs'.mem hs'.disk hs'.agree
          obtain ⟨c1, c2, c3, c4⟩ := commit_disk env rules opts a (shipped env rules a)
            (applyInstallRules env.rx a.files rules).2 (forcePhase env rules opts (st.pre opts a)
            (st.conf env rules opts a)) f2 sorted_applyInstallRules
          refine ⟨c1, ?_, ?_⟩
          · intro hok
            obtain ⟨m1, m2, m3, m4⟩ := commit_mem env rules opts a (shipped env rules a)
              (applyInstallRules env.rx a.files rules).2 (forcePhase env rules opts (st.pre opts a)
              (st.conf env rules opts a)) f1 sorted_applyInstallRules hok
            obtain ⟨dep, g1, g2, g3, g4⟩ := c3 hok
            have hmode : opts.upgrade = st.nameExists a.name := by
              unfold precheck at hp
              cases hu : opts.upgrade <;> cases hn : st.nameExists a.name <;> simp [hu, hn] at hp ⊢ <;> grind
            have hd : ∀ n, n ≠ a.name → mget (commit env rules opts a (shipped env rules a)
                (applyInstallRules env.rx a.files rules).2 (forcePhase env rules opts (st.pre opts a)
                (st.conf env rules opts a))).1.disk n = (mget st.disk n).map (dropInfo (st.conf env rules opts a)) := by
              intro n hn; rw [c2 n hn, f5 n]; rfl
            have hme : ∀ n, n ≠ a.name → mget (commit env rules opts a (shipped env rules a)
                (applyInstallRules env.rx a.files rules).2 (forcePhase env rules opts (st.pre opts a)
                (st.conf env rules opts a))).1.mem n = (mget st.mem n).map (dropInfo (st.conf env rules opts a)) := by
              intro n hn; rw [m2 n, if_neg hn, f4 n]; rfl
            have hmn := m2 a.name
            rw [if_pos rfl] at hmn
            refine ⟨⟨m1, c1, ?_⟩, ?_, hmode, hd, hme, hmn, ?_, ?_, m4⟩
            · intro n
              by_cases hn : n = a.name
              · subst hn; rw [hmn, g1]; rfl
              · rw [hd n hn, hme n hn]
                have := hs.agree n
                cases h : mget st.mem n <;> cases h' : mget st.disk n <;> simp_all [dropInfo]
            · intro hc
              cases hf : opts.force with
              | true => rfl
              | false =>
                exfalso; apply h2
                simp [hf, hc]
            · rw [g1]
              congr 2
              cases hu : opts.upgrade with
              | false =>
                have : dep = st.dep := by rw [g2 hu, f7]; rfl
                simp [this]
              | true =>
                have hne : (forcePhase env rules opts (st.pre opts a) (st.conf env rules opts a)).nameExists a.name = true := by
                  have : st.nameExists a.name = true := by rw [← hmode, hu]
                  simp only [St.nameExists, f6] at this ⊢
                  exact this
                have hw : wasDep (forcePhase env rules opts (st.pre opts a) (st.conf env rules opts a)).mem a.name = wasDep st.mem a.name := by
                  unfold wasDep
                  rw [f4]
                  show (match (mget st.mem a.name).map (dropInfo _) with | some i => i.dependency | none => false) = _
                  cases mget st.mem a.name <;> rfl
                have : dep = (st.dep || wasDep st.mem a.name) := by rw [g3 hu hne, f7, hw]; rfl
                simp [this]
            · rw [m3, f6]; rfl
          · intro hne n
            by_cases hn : n = a.name
            · subst hn
              rcases c4 hne with h | h
              · right; left; show mget (commit _ _ _ _ _ _ _).1.disk _ = _; rw [h, f5]; rfl
              · right; right; exact ⟨rfl, h⟩
            · right; left; show mget (commit _ _ _ _ _ _ _).1.disk _ = _; rw [c2 n hn, f5]; rfl


theorem owns_agree {st : St} (h : Sane st) {n f : Str} : Owns st.mem n f ↔ Owns st.disk n f := by
  rw [owns_iff_mget h.mem, owns_iff_mget h.disk]
  have := h.agree n
  cases h1 : mget st.mem n <;> cases h2 : mget st.disk n <;> simp_all

/-- The conflicts are the shipped files that are in the way. -/
theorem mem_conf {env : Env} {rules : List Rule} {opts : Opts} {a : Archive} {st : St} (h : Sane st) {f : Str} :
    f ∈ st.conf env rules opts a ↔ Ships env.rx rules a f ∧ InTheWay st.disk (preRun opts a st.fs).1 a.name f := by
  unfold St.conf
  rw [mem_conflicts_spec (st := st.pre opts a) h.mem]
  unfold InTheWay
  show _ ∈ (applyInstallRules _ _ _).1 ∧ (_ ∧ ((∃ n', n' ≠ a.name ∧ Owns st.mem n' f) ∨ _) ∧ ¬ Owns st.mem a.name f) ↔ _
  simp only [owns_agree h, mem_shipped]
  rfl

/-- One run keeps the rule that a non-directory has one owner, whether it succeeds or not. -/
theorem runAdd_unique (env : Env) (rules : List Rule) (opts : Opts) (a : Archive) (st : St) (hs : Sane st)
    (hu : UniqueOwner st.disk) : UniqueOwner (runAdd env rules opts a st).1.disk := by
  obtain ⟨h1, h2, h3⟩ := runAdd_spec env rules opts a st hs
  have hw := hs.disk
  cases he : (runAdd env rules opts a st).2 with
  | some e =>
    apply uniqueOwner_of_subset hw h1 _ hu
    intro n i' hi
    rcases h3 (by simp [he]) n with h | h | ⟨_, h⟩
    · rw [h] at hi; exact ⟨i', hi, fun f hf => hf⟩
    · rw [h] at hi
      obtain ⟨i, g, rfl⟩ := Option.map_eq_some_iff.mp hi
      exact ⟨i, g, fun f hf => (mem_seraseAll.mp hf).1⟩
    · rw [h] at hi; simp at hi
  | none =>
    obtain ⟨_, _, _, g2, _, _, g3, _⟩ := h2 he
    have key : ∀ n f i', n ≠ a.name → f ∈ shipped env rules a → ¬ IsDirName f →
        mget (runAdd env rules opts a st).1.disk n = some i' → f ∉ i'.files := by
      intro n f i' hn hf hd hi hm
      rw [g2 n hn] at hi
      obtain ⟨i, hi', rfl⟩ := Option.map_eq_some_iff.mp hi
      obtain ⟨hm1, hm2⟩ := mem_seraseAll.mp hm
      apply hm2
      rw [mem_conf hs]
      refine ⟨mem_shipped.mp hf, hd, Or.inl ⟨n, hn, (owns_iff_mget hw).mpr ⟨i, hi', hm1⟩⟩, ?_⟩
      intro ho
      exact hn (hu n a.name f ((owns_iff_mget hw).mpr ⟨i, hi', hm1⟩) ho hd)
    intro n n' f o1 o2 hf
    rw [owns_iff_mget h1] at o1 o2
    obtain ⟨i1, e1, m1⟩ := o1
    obtain ⟨i2, e2, m2⟩ := o2
    by_cases hn : n = a.name <;> by_cases hn' : n' = a.name
    · rw [hn, hn']
    · subst hn
      replace e1 : some _ = some i1 := g3.symm.trans e1
      simp only [Option.some.injEq] at e1
      subst e1
      exact absurd m2 (key n' f i2 hn' m1 hf e2)
    · subst hn'
      replace e2 : some _ = some i2 := g3.symm.trans e2
      simp only [Option.some.injEq] at e2
      subst e2
      exact absurd m1 (key n f i1 hn m2 hf e1)
    · replace e1 := (g2 n hn).symm.trans e1
      replace e2 := (g2 n' hn').symm.trans e2
      obtain ⟨j1, q1, rfl⟩ := Option.map_eq_some_iff.mp e1
      obtain ⟨j2, q2, rfl⟩ := Option.map_eq_some_iff.mp e2
      exact hu n n' f ((owns_iff_mget hw).mpr ⟨j1, q1, (mem_seraseAll.mp m1).1⟩)
        ((owns_iff_mget hw).mpr ⟨j2, q2, (mem_seraseAll.mp m2).1⟩) hf

/-- The conflicts of a package handled by a process. -/
def Job.conf (rules : List Rule) (opts : Opts) (st : St) (j : Job) : List Str :=
  St.conf j.env rules { opts with upgrade := st.nameExists j.modeName } j.a { st with dep := st.dep || j.dep }

/-- Everything needed to know about one package handled by a process. -/
theorem runJob_spec (rules : List Rule) (opts : Opts) (j : Job) (st : St) (hs : Sane st) :
    let r := runJob rules opts j st
    let conf := j.conf rules opts st
    WF r.1.disk ∧
    (r.2 = none →
      Sane r.1 ∧
      (conf ≠ [] → opts.force = true) ∧
      st.nameExists j.modeName = st.nameExists j.a.name ∧
      (∀ n, n ≠ j.a.name → mget r.1.disk n = (mget st.disk n).map (dropInfo conf)) ∧
      (∀ n, n ≠ j.a.name → mget r.1.mem n = (mget st.mem n).map (dropInfo conf)) ∧
      mget r.1.mem j.a.name = some { md := j.a.md, files := shipped j.env rules j.a } ∧
      mget r.1.disk j.a.name = some
        { md := newMd (st.dep || j.dep || (st.nameExists j.a.name && wasDep st.mem j.a.name)) j.a, files := shipped j.env rules j.a } ∧
      (∀ n, r.1.nameExists n = if n = j.a.name then false else st.nameExists n) ∧
      r.1.dep = false) ∧
    (r.2 ≠ none → ∀ n,
      mget r.1.disk n = mget st.disk n ∨ mget r.1.disk n = (mget st.disk n).map (dropInfo conf) ∨
      (n = j.a.name ∧ mget r.1.disk n = none)) ∧
    (UniqueOwner st.disk → UniqueOwner r.1.disk) := by
  intro r conf
  have hs' : Sane { st with dep := st.dep || j.dep } := ⟨hs.mem, hs.disk, hs.agree⟩
  obtain ⟨h1, h2, h3⟩ := runAdd_spec j.env rules { opts with upgrade := st.nameExists j.modeName } j.a { st with dep := st.dep || j.dep } hs'
  refine ⟨h1, ?_, h3, runAdd_unique _ _ _ _ _ hs'⟩
  intro hok
  obtain ⟨a1, a2, a3, a4, a5, a6, a7, a8, a9⟩ := h2 hok
  have a3' : st.nameExists j.modeName = st.nameExists j.a.name := a3
  refine ⟨a1, a2, a3, a4, a5, a6, ?_, ?_, a9⟩
  · have : mget r.1.disk j.a.name = _ := a7
    rw [this, ← a3']
  · intro n
    have ha : r.1.alias = if st.nameExists j.modeName then merase j.a.name st.alias else st.alias := a8
    unfold St.nameExists
    rw [ha, a3']
    by_cases hn : n = j.a.name
    · subst hn
      rw [if_pos rfl]
      split
      · rw [mget_merase]; simp
      · rename_i hu; simpa [St.nameExists] using hu
    · rw [if_neg hn]
      split
      · rw [mget_merase]; simp [Ne.symm hn]
      · rfl

end Cards
