import Verif.Lemmas.Trans
namespace Cards
open Spec

theorem wf_msorted {db : Db} (h : WF db) : MSorted db := h.1

theorem wf_nil : WF [] := ⟨List.Pairwise.nil, by simp⟩

theorem wf_mset {db : Db} {n : Str} {i : Info} (h : WF db) (hi : Sorted i.files) : WF (mset n i db) := by
  refine ⟨msorted_mset h.1, ?_⟩
  intro p hp
  rcases (mem_mset_of_sorted (wf_msorted h)).mp hp with rfl | ⟨hp, _⟩
  · exact hi
  · exact h.2 p hp

theorem wf_merase {db : Db} {n : Str} (h : WF db) : WF (merase n db) := by
  refine ⟨msorted_merase h.1, ?_⟩
  intro p hp
  exact h.2 p (mem_merase.mp hp).1

/-- A record with some files dropped. -/
def dropInfo (files : List Str) (i : Info) : Info := { i with files := seraseAll files i.files }

@[simp] theorem dropInfo_nil (i : Info) : dropInfo [] i = i := rfl

theorem serase_of_length {x : Str} {l : List Str} (h : l.length = (serase x l).length) : serase x l = l := by
  unfold serase at *
  exact List.filter_eq_self.mpr (List.length_filter_eq_length_iff.mp h.symm)

theorem dropRefs_spec (files : List Str) (st : St) (name : Str) (info : Info)
    (hm : mget st.mem name = some info) (hd : (mget st.disk name).map (·.files) = some info.files) :
    (dropRefs st name info files).2 = dropInfo files info ∧
    (∀ x, mget (dropRefs st name info files).1.mem x =
      if x = name then some (dropInfo files info) else mget st.mem x) ∧
    (∀ x, mget (dropRefs st name info files).1.disk x =
      if x = name then (mget st.disk x).map (dropInfo files) else mget st.disk x) ∧
    (dropRefs st name info files).1.fs = st.fs ∧
    (dropRefs st name info files).1.alias = st.alias ∧
    (dropRefs st name info files).1.dep = st.dep := by
  unfold dropRefs
  induction files generalizing st info with
  | nil =>
    simp only [List.foldl_nil, true_and, and_true]
    refine ⟨rfl, ?_, ?_⟩
    · intro x; split
      · rename_i h; subst h; exact hm
      · rfl
    · intro x; split
      · rename_i h; subst h
        have : dropInfo [] = id := by funext i; rfl
        rw [this]; simp
      · rfl
  | cons j files ih =>
    simp only [List.foldl_cons]
    by_cases hl : info.files.length ≠ (serase j info.files).length
    · rw [if_pos hl]
      obtain ⟨di, hdi, hdf⟩ := Option.map_eq_some_iff.mp hd
      have := ih (addRefs st name { info with files := serase j info.files }) { info with files := serase j info.files }
        (by simp [addRefs, mget_mset]) (by simp [addRefs, mget_mset])
      obtain ⟨h1, h2, h3, h4, h5, h6⟩ := this
      refine ⟨h1, ?_, ?_, h4, h5, h6⟩
      · intro x; rw [h2 x]; split
        · rfl
        · rename_i hx; simp [addRefs, mget_mset, Ne.symm hx]
      · intro x; rw [h3 x]; split
        · rename_i hx; subst hx
          simp [addRefs, mget_mset, hdi, dropInfo, seraseAll, hdf]
        · rename_i hx; simp [addRefs, mget_mset, Ne.symm hx]
    · rw [if_neg hl]
      have he : serase j info.files = info.files := serase_of_length (by simpa using hl)
      obtain ⟨h1, h2, h3, h4, h5, h6⟩ := ih st { info with files := serase j info.files } (by rw [he]; exact hm) (by rw [he]; exact hd)
      refine ⟨h1, h2, ?_, h4, h5, h6⟩
      intro x; rw [h3 x]; split
      · rename_i hx; subst hx
        obtain ⟨di, hdi, hdf⟩ := Option.map_eq_some_iff.mp hd
        simp [hdi, dropInfo, seraseAll, hdf, he]
      · rfl

theorem dropRefs_wf (files : List Str) (st : St) (name : Str) (info : Info)
    (hm : WF st.mem) (hd : WF st.disk) (hi : Sorted info.files) :
    WF (dropRefs st name info files).1.mem ∧ WF (dropRefs st name info files).1.disk := by
  unfold dropRefs
  induction files generalizing st info with
  | nil => exact ⟨hm, hd⟩
  | cons j files ih =>
    simp only [List.foldl_cons]
    split
    · apply ih
      · exact wf_mset hm (sorted_serase hi)
      · exact wf_mset hd (sorted_serase hi)
      · exact sorted_serase hi
    · apply ih _ _ hm hd (sorted_serase hi)

/-- Memory and disk list the same files for every package. -/
def Agree (st : St) : Prop := ∀ n, (mget st.mem n).map (·.files) = (mget st.disk n).map (·.files)

theorem dropFold_spec (files : List Str) (L : Db) (hL : MSorted L) (st : St)
    (hm : ∀ p ∈ L, mget st.mem p.1 = some p.2)
    (hd : ∀ p ∈ L, (mget st.disk p.1).map (·.files) = some p.2.files) :
    let st' := L.foldl (fun s p => (dropRefs s p.1 p.2 files).1) st
    (∀ x, mget st'.mem x = if x ∈ keys L then (mget st.mem x).map (dropInfo files) else mget st.mem x) ∧
    (∀ x, mget st'.disk x = if x ∈ keys L then (mget st.disk x).map (dropInfo files) else mget st.disk x) ∧
    st'.fs = st.fs ∧ st'.alias = st.alias ∧ st'.dep = st.dep := by
  induction L generalizing st with
  | nil => simp [keys]
  | cons p L ih =>
    obtain ⟨n, i⟩ := p
    have hL' := List.pairwise_cons.mp hL
    have hnL : n ∉ keys L := fun h => str_lt_irrefl _ (hL'.1 n h)
    obtain ⟨h1, h2, h3, h4, h5, h6⟩ := dropRefs_spec files st n i (hm (n, i) (by simp)) (hd (n, i) (by simp))
    simp only [List.foldl_cons]
    have hne : ∀ p ∈ L, p.1 ≠ n := by
      intro p hp e; exact hnL (by rw [← e]; exact List.mem_map.mpr ⟨p, hp, rfl⟩)
    obtain ⟨i1, i2, i3, i4, i5⟩ := ih hL'.2 (dropRefs st n i files).1
      (by intro p hp; rw [h2]; simp [hne p hp]; exact hm p (by simp [hp]))
      (by intro p hp; rw [h3, if_neg (hne p hp)]; exact hd p (by simp [hp]))
    refine ⟨?_, ?_, by rw [i3, h4], by rw [i4, h5], by rw [i5, h6]⟩
    · intro x; rw [i1 x, h2 x]
      by_cases hx : x = n
      · subst hx
        have hk : x ∈ keys ((x, i) :: L) := by simp [keys]
        rw [if_neg hnL, if_pos rfl, if_pos hk, hm (x, i) (by simp)]; rfl
      · have hk : x ∈ keys ((n, i) :: L) ↔ x ∈ keys L := by simp [keys, hx]
        simp only [hx, if_false, hk]
    · intro x; rw [i2 x, h3 x]
      by_cases hx : x = n
      · subst hx
        have hk : x ∈ keys ((x, i) :: L) := by simp [keys]
        rw [if_neg hnL, if_pos rfl, if_pos hk]
      · have hk : x ∈ keys ((n, i) :: L) ↔ x ∈ keys L := by simp [keys, hx]
        simp only [hx, if_false, hk]

theorem dropFold_wf (files : List Str) (L : Db) (hL : ∀ p ∈ L, Sorted p.2.files) (st : St)
    (hm : WF st.mem) (hd : WF st.disk) :
    let st' := L.foldl (fun s p => (dropRefs s p.1 p.2 files).1) st
    WF st'.mem ∧ WF st'.disk := by
  induction L generalizing st with
  | nil => exact ⟨hm, hd⟩
  | cons p L ih =>
    simp only [List.foldl_cons]
    have := dropRefs_wf files st p.1 p.2 hm hd (hL p (by simp))
    exact ih (fun q hq => hL q (by simp [hq])) _ this.1 this.2

/-- `removePackageFilesRefsFromDB(files, keep)`: every record on disk and in memory loses exactly `files`. -/
theorem removeRefsOfFiles_spec (st : St) (files keep : List Str) (hw : WF st.mem) (ha : Agree st) :
    (∀ x, mget (removeRefsOfFiles st files keep).mem x = (mget st.mem x).map (dropInfo files)) ∧
    (∀ x, mget (removeRefsOfFiles st files keep).disk x = (mget st.disk x).map (dropInfo files)) ∧
    (removeRefsOfFiles st files keep).fs = st.fs.removeRev (seraseAll keep files) ∧
    (removeRefsOfFiles st files keep).alias = st.alias ∧
    (removeRefsOfFiles st files keep).dep = st.dep := by
  have hs := wf_msorted hw
  obtain ⟨h1, h2, h3, h4, h5⟩ := dropFold_spec files st.mem hs st
    (fun p hp => (mget_iff_mem hs).mpr hp)
    (fun p hp => by rw [← ha p.1, (mget_iff_mem hs).mpr hp]; rfl)
  refine ⟨?_, ?_, ?_, h4, h5⟩
  · intro x
    show mget (List.foldl _ st st.mem).mem x = _
    rw [h1 x]
    split
    · rfl
    · rename_i hx; rw [mget_none_iff.mpr hx]; rfl
  · intro x
    show mget (List.foldl _ st st.mem).disk x = _
    rw [h2 x]
    split
    · rfl
    · rename_i hx
      have := ha x
      rw [mget_none_iff.mpr hx] at this
      cases hd : mget st.disk x with
      | none => rfl
      | some i => rw [hd] at this; simp at this
  · show (List.foldl _ st st.mem).fs.removeRev _ = _
    rw [h3]

theorem removeRefsOfFiles_wf (st : St) (files keep : List Str) (hm : WF st.mem) (hd : WF st.disk) :
    WF (removeRefsOfFiles st files keep).mem ∧ WF (removeRefsOfFiles st files keep).disk :=
  dropFold_wf files st.mem hm.2 st hm hd

theorem agree_removeRefsOfFiles (st : St) (files keep : List Str) (hw : WF st.mem) (ha : Agree st) :
    Agree (removeRefsOfFiles st files keep) := by
  obtain ⟨h1, h2, _⟩ := removeRefsOfFiles_spec st files keep hw ha
  intro n
  rw [h1, h2]
  have := ha n
  cases h : mget st.mem n <;> cases h' : mget st.disk n <;> simp_all [dropInfo]

/-! ### The files `removePackageFiles` deletes -/

theorem mem_foldl_seraseAll (L : Db) (s : List Str) (f : Str) :
    f ∈ L.foldl (fun s p => seraseAll p.2.files s) s ↔ f ∈ s ∧ ∀ p ∈ L, f ∉ p.2.files := by
  induction L generalizing s with
  | nil => simp
  | cons p L ih => simp [List.foldl_cons, ih]; grind

theorem mem_toDelete {mem : Db} {name : Str} {keep : List Str} {f : Str} :
    f ∈ toDelete mem name keep ↔
      (∃ i, mget mem name = some i ∧ f ∈ i.files) ∧ f ∉ keep ∧ ∀ p ∈ mem, p.1 ≠ name → f ∉ p.2.files := by
  unfold toDelete
  simp only [mem_foldl_seraseAll, mem_seraseAll, mem_merase]
  cases h : mget mem name <;> simp <;> grind

theorem sorted_toDelete {mem : Db} {name : Str} {keep : List Str} (h : WF mem) : Sorted (toDelete mem name keep) := by
  unfold toDelete
  have key : ∀ (L : Db) (s : List Str), Sorted s → Sorted (L.foldl (fun s p => seraseAll p.2.files s) s) := by
    intro L
    induction L with
    | nil => intro s hs; exact hs
    | cons p L ih => intro s hs; exact ih _ (sorted_seraseAll hs)
  apply key
  apply sorted_seraseAll
  cases hg : mget mem name with
  | none => exact List.Pairwise.nil
  | some i => exact h.2 _ (mget_some_mem hg)

/-! ### pkgadd -/

/-- The files a package will own. -/
def shipped (env : Env) (rules : List Rule) (a : Archive) : List Str := (applyInstallRules env.rx a.files rules).1

/-- The META lines a successful installation leaves in the database. -/
def newMd (dep : Bool) (a : Archive) : List Str := sofList (if dep then d1 :: a.md else a.md)

theorem installPhase_disk (env : Env) (opts : Opts) (st : St) (a : Archive) (files keep nonInst : List Str)
    (hd : WF st.disk) (hf : Sorted files) :
    let r := installPhase env opts st a files keep nonInst
    WF r.1.disk ∧
    (∀ n, n ≠ a.name → mget r.1.disk n = mget st.disk n) ∧
    (r.2 = none → mget r.1.disk a.name = some { md := newMd st.dep a, files := files }) ∧
    (r.2 ≠ none → mget r.1.disk a.name = mget st.disk a.name) := by
  simp only [installPhase]
  split
  · simp [hd]
  · have hw : WF (addRefs (moveMeta { st with fs := installArchive env keep nonInst st.fs a.entries } a.name a.md)
        a.name { md := a.md, files := files }).disk := by
      simp only [addRefs, moveMeta]
      apply wf_mset _ hf
      apply wf_mset hd
      cases h : mget st.disk a.name with
      | none => exact List.Pairwise.nil
      | some i => exact hd.2 _ (mget_some_mem h)
    have hne : ∀ n, n ≠ a.name → mget (addRefs (moveMeta { st with fs := installArchive env keep nonInst st.fs a.entries }
        a.name a.md) a.name { md := a.md, files := files }).disk n = mget st.disk n := by
      intro n hn
      simp [addRefs, moveMeta, mget_mset, Ne.symm hn]
    have hself : mget (addRefs (moveMeta { st with fs := installArchive env keep nonInst st.fs a.entries }
        a.name a.md) a.name { md := a.md, files := files }).disk a.name = some { md := newMd st.dep a, files := files } := by
      simp [addRefs, moveMeta, mget_mset, newMd]
    split <;> simp [hw, hself] <;> exact hne

theorem removeRecord_disk (st : St) (name : Str) (hd : WF st.disk) :
    let r := removeRecord st name
    WF r.1.disk ∧ r.1.fs = st.fs ∧ r.1.dep = st.dep ∧
    (∀ n, n ≠ name → mget r.1.disk n = mget st.disk n) ∧
    (r.2 = none → mget r.1.disk name = none) ∧
    (r.2 ≠ none → r.1.disk = st.disk ∧ mget st.disk name = none) := by
  simp only [removeRecord]
  cases h : mget st.disk name with
  | none => simp [hd]
  | some i =>
    refine ⟨wf_merase hd, rfl, rfl, ?_, ?_, ?_⟩
    · intro n hn; simp [mget_merase, Ne.symm hn]
    · intro _; simp [mget_merase]
    · simp

/-- Whether the installed record of `name` carries the dependency mark. -/
def wasDep (db : Db) (name : Str) : Bool := match mget db name with | some i => i.dependency | none => false

/-- The upgrade phase up to the removal of the old record. -/
def afterUpgrade (env : Env) (rules : List Rule) (st : St) (name : Str) (files : List Str) : St :=
  let st := match mget st.mem name with
    | some i => if st.nameExists name && i.dependency then { st with dep := true } else st
    | none => st
  removeFiles st name (keepFileList env.rx files rules)

theorem upgradePhase_eq (env : Env) (rules : List Rule) (st : St) (name : Str) (files : List Str)
    (hl : env.lockUpgrade = true) :
    upgradePhase env rules st name files =
      ((removeRecord (afterUpgrade env rules st name files) name).1, keepFileList env.rx files rules,
       (removeRecord (afterUpgrade env rules st name files) name).2) := by
  simp only [upgradePhase, hl, Bool.not_true, Bool.false_eq_true, if_false, afterUpgrade]
  rfl

theorem afterUpgrade_disk (env : Env) (rules : List Rule) (st : St) (name : Str) (files : List Str) :
    (afterUpgrade env rules st name files).disk = st.disk ∧
    (afterUpgrade env rules st name files).fs = st.fs.removeRev (toDelete st.mem name (keepFileList env.rx files rules)) ∧
    (st.nameExists name = true → (afterUpgrade env rules st name files).dep = (st.dep || wasDep st.mem name)) := by
  simp only [afterUpgrade, removeFiles, wasDep]
  cases h : mget st.mem name with
  | none => simp
  | some i =>
    simp only []
    by_cases hc : (st.nameExists name && i.dependency) = true
    · rw [if_pos hc]; simp at hc; simp [hc.2]
    · rw [if_neg hc]; simp at hc; simp; intro hh; simp [hc hh]

theorem upgradePhase_disk (env : Env) (rules : List Rule) (st : St) (name : Str) (files : List Str)
    (hd : WF st.disk) :
    let r := upgradePhase env rules st name files
    WF r.1.disk ∧
    (∀ n, n ≠ name → mget r.1.disk n = mget st.disk n) ∧
    (r.2.2 = none → mget r.1.disk name = none) ∧
    (r.2.2 ≠ none → mget r.1.disk name = mget st.disk name) := by
  by_cases hl : env.lockUpgrade = true
  · rw [upgradePhase_eq _ _ _ _ _ hl]
    have h := removeRecord_disk (afterUpgrade env rules st name files) name
      (by rw [(afterUpgrade_disk env rules st name files).1]; exact hd)
    simp only [(afterUpgrade_disk env rules st name files).1] at h
    obtain ⟨h1, _, _, h4, h5, h6⟩ := h
    exact ⟨h1, h4, h5, fun he => by rw [(h6 he).1]⟩
  · have hl' : env.lockUpgrade = false := by simpa using hl
    have h1 : (upgradePhase env rules st name files).1.disk = st.disk := by
      simp only [upgradePhase, hl', Bool.not_false, if_true]
      split
      · split <;> rfl
      · rfl
    have h2 : (upgradePhase env rules st name files).2.2 = some .locked := by
      simp only [upgradePhase, hl', Bool.not_false, if_true]
    simp [h1, h2, hd]

theorem commit_disk (env : Env) (rules : List Rule) (opts : Opts) (a : Archive) (files nonInst : List Str) (st : St)
    (hd : WF st.disk) (hf : Sorted files) :
    let r := commit env rules opts a files nonInst st
    WF r.1.disk ∧
    (∀ n, n ≠ a.name → mget r.1.disk n = mget st.disk n) ∧
    (r.2 = none → ∃ dep, mget r.1.disk a.name = some { md := newMd dep a, files := files } ∧
        (opts.upgrade = false → dep = st.dep) ∧
        (opts.upgrade = true → st.nameExists a.name = true → dep = (st.dep || wasDep st.mem a.name)) ∧
        (opts.upgrade = true → (mget st.disk a.name).isSome)) ∧
    (r.2 ≠ none → mget r.1.disk a.name = mget st.disk a.name ∨ mget r.1.disk a.name = none) := by
  simp only [commit]
  by_cases hu : opts.upgrade = true
  · simp only [hu, if_true]
    have hup := upgradePhase_disk env rules st a.name files hd
    cases hr : upgradePhase env rules st a.name files with
    | mk st' rest =>
      obtain ⟨keep, e⟩ := rest
      rw [hr] at hup
      simp only at hup
      cases e with
      | some e =>
        refine ⟨hup.1, hup.2.1, by simp, fun _ => Or.inl (hup.2.2.2 (by simp))⟩
      | none =>
        obtain ⟨h1, h2, h3, _⟩ := hup
        obtain ⟨i1, i2, i3, i4⟩ := installPhase_disk env opts st' a files keep nonInst h1 hf
        refine ⟨i1, fun n hn => by rw [i2 n hn, h2 n hn], ?_, ?_⟩
        · intro hok
          refine ⟨st'.dep, i3 hok, by simp, ?_, ?_⟩
          · intro _ hne
            have hl : env.lockUpgrade = true := by
              cases hl : env.lockUpgrade with
              | true => rfl
              | false =>
                exfalso
                have : (upgradePhase env rules st a.name files).2.2 = some .locked := by
                  simp only [upgradePhase, hl, Bool.not_false, if_true]
                rw [hr] at this; simp at this
            rw [upgradePhase_eq _ _ _ _ _ hl] at hr
            simp only [Prod.mk.injEq] at hr
            rw [← hr.1]
            have := removeRecord_disk (afterUpgrade env rules st a.name files) a.name
              (by rw [(afterUpgrade_disk env rules st a.name files).1]; exact hd)
            rw [this.2.2.1, (afterUpgrade_disk env rules st a.name files).2.2 hne]
          · intro _
            cases hg : mget st.disk a.name with
            | some i => rfl
            | none =>
              exfalso
              have hl : env.lockUpgrade = true := by
                cases hl : env.lockUpgrade with
                | true => rfl
                | false =>
                  exfalso
                  have : (upgradePhase env rules st a.name files).2.2 = some .locked := by
                    simp only [upgradePhase, hl, Bool.not_false, if_true]
                  rw [hr] at this; simp at this
              rw [upgradePhase_eq _ _ _ _ _ hl] at hr
              simp only [Prod.mk.injEq] at hr
              have := hr.2.2
              simp only [removeRecord, (afterUpgrade_disk env rules st a.name files).1, hg] at this
              simp at this
        · intro hne; rw [i4 hne]; exact Or.inr (h3 rfl)
  · have hu' : opts.upgrade = false := by simpa using hu
    simp only [hu', Bool.false_eq_true, if_false]
    obtain ⟨i1, i2, i3, i4⟩ := installPhase_disk env opts st a files [] nonInst hd hf
    refine ⟨i1, i2, ?_, ?_⟩
    · intro hok; exact ⟨st.dep, i3 hok, by simp, by simp, by simp⟩
    · intro hne; exact Or.inl (i4 hne)

theorem forcePhase_disk (env : Env) (rules : List Rule) (opts : Opts) (st : St) (conf : List Str)
    (hm : WF st.mem) (hd : WF st.disk) (ha : Agree st) :
    WF (forcePhase env rules opts st conf).mem ∧ WF (forcePhase env rules opts st conf).disk ∧
    Agree (forcePhase env rules opts st conf) ∧
    (∀ x, mget (forcePhase env rules opts st conf).mem x = (mget st.mem x).map (dropInfo conf)) ∧
    (∀ x, mget (forcePhase env rules opts st conf).disk x = (mget st.disk x).map (dropInfo conf)) ∧
    (forcePhase env rules opts st conf).alias = st.alias ∧
    (forcePhase env rules opts st conf).dep = st.dep := by
  unfold forcePhase
  split
  · rename_i hc
    have : conf = [] := by simpa using hc
    subst this
    have hid : dropInfo [] = id := by funext i; rfl
    simp [hm, hd, ha, hid]
  · obtain ⟨h1, h2, h3, h4, h5⟩ := removeRefsOfFiles_spec st conf (if opts.upgrade then keepFileList env.rx conf rules else []) hm ha
    have hw := removeRefsOfFiles_wf st conf (if opts.upgrade then keepFileList env.rx conf rules else []) hm hd
    exact ⟨hw.1, hw.2, agree_removeRefsOfFiles _ _ _ hm ha, h1, h2, h4, h5⟩

/-- The file tree after the pre-install script. -/
def fsPre (opts : Opts) (a : Archive) (s : Sys) : Fs := (preRun opts a s.fs).1

/-- The process state after the pre-install script. -/
def stPre (opts : Opts) (a : Archive) (s : Sys) : St := { load s opts.asDep with fs := fsPre opts a s }

theorem runAdd_eq (env : Env) (rules : List Rule) (opts : Opts) (a : Archive) (s : Sys) :
    runAdd env rules opts a (load s opts.asDep) =
      match precheck opts a (load s opts.asDep) with
      | some e => (load s opts.asDep, some e)
      | none =>
        if (preRun opts a s.fs).2 = false then (stPre opts a s, some .preFailed)
        else if (!(conflicts (stPre opts a s) a.name (shipped env rules a)).isEmpty && !opts.force) = true then
          (stPre opts a s, some .conflict)
        else if (!(conflicts (stPre opts a s) a.name (shipped env rules a)).isEmpty && !env.lockForce) = true then
          (stPre opts a s, some .locked)
        else commit env rules opts a (shipped env rules a) (applyInstallRules env.rx a.files rules).2
          (forcePhase env rules opts (stPre opts a s) (conflicts (stPre opts a s) a.name (shipped env rules a))) := by
  unfold runAdd
  cases precheck opts a (load s opts.asDep) with
  | some e => rfl
  | none =>
    simp only
    cases h : (preRun opts a s.fs).2 with
    | true =>
      have : (preRun opts a (load s opts.asDep).fs).2 = true := h
      simp only [this, Bool.not_true, Bool.false_eq_true, if_false]
      rfl
    | false =>
      have : (preRun opts a (load s opts.asDep).fs).2 = false := h
      simp only [this, Bool.not_false, if_true]
      rfl

theorem agree_load (s : Sys) (d : Bool) : Agree (load s d) := fun _ => rfl

/-- Everything the other theorems need to know about the database after pkgadd. -/
theorem pkgadd_disk (env : Env) (rules : List Rule) (opts : Opts) (a : Archive) (s : Sys) (hw : WF s.disk) :
    let r := pkgadd env rules opts a s
    let conf := conflicts (stPre opts a s) a.name (shipped env rules a)
    WF r.1.disk ∧
    (r.2 = none →
      (conf ≠ [] → opts.force = true) ∧
      (∀ n, n ≠ a.name → mget r.1.disk n = (mget s.disk n).map (dropInfo conf)) ∧
      ∃ dep, mget r.1.disk a.name = some { md := newMd dep a, files := shipped env rules a } ∧
        (opts.upgrade = false → dep = opts.asDep ∧ a.name ∉ keys s.disk) ∧
        (opts.upgrade = true → dep = (opts.asDep || wasDep s.disk a.name) ∧ a.name ∈ keys s.disk)) ∧
    (r.2 ≠ none → ∀ n,
      mget r.1.disk n = mget s.disk n ∨ mget r.1.disk n = (mget s.disk n).map (dropInfo conf) ∨
      (n = a.name ∧ mget r.1.disk n = none)) := by
  have hm : WF (stPre opts a s).mem := hw
  have hd : WF (stPre opts a s).disk := hw
  have ha : Agree (stPre opts a s) := fun _ => rfl
  simp only [pkgadd, runAdd_eq]
  cases hp : precheck opts a (load s opts.asDep) with
  | some e => simp [St.sys, load, hw]
  | none =>
    simp only
    split
    · simp [St.sys, stPre, load, hw]
    · split
      · simp [St.sys, stPre, load, hw]
      · split
        · simp [St.sys, stPre, load, hw]
        · rename_i h1 h2 h3
          obtain ⟨f1, f2, f3, f4, f5, f6, f7⟩ := forcePhase_disk env rules opts (stPre opts a s)
            (conflicts (stPre opts a s) a.name (shipped env rules a)) hm hd ha
          obtain ⟨c1, c2, c3, c4⟩ := commit_disk env rules opts a (shipped env rules a)
            (applyInstallRules env.rx a.files rules).2 (forcePhase env rules opts (stPre opts a s)
            (conflicts (stPre opts a s) a.name (shipped env rules a))) f2 sorted_applyInstallRules
          refine ⟨c1, ?_, ?_⟩
          · intro hok
            obtain ⟨dep, g1, g2, g3, g4⟩ := c3 hok
            refine ⟨?_, ?_, dep, g1, ?_, ?_⟩
            · intro hc
              cases hf : opts.force with
              | true => rfl
              | false =>
                exfalso; apply h2
                simp [hf, hc]
            · intro n hn
              show mget (commit _ _ _ _ _ _ _).1.disk n = _
              rw [c2 n hn, f5 n]; rfl
            · intro hu
              refine ⟨by rw [g2 hu, f7]; rfl, ?_⟩
              intro hk
              have : (load s opts.asDep).nameExists a.name = true := (nameExists_load s _ _).mpr (Or.inl hk)
              unfold precheck at hp
              simp only [hu, this] at hp
              grind
            · intro hu
              have hk : a.name ∈ keys s.disk := by
                have := g4 hu
                rw [f5] at this
                have h' : (mget s.disk a.name).isSome := by
                  cases h : mget s.disk a.name with
                  | none => simp [stPre, load, h] at this
                  | some i => rfl
                exact mget_isSome_iff.mp h'
              refine ⟨?_, hk⟩
              have hne : (forcePhase env rules opts (stPre opts a s)
                  (conflicts (stPre opts a s) a.name (shipped env rules a))).nameExists a.name = true := by
                have := (nameExists_load s opts.asDep a.name).mpr (Or.inl hk)
                simp only [St.nameExists, f6] at this ⊢
                exact this
              rw [g3 hu hne, f7]
              have : wasDep (forcePhase env rules opts (stPre opts a s)
                  (conflicts (stPre opts a s) a.name (shipped env rules a))).mem a.name = wasDep s.disk a.name := by
                unfold wasDep
                rw [f4]
                show (match (mget s.disk a.name).map (dropInfo _) with | some i => i.dependency | none => false) = _
                cases mget s.disk a.name <;> rfl
              rw [this]; rfl
          · intro hne n
            by_cases hn : n = a.name
            · subst hn
              rcases c4 hne with h | h
              · right; left; show mget (commit _ _ _ _ _ _ _).1.disk _ = _; rw [h, f5]; rfl
              · right; right; exact ⟨rfl, h⟩
            · right; left; show mget (commit _ _ _ _ _ _ _).1.disk _ = _; rw [c2 n hn, f5]; rfl

end Cards
