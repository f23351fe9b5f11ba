import Verif.Lemmas.UpgCmd
import Verif.Props.InstallOne
import Verif.Props.Upgrade
/-!
# C52 and C03: `cards upgrade` at work
-/
namespace Cards.Props
open Cards Cards.Spec

/-- **C03.** `cards upgrade`, successful or not, keeps the rule that a non-directory belongs to one package. -/
theorem C03_unique_owner_cards_upgrade (E : InstEnv) (junk : Nat) (o : UpgOpts) (opts : Opts) (locked : Str → Bool) (s : Sys) (sess : RepoSess)
    (hw : WF s.disk) (hu : UniqueOwner s.disk) :
    WF (cardsUpgrade E junk o opts locked s sess).1.st.disk ∧ UniqueOwner (cardsUpgrade E junk o opts locked s sess).1.st.disk := by
  unfold cardsUpgrade
  simp only
  split
  · obtain ⟨h1, h2⟩ := performUpgrade_inv E opts locked _ _ { st := load s false, sess := sess, count := 0 } (sane_load hw)
    exact ⟨h1, h2 hu⟩
  · exact ⟨hw, hu⟩

/-- What `cards upgrade` handles: the files of the resolved list. -/
def UpgradeFiles (E : InstEnv) (sess : RepoSess) : List (Option Archive) := sess.list.map (fun i => FileOf E sess.files i.1)

theorem mem_withFlag {l : List (Option Archive)} {b : Archive} {d : Bool} :
    (some b, d) ∈ l.map (fun a => (a, false)) ↔ some b ∈ l ∧ d = false := by
  rw [List.mem_map]
  constructor
  · rintro ⟨a, ha, e⟩; simp only [Prod.mk.injEq] at e; obtain ⟨rfl, rfl⟩ := e; exact ⟨ha, rfl⟩
  · rintro ⟨ha, rfl⟩; exact ⟨_, ha, rfl⟩

/-- **C52.** After a successful `cards upgrade` that had something to do, first (state `mid`)
* all package files of the resolved list have been read and each package is recorded as its archive says, with the files it ships but the
  non-directories a package handled later ships too;
* every other package is as before, it has lost just the non-directories the packages handled ship;
and then
* the packages to delete, all installed then, are gone, and the records of all others are those of `mid`;
* of the tree only what the deleted packages list and no remaining package lists may have gone, and every such file that is not a directory has. -/
theorem C52_done (E : InstEnv) (junk : Nat) (o : UpgOpts) (opts : Opts) (locked : Str → Bool) (s : Sys) (sess : RepoSess) (r : InstSt) (rx : Matcher)
    (u : List (Str × Nat)) (d : List Str) (hrx : ∀ k, (E.env k).rx = rx) (hw : WF s.disk) (hu : UniqueOwner s.disk)
    (hp : upgradePlan junk o E.groups E.net.db E.net.db E.net.repo = .perform u d)
    (h : cardsUpgrade E junk o opts locked s sess = (r, none)) :
    ∃ mid : Sys,
      ((∀ x ∈ UpgradeFiles E r.sess, ∃ a, x = some a) ∧
       (∀ pre a post, UpgradeFiles E r.sess = pre ++ some a :: post → (∀ b, some b ∈ post → b.name ≠ a.name) →
          Recorded mid.disk a (fun f => Ships rx E.rules a f ∧ ∀ b, some b ∈ post → Ships rx E.rules b f → IsDirName f)) ∧
       (∀ n, (∀ b, some b ∈ UpgradeFiles E r.sess → b.name ≠ n) →
          (Installed mid.disk n ↔ Installed s.disk n) ∧
          (∀ i, (n, i) ∈ s.disk → ∃ i', (n, i') ∈ mid.disk ∧ i'.md = i.md ∧
            ∀ f, f ∈ i'.files ↔ f ∈ i.files ∧ ∀ b, some b ∈ UpgradeFiles E r.sess → Ships rx E.rules b f → IsDirName f))) ∧
      ((∀ n ∈ d, Installed mid.disk n) ∧ (∀ p, p ∈ r.st.disk ↔ p ∈ mid.disk ∧ p.1 ∉ d) ∧
       (∀ k, (∀ n ∈ d, ∀ f, Owns mid.disk n f → comps f = k → ∃ m, m ∉ d ∧ Owns mid.disk m f) → r.st.fs.get k = mid.fs.get k) ∧
       (∀ f, ¬ IsDirName f → (∃ n ∈ d, Owns mid.disk n f) → (∀ n, Owns mid.disk n f → n ∈ d) →
          (∀ m, mid.fs.get (comps f) ≠ some (.dir m)) → r.st.fs.get (comps f) = none)) := by
  unfold cardsUpgrade at h
  simp only [hp] at h
  obtain ⟨s1, s2, h1, h2, h3, h4, h5⟩ := performUpgrade_ok h
  have h6 := did_records E { opts with force := true } s s1 s2 rx _ hrx hw h2 h4
  have hsane : Sane s2.st := by
    obtain ⟨js, j1, _⟩ := h4
    rw [h2] at j1
    have := runJobs_inv E.rules { opts with force := true } js (load s false) (sane_load hw)
    have j1' : runJobs E.rules { opts with force := true } js (load s false) = (s2.st, none) := j1
    rw [j1'] at this
    exact (this.2.1 rfl).1
  obtain ⟨b1, b2, b3, b4, b5, b6, _⟩ := deleteAll_ok locked d s2 r hsane h5
  have hsess : r.sess = s1.sess := b2.trans h3
  have htodo : s1.sess.list.map (fun i => (FileOf E s1.sess.files i.1, false)) = (UpgradeFiles E r.sess).map (fun a => (a, false)) := by
    unfold UpgradeFiles; rw [hsess, List.map_map]; rfl
  rw [htodo] at h6
  refine ⟨s2.st.sys, ⟨?_, ?_, ?_⟩, b3, b4, b5, b6⟩
  · intro x hx
    obtain ⟨a, ha⟩ := h6.1 (x, false) (List.mem_map.mpr ⟨x, hx, rfl⟩)
    exact ⟨a, ha⟩
  · intro pre a post ht hpost
    have := (h6.2.1 (pre.map (fun a => (a, false))) a false (post.map (fun a => (a, false))) (by rw [ht]; simp)
      (fun b d hb => hpost b (mem_withFlag.mp hb).1)).2 hu
    obtain ⟨i, hi, q1, q2⟩ := this
    refine ⟨i, hi, q1, fun f => ?_⟩
    rw [q2]
    constructor
    · rintro ⟨k1, k2⟩; exact ⟨k1, fun b hb => k2 b false (mem_withFlag.mpr ⟨hb, rfl⟩)⟩
    · rintro ⟨k1, k2⟩; exact ⟨k1, fun b d hb => k2 b (mem_withFlag.mp hb).1⟩
  · intro n hn
    obtain ⟨_, q1, q2⟩ := h6.2.2 n (fun b d hb => hn b (mem_withFlag.mp hb).1)
    refine ⟨q1, fun i hi => ?_⟩
    obtain ⟨i', hi', q3, q4⟩ := q2 hu i hi
    refine ⟨i', hi', q3, fun f => ?_⟩
    rw [q4]
    constructor
    · rintro ⟨k1, k2⟩; exact ⟨k1, fun b hb => k2 b false (mem_withFlag.mpr ⟨hb, rfl⟩)⟩
    · rintro ⟨k1, k2⟩; exact ⟨k1, fun b d hb => k2 b (mem_withFlag.mp hb).1⟩

/-- **C52, nothing to do.** Unless there is something to do (C29 says when), `cards upgrade` leaves everything as it is. -/
theorem C52_nothing (E : InstEnv) (junk : Nat) (o : UpgOpts) (opts : Opts) (locked : Str → Bool) (s : Sys) (sess : RepoSess)
    (hp : ∀ u d, upgradePlan junk o E.groups E.net.db E.net.db E.net.repo ≠ .perform u d) :
    (cardsUpgrade E junk o opts locked s sess).2 = none ∧ (cardsUpgrade E junk o opts locked s sess).1.st.sys = s := by
  unfold cardsUpgrade
  cases hpl : upgradePlan junk o E.groups E.net.db E.net.db E.net.repo with
  | perform u d => exact absurd hpl (hp u d)
  | _ => exact ⟨rfl, rfl⟩

variable {A : Str → ArchMeta}

/-- **C52, which packages.** With a repository in order and archives that are what they are listed as, the packages installed after a successful
`cards upgrade` are those to update with all they need, and those installed before that are not to be deleted; each package updated is the one of the
repository: its META lines are those of its package file. `cards upgrade` marks no package as automatically installed: a mark is kept, never given. -/
theorem C52_packages (E : InstEnv) (junk : Nat) (o : UpgOpts) (opts : Opts) (locked : Str → Bool) (s : Sys) (sess : RepoSess) (r : InstSt)
    (u : List (Str × Nat)) (d : List Str) (hw : WF s.disk)
    (ho : InOrder E.net sess.files A) (hr : SessOk E.net A sess) (hlist : sess.list = []) (hh : Honest E sess.files)
    (hp : upgradePlan junk o E.groups E.net.db E.net.db E.net.repo = .perform u d)
    (h : cardsUpgrade E junk o opts locked s sess = (r, none)) (m : Str) :
    let wanted := ∃ n t, ToUpdate E.net.db E.net.repo E.groups n t ∧ NeededFor E.net A n m
    (Installed r.st.disk m ↔ wanted ∨ (Installed s.disk m ∧ ¬ ToDelete E.net.db E.net.repo m)) ∧
    (wanted → ∃ a i, FileOf E sess.files m = some a ∧ a.name = m ∧ (m, i) ∈ r.st.disk ∧ ∀ l, l ≠ "d1".toList → (l ∈ i.md ↔ l ∈ a.md)) ∧
    (Marked r.st.disk m ↔ Marked s.disk m ∧ (wanted ∨ ¬ ToDelete E.net.db E.net.repo m)) := by
  intro wanted
  obtain ⟨sel1, sel2⟩ := C29_selected hp
  unfold cardsUpgrade at h
  simp only [hp] at h
  obtain ⟨s1, s2, h1, h2, h3, h4, h5⟩ := performUpgrade_ok h
  have hsane : Sane s2.st := by
    obtain ⟨js, j1, _⟩ := h4
    rw [h2] at j1
    have := runJobs_inv E.rules { opts with force := true } js (load s false) (sane_load hw)
    have j1' : runJobs E.rules { opts with force := true } js (load s false) = (s2.st, none) := j1
    rw [j1'] at this
    exact (this.2.1 rfl).1
  obtain ⟨b1, b2, b3, b4, b5, b6, _⟩ := deleteAll_ok locked d s2 r hsane h5
  have hupg : Ordered E.net A s1.sess.list ∧ ∀ m, m ∈ s1.sess.list.map (·.1) ↔ m ∈ sess.list.map (·.1) ∨ ∃ x ∈ u, NeededFor E.net A x.1 m :=
    C29_installs_partial sess.files ho E.fuel u sess s1.sess hr rfl (by rw [hlist]; simp [Ordered]) h1
  have hfiles : s1.sess.files = sess.files := by
    have : ∀ (u : List (Str × Nat)) (r r' : RepoSess), SessOk E.net A r → r.files = sess.files → Ordered E.net A r.list →
        upgradeList E.net E.fuel u r = .ok r' → r'.files = sess.files := by
      intro u
      induction u with
      | nil =>
        intro r r' _ hf _ h
        have : r = r' := by simpa [upgradeList, pure, Except.pure] using h
        rw [← this]; exact hf
      | cons x u ih =>
        intro r r' hr hf hl h
        unfold upgradeList at h
        rw [List.foldlM_cons] at h
        obtain ⟨r1, e1, e2⟩ := except_bind h
        obtain ⟨a1, a2, a3, _⟩ := C22_resolved_partial sess.files ho E.fuel x.1 r r1 hr hf hl e1
        exact ih r1 r' a1 a2 a3 e2
    exact this u sess s1.sess hr rfl (by rw [hlist]; simp [Ordered]) h1
  have hwanted : wanted ↔ m ∈ s1.sess.list.map (·.1) := by
    rw [hupg.2, hlist]
    constructor
    · rintro ⟨n, t, a, b⟩; exact Or.inr ⟨(n, t), (sel1 n t).mpr a, b⟩
    · rintro (h | ⟨⟨n, t⟩, a, b⟩)
      · simp at h
      · exact ⟨n, t, (sel1 n t).mp a, b⟩
  obtain ⟨js, j1, j2, _⟩ := h4
  rw [h2] at j1
  replace j1 : runJobs E.rules { opts with force := true } js (load s false) = (s2.st, none) := j1
  -- each listed file is the archive of the package
  have hfo : ∀ x ∈ s1.sess.list, ∃ a, FileOf E sess.files x.1 = some a ∧ a.name = x.1 ∧ "d1".toList ∉ a.md ∧ x.1 ∈ keys E.net.repo := by
    intro x hx
    have : (FileOf E s1.sess.files x.1, false) ∈ s1.sess.list.map (fun i => (FileOf E s1.sess.files i.1, false)) := List.mem_map.mpr ⟨x, hx, rfl⟩
    rw [← j2] at this
    obtain ⟨j, _, e⟩ := List.mem_map.mp this
    simp only [Prod.mk.injEq] at e
    have ha := e.1.symm
    rw [hfiles] at ha
    refine ⟨j.a, ha, ?_⟩
    simp only [FileOf] at ha
    obtain ⟨p, hp, ha⟩ := Option.bind_eq_some_iff.mp ha
    obtain ⟨c, hc, ha⟩ := Option.bind_eq_some_iff.mp ha
    have := hh x.1 p c j.a hp hc ha
    exact ⟨this.1, this.2, mem_keys_iff.mpr ⟨p, hp⟩⟩
  have hjob : ∀ j ∈ js, ∃ x ∈ s1.sess.list, j.a.name = x.1 := by
    intro j hj
    have : (some j.a, j.dep) ∈ s1.sess.list.map (fun i => (FileOf E s1.sess.files i.1, false)) := by rw [← j2]; exact List.mem_map.mpr ⟨j, hj, rfl⟩
    obtain ⟨x, hx, e⟩ := List.mem_map.mp this
    obtain ⟨a, ha, hn, _⟩ := hfo x hx
    simp only [hfiles, Prod.mk.injEq] at e
    rw [ha] at e
    simp only [Option.some.injEq] at e
    exact ⟨x, hx, by rw [← e.1, hn]⟩
  have hins : ∀ db, Installed db m ↔ ∃ i, (m, i) ∈ db := fun _ => Iff.rfl
  have hdel : m ∈ d ↔ ToDelete E.net.db E.net.repo m := sel2 m
  by_cases hm : m ∈ s1.sess.list.map (·.1)
  · -- handled
    obtain ⟨x, hx, rfl⟩ := List.mem_map.mp hm
    obtain ⟨a, ha, hn, hmd, hk⟩ := hfo x hx
    have hnd : x.1 ∉ d := by
      rw [hdel]; rintro ⟨i, _, _, hnone⟩
      obtain ⟨p, hp⟩ := mem_keys_iff.mp hk
      rw [hnone] at hp; simp at hp
    obtain ⟨v, w, e⟩ := List.append_of_mem hx
    have hnod := hupg.1.1
    rw [e, List.map_append, List.map_cons, List.nodup_append] at hnod
    rw [e, List.map_append, List.map_cons] at j2
    obtain ⟨p, j, q, rfl, e1, e2, e3⟩ := jobs_split j2
    simp only [Prod.mk.injEq] at e2
    rw [hfiles, ha] at e2
    simp only [Option.some.injEq] at e2
    obtain ⟨rfl, hdep⟩ := e2
    have hsub : ∀ (w : List (Str × Nat)) (q : List Job), (∀ y ∈ w, y ∈ s1.sess.list) → x.1 ∉ w.map (·.1) →
        q.map (fun j => (some j.a, j.dep)) = w.map (fun i => (FileOf E s1.sess.files i.1, false)) → ∀ k ∈ q, k.a.name ≠ j.a.name := by
      intro w q hw' hxw eq k hk
      have : (some k.a, k.dep) ∈ w.map (fun i => (FileOf E s1.sess.files i.1, false)) := by rw [← eq]; exact List.mem_map.mpr ⟨k, hk, rfl⟩
      obtain ⟨y, hy, ey⟩ := List.mem_map.mp this
      obtain ⟨a', ha', hn', _⟩ := hfo y (hw' y hy)
      simp only [hfiles, Prod.mk.injEq] at ey
      rw [ha'] at ey
      simp only [Option.some.injEq] at ey
      rw [← ey.1, hn', hn]
      intro hc
      exact hxw (List.mem_map.mpr ⟨y, hy, hc⟩)
    have hq := hsub w q (fun y hy => by rw [e]; simp [hy]) (List.nodup_cons.mp hnod.2.1).1 e3
    have hpre := hsub v p (fun y hy => by rw [e]; simp [hy]) (fun hc => hnod.2.2 x.1 hc x.1 (by simp) rfl) e1
    obtain ⟨gone, g1, _⟩ := runJobs_last E.rules { opts with force := true } p j q (load s false) s2.st (sane_load hw) rfl j1 hq
    rw [hn] at g1
    have hmem := (b4 (x.1, _)).mpr ⟨mget_some_mem g1, hnd⟩
    have hW : wanted := hwanted.mpr hm
    refine ⟨⟨fun _ => Or.inl hW, fun _ => ⟨_, hmem⟩⟩, ?_, ?_⟩
    · intro _
      refine ⟨j.a, _, ha, hn, hmem, ?_⟩
      intro l hl
      simp only
      rw [mem_newMd]; simp only [d1]; tauto
    · have hall : p.all (fun k => k.a.name ≠ x.1) = true := by
        rw [List.all_eq_true]; intro k hk; rw [decide_eq_true_eq, ← hn]; exact hpre k hk
      have hm' : Marked r.st.disk x.1 ↔ ((load s false).nameExists x.1 && wasDep (load s false).mem x.1) = true := by
        rw [marked_iff_mget b1.disk]
        have : mget r.st.disk x.1 = some _ := (mget_iff_mem (wf_msorted b1.disk)).mpr hmem
        rw [this]
        simp only [hdep, hall, Bool.false_or, Bool.true_and]
        constructor
        · rintro ⟨i, hi, hmk⟩
          simp only [Option.some.injEq] at hi
          subst hi
          rcases mem_newMd.mp hmk with h | h
          · exact h.1
          · exact absurd h hmd
        · intro h; exact ⟨_, rfl, mem_newMd.mpr (Or.inl ⟨h, rfl⟩)⟩
      have hwas : wasDep (load s false).mem x.1 = true ↔ Marked s.disk x.1 := by
        rw [marked_iff_mget hw]
        show wasDep s.disk x.1 = true ↔ _
        unfold wasDep
        cases hg : mget s.disk x.1 with
        | none => simp
        | some i => simp [Info.dependency, d1]
      have hex : Marked s.disk x.1 → (load s false).nameExists x.1 = true := by
        rintro ⟨i, hi, _⟩
        exact (nameExists_load s _ _).mpr (Or.inl (keys_iff_installed.mpr ⟨i, hi⟩))
      rw [hm', Bool.and_eq_true, hwas]
      constructor
      · rintro ⟨_, h⟩; exact ⟨h, Or.inl hW⟩
      · rintro ⟨h, _⟩; exact ⟨hex h, h⟩
  · -- not handled
    have hW : ¬ wanted := fun h => hm (hwanted.mp h)
    have hn' : ∀ j ∈ js, j.a.name ≠ m := by
      intro j hj hc
      obtain ⟨x, hx, e⟩ := hjob j hj
      exact hm (by rw [← hc, e]; exact List.mem_map.mpr ⟨x, hx, rfl⟩)
    obtain ⟨gone, q1, _⟩ := runJobs_other E.rules { opts with force := true } js (load s false) s2.st (sane_load hw) j1 m hn'
    replace q1 : mget s2.st.disk m = (mget s.disk m).map (dropInfo gone) := q1
    have hfin : mget r.st.disk m = if m ∈ d then none else (mget s.disk m).map (dropInfo gone) := by
      split
      · rename_i hmd
        cases hg : mget r.st.disk m with
        | none => rfl
        | some i => exact absurd hmd ((b4 (m, i)).mp (mget_some_mem hg)).2
      · rename_i hmd
        rw [← q1]
        cases hg : mget s2.st.disk m with
        | none =>
          cases hg' : mget r.st.disk m with
          | none => rfl
          | some i =>
            have := (mget_iff_mem (wf_msorted hsane.disk)).mpr ((b4 (m, i)).mp (mget_some_mem hg')).1
            rw [hg] at this; simp at this
        | some i => exact (mget_iff_mem (wf_msorted b1.disk)).mpr ((b4 (m, i)).mpr ⟨mget_some_mem hg, hmd⟩)
    refine ⟨?_, fun h => absurd h hW, ?_⟩
    · rw [← mget_isSome_installed, ← mget_isSome_installed, hfin, ← hdel]
      split
      · rename_i hmd; simp [hW, hmd]
      · rename_i hmd; simp [hW, hmd]
    · rw [marked_iff_mget b1.disk, marked_iff_mget hw, hfin, ← hdel]
      split
      · rename_i hmd; simp [hW, hmd]
      · rename_i hmd
        simp only [hW, hmd, not_false_eq_true, or_true, and_true]
        cases mget s.disk m with
        | none => simp
        | some i => simp [dropInfo]

/-! ## A case -/

/-- `ncurses` is installed with an old build, `oldlib` was a dependency and has left the repository. -/
def uSys : Sys :=
  { fs := [(["usr".toList], .dir 0o755), (["usr".toList, "ncurses".toList], .file "old".toList 0o644), (["usr".toList, "oldlib".toList], .file "x".toList 0o644)],
    disk := [("ncurses".toList, { md := ["B3".toList, "Nncurses".toList], files := ["usr/".toList, "usr/ncurses".toList] }),
             ("oldlib".toList, { md := ["B3".toList, "Noldlib".toList, "d1".toList], files := ["usr/".toList, "usr/oldlib".toList] })] }

def withBuild (p : RepoPkg) : RepoPkg := { p with build := 5 }

/-- The repository of C22's examples with build dates, and the database of `uSys`. -/
def uEnv : InstEnv :=
  { xInst [] with net := { (xInst []).net with db := instDb (0, 0) uSys.disk, repo := (xInst []).net.repo.map (fun p => (p.1, withBuild p.2)) } }

theorem uEnv_plan : upgradePlan 0 { uOpts with proceed := true } uEnv.groups uEnv.net.db uEnv.net.db uEnv.net.repo =
    .perform [("ncurses".toList, 5)] ["oldlib".toList] := by decide +kernel

/-- `ncurses` is updated, `oldlib` and its file are gone. **C51** is false for `cards upgrade`: `zlib`, a dependency nobody asked for, is not marked. -/
theorem C51_upgrade_counterexample :
    outcome (cardsUpgrade uEnv 0 { uOpts with proceed := true } xOpts (fun _ => false) uSys (xSess xDeps)) =
      (none, [("ncurses".toList, false), ("zlib".toList, false)]) ∧
    (cardsUpgrade uEnv 0 { uOpts with proceed := true } xOpts (fun _ => false) uSys (xSess xDeps)).1.st.fs.get ["usr".toList, "oldlib".toList] = none := by
  decide +kernel

example : WF uSys.disk ∧ UniqueOwner uSys.disk ∧ SessOk uEnv.net (rArch xDeps) (xSess xDeps) := by
  refine ⟨⟨by decide, ?_⟩, ?_, by intro n hn; simp [xSess] at hn⟩
  · intro p hp
    simp only [uSys, List.mem_cons, List.not_mem_nil, or_false] at hp
    rcases hp with rfl | rfl <;> decide
  · rintro n n' f ⟨i, hi, hf⟩ ⟨j, hj, hg⟩ hd
    simp only [uSys, List.mem_cons, List.not_mem_nil, or_false, Prod.mk.injEq] at hi hj
    have hdir : IsDirName "usr/".toList := ⟨"usr".toList, by decide⟩
    rcases hi with ⟨rfl, rfl⟩ | ⟨rfl, rfl⟩ <;> rcases hj with ⟨rfl, rfl⟩ | ⟨rfl, rfl⟩ <;> try rfl
    all_goals
      simp only [List.mem_cons, List.not_mem_nil, or_false] at hf hg
      rcases hf with rfl | rfl
      · exact absurd hdir hd
      · rcases hg with h | h
        · exact absurd h (by decide)
        · exact absurd h (by decide)

example : InOrder uEnv.net (xSess xDeps).files (rArch xDeps) := by
  intro n p hp
  have hp' : mget ((xNet xDeps xDeps).repo.map (fun p => (p.1, withBuild p.2))) n = some p := hp
  rw [mget_map_val (f := fun _ p => withBuild p)] at hp'
  obtain ⟨q, hq, rfl⟩ := Option.map_eq_some_iff.mp hp'
  exact xNet_inOrder xDeps n q hq

end Cards.Props
