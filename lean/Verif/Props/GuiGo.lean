import Verif.Model.GuiGo
import Verif.Props.InstallAll
import Verif.Props.UpgradeRun
import Verif.Props.Replace
/-!
# C113, C114, C115: "Go !" in flcards
-/
namespace Cards.Props
open Cards Cards.Spec

/-! ## The removals -/

theorem guiRemoveOne_ok {n : Str} {s : InstSt} (h : (guiRemoveOne n s).2 = none) : guiRemoveOne n s = deleteListed false n s := by
  unfold guiRemoveOne at h ⊢
  split
  · rename_i hc; rw [if_pos hc] at h; simp at h
  · rfl

theorem guiRemove_seq {names : List Str} {s r : InstSt} (h : seqSteps guiRemoveOne names s = (r, none)) :
    seqSteps (fun n => deleteListed false n) names s = (r, none) := by
  induction names generalizing s with
  | nil => exact h
  | cons n names ih =>
    obtain ⟨h1, h2⟩ := seqSteps_cons.mp h
    have e := guiRemoveOne_ok h1
    rw [e] at h1 h2
    exact seqSteps_cons.mpr ⟨h1, ih h2⟩

theorem guiRemove_ok {locked : Bool} {names : List Str} {s : Sys} {sess : RepoSess} {r : InstSt} (h : guiRemove locked names s sess = (r, none)) :
    seqSteps (fun n => deleteListed false n) names { st := load s false, sess := sess, count := 0 } = (r, none) ∧ (names = [] ∨ locked = false) := by
  unfold guiRemove at h
  simp only at h
  split at h
  · rename_i hn
    rw [List.isEmpty_iff] at hn
    subst hn
    exact ⟨h, Or.inl rfl⟩
  · split at h
    · simp at h
    · rename_i hl
      exact ⟨guiRemove_seq h, Or.inr (by simpa using hl)⟩

/-- What the removals leave, successful or not. -/
theorem guiRemove_any (locked : Bool) (names : List Str) (s : Sys) (sess : RepoSess) (hw : WF s.disk) :
    WF (guiRemove locked names s sess).1.st.disk ∧ ∀ p ∈ (guiRemove locked names s sess).1.st.disk, p ∈ s.disk := by
  have main : ∀ (names : List Str) (s0 : InstSt), Sane s0.st →
      WF (seqSteps guiRemoveOne names s0).1.st.disk ∧ ∀ p ∈ (seqSteps guiRemoveOne names s0).1.st.disk, p ∈ s0.st.disk := by
    intro names
    induction names with
    | nil => intro s0 hs; exact ⟨hs.disk, fun p hp => hp⟩
    | cons n names ih =>
      intro s0 hs
      simp only [seqSteps]
      obtain ⟨d1, d2⟩ := deleteListed_spec false n s0 hs
      by_cases hc : (!s0.st.nameExists n) = true
      · have : guiRemoveOne n s0 = (s0, some (.run .notInstalled)) := by unfold guiRemoveOne; rw [if_pos hc]
        rw [this]
        exact ⟨hs.disk, fun p hp => hp⟩
      · have : guiRemoveOne n s0 = deleteListed false n s0 := by unfold guiRemoveOne; rw [if_neg hc]
        rw [this]
        cases hd : deleteListed false n s0 with
        | mk s1 e1 =>
          rw [hd] at d1 d2
          cases e1 with
          | some e =>
            have := d2 (by simp)
            simp only at this ⊢
            rw [this.1]
            exact ⟨hs.disk, fun p hp => hp⟩
          | none =>
            obtain ⟨a1, _, _, a4, _⟩ := d1 rfl
            obtain ⟨b1, b2⟩ := ih s1 a1
            refine ⟨b1, fun p hp => ?_⟩
            have := b2 p hp
            simp only at a4
            rw [a4] at this
            exact (mem_merase.mp this).1
  unfold guiRemove
  simp only
  split
  · exact ⟨hw, fun p hp => hp⟩
  · split
    · exact ⟨hw, fun p hp => hp⟩
    · exact main names _ (sane_load hw)

/-! ## The installation -/

theorem guiInstall_ok {E : InstEnv} {opts : Opts} {names : List Str} {s : Sys} {sess : RepoSess} {r : InstSt} (hlist : sess.list = [])
    (h : guiInstall E opts names s sess = (r, none)) :
    ∃ s1 : InstSt, seqSteps (resolveArg E) names { st := load s false, sess := sess, count := 0 } = (s1, none) ∧ s1.st = load s false ∧
      Did E { opts with force := true } s1 r (ListedFiles E r.sess) ∧ r.sess = s1.sess := by
  unfold guiInstall at h
  simp only at h
  split at h
  · rename_i hn
    rw [List.isEmpty_iff] at hn
    subst hn
    simp only [Prod.mk.injEq, and_true] at h
    refine ⟨r, by rw [← h]; rfl, by rw [← h], ?_, rfl⟩
    have : ListedFiles E r.sess = [] := by rw [← h]; simp [ListedFiles, hlist]
    rw [this]
    exact did_nil E _ rfl
  · cases h1 : seqSteps (resolveArg E) names { st := load s false, sess := sess, count := 0 } with
    | mk s1 e1 =>
      rw [h1] at h
      cases e1 with
      | some e => simp at h
      | none =>
        simp only at h
        have hq := (quiet_seq (quiet_resolveArg E) names { st := load s false, sess := sess, count := 0 }).1
        rw [h1] at hq
        obtain ⟨c, d⟩ := did_listed (E := E) (opts := { opts with force := true }) (f := installListed E { opts with force := true })
          (flag := fun t => decide (0 < t)) (m := fun _ => none) (fun i s => rfl) h
        refine ⟨s1, rfl, hq, ?_, d⟩
        unfold ListedFiles
        rw [d]
        exact c

/-- The installation by "Go !" keeps the database well-formed and a non-directory with one owner, successful or not. -/
theorem guiInstall_inv (E : InstEnv) (opts : Opts) (names : List Str) (s : Sys) (sess : RepoSess) (hw : WF s.disk) :
    WF (guiInstall E opts names s sess).1.st.disk ∧ (UniqueOwner s.disk → UniqueOwner (guiInstall E opts names s sess).1.st.disk) := by
  unfold guiInstall
  simp only
  split
  · exact ⟨hw, id⟩
  · have hq := (quiet_seq (quiet_resolveArg E) names { st := load s false, sess := sess, count := 0 }).1
    cases h1 : seqSteps (resolveArg E) names { st := load s false, sess := sess, count := 0 } with
    | mk s1 e1 =>
      rw [h1] at hq
      simp only at hq
      cases e1 with
      | some e => simp only; rw [hq]; exact ⟨hw, id⟩
      | none =>
        simp only
        have hr := reached_seq (E := E) (opts := { opts with force := true }) (f := installListed E { opts with force := true })
          (fun x s => reached_runFile E _ _ _ _ s) s1.sess.list s1
        obtain ⟨js, x, j1, _⟩ := hr
        have hinv := runJobs_inv E.rules { opts with force := true } js s1.st (by rw [hq]; exact sane_load hw)
        rw [j1, hq] at hinv
        exact ⟨hinv.1, hinv.2.2⟩

variable {A : Str → ArchMeta}

/-- The packages after a successful installation of a resolved list. -/
theorem listed_packages (E : InstEnv) (opts : Opts) (roots : List Str) (s : Sys) (files : List (Str × Str)) (s1 r : InstSt) (rx : Matcher)
    (hrx : ∀ k, (E.env k).rx = rx) (hw : WF s.disk) (hu : UniqueOwner s.disk) (hh : Honest E files)
    (hres : Resolved E.net A files roots r.sess) (h1 : s1.st = load s false) (h : Did E opts s1 r (ListedFiles E r.sess)) (m : Str) :
    ((∃ n ∈ roots, NeededFor E.net A n m) → ∃ a, FileOf E files m = some a ∧ a.name = m ∧
      ∃ pre dep post, ListedFiles E r.sess = pre ++ (some a, dep) :: post ∧ (∀ b d, (some b, d) ∈ post → b.name ≠ m) ∧
        Recorded r.st.disk a (fun f => Ships rx E.rules a f ∧ ∀ b d, (some b, d) ∈ post → Ships rx E.rules b f → IsDirName f)) ∧
    ((¬ ∃ n ∈ roots, NeededFor E.net A n m) → (Installed r.st.disk m ↔ Installed s.disk m) ∧
      ∀ i, (m, i) ∈ s.disk → ∃ i', (m, i') ∈ r.st.disk ∧ i'.md = i.md ∧
        ∀ f, f ∈ i'.files ↔ f ∈ i.files ∧ ∀ b d, (some b, d) ∈ ListedFiles E r.sess → Ships rx E.rules b f → IsDirName f) := by
  obtain ⟨p1, p2, p3⟩ := did_records E opts s s1 r rx _ hrx hw h1 h
  have h3 := hres.files
  have g3 := hres.ordered
  have hneed := hres.names
  have hfo : ∀ x ∈ r.sess.list, ∃ a, FileOf E files x.1 = some a ∧ a.name = x.1 := by
    intro x hx
    obtain ⟨a, ha⟩ := p1 (FileOf E r.sess.files x.1, decide (0 < x.2)) (List.mem_map.mpr ⟨x, hx, rfl⟩)
    rw [h3] at ha
    refine ⟨a, ha, ?_⟩
    simp only [FileOf] at ha
    obtain ⟨p, hp, ha⟩ := Option.bind_eq_some_iff.mp ha
    obtain ⟨c, hc, ha⟩ := Option.bind_eq_some_iff.mp ha
    exact (hh x.1 p c a hp hc ha).1
  constructor
  · intro hm
    obtain ⟨x, hx, rfl⟩ := List.mem_map.mp ((hneed m).mpr hm)
    obtain ⟨a, ha, hn⟩ := hfo x hx
    refine ⟨a, ha, hn, ?_⟩
    obtain ⟨u, v, e⟩ := List.append_of_mem hx
    have hL : ListedFiles E r.sess = u.map (fun i => (FileOf E r.sess.files i.1, decide (0 < i.2))) ++
        (some a, decide (0 < x.2)) :: v.map (fun i => (FileOf E r.sess.files i.1, decide (0 < i.2))) := by
      unfold ListedFiles; rw [e, h3]; simp [ha]
    have hpost : ∀ b d, (some b, d) ∈ v.map (fun i => (FileOf E r.sess.files i.1, decide (0 < i.2))) → b.name ≠ x.1 := by
      intro b d hb
      obtain ⟨y, hy, ey⟩ := List.mem_map.mp hb
      obtain ⟨a', ha', hn'⟩ := hfo y (by rw [e]; simp [hy])
      simp only [h3, Prod.mk.injEq] at ey
      rw [ha'] at ey
      simp only [Option.some.injEq] at ey
      rw [← ey.1, hn']
      have hnd := g3.1
      rw [e, List.map_append, List.map_cons, List.nodup_append] at hnd
      intro hc
      exact (List.nodup_cons.mp hnd.2.1).1 (List.mem_map.mpr ⟨y, hy, hc⟩)
    exact ⟨_, _, _, hL, hpost, (p2 _ a _ _ hL (by rw [hn]; exact hpost)).2 hu⟩
  · intro hm
    have hnot : ∀ b d, (some b, d) ∈ ListedFiles E r.sess → b.name ≠ m := by
      intro b d hb hc
      obtain ⟨x, hx, e⟩ := List.mem_map.mp hb
      obtain ⟨a, ha, hn⟩ := hfo x hx
      simp only [h3, Prod.mk.injEq] at e
      rw [ha] at e
      simp only [Option.some.injEq] at e
      apply hm
      rw [← hc, ← e.1, hn]
      exact (hneed x.1).mp (List.mem_map.mpr ⟨x, hx, rfl⟩)
    obtain ⟨_, q1, q2⟩ := p3 m hnot
    exact ⟨q1, q2 hu⟩

/-- The marks after a successful installation of a resolved list. -/
theorem listed_marks (E : InstEnv) (opts : Opts) (roots : List Str) (s : Sys) (files : List (Str × Str)) (s1 r : InstSt)
    (hw : WF s.disk) (hh : Honest E files) (hdate : ∀ n d, Asks E.net A n d → d.2 ≠ 0)
    (hres : Resolved E.net A files roots r.sess) (h1 : s1.st = load s false) (h : Did E opts s1 r (ListedFiles E r.sess)) (m : Str) :
    Marked r.st.disk m ↔ Marked s.disk m ∨ ∃ n, FirstFor E.net A roots m n ∧ n ≠ m := by
  have h3 := hres.files
  obtain ⟨js, j1, j2, _⟩ := h
  rw [h1] at j1
  replace j1 : runJobs E.rules opts js (load s false) = (r.st, none) := j1
  have hfo : ∀ x ∈ r.sess.list, ∃ a, FileOf E files x.1 = some a ∧ a.name = x.1 ∧ "d1".toList ∉ a.md := by
    intro x hx
    have : (FileOf E r.sess.files x.1, decide (0 < x.2)) ∈ ListedFiles E r.sess := List.mem_map.mpr ⟨x, hx, rfl⟩
    rw [← j2] at this
    obtain ⟨j, _, e⟩ := List.mem_map.mp this
    simp only [Prod.mk.injEq] at e
    have ha := e.1.symm
    rw [h3] at ha
    refine ⟨j.a, ha, ?_⟩
    simp only [FileOf] at ha
    obtain ⟨p, hp, ha⟩ := Option.bind_eq_some_iff.mp ha
    obtain ⟨c, hc, ha⟩ := Option.bind_eq_some_iff.mp ha
    exact hh x.1 p c j.a hp hc ha
  have hinv := runJobs_inv E.rules opts js (load s false) (sane_load hw)
  rw [j1] at hinv
  have hjob : ∀ j ∈ js, ∃ x ∈ r.sess.list, j.a.name = x.1 := by
    intro j hj
    have : (some j.a, j.dep) ∈ ListedFiles E r.sess := by rw [← j2]; exact List.mem_map.mpr ⟨j, hj, rfl⟩
    obtain ⟨x, hx, e⟩ := List.mem_map.mp this
    obtain ⟨a, ha, hn, _⟩ := hfo x hx
    simp only [h3, Prod.mk.injEq] at e
    rw [ha] at e
    simp only [Option.some.injEq] at e
    exact ⟨x, hx, by rw [← e.1, hn]⟩
  by_cases hm : m ∈ r.sess.list.map (·.1)
  · obtain ⟨x, hx, rfl⟩ := List.mem_map.mp hm
    obtain ⟨a, ha, hn, hmd⟩ := hfo x hx
    obtain ⟨u, v, e⟩ := List.append_of_mem hx
    have hnd := hres.ordered.1
    rw [e, List.map_append, List.map_cons, List.nodup_append] at hnd
    have j2' : js.map (fun j => (some j.a, j.dep)) = u.map (fun i => (FileOf E r.sess.files i.1, decide (0 < i.2))) ++
        (some a, decide (0 < x.2)) :: v.map (fun i => (FileOf E r.sess.files i.1, decide (0 < i.2))) := by
      rw [j2]; unfold ListedFiles; rw [e, h3]; simp [ha]
    obtain ⟨p, j, q, rfl, e1, e2, e3⟩ := jobs_split j2'
    simp only [Prod.mk.injEq, Option.some.injEq] at e2
    obtain ⟨rfl, hdep⟩ := e2
    have hsub : ∀ (w : List (Str × Nat)) (q : List Job), (∀ y ∈ w, y ∈ r.sess.list) → x.1 ∉ w.map (·.1) →
        q.map (fun j => (some j.a, j.dep)) = w.map (fun i => (FileOf E r.sess.files i.1, decide (0 < i.2))) → ∀ k ∈ q, k.a.name ≠ j.a.name := by
      intro w q hw' hxw eq k hk
      have : (some k.a, k.dep) ∈ w.map (fun i => (FileOf E r.sess.files i.1, decide (0 < i.2))) := by rw [← eq]; exact List.mem_map.mpr ⟨k, hk, rfl⟩
      obtain ⟨y, hy, ey⟩ := List.mem_map.mp this
      obtain ⟨a', ha', hn', _⟩ := hfo y (hw' y hy)
      simp only [h3, Prod.mk.injEq] at ey
      rw [ha'] at ey
      simp only [Option.some.injEq] at ey
      rw [← ey.1, hn', hn]
      intro hc
      exact hxw (List.mem_map.mpr ⟨y, hy, hc⟩)
    have hq := hsub v q (fun y hy => by rw [e]; simp [hy]) (List.nodup_cons.mp hnd.2.1).1 e3
    have hpre := hsub u p (fun y hy => by rw [e]; simp [hy]) (fun hc => hnd.2.2 x.1 hc x.1 (by simp) rfl) e1
    obtain ⟨gone, g1, _⟩ := runJobs_last E.rules opts p j q (load s false) r.st (sane_load hw) rfl j1 hq
    rw [hn] at g1
    have hall : p.all (fun k => k.a.name ≠ x.1) = true := by
      rw [List.all_eq_true]; intro k hk; rw [decide_eq_true_eq, ← hn]; exact hpre k hk
    have hm' : Marked r.st.disk x.1 ↔ (j.dep || ((load s false).nameExists x.1 && wasDep (load s false).mem x.1)) = true := by
      rw [marked_iff_mget hinv.1, g1]
      simp only [hall, Bool.true_and]
      constructor
      · rintro ⟨i, hi, hmk⟩
        simp only [Option.some.injEq] at hi
        subst hi
        rcases mem_newMd.mp hmk with h | h
        · exact h.1
        · exact absurd h hmd
      · intro h; exact ⟨_, rfl, mem_newMd.mpr (Or.inl ⟨h, rfl⟩)⟩
    have hwas : wasDep (load s false).mem x.1 = true ↔ Marked s.disk x.1 := by
      rw [marked_iff_mget hw]
      show wasDep s.disk x.1 = true ↔ _
      unfold wasDep
      cases hg : mget s.disk x.1 with
      | none => simp
      | some i => simp [Info.dependency, d1]
    have hex : Marked s.disk x.1 → (load s false).nameExists x.1 = true := by
      rintro ⟨i, hi, _⟩
      exact (nameExists_load s _ _).mpr (Or.inl (keys_iff_installed.mpr ⟨i, hi⟩))
    obtain ⟨n, hfirst, k1, k2⟩ := hres.entries x hx
    have hd : j.dep = true ↔ ∃ n, FirstFor E.net A roots x.1 n ∧ n ≠ x.1 := by
      rw [hdep, decide_eq_true_eq]
      constructor
      · intro hp
        refine ⟨n, hfirst, fun hc => ?_⟩
        rw [k1 hc.symm] at hp; omega
      · rintro ⟨n', hf', hne⟩
        have : n' = n := firstFor_unique hf' hfirst
        subst this
        obtain ⟨q, _, hasks⟩ := k2 (fun hc => hne hc.symm)
        have := hdate q x hasks
        omega
    rw [hm', Bool.or_eq_true, Bool.and_eq_true, hwas, hd]
    constructor
    · rintro (h | ⟨_, h⟩)
      · exact Or.inr h
      · exact Or.inl h
    · rintro (h | h)
      · exact Or.inr ⟨hex h, h⟩
      · exact Or.inl h
  · have hno : ¬ ∃ n, FirstFor E.net A roots m n ∧ n ≠ m := by
      rintro ⟨n, ⟨pre, post, e, hneed, _⟩, _⟩
      exact hm ((hres.names m).mpr ⟨n, by rw [e]; simp, hneed⟩)
    have hn' : ∀ j ∈ js, j.a.name ≠ m := by
      intro j hj hc
      obtain ⟨x, hx, e⟩ := hjob j hj
      exact hm (by rw [← hc, e]; exact List.mem_map.mpr ⟨x, hx, rfl⟩)
    obtain ⟨gone, q1, _⟩ := runJobs_other E.rules opts js (load s false) r.st (sane_load hw) j1 m hn'
    replace q1 : mget r.st.disk m = (mget s.disk m).map (dropInfo gone) := q1
    rw [marked_iff_mget hinv.1, marked_iff_mget hw, q1]
    cases hg' : mget s.disk m with
    | none => simp [hno]
    | some i => simp [hno, dropInfo]

/-! ## C113 -/

/-- The parts of a successful "Go !". -/
theorem guiGo_ok {E : InstEnv} {junk : Nat × Nat} {opts : Opts} {locked : Bool} {remove install : List Str} {s : Sys} {sess : RepoSess} {r : InstSt}
    (hw : WF s.disk) (ho : InOrder E.net sess.files A) (hlist : sess.list = []) (hcached : sess.cached = [])
    (h : guiGo E junk opts locked remove install s sess = (r, none)) :
    let E' := E.withDb junk (without s.disk remove)
    ∃ s1 s2 : InstSt, WF s1.st.sys.disk ∧ (∀ p, p ∈ s1.st.sys.disk ↔ p ∈ s.disk ∧ p.1 ∉ remove) ∧ s2.st = load s1.st.sys false ∧
      Did E' { opts with force := true } s2 r (ListedFiles E' r.sess) ∧ Resolved E'.net A sess.files install r.sess := by
  intro E'
  unfold guiGo at h
  cases h1 : guiRemove locked remove s sess with
  | mk s1 e1 =>
    rw [h1] at h
    cases e1 with
    | some e => simp at h
    | none =>
      simp only at h
      obtain ⟨h2, _⟩ := guiRemove_ok h1
      obtain ⟨b1, b2, b3, b4, _⟩ := deleteAll_ok (fun _ => false) remove { st := load s false, sess := sess, count := 0 } s1 (sane_load hw) h2
      have hdisk : s1.st.disk = without s.disk remove := by
        apply db_ext (wf_msorted b1.disk) (msorted_without (wf_msorted hw))
        intro n
        have key : ∀ i, mget s1.st.disk n = some i ↔ mget (without s.disk remove) n = some i := by
          intro i
          rw [mget_iff_mem (wf_msorted b1.disk), mget_iff_mem (msorted_without (wf_msorted hw)), b4]
          show (n, i) ∈ s.disk ∧ n ∉ remove ↔ _
          unfold without
          rw [List.mem_filter, decide_eq_true_eq]
        cases hg : mget (without s.disk remove) n with
        | some i => exact (key i).mpr hg
        | none =>
          cases hg' : mget s1.st.disk n with
          | none => rfl
          | some i => rw [(key i).mp hg'] at hg; simp at hg
      rw [hdisk] at h
      have hE : E.withDb junk (without s.disk remove) = E' := rfl
      rw [hE] at h
      have hw1 : WF s1.st.sys.disk := b1.disk
      obtain ⟨s2, r1, r2, r3, r4⟩ := guiInstall_ok hlist h
      have ho' : InOrder E'.net sess.files A := ho
      have hres0 : Resolved E'.net A sess.files [] sess :=
        ⟨by intro n hn; rw [hcached] at hn; simp at hn, rfl, by rw [hlist]; simp [Ordered], by rw [hlist]; simp, by rw [hlist]; simp⟩
      obtain ⟨hres, _⟩ := resolved_names ho' install (s := { st := load s1.st.sys false, sess := sess, count := 0 }) hres0 r1
      rw [List.nil_append, ← r4] at hres
      exact ⟨s1, s2, hw1, b4, r2, r3, hres⟩

/-- **C113.** After a successful "Go !" on a well-formed database with a repository in order:
* the packages installed are those marked to install with everything these need (as the database stands after the removals), and those installed
  before that are not marked for removal;
* each package installed now is recorded as its package file says, with the files it ships but the non-directories a package installed after it
  ships too;
* every other package that stays keeps its META, and loses just the non-directories the packages installed now ship. -/
theorem C113_packages (E : InstEnv) (junk : Nat × Nat) (opts : Opts) (locked : Bool) (remove install : List Str) (s : Sys) (sess : RepoSess) (r : InstSt)
    (rx : Matcher) (hrx : ∀ k, (E.env k).rx = rx) (hw : WF s.disk) (hu : UniqueOwner s.disk)
    (ho : InOrder E.net sess.files A) (hlist : sess.list = []) (hcached : sess.cached = []) (hh : Honest E sess.files)
    (h : guiGo E junk opts locked remove install s sess = (r, none)) (m : Str) :
    let E' := E.withDb junk (without s.disk remove)
    let wanted := ∃ n ∈ install, NeededFor E'.net A n m
    (Installed r.st.disk m ↔ wanted ∨ (Installed s.disk m ∧ m ∉ remove)) ∧
    (wanted → ∃ a, FileOf E sess.files m = some a ∧ a.name = m ∧
      ∃ pre dep post, ListedFiles E r.sess = pre ++ (some a, dep) :: post ∧ (∀ b d, (some b, d) ∈ post → b.name ≠ m) ∧
        Recorded r.st.disk a (fun f => Ships rx E.rules a f ∧ ∀ b d, (some b, d) ∈ post → Ships rx E.rules b f → IsDirName f)) ∧
    (¬ wanted → m ∉ remove → ∀ i, (m, i) ∈ s.disk → ∃ i', (m, i') ∈ r.st.disk ∧ i'.md = i.md ∧
      ∀ f, f ∈ i'.files ↔ f ∈ i.files ∧ ∀ b d, (some b, d) ∈ ListedFiles E r.sess → Ships rx E.rules b f → IsDirName f) := by
  intro E' wanted
  obtain ⟨s1, s2, hw1, b4, r2, r3, hres⟩ := guiGo_ok hw ho hlist hcached h
  have hu1 : UniqueOwner s1.st.sys.disk := unique_sub (fun p hp => ((b4 p).mp hp).1) hu
  obtain ⟨q1, q2⟩ := listed_packages (A := A) E' { opts with force := true } install s1.st.sys sess.files s2 r rx hrx hw1 hu1 hh hres r2 r3 m
  have hmem : ∀ i, (m, i) ∈ s1.st.sys.disk ↔ (m, i) ∈ s.disk ∧ m ∉ remove := fun i => b4 (m, i)
  have hins : Installed s1.st.sys.disk m ↔ Installed s.disk m ∧ m ∉ remove := by
    unfold Installed
    simp only [hmem]
    exact exists_and_right
  refine ⟨?_, q1, ?_⟩
  · by_cases hW : wanted
    · obtain ⟨a, _, hn, _, _, _, _, _, i, hi, _⟩ := q1 hW
      exact ⟨fun _ => Or.inl hW, fun _ => ⟨i, by rw [← hn]; exact hi⟩⟩
    · rw [(q2 hW).1, hins]
      exact ⟨Or.inr, fun h => h.resolve_left hW⟩
  · intro hW hm i hi
    exact (q2 hW).2 i ((hmem i).mpr ⟨hi, hm⟩)

/-- **C113, marks.** With dependencies that carry dates, the packages marked as automatically installed after a successful "Go !" are those marked before
that are not removed, and those installed now for which the first (in the order of names) of the packages to install that needs them is another one. -/
theorem C113_marks (E : InstEnv) (junk : Nat × Nat) (opts : Opts) (locked : Bool) (remove install : List Str) (s : Sys) (sess : RepoSess) (r : InstSt)
    (hw : WF s.disk) (ho : InOrder E.net sess.files A) (hlist : sess.list = []) (hcached : sess.cached = []) (hh : Honest E sess.files)
    (hdate : ∀ n d, Asks (E.withDb junk (without s.disk remove)).net A n d → d.2 ≠ 0)
    (h : guiGo E junk opts locked remove install s sess = (r, none)) (m : Str) :
    Marked r.st.disk m ↔ (Marked s.disk m ∧ m ∉ remove) ∨
      ∃ n, FirstFor (E.withDb junk (without s.disk remove)).net A install m n ∧ n ≠ m := by
  obtain ⟨s1, s2, hw1, b4, r2, r3, hres⟩ := guiGo_ok hw ho hlist hcached h
  rw [listed_marks (E.withDb junk (without s.disk remove)) { opts with force := true } install s1.st.sys sess.files s2 r hw1 hh hdate hres r2 r3 m]
  have : Marked s1.st.sys.disk m ↔ Marked s.disk m ∧ m ∉ remove := by
    unfold Marked
    constructor
    · rintro ⟨i, hi, hd⟩
      obtain ⟨a, b⟩ := (b4 _).mp hi
      exact ⟨⟨i, a, hd⟩, b⟩
    · rintro ⟨⟨i, hi, hd⟩, b⟩
      exact ⟨i, (b4 _).mpr ⟨hi, b⟩, hd⟩
  rw [this]

/-- A "Go !" with nothing to install. -/
theorem guiGo_remove {E : InstEnv} {junk : Nat × Nat} {opts : Opts} {locked : Bool} {remove : List Str} {s : Sys} {sess : RepoSess} {r : InstSt}
    (h : guiGo E junk opts locked remove [] s sess = (r, none)) :
    ∃ s1, seqSteps (fun n => deleteListed false n) remove { st := load s false, sess := sess, count := 0 } = (s1, none) ∧ r.st.sys = s1.st.sys := by
  unfold guiGo at h
  cases h1 : guiRemove locked remove s sess with
  | mk s1 e1 =>
    rw [h1] at h
    cases e1 with
    | some e => simp at h
    | none =>
      simp only [guiInstall, List.isEmpty_nil, if_true, Prod.mk.injEq, and_true] at h
      exact ⟨s1, (guiRemove_ok h1).1, by rw [← h]; rfl⟩

/-- **C113, removals.** After a successful "Go !" that only removes: the packages marked are gone, the records of all others are as before; of the tree
only what the removed packages list and no other package lists may have gone, and every such file that is not a directory has. -/
theorem C113_removed (E : InstEnv) (junk : Nat × Nat) (opts : Opts) (locked : Bool) (remove : List Str) (s : Sys) (sess : RepoSess) (r : InstSt)
    (hw : WF s.disk) (h : guiGo E junk opts locked remove [] s sess = (r, none)) :
    (∀ n ∈ remove, Installed s.disk n) ∧ (∀ p, p ∈ r.st.disk ↔ p ∈ s.disk ∧ p.1 ∉ remove) ∧
    (∀ k, (∀ n ∈ remove, ∀ f, Owns s.disk n f → comps f = k → ∃ m, m ∉ remove ∧ Owns s.disk m f) → r.st.fs.get k = s.fs.get k) ∧
    (∀ f, ¬ IsDirName f → (∃ n ∈ remove, Owns s.disk n f) → (∀ n, Owns s.disk n f → n ∈ remove) →
      (∀ m, s.fs.get (comps f) ≠ some (.dir m)) → r.st.fs.get (comps f) = none) := by
  obtain ⟨s1, h1, h2⟩ := guiGo_remove h
  obtain ⟨b1, b2, b3, b4, b5, b6, _⟩ := deleteAll_ok (fun _ => false) remove _ s1 (sane_load hw) h1
  have hd : r.st.disk = s1.st.disk := congrArg Sys.disk h2
  have hf : r.st.fs = s1.st.fs := congrArg Sys.fs h2
  rw [hd, hf]
  exact ⟨b3, b4, b5, b6⟩

/-- **C113, removals succeed.** When no other process holds the lock, "Go !" removes any selection of installed packages. -/
theorem C113_removes (E : InstEnv) (junk : Nat × Nat) (opts : Opts) (remove : List Str) (s : Sys) (sess : RepoSess) (hw : WF s.disk)
    (hn : remove.Nodup) (hi : ∀ n ∈ remove, Installed s.disk n) : (guiGo E junk opts false remove [] s sess).2 = none := by
  have main : ∀ (names : List Str) (s0 : InstSt), Sane s0.st → names.Nodup → (∀ n ∈ names, Installed s0.st.disk n ∧ s0.st.nameExists n = true) →
      (seqSteps guiRemoveOne names s0).2 = none := by
    intro names
    induction names with
    | nil => intro s0 _ _ _; rfl
    | cons n names ih =>
      intro s0 hs hnd hall
      obtain ⟨hi, hx⟩ := hall n (by simp)
      have e : guiRemoveOne n s0 = deleteListed false n s0 := by unfold guiRemoveOne; rw [if_neg (by simp [hx])]
      have hok : (deleteListed false n s0).2 = none ∧ (deleteListed false n s0).1.st.alias = merase n s0.st.alias := by
        obtain ⟨i, hg⟩ := Option.isSome_iff_exists.mp (mget_isSome_installed.mpr hi)
        unfold deleteListed removeRecord
        simp only [hg, Bool.false_eq_true, if_false]
        exact ⟨trivial, rfl⟩
      obtain ⟨a1, _, _, a4, _⟩ := (deleteListed_spec false n s0 hs).1 hok.1
      simp only [seqSteps, e]
      cases hd : deleteListed false n s0 with
      | mk s1 e1 =>
        rw [hd] at hok a1 a4
        simp only at hok a1 a4
        rw [hok.1]
        simp only
        apply ih s1 a1 (List.nodup_cons.mp hnd).2
        intro m hm
        have hne : m ≠ n := by rintro rfl; exact (List.nodup_cons.mp hnd).1 hm
        obtain ⟨⟨i, hi'⟩, hx'⟩ := hall m (by simp [hm])
        refine ⟨⟨i, by rw [a4]; exact mem_merase.mpr ⟨hi', hne⟩⟩, ?_⟩
        unfold St.nameExists at hx' ⊢
        rw [hok.2, mget_merase, if_neg (Ne.symm hne)]
        exact hx'
  have hrm : (guiRemove false remove s sess).2 = none := by
    unfold guiRemove
    simp only [Bool.false_eq_true, if_false]
    split
    · rfl
    · apply main remove _ (sane_load hw) hn
      intro n hn'
      exact ⟨hi n hn', (nameExists_load s _ _).mpr (Or.inl (keys_iff_installed.mpr (hi n hn')))⟩
  unfold guiGo
  cases h : guiRemove false remove s sess with
  | mk s1 e1 =>
    rw [h] at hrm
    simp only at hrm
    rw [hrm]
    rfl

/-- **C03.** "Go !" in flcards, successful or not, keeps the rule that a non-directory belongs to one package, although it always installs by force. -/
theorem C03_unique_owner_flcards (E : InstEnv) (junk : Nat × Nat) (opts : Opts) (locked : Bool) (remove install : List Str) (s : Sys) (sess : RepoSess)
    (hw : WF s.disk) (hu : UniqueOwner s.disk) :
    WF (guiGo E junk opts locked remove install s sess).1.st.disk ∧ UniqueOwner (guiGo E junk opts locked remove install s sess).1.st.disk := by
  obtain ⟨a1, a2⟩ := guiRemove_any locked remove s sess hw
  unfold guiGo
  cases h : guiRemove locked remove s sess with
  | mk s1 e1 =>
    rw [h] at a1 a2
    simp only at a1 a2
    cases e1 with
    | some e => exact ⟨a1, unique_sub a2 hu⟩
    | none =>
      simp only
      obtain ⟨b1, b2⟩ := guiInstall_inv (E.withDb junk s1.st.disk) opts install s1.st.sys sess a1
      exact ⟨b1, b2 (unique_sub a2 hu)⟩

/-! ## C114 -/

/-- One deletion is the removal of a package without scripts. -/
theorem deleteListed_pkgrm {n : Str} {s : InstSt} (hs : Sane s.st) (h : (deleteListed false n s).2 = none) :
    pkgrm false noScripts n s.st.sys = ((deleteListed false n s).1.st.sys, none) := by
  obtain ⟨a1, _, a3, a4, a5, _⟩ := (deleteListed_spec false n s hs).1 h
  have hx : (load s.st.sys false).nameExists n = true := (nameExists_load _ _ _).mpr (Or.inl (keys_iff_installed.mpr a3))
  obtain ⟨i, hg⟩ := Option.isSome_iff_exists.mp (mget_isSome_installed.mpr a3)
  have hdel : toDelete s.st.disk n [] = toDelete s.st.mem n [] := by
    apply sorted_ext (sorted_toDelete hs.disk) (sorted_toDelete hs.mem)
    intro f
    rw [mem_toDelete_sane hs, mem_toDelete_iff hs.disk]
  have hsys : (deleteListed false n s).1.st.sys = { fs := s.st.fs.removeRev (toDelete s.st.disk n []), disk := merase n s.st.disk } := by
    rw [hdel, ← a5, ← a4]; rfl
  rw [hsys]
  unfold pkgrm runRm
  simp only [hx, Bool.not_true, Bool.false_eq_true, if_false, noScripts]
  have hm : mget (merase n s.st.disk) n = none := by rw [mget_merase, if_pos rfl]
  have hd : mget s.st.sys.disk n = some i := hg
  simp only [removeRecord, removeFiles, load, hd]
  rfl

/-- **C114.** A successful "Go !" that only removes leaves the system as removing the packages one after the other with `pkgrm` would, if the packages
have no scripts. -/
theorem C114_as_pkgrm (E : InstEnv) (junk : Nat × Nat) (opts : Opts) (locked : Bool) (remove : List Str) (s : Sys) (sess : RepoSess) (r : InstSt)
    (hw : WF s.disk) (h : guiGo E junk opts locked remove [] s sess = (r, none)) :
    r.st.sys = runHistory (remove.map (fun n => Cmd.rm false noScripts n)) s := by
  obtain ⟨s1, h1, h2⟩ := guiGo_remove h
  rw [h2]
  have main : ∀ (names : List Str) (s0 : InstSt), Sane s0.st → seqSteps (fun n => deleteListed false n) names s0 = (s1, none) →
      s1.st.sys = runHistory (names.map (fun n => Cmd.rm false noScripts n)) s0.st.sys := by
    intro names
    induction names with
    | nil =>
      intro s0 _ h
      simp only [seqSteps, Prod.mk.injEq, and_true] at h
      subst h; rfl
    | cons n names ih =>
      intro s0 hs h
      obtain ⟨k1, k2⟩ := seqSteps_cons.mp h
      have hs1 := ((deleteListed_spec false n s0 hs).1 k1).1
      rw [ih _ hs1 k2]
      simp only [runHistory, List.map_cons, List.foldl_cons, Cmd.exec]
      rw [deleteListed_pkgrm hs k1]
  exact main remove _ (sane_load hw) h1

/-! ## C115 -/

/-- Every dependency of an installed package is installed. -/
def Closed (db : Db) : Prop := ∀ a b, DependsOn db a b → Installed db b

/-- **C115, exactly when.** Let every dependency of an installed package be installed. After a successful "Go !" that only removes, this holds still
if and only if no package that stays depends on a package marked for removal. -/
theorem C115_exact (E : InstEnv) (junk : Nat × Nat) (opts : Opts) (locked : Bool) (remove : List Str) (s : Sys) (sess : RepoSess) (r : InstSt)
    (hw : WF s.disk) (hc : Closed s.disk) (h : guiGo E junk opts locked remove [] s sess = (r, none)) :
    Closed r.st.disk ↔ ∀ a b, DependsOn s.disk a b → a ∉ remove → b ∉ remove := by
  obtain ⟨_, h2, _⟩ := C113_removed E junk opts locked remove s sess r hw h
  constructor
  · rintro hcl a b ⟨i, hi, hd⟩ ha hb
    obtain ⟨j, hj⟩ := hcl a b ⟨i, (h2 _).mpr ⟨hi, ha⟩, hd⟩
    exact ((h2 _).mp hj).2 hb
  · rintro hk a b ⟨i, hi, hd⟩
    obtain ⟨hi', ha⟩ := (h2 _).mp hi
    obtain ⟨j, hj⟩ := hc a b ⟨i, hi', hd⟩
    exact ⟨j, (h2 _).mpr ⟨hj, hk a b ⟨i, hi', hd⟩ ha⟩⟩

/-- **C115 fails.** flcards removes the library an installed program needs, and a package of the collection `base`; `cards remove` refuses both. -/
theorem C115_counterexample : ∃ s : Sys, WF s.disk ∧ UniqueOwner s.disk ∧ Closed s.disk ∧ DependsOn s.disk "app".toList "libx".toList ∧
    ∃ r, guiGo (xInst []) (0, 0) xOpts false ["glibc".toList, "libx".toList] [] s (xSess xDeps) = (r, none) ∧
      Installed r.st.disk "app".toList ∧ ¬ Installed r.st.disk "libx".toList ∧ ¬ Installed r.st.disk "glibc".toList ∧
      cardsRemove (rEnv []) ["libx".toList] s = some (s, some .inUse) ∧ cardsRemove (rEnv []) ["glibc".toList] s = some (s, some .inBase) := by
  refine ⟨{ fs := [], disk := [rPkg "app" ["Rlibx1700000000"], rPkg "glibc" ["cbase"], rPkg "libx" []] }, ⟨by decide, ?_⟩, ?_, ?_,
    ⟨_, List.mem_cons_self .., "1700000000".toList, by decide, by decide⟩, _, rfl, ?_, ?_, ?_, rfl, rfl⟩
  · intro p hp
    simp only [List.mem_cons, List.not_mem_nil, or_false] at hp
    rcases hp with rfl | rfl | rfl <;> decide
  · rintro n n' f ⟨i, hi, hf⟩ _ _
    exfalso
    simp only [List.mem_cons, List.not_mem_nil, or_false, rPkg, Prod.mk.injEq] at hi
    rcases hi with ⟨_, rfl⟩ | ⟨_, rfl⟩ | ⟨_, rfl⟩ <;> simp at hf
  · rintro a b ⟨i, hi, e, he, hl⟩
    simp only [List.mem_cons, List.not_mem_nil, or_false, rPkg, Prod.mk.injEq] at hi
    rcases hi with ⟨_, rfl⟩ | ⟨_, rfl⟩ | ⟨_, rfl⟩
    · simp only [List.map_cons, List.map_nil, List.mem_singleton] at hl
      have h1 : 'R' :: b ++ e = 'R' :: ("libx".toList ++ "1700000000".toList) := hl
      rw [List.cons_append, List.cons.injEq] at h1
      have := (List.append_inj' h1.2 (by rw [he]; decide)).1
      subst this
      rw [← keys_iff_installed]; decide
    · have h1 : 'R' :: b ++ e = "cbase".toList := List.mem_singleton.mp hl
      exact absurd (congrArg List.head? h1) (by simp)
    · simp at hl
  · rw [← keys_iff_installed]; decide +kernel
  · rw [← keys_iff_installed]; decide +kernel
  · rw [← keys_iff_installed]; decide +kernel

/-- **C114 is about packages without scripts.** The scripts of a package are not run: `pkgrm` leaves what the script made, "Go !" does not. -/
theorem C114_scripts_counterexample : ∃ (s : Sys) (sc : RmScripts), WF s.disk ∧ ∃ r,
    guiGo (xInst []) (0, 0) xOpts false ["app".toList] [] s (xSess xDeps) = (r, none) ∧ (pkgrm false sc "app".toList s).2 = none ∧
      (pkgrm false sc "app".toList s).1 ≠ r.st.sys := by
  refine ⟨{ fs := [], disk := [rPkg "app" []] }, { pre := fun fs => (fs, true), post := fun fs => fs.set ["done".toList] (.dir 0o755) }, ⟨by decide, ?_⟩,
    _, rfl, by decide +kernel, ?_⟩
  · intro p hp
    simp only [List.mem_cons, List.not_mem_nil, or_false] at hp
    subst hp; decide
  · intro h
    have := congrArg Sys.fs h
    revert this
    decide +kernel

/-! ## A case: `bar` goes, `ncurses` comes with what it needs -/

theorem goCase : outcome (guiGo (xInst []) (0, 0) xOpts false ["bar".toList] ["ncurses".toList] xSys (xSess xDeps)) =
    (none, [("foo".toList, true), ("ncurses".toList, false), ("zlib".toList, true)]) := by
  decide +kernel

/-- The hypotheses of `C113_packages` and `C114_as_pkgrm` hold of it. -/
example : WF xSys.disk ∧ (∀ k, ((xInst []).env k).rx = xEnv.rx) ∧ InOrder (xInst []).net (xSess xDeps).files (rArch xDeps) ∧
    (xSess xDeps).list = [] ∧ (xSess xDeps).cached = [] ∧ Honest (xInst []) (xSess xDeps).files ∧
    (guiGo (xInst []) (0, 0) xOpts false ["bar".toList] ["ncurses".toList] xSys (xSess xDeps)).2 = none ∧
    (guiGo (xInst []) (0, 0) xOpts false ["bar".toList] [] xSys (xSess xDeps)).2 = none :=
  ⟨xSys_wf, fun _ => rfl, xNet_inOrder xDeps, rfl, rfl, xInst_honest, congrArg Prod.fst goCase, by decide +kernel⟩

/-- A package marked for removal comes back when a package to install needs it. -/
example : outcome (guiGo (xInst []) (0, 0) xOpts false ["bar".toList, "zlib".toList] ["ncurses".toList]
    { xSys with disk := mset "zlib".toList { md := ["B3".toList, "Nzlib".toList], files := [] } xSys.disk } (xSess xDeps)) =
    (none, [("foo".toList, true), ("ncurses".toList, false), ("zlib".toList, true)]) := by
  decide +kernel

end Cards.Props
