import Verif.Props.InstallAll
/-!
# C82: `cards install` that stops in the middle
-/
namespace Cards.Props
open Cards Cards.Spec

variable {A : Str → ArchMeta}

/-- Either nothing was done, or the list was resolved and the rest of the run is the loop over the list. -/
theorem install_phases {E : InstEnv} {opts : Opts} {args : List Str} {s : Sys} {sess : RepoSess}
    (ho : InOrder E.net sess.files A) (hr : SessOk E.net A sess) (hlist : sess.list = []) (hl : ∀ x ∈ args, E.localFile x = none) :
    ((cardsInstall E opts args s sess).1.st = load s false ∧ (cardsInstall E opts args s sess).2 ≠ none) ∨
    ∃ s2 : InstSt, s2.st = load s false ∧
      (∃ subs, (∀ n, n ∈ subs ↔ ∃ j g, (∃ q ∈ askedList E.net.repo (load s false).nameExists args, NeededFor E.net A q j) ∧ g ∈ E.groups ∧
          n = j ++ '.' :: g ∧ n ∈ keys E.net.repo) ∧
        Resolved E.net A sess.files (askedList E.net.repo (load s false).nameExists args ++ subs) s2.sess) ∧
      cardsInstall E opts args s sess = seqSteps (installListed E opts) s2.sess.list s2 := by
  have hargs : (seqSteps (installArg E opts) args { st := load s false, sess := sess, count := 0 }).1.st = load s false := by
    have : Quiet (fun x (t : InstSt) => if x ∈ args then installArg E opts x t else (t, none)) := by
      intro x t
      show _ ∧ _
      by_cases hx : x ∈ args
      · simp only [hx, if_true]
        unfold installArg
        split
        · exact quiet_seq (quiet_members E) _ t
        · rw [hl x hx]; exact quiet_resolveArg E x t
      · simp [hx]
    have hcong : ∀ (xs : List Str) (t : InstSt), (∀ x ∈ xs, x ∈ args) →
        seqSteps (fun x (t : InstSt) => if x ∈ args then installArg E opts x t else (t, none)) xs t = seqSteps (installArg E opts) xs t := by
      intro xs
      induction xs with
      | nil => intro t _; rfl
      | cons x xs ih =>
        intro t hx
        simp only [seqSteps, hx x (by simp), if_true]
        cases installArg E opts x t with
        | mk t' e =>
          cases e with
          | some e => rfl
          | none => exact ih t' (fun y hy => hx y (by simp [hy]))
    rw [← hcong args _ (fun x hx => hx)]
    exact (quiet_seq this args _).1
  unfold cardsInstall
  simp only
  split
  · exact Or.inl ⟨rfl, by simp⟩
  · have h0 : Resolved E.net A sess.files [] sess :=
      ⟨hr, rfl, by rw [hlist]; simp [Ordered], by rw [hlist]; simp, by rw [hlist]; simp⟩
    cases h1 : seqSteps (installArg E opts) args { st := load s false, sess := sess, count := 0 } with
    | mk s1 e1 =>
      rw [h1] at hargs
      cases e1 with
      | some e => exact Or.inl ⟨hargs, by simp⟩
      | none =>
        simp only
        obtain ⟨r1, q1⟩ := resolved_args ho args hl h0 h1
        rw [List.nil_append] at r1
        have hq := quiet_addGroupPackages E s1
        cases h2 : addGroupPackages E s1 with
        | mk s2 e2 =>
          rw [h2] at hq
          cases e2 with
          | some e => exact Or.inl ⟨hq.1.trans hargs, by simp⟩
          | none =>
            simp only
            right
            refine ⟨s2, hq.1.trans hargs, ?_, rfl⟩
            unfold addGroupPackages at h2
            simp only at h2
            rw [prefetch_present ho _ s1 r1.files] at h2
            simp only at h2
            obtain ⟨r2, q2⟩ := resolved_names ho _ r1 h2
            refine ⟨groupNames E s1.sess.list, ?_, r2⟩
            intro n
            rw [mem_groupNames]
            simp only [r1.names]

/-- What the loop over the list has done, however it ends. -/
theorem listed_loop {E : InstEnv} {opts : Opts} {files : List (Str × Str)} (hh : Honest E files) (list : List (Str × Nat)) (s : InstSt) (hs : Sane s.st)
    (hf : s.sess.files = files) :
    ∃ done rest, list = done ++ rest ∧ (∀ x ∈ done, x.1 ∈ keys E.net.repo) ∧ ((seqSteps (installListed E opts) list s).2 = none → rest = []) ∧
      ((seqSteps (installListed E opts) list s).2 ≠ none → rest ≠ []) ∧
      (∀ n, (∀ x ∈ rest.head?, n ≠ x.1) →
        (Installed (seqSteps (installListed E opts) list s).1.st.disk n ↔ Installed s.st.disk n ∨ n ∈ done.map (·.1))) ∧
      (∀ x ∈ rest.head?, Installed (seqSteps (installListed E opts) list s).1.st.disk x.1 → Installed s.st.disk x.1 ∨ x.1 ∈ done.map (·.1)) := by
  induction list generalizing s with
  | nil => exact ⟨[], [], rfl, by simp, fun _ => rfl, by simp [seqSteps], by simp [seqSteps], by simp⟩
  | cons x xs ih =>
    simp only [seqSteps]
    cases hx : installListed E opts x s with
    | mk s1 e =>
      unfold installListed runFile at hx
      have hname : ∀ a, listedFile E s x.1 = some a → a.name = x.1 := by
        intro a ha
        rw [listedFile_eq, hf] at ha
        simp only [FileOf] at ha
        obtain ⟨p, hp, ha⟩ := Option.bind_eq_some_iff.mp ha
        obtain ⟨c, hc, ha⟩ := Option.bind_eq_some_iff.mp ha
        exact (hh x.1 p c a hp hc ha).1
      cases ha : listedFile E s x.1 with
      | none =>
        rw [ha] at hx
        simp only [Prod.mk.injEq] at hx
        obtain ⟨rfl, rfl⟩ := hx
        exact ⟨[], x :: xs, rfl, by simp, by simp, by simp, by simp, by simp⟩
      | some a =>
        rw [ha] at hx
        simp only [Prod.mk.injEq] at hx
        obtain ⟨rfl, rfl⟩ := hx
        have hn := hname a ha
        obtain ⟨g1, g2, g3, _⟩ := runJob_spec E.rules opts { env := E.env s.count, a := a, dep := decide (0 < x.2), modeName := a.name } s.st hs
        simp only [Option.getD_none]
        dsimp only at g1 g2 g3
        generalize hrj : runJob E.rules opts { env := E.env s.count, a := a, dep := decide (0 < x.2), modeName := a.name } s.st = rj at *
        cases hj : rj.2 with
        | some e =>
          have := g3 (by simp [hj])
          refine ⟨[], x :: xs, rfl, by simp, by simp, by simp, ?_, ?_⟩
          · intro n hne
            have hne : n ≠ x.1 := hne x (by simp)
            simp only [Option.map_some, List.map_nil, List.not_mem_nil, or_false]
            rw [← mget_isSome_installed, ← mget_isSome_installed]
            rcases this n with h | h | ⟨h, _⟩
            · rw [h]
            · rw [h, Option.isSome_map]
            · exact absurd (h.trans hn) hne
          · intro y hy
            simp only [List.head?_cons, Option.mem_def, Option.some.injEq] at hy
            subst hy
            simp only [Option.map_some, List.map_nil, List.not_mem_nil, or_false]
            rw [← mget_isSome_installed, ← mget_isSome_installed]
            rcases this x.1 with h | h | ⟨_, h⟩
            · rw [h]; exact id
            · rw [h, Option.isSome_map]; exact id
            · rw [h]; simp
        | none =>
          simp only [Option.map_none]
          obtain ⟨a1, _, _, b1, _, b3, b4, _⟩ := g2 hj
          have hstep : ∀ n, Installed rj.1.disk n ↔
              Installed s.st.disk n ∨ n = x.1 := by
            intro n
            rw [← mget_isSome_installed, ← mget_isSome_installed]
            by_cases hne : n = a.name
            · rw [hne, show mget _ a.name = _ from b4]
              simp [hn]
            · rw [b1 n hne, Option.isSome_map]
              rw [hn] at hne
              simp [hne]
          obtain ⟨done, rest, e1, e0, e2, e3, e4, e5⟩ := ih { s with st := rj.1, count := s.count + 1 } a1 hf
          have hrepo : x.1 ∈ keys E.net.repo := by
            rw [listedFile_eq] at ha
            simp only [FileOf] at ha
            obtain ⟨p, hp, _⟩ := Option.bind_eq_some_iff.mp ha
            exact mem_keys_iff.mpr ⟨p, hp⟩
          refine ⟨x :: done, rest, by rw [e1]; rfl, by simp only [List.mem_cons]; rintro y (rfl | hy); exacts [hrepo, e0 y hy], e2, e3, ?_, ?_⟩
          · intro n hne
            rw [e4 n hne]
            simp only [hstep, List.map_cons, List.mem_cons, or_assoc]
          · intro y hy hi
            have := e5 y hy hi
            simp only [hstep, or_assoc] at this
            simpa only [List.map_cons, List.mem_cons] using this

/-- **C82.** However `cards install` of names from a repository in order ends - also when it stops at an error in the middle - every package that is
installed and was not before has its dependencies installed, except perhaps one (`lost`): a package installed before, to be upgraded, whose upgrade is what
failed. No other package disappears, what appears was wanted, and a successful run loses nothing. -/
theorem C82_dependencies_there_partial (E : InstEnv) (opts : Opts) (args : List Str) (s : Sys) (sess : RepoSess) (hw : WF s.disk)
    (hm : MSorted E.net.repo) (ho : InOrder E.net sess.files A) (hr : SessOk E.net A sess) (hlist : sess.list = [])
    (hl : ∀ x ∈ args, E.localFile x = none) (hh : Honest E sess.files) (hdb : ∀ n ∈ keys E.net.db, Installed s.disk n) :
    let r := cardsInstall E opts args s sess
    ∃ lost : List Str, lost.length ≤ 1 ∧ (r.2 = none → lost = []) ∧
      (∀ n ∈ lost, Installed s.disk n ∧ ¬ Installed r.1.st.disk n ∧ Wanted E A s.disk args n) ∧
      (∀ m, Installed r.1.st.disk m → ¬ Installed s.disk m → Wanted E A s.disk args m ∧
        ∀ d ∈ (A m).deps, d.1 ≠ m → Installed r.1.st.disk d.1 ∨ d.1 ∈ lost) ∧
      (∀ n, Installed s.disk n → Installed r.1.st.disk n ∨ n ∈ lost) := by
  intro r
  rcases install_phases (opts := opts) (s := s) ho hr hlist hl with ⟨h1, h2⟩ | ⟨s2, h1, ⟨subs, h2, h3⟩, h4⟩
  · refine ⟨[], by simp, fun _ => rfl, by simp, ?_, ?_⟩
    · intro m hi hn
      exact absurd (show Installed s.disk m by have : r.1.st = load s false := h1; rw [this] at hi; exact hi) hn
    · intro n hn
      left
      have : r.1.st = load s false := h1
      rw [this]; exact hn
  · have hload : ∀ n, Installed s2.st.disk n ↔ Installed s.disk n := by intro n; rw [h1]; rfl
    obtain ⟨done, rest, e1, e0, e2, e3, e4, e5⟩ := listed_loop (opts := opts) hh s2.sess.list s2 (by rw [h1]; exact sane_load hw) h3.files
    rw [← h4] at e2 e3 e4 e5
    simp only [hload] at e4 e5
    have hwant : ∀ m, m ∈ s2.sess.list.map (·.1) → Wanted E A s.disk args m := by
      intro m hmem
      obtain ⟨n, hn, hneed⟩ := (h3.names m).mp hmem
      have hargs : ∀ m, (∃ q ∈ askedList E.net.repo (load s false).nameExists args, NeededFor E.net A q m) → NeededByArgs E A s.disk args m := by
        rintro m ⟨q, hq, hm'⟩
        obtain ⟨x, hx, ha⟩ := (mem_askedList hm).mp hq
        exact ⟨x, hx, q, ha, hm'⟩
      rcases List.mem_append.mp hn with hn | hn
      · exact Or.inl (hargs m ⟨n, hn, hneed⟩)
      · obtain ⟨j, g, a1, a2, a3, a4⟩ := (h2 n).mp hn
        exact Or.inr ⟨n, ⟨j, g, hargs j a1, a2, a3, a4⟩, hneed⟩
    have hord := h3.ordered
    rw [e1] at hord
    -- who may be lost
    have hall : ∀ n, Installed s.disk n ∨ n ∈ done.map (·.1) → Installed r.1.st.disk n ∨
        (∃ x ∈ rest.head?, n = x.1) := by
      intro n hn
      by_cases hx : ∃ x ∈ rest.head?, n = x.1
      · exact Or.inr hx
      · left
        exact (e4 n (fun x hx' hc => hx ⟨x, hx', hc⟩)).mpr hn
    have hnd : ∀ x ∈ rest.head?, x.1 ∉ done.map (·.1) := by
      intro x hx hd
      obtain ⟨t, rfl⟩ : ∃ t, rest = x :: t := by
        cases rest with
        | nil => simp at hx
        | cons y t => simp only [List.head?_cons, Option.mem_def, Option.some.injEq] at hx; subst hx; exact ⟨t, rfl⟩
      have := hord.1
      rw [List.map_append, List.map_cons, List.nodup_append] at this
      exact this.2.2 _ hd _ (by simp) rfl
    let lost : List Str := (rest.head?.toList.map (·.1)).filter (fun n => decide (n ∈ keys s.disk) && !decide (n ∈ keys r.1.st.disk))
    have hki : ∀ (db : Db) n, n ∈ keys db ↔ Installed db n := fun db n => keys_iff_installed
    have hlost : ∀ n, n ∈ lost ↔ (∃ x ∈ rest.head?, n = x.1) ∧ Installed s.disk n ∧ ¬ Installed r.1.st.disk n := by
      intro n
      simp only [lost, List.mem_filter, List.mem_map, Option.mem_toList, Bool.and_eq_true, decide_eq_true_eq, Bool.not_eq_true', decide_eq_false_iff_not, hki]
      constructor
      · rintro ⟨⟨x, hx, rfl⟩, h⟩; exact ⟨⟨x, hx, rfl⟩, h⟩
      · rintro ⟨⟨x, hx, rfl⟩, h⟩; exact ⟨⟨x, hx, rfl⟩, h⟩
    have hkeep : ∀ n, Installed s.disk n → Installed r.1.st.disk n ∨ n ∈ lost := by
      intro n hn
      by_cases hi : Installed r.1.st.disk n
      · exact Or.inl hi
      · rcases hall n (Or.inl hn) with h | h
        · exact Or.inl h
        · exact Or.inr ((hlost n).mpr ⟨h, hn, hi⟩)
    refine ⟨lost, ?_, ?_, ?_, ?_, hkeep⟩
    · refine Nat.le_trans (List.length_filter_le _ _) ?_
      rw [List.length_map]
      cases rest.head? <;> simp
    · intro he
      have : rest = [] := e2 he
      simp [lost, this]
    · intro n hn
      obtain ⟨⟨x, hx, rfl⟩, b, c⟩ := (hlost n).mp hn
      refine ⟨b, c, hwant x.1 ?_⟩
      rw [e1]
      exact List.mem_map_of_mem (List.mem_append_right _ (List.mem_of_mem_head? hx))
    · intro m hi hni
      have hmd : m ∈ done.map (·.1) := by
        by_cases hx : ∃ x ∈ rest.head?, m = x.1
        · obtain ⟨x, hx, rfl⟩ := hx
          exact (e5 x hx hi).resolve_left hni
        · exact ((e4 m (fun x hx' hc => hx ⟨x, hx', hc⟩)).mp hi).resolve_left hni
      refine ⟨hwant m (by rw [e1, List.map_append]; exact List.mem_append_left _ hmd), ?_⟩
      intro d hd hne
      by_cases hsat : Satisfied E.net.db d
      · obtain ⟨_, i, hi', _⟩ := hsat
        exact hkeep d.1 (hdb d.1 (mem_keys_iff.mpr ⟨i, hi'⟩))
      · left
        obtain ⟨x, hx, rfl⟩ := List.mem_map.mp hmd
        obtain ⟨u, v, huv⟩ := List.append_of_mem hx
        have hcur : ¬ Current E.net.db (A x.1) := by
          rintro ⟨i, hi', _⟩
          obtain ⟨p, hp⟩ := mem_keys_iff.mp (e0 x hx)
          obtain ⟨_, _, _, _, hAn, _⟩ := ho x.1 p hp
          rw [hAn] at hi'
          exact hni (hdb x.1 (mem_keys_iff.mpr ⟨i, hi'⟩))
        have hbefore := hord.2 u x.1 x.2 (v ++ rest) (by rw [huv]; simp) d ⟨e0 x hx, hcur, hd, hne, hsat⟩
        have hdone : d.1 ∈ done.map (·.1) := by rw [huv, List.map_append]; exact List.mem_append_left _ hbefore
        rcases hall d.1 (Or.inr hdone) with h | ⟨y, hy, hc⟩
        · exact h
        · exact absurd (hc ▸ hdone) (hnd y hy)

/-! ## Cases -/

/-- `xSys` with `glibc` of build 7. -/
def zSys : Sys := { xSys with disk := xSys.disk ++ [("glibc".toList, { md := ["Nglibc".toList, "B7".toList, "V1".toList, "r1".toList], files := ["lib/".toList, "lib/libc".toList] })] }

/-- The database cannot be locked for the installation of the package number `k`. -/
def zInst (deps : List (Str × List (Str × Nat))) (k : Nat) : InstEnv where
  net := { xNet deps deps with db := instDb (0, 0) zSys.disk }
  pkgOf := fun c => if c ∈ keys deps then some (xArch (String.ofList c) ["usr/", "usr/" ++ String.ofList c]) else none
  localFile := fun _ => none
  fileExists := fun _ => false
  env := fun i => if i = k then { xEnv with lockInstall := false } else xEnv
  rules := []
  groups := []
  fuel := 10

theorem zSys_wf : WF zSys.disk := by
  refine ⟨by decide, ?_⟩
  intro p hp
  simp only [zSys, xSys, List.cons_append, List.nil_append, List.mem_cons, List.not_mem_nil, or_false] at hp
  rcases hp with rfl | rfl | rfl <;> decide

theorem zInst_honest (deps : List (Str × List (Str × Nat))) (k : Nat) (h : ∀ c ∈ keys deps, (xArch (String.ofList c) ["usr/", "usr/" ++ String.ofList c]).name = c ∧
    "d1".toList ∉ (xArch (String.ofList c) ["usr/", "usr/" ++ String.ofList c]).md) : Honest (zInst deps k) (xSess deps).files := by
  intro m p c a hp hc ha
  have hp' : mget (deps.map (fun p => (p.1, xPkg p.1 p.2))) m = some p := hp
  rw [mget_map_val (f := xPkg)] at hp'
  cases hg : mget deps m with
  | none => rw [hg] at hp'; simp at hp'
  | some ds =>
    rw [hg] at hp'
    simp only [Option.map_some, Option.some.injEq] at hp'
    subst hp'
    have hm : m ∈ keys deps := mem_keys_iff.mpr ⟨ds, hg⟩
    have hc' : c = m := by
      have : mget (xFiles deps) (xPkg m ds).path = some m := xFiles_get deps m hm
      have hc2 : mget (xFiles deps) (xPkg m ds).path = some c := hc
      rw [this] at hc2
      exact (Option.some.inj hc2).symm
    subst hc'
    have ha' : (if c ∈ keys deps then some (xArch (String.ofList c) ["usr/", "usr/" ++ String.ofList c]) else none) = some a := ha
    rw [if_pos hm] at ha'
    simp only [Option.some.injEq] at ha'
    subst ha'
    exact h c hm

/-- The third package of `mutt` cannot be installed: `zlib` and `ncurses`, which needs it, are; the hypotheses of C82 hold. -/
example : outcome (cardsInstall (zInst xDeps 2) xOpts ["mutt".toList] zSys (xSess xDeps)) =
      (some (.run .locked), [("bar".toList, false), ("foo".toList, true), ("glibc".toList, false), ("ncurses".toList, true), ("zlib".toList, true)]) ∧
    WF zSys.disk ∧ MSorted (zInst xDeps 2).net.repo ∧ InOrder (zInst xDeps 2).net (xSess xDeps).files (rArch xDeps) ∧
    SessOk (zInst xDeps 2).net (rArch xDeps) (xSess xDeps) ∧ Honest (zInst xDeps 2) (xSess xDeps).files ∧
    ∀ n ∈ keys (zInst xDeps 2).net.db, Installed zSys.disk n := by
  refine ⟨by decide +kernel, zSys_wf, by unfold MSorted Sorted; decide +kernel, xNet_inOrder xDeps, by intro n hn; simp [xSess] at hn,
    zInst_honest _ _ (by decide +kernel), ?_⟩
  intro n hn
  have : keys (zInst xDeps 2).net.db = keys zSys.disk := by decide +kernel
  rw [this] at hn
  exact keys_iff_installed.mp hn

/-- `mutt` needs `glibc` of build 7, `zz` of build 9. -/
def zDeps : List (Str × List (Str × Nat)) := [("glibc".toList, []), ("mutt".toList, [("glibc".toList, 7)]), ("zz".toList, [("glibc".toList, 9)])]

/-- **C82 fails for a package whose upgrade fails**: `mutt` is installed, then the upgrade of the `glibc` it needs, for `zz`, loses the record of `glibc`. -/
theorem C82_lost_counterexample : outcome (cardsInstall (zInst zDeps 1) xOpts ["mutt".toList, "zz".toList] zSys (xSess zDeps)) =
    (some (.run .locked), [("bar".toList, false), ("foo".toList, true), ("mutt".toList, false)]) ∧ ("glibc".toList, 7) ∈ (rArch zDeps "mutt".toList).deps := by
  decide +kernel

end Cards.Props
