import Verif.Props.Install
/-!
# C50, C51: `cards install` of one package from a repository in order
-/
namespace Cards.Props
open Cards Cards.Spec

variable {net : Net} {A : Str → ArchMeta}

/-- Every entry of the result is the package asked for, or was asked for by a needed package, with that date. -/
theorem loop_dates {files : List (Str × Str)} (ho : InOrder net files A) {root : Str} (fuel : Nat) (s s' : ResSt)
    (hl : Loop net A files root s) (h : depLoop net fuel s = .ok s')
    (hd : ∀ x, x ∈ s.work ∨ x ∈ s.out → x = (root, 0) ∨ ∃ n, NeededFor net A root n ∧ Asks net A n x) :
    ∀ x ∈ s'.out, x = (root, 0) ∨ ∃ n, NeededFor net A root n ∧ Asks net A n x := by
  induction fuel generalizing s with
  | zero => simp [depLoop] at h
  | succ fuel ih =>
    cases hw : s.work with
    | nil => rw [depLoop, hw] at h; injection h with h; subst h; exact fun x hx => hd x (Or.inr hx)
    | cons x w =>
      rw [depLoop_cons fuel hw] at h
      by_cases hn : x.1 ∈ keys net.repo
      · obtain ⟨s1, h1, h2, _, h4⟩ := loop_step ho hl hw hn
        obtain ⟨s1', h1', _, h3, _⟩ := step_fine (s := { s with work := w }) ho ⟨hl.fine.files, hl.fine.cached⟩ hn
          (hl.unsat x (by rw [hw]; simp)) (fun y hy => hl.unsat y (by rw [hw]; exact List.mem_cons_of_mem _ hy))
        rw [h1] at h1'; injection h1' with h1'; subst h1'
        rw [h1] at h
        refine ih s1 h2 h ?_
        rintro y (hy | hy)
        · rcases (h4 y).mp hy with hy | hy
          · exact hd y (Or.inl (by rw [hw]; exact List.mem_cons_of_mem _ hy))
          · exact Or.inr ⟨x.1, hl.workNeeded x (by rw [hw]; simp), hy⟩
        · rw [h3] at hy
          rcases List.mem_append.mp hy with hy | hy
          · exact hd y (Or.inr hy)
          · rw [List.mem_singleton.mp hy]; exact hd x (Or.inl (by rw [hw]; simp))
      · rw [step_missing (files := files) (A := A) (s := { s with work := w }) ⟨hl.fine.files, hl.fine.cached⟩ hn] at h
        simp [bind, Except.bind] at h

/-- The list made for one package: the package itself with date 0, the others with a date some needed package asks for. -/
theorem resolved_entries {r r' : RepoSess} (ho : InOrder net r.files A) (fuel : Nat) (root : Str) (hr : SessOk net A r)
    (hl : r.list = []) (h : generateDeps net fuel root r = .ok r') :
    ∀ x ∈ r'.list, (x.1 = root → x.2 = 0) ∧ (x.1 ≠ root → ∃ n, NeededFor net A root n ∧ Asks net A n x) := by
  have hall := C22_missing r.files ho fuel root r r' hr rfl h
  have hcyc : ¬ Cyclic net A root := by
    intro hc
    rw [C22_cycle_never_ends r.files ho root r hr rfl hall hc fuel] at h
    simp at h
  unfold generateDeps at h
  cases hs : depLoop net fuel { work := [(root, 0)], cached := r.cached, out := [], files := r.files, clock := r.clock } with
  | error e => rw [hs] at h; simp at h
  | ok s =>
    rw [hs] at h
    injection h with h
    subst h
    have hdates := loop_dates ho fuel _ s (loop_start root r.cached r.clock hr) hs (by
      intro x hx; simp at hx; exact Or.inl hx)
    intro x hx
    obtain ⟨new, e, h2, _⟩ := merge_step r.list s.out.reverse
    simp only [mergeDeps] at hx
    rw [e, hl, List.nil_append] at hx
    have hx' := hdates x (List.mem_reverse.mp (h2 x hx))
    constructor
    · intro hx1
      rcases hx' with h | ⟨n, hn, ha⟩
      · rw [h]
      · exfalso
        apply hcyc
        refine ⟨n, hn, Relation.TransGen.head' (b := root) ?_ hn⟩
        obtain ⟨a, b⟩ := x
        simp only at hx1; subst hx1
        exact ⟨b, ha⟩
    · intro hx1
      rcases hx' with h | h
      · rw [h] at hx1; simp at hx1
      · exact h

/-- The archives are those of the packages they are listed as, and do not claim to be automatically installed. -/
def Honest (E : InstEnv) (files : List (Str × Str)) : Prop :=
  ∀ m p c a, mget E.net.repo m = some p → mget files p.path = some c → E.pkgOf c = some a → a.name = m ∧ "d1".toList ∉ a.md

/-- What a successful `cards install` of one package handles. -/
theorem install_one {E : InstEnv} {opts : Opts} {root : Str} {s : Sys} {sess : RepoSess} {r : InstSt}
    (ho : InOrder E.net sess.files A) (hr : SessOk E.net A sess) (hlist : sess.list = []) (hg : E.groups = [])
    (hset : ∀ p ∈ E.net.repo, p.2.group = [] → root ∉ p.2.sets)
    (hcoll : ∀ p ∈ E.net.repo, p.2.collection = root → p.2.group ≠ [] ∨ p.2.nls ≠ [])
    (hfile : E.localFile root = none) (h : cardsInstall E opts [root] s sess = (r, none)) :
    LocalFiles E [root] = [] ∧ generateDeps E.net E.fuel root sess = .ok r.sess ∧ r.sess.files = sess.files := by
  refine ⟨?_, ?_⟩
  · simp only [LocalFiles, List.filterMap_cons, List.filterMap_nil, hfile, Option.map_none, ite_self]
  · unfold cardsInstall at h
    simp only at h
    split at h
    · simp at h
    · have hmem : (memberPackages E.net.repo root) = [] := by
        unfold memberPackages; rw [packagesOfSet_nil hset, packagesOfCollection_nil hcoll]; rfl
      simp only [seqSteps, installArg, hmem, List.isEmpty_nil, Bool.not_true, Bool.false_eq_true, if_false, hfile] at h
      unfold resolveArg at h
      cases hgd : generateDeps E.net E.fuel root sess with
      | error e => simp only [hgd] at h; simp at h
      | ok sess' =>
        simp only [hgd] at h
        have hgn : groupNames E sess'.list = [] := by unfold groupNames; rw [hg]; rfl
        simp only [addGroupPackages, hgn, seqSteps] at h
        obtain ⟨_, h2⟩ := did_listed (E := E) (opts := opts) (f := installListed E opts) (flag := fun t => decide (0 < t)) (m := fun _ => none)
          (fun i s => rfl) h
        have := C22_resolved_partial sess.files ho E.fuel root sess sess' hr rfl (by rw [hlist]; simp [Ordered]) hgd
        rw [h2]
        exact ⟨rfl, this.2.1⟩

/-- **C50, one package.** After a successful `cards install` of a package from a repository in order, the package and everything it needs is
installed, each as its package file says; no other package appeared or disappeared. -/
theorem C50_one_package (E : InstEnv) (opts : Opts) (root : Str) (s : Sys) (sess : RepoSess) (r : InstSt) (rx : Matcher)
    (hrx : ∀ k, (E.env k).rx = rx) (hw : WF s.disk) (ho : InOrder E.net sess.files A) (hr : SessOk E.net A sess) (hlist : sess.list = [])
    (hg : E.groups = []) (hset : ∀ p ∈ E.net.repo, p.2.group = [] → root ∉ p.2.sets)
    (hcoll : ∀ p ∈ E.net.repo, p.2.collection = root → p.2.group ≠ [] ∨ p.2.nls ≠ []) (hfile : E.localFile root = none)
    (hh : Honest E sess.files) (h : cardsInstall E opts [root] s sess = (r, none)) :
    (∀ m, Installed r.st.disk m ↔ Installed s.disk m ∨ NeededFor E.net A root m) ∧
    (opts.force = false → ∀ m, NeededFor E.net A root m →
      ∃ a, FileOf E sess.files m = some a ∧ a.name = m ∧ Recorded r.st.disk a (Ships rx E.rules a)) ∧
    (opts.force = false → ∀ m i, ¬ NeededFor E.net A root m → ((m, i) ∈ r.st.disk ↔ (m, i) ∈ s.disk)) := by
  obtain ⟨h1, h2, h3⟩ := install_one ho hr hlist hg hset hcoll hfile h
  obtain ⟨_, _, g3, _, g5⟩ := C22_resolved_partial sess.files ho E.fuel root sess r.sess hr rfl (by rw [hlist]; simp [Ordered]) h2
  have hneed : ∀ m, m ∈ r.sess.list.map (·.1) ↔ NeededFor E.net A root m := by intro m; rw [g5, hlist]; simp
  obtain ⟨p1, p2, p3⟩ := C50_installed E opts [root] s sess r rx hrx hw h
  rw [h1, List.nil_append] at p1 p2 p3
  -- each listed file is the archive of the package
  have hfo : ∀ x ∈ r.sess.list, ∃ a, FileOf E sess.files x.1 = some a ∧ a.name = x.1 := by
    intro x hx
    obtain ⟨a, ha⟩ := p1 (FileOf E r.sess.files x.1, decide (0 < x.2)) (List.mem_map.mpr ⟨x, hx, rfl⟩)
    rw [h3] at ha
    refine ⟨a, ha, ?_⟩
    simp only [FileOf] at ha
    obtain ⟨p, hp, ha⟩ := Option.bind_eq_some_iff.mp ha
    obtain ⟨c, hc, ha⟩ := Option.bind_eq_some_iff.mp ha
    exact (hh x.1 p c a hp hc ha).1
  have hname : ∀ b d, (some b, d) ∈ ListedFiles E r.sess → NeededFor E.net A root b.name := by
    intro b d hb
    obtain ⟨x, hx, e⟩ := List.mem_map.mp hb
    obtain ⟨a, ha, hn⟩ := hfo x hx
    simp only [h3, Prod.mk.injEq] at e
    rw [ha] at e
    simp only [Option.some.injEq] at e
    rw [← e.1, hn, ← hneed]
    exact List.mem_map.mpr ⟨x, hx, rfl⟩
  -- the one entry of a needed package
  have hone : ∀ m, NeededFor E.net A root m → ∃ a, FileOf E sess.files m = some a ∧ a.name = m ∧
      ∃ pre dep post, ListedFiles E r.sess = pre ++ (some a, dep) :: post ∧ ∀ b d, (some b, d) ∈ post → b.name ≠ a.name := by
    intro m hm
    obtain ⟨x, hx, rfl⟩ := List.mem_map.mp ((hneed m).mpr hm)
    obtain ⟨a, ha, hn⟩ := hfo x hx
    refine ⟨a, ha, hn, ?_⟩
    obtain ⟨u, v, e⟩ := List.append_of_mem hx
    refine ⟨u.map (fun i => (FileOf E r.sess.files i.1, decide (0 < i.2))), decide (0 < x.2),
      v.map (fun i => (FileOf E r.sess.files i.1, decide (0 < i.2))), ?_, ?_⟩
    · unfold ListedFiles; rw [e, h3]; simp [ha]
    · intro b d hb
      obtain ⟨y, hy, ey⟩ := List.mem_map.mp hb
      obtain ⟨a', ha', hn'⟩ := hfo y (by rw [e]; simp [hy])
      simp only [h3, Prod.mk.injEq] at ey
      rw [ha'] at ey
      simp only [Option.some.injEq] at ey
      rw [← ey.1, hn', hn]
      have hnd := g3.1
      rw [e, List.map_append, List.map_cons, List.nodup_append] at hnd
      intro hc
      exact (List.nodup_cons.mp hnd.2.1).1 (List.mem_map.mpr ⟨y, hy, hc⟩)
  have hins : ∀ m, NeededFor E.net A root m → Installed r.st.disk m := by
    intro m hm
    obtain ⟨a, ha, hn, pre, dep, post, e, hpost⟩ := hone m hm
    obtain ⟨js, j1, j2, j3⟩ := did_install h
    rw [h1, List.nil_append, e] at j2
    obtain ⟨p, j, q, rfl, e1, e2, e3⟩ := jobs_split j2
    simp only [Prod.mk.injEq, Option.some.injEq] at e2
    have hq : ∀ k ∈ q, k.a.name ≠ j.a.name := by
      intro k hk; rw [e2.1]; apply hpost k.a k.dep; rw [← e3]; exact List.mem_map.mpr ⟨k, hk, rfl⟩
    obtain ⟨gone, q1, _⟩ := runJobs_last E.rules opts p j q (load s false) r.st (sane_load hw) rfl j1 hq
    rw [e2.1, hn] at q1
    exact mget_isSome_installed.mp (by rw [q1]; rfl)
  refine ⟨?_, ?_, ?_⟩
  · intro m
    by_cases hm : NeededFor E.net A root m
    · exact ⟨fun _ => Or.inr hm, fun _ => hins m hm⟩
    · have := (p3 m (fun b d hb hc => hm (hc ▸ hname b d hb))).2.1
      rw [this]; tauto
  · intro hf m hm
    obtain ⟨a, ha, hn, pre, dep, post, e, hpost⟩ := hone m hm
    exact ⟨a, ha, hn, (p2 pre a dep post e hpost).1 hf⟩
  · intro hf m i hm
    exact (p3 m (fun b d hb hc => hm (hc ▸ hname b d hb))).1 hf i

/-- **C51, one package.** After a successful `cards install` of a package from a repository in order whose dependencies carry dates, the packages
marked as automatically installed are those marked before and the dependencies just installed. -/
theorem C51_one_package (E : InstEnv) (opts : Opts) (root : Str) (s : Sys) (sess : RepoSess) (r : InstSt) (hw : WF s.disk)
    (ho : InOrder E.net sess.files A) (hr : SessOk E.net A sess) (hlist : sess.list = []) (hg : E.groups = [])
    (hset : ∀ p ∈ E.net.repo, p.2.group = [] → root ∉ p.2.sets)
    (hcoll : ∀ p ∈ E.net.repo, p.2.collection = root → p.2.group ≠ [] ∨ p.2.nls ≠ []) (hfile : E.localFile root = none)
    (hh : Honest E sess.files) (hdate : ∀ n d, Asks E.net A n d → d.2 ≠ 0) (h : cardsInstall E opts [root] s sess = (r, none)) (m : Str) :
    Marked r.st.disk m ↔ Marked s.disk m ∨ (m ≠ root ∧ NeededFor E.net A root m) := by
  obtain ⟨h1, h2, h3⟩ := install_one ho hr hlist hg hset hcoll hfile h
  obtain ⟨_, _, g3, _, g5⟩ := C22_resolved_partial sess.files ho E.fuel root sess r.sess hr rfl (by rw [hlist]; simp [Ordered]) h2
  have hneed : ∀ m, m ∈ r.sess.list.map (·.1) ↔ NeededFor E.net A root m := by intro m; rw [g5, hlist]; simp
  obtain ⟨js, j1, j2, j3⟩ := did_install h
  rw [h1, List.nil_append] at j2
  replace j1 : runJobs E.rules opts js (load s false) = (r.st, none) := j1
  -- each listed file is the archive of the package
  have hfo : ∀ x ∈ r.sess.list, ∃ a, FileOf E sess.files x.1 = some a ∧ a.name = x.1 ∧ "d1".toList ∉ a.md := by
    intro x hx
    have : (FileOf E r.sess.files x.1, decide (0 < x.2)) ∈ ListedFiles E r.sess := List.mem_map.mpr ⟨x, hx, rfl⟩
    rw [← j2] at this
    obtain ⟨j, _, e⟩ := List.mem_map.mp this
    simp only [Prod.mk.injEq] at e
    have ha := e.1.symm
    rw [h3] at ha
    refine ⟨j.a, ha, ?_⟩
    simp only [FileOf] at ha
    obtain ⟨p, hp, ha⟩ := Option.bind_eq_some_iff.mp ha
    obtain ⟨c, hc, ha⟩ := Option.bind_eq_some_iff.mp ha
    exact hh x.1 p c j.a hp hc ha
  have hnames : ∀ b d, (some b, d) ∈ ListedFiles E r.sess → ∃ x ∈ r.sess.list, b.name = x.1 := by
    intro b d hb
    obtain ⟨x, hx, e⟩ := List.mem_map.mp hb
    obtain ⟨a, ha, hn, _⟩ := hfo x hx
    simp only [h3, Prod.mk.injEq] at e
    rw [ha] at e
    simp only [Option.some.injEq] at e
    exact ⟨x, hx, by rw [← e.1, hn]⟩
  by_cases hm : NeededFor E.net A root m
  · obtain ⟨x, hx, rfl⟩ := List.mem_map.mp ((hneed m).mpr hm)
    obtain ⟨a, ha, hn, hmd⟩ := hfo x hx
    obtain ⟨u, v, e⟩ := List.append_of_mem hx
    have hnd := g3.1
    rw [e, List.map_append, List.map_cons, List.nodup_append] at hnd
    have hsub : ∀ (w : List (Str × Nat)), (∀ y ∈ w, y ∈ r.sess.list) → x.1 ∉ w.map (·.1) →
        ∀ b d, (some b, d) ∈ w.map (fun i => (FileOf E r.sess.files i.1, decide (0 < i.2))) → b.name ≠ a.name := by
      intro w hw' hxw b d hb
      obtain ⟨y, hy, ey⟩ := List.mem_map.mp hb
      obtain ⟨a', ha', hn', _⟩ := hfo y (hw' y hy)
      simp only [h3, Prod.mk.injEq] at ey
      rw [ha'] at ey
      simp only [Option.some.injEq] at ey
      rw [← ey.1, hn', hn]
      intro hc
      exact hxw (List.mem_map.mpr ⟨y, hy, hc⟩)
    have hmark := C51_marks E opts [root] s sess r hw h (u.map (fun i => (FileOf E r.sess.files i.1, decide (0 < i.2))))
      (v.map (fun i => (FileOf E r.sess.files i.1, decide (0 < i.2)))) a (decide (0 < x.2))
      (by rw [h1, List.nil_append]; unfold ListedFiles; rw [e, h3]; simp [ha])
      (hsub v (fun y hy => by rw [e]; simp [hy]) (List.nodup_cons.mp hnd.2.1).1) hmd
    rw [hn] at hmark
    rw [hmark]
    have hpre : ∀ b d, (some b, d) ∈ u.map (fun i => (FileOf E r.sess.files i.1, decide (0 < i.2))) → b.name ≠ x.1 := by
      rw [← hn]
      exact hsub u (fun y hy => by rw [e]; simp [hy]) (fun hc => hnd.2.2 x.1 hc x.1 (by simp) rfl)
    obtain ⟨k1, k2⟩ := resolved_entries ho E.fuel root hr hlist h2 x hx
    have hd : decide (0 < x.2) = true ↔ x.1 ≠ root := by
      rw [decide_eq_true_eq]
      constructor
      · intro hp hc; rw [k1 hc] at hp; omega
      · intro hc
        obtain ⟨n, _, hasks⟩ := k2 hc
        have := hdate n x hasks
        omega
    rw [hd]
    constructor
    · rintro (h | ⟨_, h⟩)
      · exact Or.inr ⟨h, hm⟩
      · exact Or.inl h
    · rintro (h | ⟨h, _⟩)
      · exact Or.inr ⟨hpre, h⟩
      · exact Or.inl h
  · have hn' : ∀ j ∈ js, j.a.name ≠ m := by
      intro j hj hc
      have : (some j.a, j.dep) ∈ ListedFiles E r.sess := by rw [← j2]; exact List.mem_map.mpr ⟨j, hj, rfl⟩
      obtain ⟨x, hx, e⟩ := hnames _ _ this
      apply hm
      rw [← hneed, ← hc, e]
      exact List.mem_map.mpr ⟨x, hx, rfl⟩
    obtain ⟨gone, q1, _⟩ := runJobs_other E.rules opts js (load s false) r.st (sane_load hw) j1 m hn'
    replace q1 : mget r.st.disk m = (mget s.disk m).map (dropInfo gone) := q1
    have hinv := runJobs_inv E.rules opts js (load s false) (sane_load hw)
    rw [j1] at hinv
    rw [marked_iff_mget hinv.1, marked_iff_mget hw, q1]
    cases hg' : mget s.disk m with
    | none => simp [hm]
    | some i => simp [hm, dropInfo]

/-! ## Cases -/

/-- The repository of C22's examples; the package files hold one directory and one file. The argument `./foo-2` is a file. -/
def xInst (local_ : List (Str × Archive)) : InstEnv :=
  { net := xNet xDeps xDeps, pkgOf := fun c => if c ∈ keys xDeps then some (xArch (String.ofList c) ["usr/", "usr/" ++ String.ofList c]) else none,
    localFile := fun f => (mget local_ f).map some, fileExists := fun f => (mget local_ f).isSome,
    env := fun _ => xEnv, rules := [], groups := [], fuel := 10 }

/-- The outcome and the names and marks in the database. -/
def outcome (x : InstSt × Option InstErr) : Option InstErr × List (Str × Bool) := (x.2, x.1.st.disk.map (fun p => (p.1, p.2.dependency)))

theorem xInst_runs : outcome (cardsInstall (xInst []) xOpts ["mutt".toList] xSys (xSess xDeps)) =
    (none, [("bar".toList, false), ("foo".toList, true), ("mutt".toList, false), ("ncurses".toList, true), ("zlib".toList, true)]) := by
  decide +kernel

theorem xInst_honest : Honest (xInst []) (xSess xDeps).files := by
  intro m p c a hp hc ha
  have hm : m ∈ keys xDeps := by
    have : m ∈ keys (xInst []).net.repo := mem_keys_iff.mpr ⟨p, hp⟩
    exact this
  simp only [keys, xDeps, List.map_cons, List.map_nil, List.mem_cons, List.not_mem_nil, or_false] at hm
  rcases hm with rfl | rfl | rfl
  all_goals
    rw [← Option.some.inj hp] at hc
    rw [← Option.some.inj hc] at ha
    rw [← Option.some.inj ha]
    decide +kernel

/-- All hypotheses of `C50_one_package` and `C51_one_package` hold of `xInst_runs`. -/
example : (cardsInstall (xInst []) xOpts ["mutt".toList] xSys (xSess xDeps)).2 = none ∧ WF xSys.disk ∧
    InOrder (xInst []).net (xSess xDeps).files (rArch xDeps) ∧ SessOk (xInst []).net (rArch xDeps) (xSess xDeps) ∧ Honest (xInst []) (xSess xDeps).files ∧
    (∀ p ∈ (xInst []).net.repo, p.2.group = [] → "mutt".toList ∉ p.2.sets) ∧
    (∀ p ∈ (xInst []).net.repo, p.2.collection = "mutt".toList → p.2.group ≠ [] ∨ p.2.nls ≠ []) ∧
    (∀ n d, Asks (xInst []).net (rArch xDeps) n d → d.2 ≠ 0) := by
  refine ⟨by have := xInst_runs; exact congrArg Prod.fst this, xSys_wf, xNet_inOrder xDeps, by intro n hn; simp [xSess] at hn, xInst_honest,
    by decide +kernel, by decide +kernel, ?_⟩
  rintro n d ⟨_, _, hd, _⟩
  simp only [rArch] at hd
  have : ∀ l, mget xDeps n = some l → ∀ d ∈ l, d.2 ≠ 0 := by
    intro l hl d hd
    have := mget_some_mem hl
    simp only [xDeps, List.mem_cons, List.not_mem_nil, or_false, Prod.mk.injEq] at this
    rcases this with ⟨_, rfl⟩ | ⟨_, rfl⟩ | ⟨_, rfl⟩ <;> revert d <;> decide
  cases hg : mget xDeps n with
  | none => rw [hg] at hd; simp at hd
  | some l => rw [hg] at hd; exact this l hg d hd

/-- **C51** is false with several arguments: `zlib`, asked for by name, is marked, for `mutt` comes before it. -/
theorem C51_argument_counterexample : outcome (cardsInstall (xInst []) xOpts ["mutt".toList, "zlib".toList] xSys (xSess xDeps)) =
    (none, [("bar".toList, false), ("foo".toList, true), ("mutt".toList, false), ("ncurses".toList, true), ("zlib".toList, true)]) := by
  decide +kernel

/-- ... while in the other order it is not. -/
example : outcome (cardsInstall (xInst []) xOpts ["zlib".toList, "mutt".toList] xSys (xSess xDeps)) =
    (none, [("bar".toList, false), ("foo".toList, true), ("mutt".toList, false), ("ncurses".toList, true), ("zlib".toList, false)]) := by
  decide +kernel

/-- `zlib` was installed by hand, but built before the date `mutt` asks for. -/
def xByHand : Sys := { fs := [], disk := [("zlib".toList, { md := ["Nzlib".toList, "B3".toList], files := ["usr/".toList] })] }

/-- **C51** is false for packages installed by hand: one that is upgraded on the way becomes marked. -/
theorem C51_by_hand_counterexample : outcome (cardsInstall (xInst []) xOpts ["mutt".toList] xByHand (xSess xDeps)) =
    (none, [("mutt".toList, false), ("ncurses".toList, true), ("zlib".toList, true)]) := by
  decide +kernel

/-- Two package files of the same package, `cards install ./foo-1 ./foo-2`: `foo` has the files of the second. -/
def xTwice : List (Str × Archive) := [("./foo-1".toList, xArch "foo" ["etc/", "etc/foo.conf", "etc/one"]), ("./foo-2".toList, xArch "foo" ["etc/", "etc/two"])]

/-- **C50**, the last archive counts; **C51**: the mark `foo` had is lost, for the second archive is installed as if `foo` was not there. -/
theorem C51_twice_counterexample : outcome (cardsInstall (xInst xTwice) xOpts ["./foo-1".toList, "./foo-2".toList] xSys (xSess xDeps)) =
    (none, [("bar".toList, false), ("foo".toList, false)]) ∧
    ((cardsInstall (xInst xTwice) xOpts ["./foo-1".toList, "./foo-2".toList] xSys (xSess xDeps)).1.st.disk.map (fun p => p.2.files)) =
      [["etc/".toList, "etc/bar".toList], ["etc/".toList, "etc/two".toList]] := by
  decide +kernel

/-- ... and the file of the first archive stays on disk, owned by nobody. -/
theorem C08_twice_counterexample :
    let r := (cardsInstall (xInst xTwice) xOpts ["./foo-1".toList, "./foo-2".toList] xSys (xSess xDeps)).1
    (r.st.fs.get ["etc".toList, "one".toList]).isSome = true ∧ ∀ p ∈ r.st.disk, "etc/one".toList ∉ p.2.files := by
  decide +kernel

example : outcome (cardsInstall (xInst []) xOpts ["mutt".toList, "moot".toList] xSys (xSess xDeps)) =
    (some (.notFound "moot".toList), [("bar".toList, false), ("foo".toList, true)]) := by decide +kernel

end Cards.Props
