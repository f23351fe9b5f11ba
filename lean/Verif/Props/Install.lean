import Verif.Lemmas.InstCmd
import Verif.Props.TransDb
import Verif.Props.Verify
/-!
# C50, C51 and C03 for commands that handle several packages: cards install
-/
namespace Cards.Props
open Cards Cards.Spec

theorem mem_newMd {dep : Bool} {a : Archive} {l : Str} : l ∈ newMd dep a ↔ (dep = true ∧ l = d1) ∨ l ∈ a.md := by
  unfold newMd
  rw [mem_sofList]
  cases dep <;> simp

theorem jobs_split {js : List Job} {pre post : List (Option Archive × Bool)} {x : Option Archive × Bool}
    (h : js.map (fun j => (some j.a, j.dep)) = pre ++ x :: post) :
    ∃ p j q, js = p ++ j :: q ∧ p.map (fun j => (some j.a, j.dep)) = pre ∧ (some j.a, j.dep) = x ∧ q.map (fun j => (some j.a, j.dep)) = post := by
  obtain ⟨p, r, rfl, h1, h2⟩ := List.map_eq_append_iff.mp h
  obtain ⟨j, q, rfl, h3, h4⟩ := List.map_eq_cons_iff.mp h2
  exact ⟨p, j, q, rfl, h1, h3, h4⟩

/-- The records after a list of packages was handled by a process that starts with the database of `s`. -/
theorem did_records (E : InstEnv) (opts : Opts) (s : Sys) (s0 r : InstSt) (rx : Matcher) (todo : List (Option Archive × Bool))
    (hrx : ∀ k, (E.env k).rx = rx) (hw : WF s.disk) (h0 : s0.st = load s false) (h : Did E opts s0 r todo) :
    (∀ x ∈ todo, ∃ a, x.1 = some a) ∧
    (∀ pre a dep post, todo = pre ++ (some a, dep) :: post → (∀ b d, (some b, d) ∈ post → b.name ≠ a.name) →
      (opts.force = false → Recorded r.st.disk a (Ships rx E.rules a)) ∧
      (UniqueOwner s.disk → Recorded r.st.disk a
        (fun f => Ships rx E.rules a f ∧ ∀ b d, (some b, d) ∈ post → Ships rx E.rules b f → IsDirName f))) ∧
    (∀ n, (∀ b d, (some b, d) ∈ todo → b.name ≠ n) →
      (opts.force = false → ∀ i, (n, i) ∈ r.st.disk ↔ (n, i) ∈ s.disk) ∧
      (Installed r.st.disk n ↔ Installed s.disk n) ∧
      (UniqueOwner s.disk → ∀ i, (n, i) ∈ s.disk → ∃ i', (n, i') ∈ r.st.disk ∧ i'.md = i.md ∧
        ∀ f, f ∈ i'.files ↔ f ∈ i.files ∧ ∀ b d, (some b, d) ∈ todo → Ships rx E.rules b f → IsDirName f)) := by
  obtain ⟨js, h1, h2, h3⟩ := h
  rw [h0] at h1
  have h2' : js.map (fun j => (some j.a, j.dep)) = todo := h2
  have hs : Sane (load s false) := sane_load hw
  have hinv := runJobs_inv E.rules opts js (load s false) hs
  rw [h1] at hinv
  have hwr : WF r.st.disk := hinv.1
  have hmem : ∀ b d, (some b, d) ∈ todo ↔ ∃ j ∈ js, j.a = b ∧ j.dep = d := by
    intro b d; rw [← h2', List.mem_map]
    constructor
    · rintro ⟨j, hj, e⟩; simp at e; exact ⟨j, hj, e.1, e.2⟩
    · rintro ⟨j, hj, rfl, rfl⟩; exact ⟨j, hj, rfl⟩
  have hrx' : ∀ j ∈ js, j.env.rx = rx := by intro j hj; obtain ⟨k, hk⟩ := h3 j hj; rw [hk, hrx]
  refine ⟨?_, ?_, ?_⟩
  · intro x hx; rw [← h2'] at hx; obtain ⟨j, _, rfl⟩ := List.mem_map.mp hx; exact ⟨_, rfl⟩
  · intro pre a dep post ht hpost
    rw [ht] at h2'
    obtain ⟨p, j, q, rfl, e1, e2, e3⟩ := jobs_split h2'
    simp only [Prod.mk.injEq, Option.some.injEq] at e2
    obtain ⟨rfl, rfl⟩ := e2
    have hq : ∀ k ∈ q, k.a.name ≠ j.a.name := by
      intro k hk; apply hpost k.a k.dep; rw [← e3]; exact List.mem_map.mpr ⟨k, hk, rfl⟩
    obtain ⟨gone, g1, g2, g3⟩ := runJobs_last E.rules opts p j q (load s false) r.st hs rfl h1 hq
    have hjrx : j.env.rx = rx := hrx' j (by simp)
    have hship : ∀ f, f ∈ shipped j.env E.rules j.a ↔ Ships rx E.rules j.a f := by
      intro f; rw [← hjrx]; exact mem_shipped
    have hmd : ∀ dep l, l ≠ "d1".toList → (l ∈ newMd dep j.a ↔ l ∈ j.a.md) := by
      intro dep l hl; rw [mem_newMd]; simp only [d1]; tauto
    constructor
    · intro hf
      refine ⟨_, mget_some_mem g1, hmd _, ?_⟩
      intro f
      rw [g2 hf]
      exact hship f
    · intro hu
      refine ⟨_, mget_some_mem g1, hmd _, ?_⟩
      intro f
      simp only [mem_seraseAll]
      rw [hship]
      constructor
      · rintro ⟨q1, q2⟩
        refine ⟨q1, ?_⟩
        intro b d hb hsb
        by_contra hd
        rw [← e3] at hb
        obtain ⟨k, hk, ek⟩ := List.mem_map.mp hb
        simp only [Prod.mk.injEq, Option.some.injEq] at ek
        exact q2 ((g3 hu f ((hship f).mpr q1)).mpr ⟨hd, k, hk, by rw [hrx' k (by simp [hk]), ek.1]; exact hsb⟩)
      · rintro ⟨q1, q2⟩
        refine ⟨q1, ?_⟩
        intro hg
        obtain ⟨hd, k, hk, hks⟩ := (g3 hu f ((hship f).mpr q1)).mp hg
        apply hd
        apply q2 k.a k.dep
        · rw [← e3]; exact List.mem_map.mpr ⟨k, hk, rfl⟩
        · rw [← hrx' k (by simp [hk])]; exact hks
  · intro n hn
    have hn' : ∀ j ∈ js, j.a.name ≠ n := fun j hj => hn j.a j.dep ((hmem _ _).mpr ⟨j, hj, rfl, rfl⟩)
    obtain ⟨gone, g1, _, g2, g3⟩ := runJobs_other E.rules opts js (load s false) r.st hs h1 n hn'
    replace g1 : mget r.st.disk n = (mget s.disk n).map (dropInfo gone) := g1
    refine ⟨?_, ?_, ?_⟩
    · intro hf i
      rw [g2 hf] at g1
      have hid : dropInfo [] = id := by funext i; rfl
      rw [hid, Option.map_id] at g1
      rw [← mget_iff_mem (wf_msorted hwr), ← mget_iff_mem (wf_msorted hw), g1]; rfl
    · rw [← mget_isSome_installed, ← mget_isSome_installed, g1]; simp
    · intro hu i hi
      have hg := (mget_iff_mem (wf_msorted hw)).mpr hi
      rw [hg] at g1
      refine ⟨dropInfo gone i, mget_some_mem g1, rfl, ?_⟩
      intro f
      show f ∈ seraseAll gone i.files ↔ _
      rw [mem_seraseAll]
      constructor
      · rintro ⟨q1, q2⟩
        refine ⟨q1, ?_⟩
        intro b d hb hsb
        by_contra hd
        obtain ⟨j, hj, rfl, _⟩ := (hmem b d).mp hb
        exact q2 ((g3 hu i hg f q1).mpr ⟨hd, j, hj, by rw [hrx' j hj]; exact hsb⟩)
      · rintro ⟨q1, q2⟩
        refine ⟨q1, ?_⟩
        intro hgo
        obtain ⟨hd, j, hj, hjs⟩ := (g3 hu i hg f q1).mp hgo
        exact hd (q2 j.a j.dep ((hmem _ _).mpr ⟨j, hj, rfl, rfl⟩) (by rw [← hrx' j hj]; exact hjs))

/-- **C50.** After a successful `cards install`, the package files named on the command line and those of the resolved list have all been read, and
* each package among them is recorded as its archive says: with its META lines and, without `--force`, exactly the files it ships; with `--force`, all
  of these but the non-directories a package handled later ships too. (Of several archives with the same name the last one counts.)
* every other package is as before; with `--force` it has lost just the non-directories that packages handled ship. -/
theorem C50_installed (E : InstEnv) (opts : Opts) (args : List Str) (s : Sys) (sess : RepoSess) (r : InstSt) (rx : Matcher)
    (hrx : ∀ k, (E.env k).rx = rx) (hw : WF s.disk) (h : cardsInstall E opts args s sess = (r, none)) :
    let todo := LocalFiles E args ++ ListedFiles E r.sess
    (∀ x ∈ todo, ∃ a, x.1 = some a) ∧
    (∀ pre a dep post, todo = pre ++ (some a, dep) :: post → (∀ b d, (some b, d) ∈ post → b.name ≠ a.name) →
      (opts.force = false → Recorded r.st.disk a (Ships rx E.rules a)) ∧
      (UniqueOwner s.disk → Recorded r.st.disk a
        (fun f => Ships rx E.rules a f ∧ ∀ b d, (some b, d) ∈ post → Ships rx E.rules b f → IsDirName f))) ∧
    (∀ n, (∀ b d, (some b, d) ∈ todo → b.name ≠ n) →
      (opts.force = false → ∀ i, (n, i) ∈ r.st.disk ↔ (n, i) ∈ s.disk) ∧
      (Installed r.st.disk n ↔ Installed s.disk n) ∧
      (UniqueOwner s.disk → ∀ i, (n, i) ∈ s.disk → ∃ i', (n, i') ∈ r.st.disk ∧ i'.md = i.md ∧
        ∀ f, f ∈ i'.files ↔ f ∈ i.files ∧ ∀ b d, (some b, d) ∈ todo → Ships rx E.rules b f → IsDirName f)) := by
  exact did_records E opts s _ r rx _ hrx hw rfl (did_install h)

theorem packagesOfSet_nil {repo : List (Str × RepoPkg)} {x : Str} (h : ∀ p ∈ repo, p.2.group = [] → x ∉ p.2.sets) : packagesOfSet repo x = [] := by
  unfold packagesOfSet
  suffices ∀ (l : List (Str × RepoPkg)), (∀ p ∈ l, p ∈ repo) →
      l.foldl (fun acc p => if p.2.sets.any (fun s => s = x && p.2.group = []) then sinsert p.1 acc else acc) [] = [] from
    this _ (fun p hp => hp)
  intro l
  induction l with
  | nil => intro _; rfl
  | cons p l ih =>
    intro hl
    rw [List.foldl_cons]
    have : p.2.sets.any (fun s => s = x && p.2.group = []) = false := by
      rw [List.any_eq_false]; intro t ht hc
      simp only [Bool.and_eq_true, decide_eq_true_eq] at hc
      exact h p (hl p (by simp)) hc.2 (hc.1 ▸ ht)
    rw [this]
    exact ih (fun q hq => hl q (by simp [hq]))

theorem packagesOfCollection_nil {repo : List (Str × RepoPkg)} {x : Str}
    (h : ∀ p ∈ repo, p.2.collection = x → p.2.group ≠ [] ∨ p.2.nls ≠ []) : packagesOfCollection repo x = [] := by
  unfold packagesOfCollection
  suffices ∀ (l : List (Str × RepoPkg)), (∀ p ∈ l, p ∈ repo) →
      l.foldl (fun acc p => if p.2.collection = x ∧ p.2.group = [] ∧ p.2.nls = [] then sinsert p.1 acc else acc) [] = [] from
    this _ (fun p hp => hp)
  intro l
  induction l with
  | nil => intro _; rfl
  | cons p l ih =>
    intro hl
    rw [List.foldl_cons]
    have : ¬ (p.2.collection = x ∧ p.2.group = [] ∧ p.2.nls = []) := by
      rintro ⟨a, b, c⟩
      rcases h p (hl p (by simp)) a with h | h
      · exact h b
      · exact h c
    rw [if_neg this]
    exact ih (fun q hq => hl q (by simp [hq]))

/-- **C50, arguments.** When an argument is neither a file nor the name of a package, a set or a collection, nothing at all is done. -/
theorem C50_unknown_argument (E : InstEnv) (opts : Opts) (args : List Str) (s : Sys) (sess : RepoSess) (x : Str) (hx : x ∈ args)
    (hf : E.fileExists x = false) (hr : ∀ p, (x, p) ∉ E.net.repo) (hset : ∀ p ∈ E.net.repo, p.2.group = [] → x ∉ p.2.sets)
    (hcoll : ∀ p ∈ E.net.repo, p.2.collection = x → p.2.group ≠ [] ∨ p.2.nls ≠ []) :
    ∃ y, (cardsInstall E opts args s sess).2 = some (.notFound y) ∧ y ∈ args ∧ (cardsInstall E opts args s sess).1.st.sys = s := by
  have h1 : (mget E.net.repo x).isNone = true := by
    rw [Option.isNone_iff_eq_none, mget_none_iff]
    intro hk; obtain ⟨p, hp, e⟩ := List.mem_map.mp hk
    obtain ⟨n, p⟩ := p; simp only at e; subst e; exact hr p hp
  have h2 := packagesOfSet_nil hset
  have h3 := packagesOfCollection_nil hcoll
  unfold cardsInstall
  cases hu : unknownArg E args with
  | none =>
    exfalso
    unfold unknownArg at hu
    rw [List.find?_eq_none] at hu
    apply hu x hx
    simp [hf, h1, h2, h3]
  | some y =>
    refine ⟨y, rfl, List.mem_of_find?_eq_some hu, ?_⟩
    simp only; rfl

/-- **C50, resolution.** When the packages cannot be resolved and no package file was named on the command line, nothing has been changed. -/
theorem C50_resolution_error (E : InstEnv) (opts : Opts) (args : List Str) (s : Sys) (sess : RepoSess) (e : ResErr)
    (hl : ∀ x ∈ args, E.localFile x = none) (h : (cardsInstall E opts args s sess).2 = some (.resolve e)) :
    (cardsInstall E opts args s sess).1.st.sys = s := by
  unfold cardsInstall at h ⊢
  simp only at h ⊢
  have hq : ∀ (args : List Str) (s : InstSt), (∀ x ∈ args, E.localFile x = none) → (seqSteps (installArg E opts) args s).1.st = s.st := by
    intro args
    induction args with
    | nil => intro s _; rfl
    | cons x xs ih =>
      intro s hl
      have hx : (installArg E opts x s).1.st = s.st := by
        unfold installArg
        split
        · exact (quiet_seq (quiet_members E) _ s).1
        · rw [hl x (by simp)]; exact (quiet_resolveArg E x s).1
      simp only [seqSteps]
      cases hf : installArg E opts x s with
      | mk s' e =>
        rw [hf] at hx
        cases e with
        | some e => exact hx
        | none => rw [← hx]; exact ih s' (fun y hy => hl y (by simp [hy]))
  have hrun : ∀ (l : List (Str × Nat)) (s : InstSt), (seqSteps (installListed E opts) l s).2 ≠ some (.resolve e) := by
    intro l
    induction l with
    | nil => intro s; simp [seqSteps]
    | cons x xs ih =>
      intro s
      have hx : (installListed E opts x s).2 ≠ some (.resolve e) := by
        unfold installListed runFile
        split
        · simp
        · simp only; intro hc
          obtain ⟨y, _, hy⟩ := Option.map_eq_some_iff.mp hc
          simp at hy
      simp only [seqSteps]
      cases hf : installListed E opts x s with
      | mk s' e' =>
        rw [hf] at hx
        cases e' with
        | some e' => exact hx
        | none => exact ih s'
  split
  · rfl
  · rename_i hu
    rw [hu] at h
    simp only at h
    have h1 := hq args { st := load s false, sess := sess, count := 0 } hl
    cases hs : seqSteps (installArg E opts) args { st := load s false, sess := sess, count := 0 } with
    | mk s1 e1 =>
      rw [hs] at h1 h
      cases e1 with
      | some e => simp only at h1 ⊢; rw [h1]; rfl
      | none =>
        simp only at h1 h ⊢
        have h2 := quiet_addGroupPackages E s1
        cases hg : addGroupPackages E s1 with
        | mk s2 e2 =>
          rw [hg] at h2 h
          cases e2 with
          | some e => simp only at h2 ⊢; rw [h2.1, h1]; rfl
          | none => exact absurd h (hrun _ s2)

/-! ## C03 for processes that handle several packages -/

/-- **C03.** `cards install`, successful or not, keeps the rule that a non-directory belongs to one package. -/
theorem C03_unique_owner_cards_install (E : InstEnv) (opts : Opts) (args : List Str) (s : Sys) (sess : RepoSess) (hw : WF s.disk)
    (hu : UniqueOwner s.disk) :
    WF (cardsInstall E opts args s sess).1.st.disk ∧ UniqueOwner (cardsInstall E opts args s sess).1.st.disk := by
  obtain ⟨js, x, h1, _⟩ := reached_install E opts args s sess
  have hinv := runJobs_inv E.rules opts js (load s false) (sane_load hw)
  replace h1 : runJobs E.rules opts js (load s false) = ((cardsInstall E opts args s sess).1.st, x) := h1
  rw [h1] at hinv
  exact ⟨hinv.1, hinv.2.2 hu⟩

/-! ## C51 -/

/-- The marks after a list of packages was handled. -/
theorem did_marks (E : InstEnv) (opts : Opts) (s : Sys) (s0 r : InstSt) (todo : List (Option Archive × Bool)) (hw : WF s.disk)
    (h0 : s0.st = load s false) (h : Did E opts s0 r todo) (pre post : List (Option Archive × Bool)) (a : Archive) (dep : Bool)
    (ht : todo = pre ++ (some a, dep) :: post)
    (hpost : ∀ b d, (some b, d) ∈ post → b.name ≠ a.name) (hmd : "d1".toList ∉ a.md) :
    Marked r.st.disk a.name ↔ dep = true ∨ ((∀ b d, (some b, d) ∈ pre → b.name ≠ a.name) ∧ Marked s.disk a.name) := by
  obtain ⟨js, h1, h2, h3⟩ := h
  rw [h0] at h1
  have hs : Sane (load s false) := sane_load hw
  have hinv := runJobs_inv E.rules opts js (load s false) hs
  rw [h1] at hinv
  have hwr : WF r.st.disk := hinv.1
  rw [ht] at h2
  obtain ⟨p, j, q, rfl, e1, e2, e3⟩ := jobs_split h2
  simp only [Prod.mk.injEq, Option.some.injEq] at e2
  obtain ⟨rfl, rfl⟩ := e2
  have hq : ∀ k ∈ q, k.a.name ≠ j.a.name := by
    intro k hk; apply hpost k.a k.dep; rw [← e3]; exact List.mem_map.mpr ⟨k, hk, rfl⟩
  obtain ⟨gone, g1, _⟩ := runJobs_last E.rules opts p j q (load s false) r.st hs rfl h1 hq
  have hm : Marked r.st.disk j.a.name ↔
      (j.dep || (p.all (fun k => k.a.name ≠ j.a.name) && (load s false).nameExists j.a.name && wasDep (load s false).mem j.a.name)) = true := by
    rw [marked_iff_mget hwr, g1]
    constructor
    · rintro ⟨i, hi, hm⟩
      simp only [Option.some.injEq] at hi
      subst hi
      rcases mem_newMd.mp hm with h | h
      · exact h.1
      · exact absurd h hmd
    · intro h; exact ⟨_, rfl, mem_newMd.mpr (Or.inl ⟨h, rfl⟩)⟩
  rw [hm]
  have hp : p.all (fun k => k.a.name ≠ j.a.name) = true ↔ ∀ b d, (some b, d) ∈ pre → b.name ≠ j.a.name := by
    rw [← e1]
    simp only [List.all_eq_true, decide_eq_true_eq, List.mem_map, Prod.mk.injEq, Option.some.injEq]
    constructor
    · rintro h b d ⟨k, hk, rfl, _⟩; exact h k hk
    · intro h k hk; exact h k.a k.dep ⟨k, hk, rfl, rfl⟩
  have hwas : wasDep (load s false).mem j.a.name = true ↔ Marked s.disk j.a.name := by
    rw [marked_iff_mget hw]
    show wasDep s.disk j.a.name = true ↔ _
    unfold wasDep
    cases hg : mget s.disk j.a.name with
    | none => simp
    | some i => simp [Info.dependency, d1]
  have hex : Marked s.disk j.a.name → (load s false).nameExists j.a.name = true := by
    rintro ⟨i, hi, _⟩
    exact (nameExists_load s _ _).mpr (Or.inl (keys_iff_installed.mpr ⟨i, hi⟩))
  simp only [Bool.or_eq_true, Bool.and_eq_true, hp, hwas]
  constructor
  · rintro (h | ⟨⟨h1, _⟩, h2⟩)
    · exact Or.inl h
    · exact Or.inr ⟨h1, h2⟩
  · rintro (h | ⟨h1, h2⟩)
    · exact Or.inl h
    · exact Or.inr ⟨⟨h1, hex h2⟩, h2⟩

/-- **C51, marks.** After a successful `cards install` a package handled carries the mark of automatically installed packages iff its list entry says
it was pulled in as a dependency, or the package was installed with that mark before and was handled once. -/
theorem C51_marks (E : InstEnv) (opts : Opts) (args : List Str) (s : Sys) (sess : RepoSess) (r : InstSt) (hw : WF s.disk)
    (h : cardsInstall E opts args s sess = (r, none)) (pre post : List (Option Archive × Bool)) (a : Archive) (dep : Bool)
    (ht : LocalFiles E args ++ ListedFiles E r.sess = pre ++ (some a, dep) :: post)
    (hpost : ∀ b d, (some b, d) ∈ post → b.name ≠ a.name) (hmd : "d1".toList ∉ a.md) :
    Marked r.st.disk a.name ↔ dep = true ∨ ((∀ b d, (some b, d) ∈ pre → b.name ≠ a.name) ∧ Marked s.disk a.name) := by
  exact did_marks E opts s _ r _ hw rfl (did_install h) pre post a dep ht hpost hmd

end Cards.Props
