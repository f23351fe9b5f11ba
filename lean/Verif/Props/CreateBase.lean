import Verif.Props.Create
/-!
# C63: the packages of the base sets are there when a port is built
-/
namespace Cards.Props
open Cards Cards.Spec Relation

variable {A : Str → ArchMeta}

/-! ## Specification -/

/-- The package is asked for before any build: it belongs to the set `chroot` or `devel` and is not installed, or it is `cards.devel`. -/
def BaseAsked (repo : List (Str × RepoPkg)) (db : Db) (n : Str) : Prop :=
  ((InSet repo "chroot".toList n ∨ InSet repo "devel".toList n) ∧ ¬ ∃ p, Called db p n) ∨ n = "cards.devel".toList

/-- The package is needed for one of these packages. -/
def BaseNeeded (E : InstEnv) (A : Str → ArchMeta) (db : Db) (m : Str) : Prop := ∃ n, BaseAsked E.net.repo db n ∧ NeededFor E.net A n m

/-- The package is needed for one of these packages, or for one of their sub-packages of a configured group. -/
def BaseWanted (E : InstEnv) (A : Str → ArchMeta) (db : Db) (m : Str) : Prop :=
  BaseNeeded E A db m ∨ ∃ n, (∃ j g, BaseNeeded E A db j ∧ g ∈ E.groups ∧ n = j ++ '.' :: g ∧ n ∈ keys E.net.repo) ∧ NeededFor E.net A n m

/-! ## Proofs -/

theorem coreListed_recs (C : CreEnv) (hm : C.noMeta = false) (xs : List (Str × Nat)) (hnd : (xs.map (·.1)).Nodup) (s r : InstSt) (hs : CreInv s.st)
    (hh : ∀ x ∈ xs, ∀ a, FileOf C.E s.sess.files x.1 = some a → a.name = x.1)
    (h : seqSteps (coreListed C) xs s = (r, none)) (n : Str) :
    (n ∈ xs.map (·.1) → s.st.nameExists n = false → ∃ a i, FileOf C.E s.sess.files n = some a ∧ mget r.st.disk n = some i ∧
      ∀ l, l ≠ d1 → (l ∈ i.md ↔ l ∈ a.md)) ∧
    ((n ∉ xs.map (·.1) ∨ s.st.nameExists n = true) → mget r.st.disk n = mget s.st.disk n) := by
  induction xs generalizing s with
  | nil =>
    simp only [seqSteps, Prod.mk.injEq, and_true] at h
    subst h
    exact ⟨by simp, fun _ => rfl⟩
  | cons x xs ih =>
    rw [List.map_cons, List.nodup_cons] at hnd
    obtain ⟨h1, h2⟩ := seqSteps_cons.mp h
    obtain ⟨a1, _, _, a4⟩ := coreListed_spec C hm x s hs
    obtain ⟨b1, a, b2, b3, b4, b5⟩ := a4 h1
    have hax := hh x (by simp) a b2
    obtain ⟨c1, c2⟩ := ih hnd.2 _ b1 (by
      intro y hy; rw [a1]; exact hh y (List.mem_cons_of_mem _ hy)) h2
    rw [a1] at c1
    constructor
    · intro hn hx
      by_cases hx1 : n = x.1
      · subst hx1
        obtain ⟨i, hi, hl⟩ := b4 (by rw [hax]; exact hx)
        refine ⟨a, i, b2, ?_, hl⟩
        rw [c2 (Or.inl hnd.1), ← hax, hi]
      · rw [List.map_cons, List.mem_cons] at hn
        exact c1 (hn.resolve_left hx1) ((b5 n).trans hx)
    · intro hn
      rw [c2 ?_, b3 n ?_]
      · rcases hn with hn | hn
        · left; rw [hax]; intro hc; exact hn (by rw [hc]; simp)
        · exact Or.inr hn
      · rcases hn with hn | hn
        · left; intro hc; exact hn (by rw [List.map_cons]; exact List.mem_cons_of_mem _ hc)
        · right; rw [b5]; exact hn

theorem createPrefetch_present {C : CreEnv} {files : List (Str × Str)} (ho : InOrder C.E.net files A) (ns : List Str) (s : InstSt)
    (hf : s.sess.files = files) : seqSteps (createPrefetch C) ns s = (s, none) := by
  induction ns with
  | nil => rfl
  | cons n ns ih =>
    refine seqSteps_split.mpr ⟨s, ?_, ih⟩
    unfold createPrefetch
    cases hp : mget C.E.net.repo n with
    | none => rfl
    | some p =>
      obtain ⟨c, hc, _⟩ := ho n p hp
      simp [hf, hc]

/-- What `core` has resolved when it succeeds. -/
theorem core_resolved (C : CreEnv) (hrepo : MSorted C.E.net.repo) (s : Sys) (sess : RepoSess) (r : InstSt)
    (ho : InOrder C.E.net sess.files A) (hr : SessOk C.E.net A sess) (hlist : sess.list = [])
    (h : core C { st := load s false, sess := sess, count := 0 } = (r, none)) :
    ∃ t : InstSt, t.st = load s false ∧ t.sess.files = sess.files ∧ (t.sess.list.map (·.1)).Nodup ∧
      (∀ m, m ∈ t.sess.list.map (·.1) ↔ BaseWanted C.E A s.disk m) ∧ seqSteps (coreListed C) t.sess.list t = (r, none) := by
  have h0 : Resolved C.E.net A sess.files [] sess :=
    ⟨hr, rfl, by rw [hlist]; simp [Ordered], by rw [hlist]; simp, by rw [hlist]; simp⟩
  unfold core at h
  generalize hms : packagesOfSet C.E.net.repo setChroot ++ packagesOfSet C.E.net.repo setDevel = ms at h
  have hmem : ∀ n, n ∈ ms ↔ InSet C.E.net.repo "chroot".toList n ∨ InSet C.E.net.repo "devel".toList n := by
    intro n
    rw [← hms, List.mem_append, mem_packagesOfSet hrepo, mem_packagesOfSet hrepo]
    rfl
  cases h1 : seqSteps (baseMember C) ms { st := load s false, sess := sess, count := 0 } with
  | mk s1 e1 =>
    rw [h1] at h
    cases e1 with
    | some e => simp at h
    | none =>
      simp only at h
      obtain ⟨r1, q1⟩ := resolved_members ho ms h0 (s := { st := load s false, sess := sess, count := 0 }) h1
      rw [List.nil_append] at r1
      simp only at r1 q1
      cases h2 : resolveArg C.E cardsDevel s1 with
      | mk s2 e2 =>
        rw [h2] at h
        cases e2 with
        | some e => simp at h
        | none =>
          simp only at h
          obtain ⟨r2, q2⟩ := resolved_names ho [cardsDevel] r1 (r := s2) (seqSteps_split.mpr ⟨s2, h2, rfl⟩)
          unfold createGroups at h
          simp only at h
          rw [createPrefetch_present ho _ s2 r2.files] at h
          simp only at h
          cases h3 : seqSteps (resolveArg C.E) (groupNames C.E s2.sess.list) s2 with
          | mk s3 e3 =>
            rw [h3] at h
            cases e3 with
            | some e => simp at h
            | none =>
              simp only at h
              obtain ⟨r3, q3⟩ := resolved_names ho _ r2 h3
              refine ⟨s3, by rw [q3, q2, q1], r3.files, r3.ordered.1, ?_, h⟩
              have hroot : ∀ n, n ∈ ms.filter (fun n => !(load s false).nameExists n) ++ [cardsDevel] ↔ BaseAsked C.E.net.repo s.disk n := by
                intro n
                rw [List.mem_append, List.mem_filter, hmem, List.mem_singleton]
                unfold BaseAsked
                have hk : (!(load s false).nameExists n) = true ↔ ¬ ∃ p, Called s.disk p n := by
                  rw [← C42_reported s false n]; simp
                rw [hk]; rfl
              have hneed : ∀ m, (∃ n ∈ ms.filter (fun n => !(load s false).nameExists n) ++ [cardsDevel], NeededFor C.E.net A n m) ↔
                  BaseNeeded C.E A s.disk m := by
                intro m
                unfold BaseNeeded
                exact exists_congr fun n => by rw [hroot]
              intro m
              rw [r3.names]
              unfold BaseWanted
              constructor
              · rintro ⟨n, hn, hnm⟩
                rcases List.mem_append.mp hn with hn | hn
                · exact Or.inl ((hneed m).mp ⟨n, hn, hnm⟩)
                · obtain ⟨j, g, hj, hg⟩ := mem_groupNames.mp hn
                  rw [r2.names] at hj
                  exact Or.inr ⟨n, ⟨j, g, (hneed j).mp hj, hg⟩, hnm⟩
              · rintro (hn | ⟨n, ⟨j, g, hj, hg⟩, hnm⟩)
                · obtain ⟨n, hn, hnm⟩ := (hneed m).mpr hn
                  exact ⟨n, List.mem_append_left _ hn, hnm⟩
                · refine ⟨n, List.mem_append_right _ (mem_groupNames.mpr ⟨j, g, ?_, hg⟩), hnm⟩
                  rw [r2.names]; exact (hneed j).mpr hj

/-- The first part of the command, before any build, when it succeeds: the packages of the sets `chroot` and `devel` that are not installed, `cards.devel`,
all they need, and their sub-packages of the configured groups are installed, unless their name is known; nothing else changes. Partial: for a
repository in order. -/
theorem C63_core_partial (C : CreEnv) (hm : C.noMeta = false) (hrepo : MSorted C.E.net.repo) (s : Sys) (hw : WF s.disk) (sess : RepoSess) (r : InstSt)
    (ho : InOrder C.E.net sess.files A) (hr : SessOk C.E.net A sess) (hlist : sess.list = []) (hh : Honest C.E sess.files)
    (h : core C { st := load s false, sess := sess, count := 0 } = (r, none)) (n : Str) :
    (BaseWanted C.E A s.disk n → (¬ ∃ p, Called s.disk p n) → ∃ a i, FileOf C.E sess.files n = some a ∧ (n, i) ∈ r.st.disk ∧
      ∀ l, l ≠ "d1".toList → (l ∈ i.md ↔ l ∈ a.md)) ∧
    ((¬ BaseWanted C.E A s.disk n ∨ ∃ p, Called s.disk p n) → ∀ i, (n, i) ∈ r.st.disk ↔ (n, i) ∈ s.disk) := by
  obtain ⟨t, h1, h2, h3, h4, h5⟩ := core_resolved C hrepo s sess r ho hr hlist h
  have hinv : CreInv t.st := by rw [h1]; exact creInv_load hw
  have hhon : ∀ x ∈ t.sess.list, ∀ a, FileOf C.E t.sess.files x.1 = some a → a.name = x.1 := by
    intro x _ a ha
    unfold FileOf at ha
    obtain ⟨p, hp, ha⟩ := Option.bind_eq_some_iff.mp ha
    obtain ⟨c, hc, ha⟩ := Option.bind_eq_some_iff.mp ha
    rw [h2] at hc
    exact (hh x.1 p c a hp hc ha).1
  obtain ⟨c1, c2⟩ := coreListed_recs C hm t.sess.list h3 t r hinv hhon h5 n
  have hk : t.st.nameExists n = true ↔ ∃ p, Called s.disk p n := by rw [h1]; exact C42_reported s false n
  have hinvr : CreInv r.st := (coreListed_ok C hm _ t r hinv h5).1
  rw [h4, h2] at c1
  rw [h4, hk] at c2
  constructor
  · intro hb hc
    obtain ⟨a, i, e1, e2, e3⟩ := c1 hb (by rw [← Bool.not_eq_true, hk]; exact hc)
    exact ⟨a, i, e1, mget_some_mem e2, e3⟩
  · intro hb i
    have := c2 hb
    rw [h1] at this
    rw [← mget_iff_mem (wf_msorted hinvr.sane.disk), ← mget_iff_mem (wf_msorted hw), this]
    rfl

/-- When `cards create` of one port runs `pkgmk`, every package of the sets `chroot` and `devel` is installed: those that were installed and whose record
says so, and those it has just installed, when the archive says what the repository says. Partial: for a repository in order, and for databases whose
aliases are names of installed packages. -/
theorem C63_base_partial (C : CreEnv) (hm : C.noMeta = false) (hdry : C.dry = false) (hrepo : MSorted C.E.net.repo) (s : Sys) (hw : WF s.disk)
    (sess : RepoSess) (ho : InOrder C.E.net sess.files A) (hr : SessOk C.E.net A sess) (hlist : sess.list = []) (hh : Honest C.E sess.files)
    (hal : ∀ n i al, (n, i) ∈ s.disk → HasAlias i al → Installed s.disk al) (name : Str) (w : Seen)
    (hs : w ∈ (cardsCreate C name false s sess).1.seen) :
    (∀ n i, (n, i) ∈ s.disk → InBaseSet i → Installed w.disk n) ∧
    (∀ n a, InSet C.E.net.repo "chroot".toList n ∨ InSet C.E.net.repo "devel".toList n ∨ n = "cards.devel".toList →
      FileOf C.E sess.files n = some a → 's' :: "chroot".toList ∈ a.md ∨ 's' :: "devel".toList ∈ a.md →
      (∀ i, (n, i) ∈ s.disk → InBaseSet i) → Installed w.disk n) := by
  have hcalled : ∀ n, (∃ p, Called s.disk p n) → Installed s.disk n := by
    intro n hn
    exact noStray_load hal n ((C42_reported s false n).mpr hn)
  unfold cardsCreate at hs
  simp only [hdry, Bool.false_eq_true, if_false] at hs
  cases hcore : core C { st := load s false, sess := sess, count := 0 } with
  | mk c e =>
    rw [hcore] at hs
    cases e with
    | some e => simp at hs
    | none =>
      simp only at hs
      have hspec := C63_core_partial C hm hrepo s hw sess c ho hr hlist hh hcore
      obtain ⟨k1, k2, k3, _⟩ := core_ok C hm _ c (creInv_load hw : CreInv (load s false)) hcore
      have hdisk : ∃ t, prepare C name { inst := c, repo := C.E.net.repo, seen := [] } = (t, none) ∧ w.disk = t.inst.st.disk := by
        unfold buildBinary at hs
        have hp := prepare_any C hm name { inst := c, repo := C.E.net.repo, seen := [] } k1
        cases hpe : prepare C name { inst := c, repo := C.E.net.repo, seen := [] } with
        | mk t e =>
          rw [hpe] at hs hp
          cases e with
          | some e => simp only at hs hp; rw [hp.2.2.1] at hs; simp at hs
          | none =>
            refine ⟨t, rfl, ?_⟩
            simp only [makeAndInstall] at hs hp
            rw [hp.2.2.1] at hs
            split at hs
            · simp only [List.mem_singleton] at hs; rw [hs]
            · simp only [List.mem_singleton] at hs; rw [hs]
      obtain ⟨t, hp, hwt⟩ := hdisk
      obtain ⟨_, _, _, _, _, p6, _, _⟩ := prepare_ok C hm name _ t k1 hp
      have hold : ∀ n i, (n, i) ∈ s.disk → InBaseSet i → Installed w.disk n := by
        intro n i hi hb
        rw [hwt]
        refine p6 n i ?_ hb
        refine ((hspec n).2 (Or.inr ⟨n, i, hi, Or.inl rfl⟩) i).mpr hi
      refine ⟨hold, ?_⟩
      intro n a hset hfile hba hi
      by_cases hc : ∃ p, Called s.disk p n
      · obtain ⟨i, hin⟩ := hcalled n hc
        exact hold n i hin (hi i hin)
      · have hask : BaseAsked C.E.net.repo s.disk n := by
          rcases hset with h | h | h
          · exact Or.inl ⟨Or.inl h, hc⟩
          · exact Or.inl ⟨Or.inr h, hc⟩
          · exact Or.inr h
        obtain ⟨a', i, e1, e2, e3⟩ := (hspec n).1 (Or.inl ⟨n, hask, ReflTransGen.refl⟩) hc
        rw [hfile] at e1
        obtain rfl := Option.some.inj e1
        rw [hwt]
        refine p6 n i e2 ?_
        unfold InBaseSet
        rcases hba with h | h
        · exact Or.inl ((e3 _ (by decide)).mpr h)
        · exact Or.inr ((e3 _ (by decide)).mpr h)

/-- The hypotheses hold of the sample. -/
example : MSorted (cEnv cTree).E.net.repo ∧ InOrder (cEnv cTree).E.net cSess.files (fun n => ⟨n, "1".toList, 1, 5, [], []⟩) ∧
    SessOk (cEnv cTree).E.net (fun n => ⟨n, "1".toList, 1, 5, [], []⟩) cSess ∧ cSess.list = [] ∧ Honest (cEnv cTree).E cSess.files ∧
    InSet (cEnv cTree).E.net.repo "devel".toList "gcc".toList ∧
    (∃ a, FileOf (cEnv cTree).E cSess.files "gcc".toList = some a ∧ 's' :: "devel".toList ∈ a.md) := by
  have hn : ∀ n p, mget (cEnv cTree).E.net.repo n = some p → (n, p) ∈ cRepo := fun n p h => mget_some_mem h
  refine ⟨by unfold MSorted Sorted; decide, ?_, by intro n hn; simp [cSess] at hn, rfl, ?_, ?_, ?_⟩
  · intro n p hp
    have h := hn n p hp
    simp only [cRepo, cPkg, List.mem_cons, List.not_mem_nil, or_false, Prod.mk.injEq] at h
    rcases h with ⟨rfl, rfl⟩ | ⟨rfl, rfl⟩ | ⟨rfl, rfl⟩ | ⟨rfl, rfl⟩ | ⟨rfl, rfl⟩ | ⟨rfl, rfl⟩
    all_goals
      refine ⟨_, rfl, fun h => absurd rfl h, rfl, rfl, ?_⟩
      intro d _
      exact Iff.rfl
  · intro n p c a hp hc ha
    have h := hn n p hp
    simp only [cRepo, cPkg, List.mem_cons, List.not_mem_nil, or_false, Prod.mk.injEq] at h
    rcases h with ⟨rfl, rfl⟩ | ⟨rfl, rfl⟩ | ⟨rfl, rfl⟩ | ⟨rfl, rfl⟩ | ⟨rfl, rfl⟩ | ⟨rfl, rfl⟩
    all_goals
      rw [← Option.some.inj hc] at ha
      rw [← Option.some.inj ha]
      decide +kernel
  · exact ⟨_, rfl, by decide, by decide⟩
  · exact ⟨_, rfl, by decide⟩

end Cards.Props
