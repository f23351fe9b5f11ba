import Verif.Lemmas.CreateEnv
/-!
# The whole of cards create
-/
namespace Cards
open Cards.Spec

/-- Every name the process takes for installed is installed: no stale alias. -/
def NoStray (st : St) : Prop := ∀ n, st.nameExists n = true → Installed st.disk n

/-- What one run of pkgmk finds, in terms of the lists the code computes. -/
def RawReady (C : CreEnv) (stray : Prop) (w : Seen) : Prop :=
  ∃ list, dependsList C.tree (C.tree.length + 1) w.port [] = some list ∧
    (∀ n i, (n, i) ∈ w.disk → InBaseSet i ∨
      ∃ d ∈ depOrder C.tree list w.port, ∃ a, OfferedFor C.E.pkgOf w.repo w.files d a ∧ GroupWanted C.E.groups a ∧ a.name = n) ∧
    (stray → ∀ d ∈ depOrder C.tree list w.port, ∀ a, OfferedFor C.E.pkgOf w.repo w.files d a → GroupWanted C.E.groups a → Installed w.disk a.name)

theorem installDeps_eq (C : CreEnv) (repo : List (Str × RepoPkg)) (list : List Str) (name : Str) (s : InstSt) :
    installDeps C repo list name s = seqSteps (depFile C) ((depOrder C.tree list name).flatMap (pathsOfGroup repo)) s := by
  unfold installDeps
  exact seqSteps_flatMap (depFile C) (pathsOfGroup repo) _ s

theorem prepare_ok (C : CreEnv) (hm : C.noMeta = false) (name : Str) (s r : CreSt) (hs : CreInv s.inst.st)
    (h : prepare C name s = (r, none)) :
    CreInv r.inst.st ∧ r.repo = s.repo ∧ r.seen = s.seen ∧ r.inst.sess = s.inst.sess ∧ (NoStray s.inst.st → NoStray r.inst.st) ∧
    (∀ n i, (n, i) ∈ s.inst.st.disk → InBaseSet i → Installed r.inst.st.disk n) ∧
    (∀ n i, (n, i) ∈ r.inst.st.disk → (n, i) ∈ s.inst.st.disk ∨ ∃ d a, OfferedFor C.E.pkgOf s.repo s.inst.sess.files d a ∧ a.name = n) ∧
    ∀ dir, RawReady C (NoStray s.inst.st) ⟨name, dir, r.inst.st.fs, r.inst.st.disk, r.repo, r.inst.sess.files⟩ := by
  unfold prepare at h
  cases hb : base C s.seen.length s.inst with
  | mk i e =>
    rw [hb] at h
    cases e with
    | some e => simp at h
    | none =>
      simp only at h
      cases hl : dependsList C.tree (C.tree.length + 1) name [] with
      | none => rw [hl] at h; simp at h
      | some list =>
        rw [hl] at h
        simp only [installDeps_eq] at h
        obtain ⟨a1, a2, a3, a4, a5⟩ := base_ok C hm _ s.inst i hs hb
        cases hd : seqSteps (depFile C) ((depOrder C.tree list name).flatMap (pathsOfGroup s.repo)) i with
        | mk j e =>
          rw [hd] at h
          cases e with
          | some e => simp at h
          | none =>
            simp only [Option.map_none, Prod.mk.injEq, and_true] at h
            subst h
            obtain ⟨b1, b2, b3, b4, b5, b6⟩ := depFiles_ok C hm _ i j a1 hd
            have hbase : ∀ n k, (n, k) ∈ s.inst.st.disk → InBaseSet k → Installed i.st.disk n := fun n k h1 h2 => ⟨k, (a3 n k).mpr ⟨h1, h2⟩⟩
            have hstay : NoStray s.inst.st → ∀ n, i.st.nameExists n = true → Installed i.st.disk n := by
              intro hn n hx
              obtain ⟨h1, h2⟩ := a4 n hx
              obtain ⟨k, hk⟩ := hn n h1
              exact hbase n k hk (h2 k hk)
            have hnew : ∀ n k, (n, k) ∈ j.st.disk → ((n, k) ∈ s.inst.st.disk ∧ InBaseSet k) ∨
                ∃ d ∈ depOrder C.tree list name, ∃ a, OfferedFor C.E.pkgOf s.repo s.inst.sess.files d a ∧ GroupWanted C.E.groups a ∧ a.name = n := by
              intro n k hk
              by_cases he : mget j.st.disk n = mget i.st.disk n
              · left
                rw [← mget_iff_mem (wf_msorted b1.sane.disk), he, mget_iff_mem (wf_msorted a1.sane.disk)] at hk
                exact (a3 n k).mp hk
              · right
                obtain ⟨a, h1, h2, h3, _⟩ := b5 n he
                rw [readFrom_offered, a2] at h1
                obtain ⟨d, hd, hof⟩ := h1
                exact ⟨d, hd, a, hof, h2, h3⟩
            refine ⟨b1, rfl, rfl, b2.trans a2, ?_, fun n k h1 h2 => b4 n (hbase n k h1 h2), ?_, fun _ => ⟨list, hl, ?_, ?_⟩⟩
            · intro hn n hx
              simp only at hx
              rw [b3] at hx
              exact b4 n (hstay hn n hx)
            · intro n k hk
              rcases hnew n k hk with h' | ⟨d, _, a, h1, _, h3⟩
              · exact Or.inl h'.1
              · exact Or.inr ⟨d, a, h1, h3⟩
            · intro n k hk
              rcases hnew n k hk with h' | h'
              · exact Or.inl h'.2
              · right
                simp only [b2, a2]; exact h'
            · intro hn d hd a hof hw
              simp only [b2, a2] at hof
              cases hx : i.st.nameExists a.name with
              | true => exact b4 _ (hstay hn _ hx)
              | false =>
                refine b6 a ?_ hw hx
                rw [readFrom_offered, a2]
                exact ⟨d, hd, hof⟩

theorem prepare_any (C : CreEnv) (hm : C.noMeta = false) (name : Str) (s : CreSt) (hs : CreInv s.inst.st) :
    WF (prepare C name s).1.inst.st.disk ∧ (UniqueOwner s.inst.st.disk → UniqueOwner (prepare C name s).1.inst.st.disk) ∧
    (prepare C name s).1.seen = s.seen ∧ (prepare C name s).1.repo = s.repo ∧ (prepare C name s).1.inst.sess = s.inst.sess := by
  have hb := base_any C hm s.seen.length s.inst hs
  unfold prepare
  cases hbe : base C s.seen.length s.inst with
  | mk i e =>
    rw [hbe] at hb
    have hu : UniqueOwner s.inst.st.disk → UniqueOwner i.st.disk := unique_sub hb.2.1
    cases e with
    | some e => exact ⟨hb.1, hu, rfl, rfl, hb.2.2⟩
    | none =>
      simp only
      cases hl : dependsList C.tree (C.tree.length + 1) name [] with
      | none => exact ⟨hb.1, hu, rfl, rfl, hb.2.2⟩
      | some list =>
        simp only [installDeps_eq]
        have hi := (base_ok C hm _ s.inst i hs hbe).1
        obtain ⟨h1, h2, h3⟩ := depFiles_any C hm ((depOrder C.tree list name).flatMap (pathsOfGroup s.repo)) i hi
        exact ⟨h1, fun h => h2 (hu h), trivial, trivial, h3.trans hb.2.2⟩

/-! ### After the build -/

theorem builtFile_spec (C : CreEnv) (hm : C.noMeta = false) (path : Str) (s : InstSt) (hs : CreInv s.st) :
    let r := builtFile C path s
    r.1.sess = s.sess ∧ WF r.1.st.disk ∧ (UniqueOwner s.st.disk → UniqueOwner r.1.st.disk) ∧
    (r.2 = none → CreInv r.1.st ∧ ∃ a, (mget s.sess.files path).bind C.E.pkgOf = some a ∧
      (∀ n, n ≠ a.name → mget r.1.st.disk n = mget s.st.disk n) ∧
      (∃ i, mget r.1.st.disk a.name = some i ∧ (∀ l, l ≠ d1 → (l ∈ i.md ↔ l ∈ a.md)) ∧ ∃ k, i.files = shipped (C.E.env k) C.E.rules a) ∧
      (∀ n, r.1.st.nameExists n = true → s.st.nameExists n = true)) := by
  simp only [builtFile]
  cases hf : (mget s.sess.files path).bind C.E.pkgOf with
  | none => simp only; exact ⟨trivial, hs.sane.disk, id, by simp⟩
  | some a =>
    obtain ⟨a1, a2, a3, a4⟩ := createFile_spec C hm false a s hs
    refine ⟨a1, a2, a3, fun hok => ?_⟩
    obtain ⟨b1, b2, ⟨i, b3, b4, b5⟩, b6⟩ := a4 hok
    refine ⟨b1, a, rfl, b2, ⟨i, b3, b4, _, b5⟩, ?_⟩
    intro n hn
    have := b6 n
    simp only at hn
    rw [hn] at this
    split at this
    · simp at this
    · exact this.symm

theorem builtFiles_ok (C : CreEnv) (hm : C.noMeta = false) (ps : List Str) (s r : InstSt) (hs : CreInv s.st)
    (h : seqSteps (builtFile C) ps s = (r, none)) :
    CreInv r.st ∧ r.sess = s.sess ∧ (∀ n, r.st.nameExists n = true → s.st.nameExists n = true) ∧
    (∀ n, Installed s.st.disk n → Installed r.st.disk n) ∧
    (∀ n, mget r.st.disk n ≠ mget s.st.disk n → ∃ a, ReadFrom C s.sess.files ps a ∧ a.name = n) ∧
    (∀ a, ReadFrom C s.sess.files ps a → ∃ a' i, ReadFrom C s.sess.files ps a' ∧ a'.name = a.name ∧ mget r.st.disk a.name = some i ∧
      (∀ l, l ≠ d1 → (l ∈ i.md ↔ l ∈ a'.md)) ∧ ∃ k, i.files = shipped (C.E.env k) C.E.rules a') := by
  induction ps generalizing s with
  | nil =>
    simp only [seqSteps, Prod.mk.injEq, and_true] at h
    subst h
    refine ⟨hs, rfl, fun _ h => h, fun _ h => h, fun n h => absurd rfl h, ?_⟩
    rintro a ⟨p, hp, _⟩; simp at hp
  | cons x xs ih =>
    obtain ⟨h1, h2⟩ := seqSteps_cons.mp h
    obtain ⟨a1, _, _, a4⟩ := builtFile_spec C hm x s hs
    obtain ⟨b1, a, b2, b3, ⟨i, b4, b5, b6⟩, b7⟩ := a4 h1
    obtain ⟨c1, c2, c3, c4, c5, c6⟩ := ih _ b1 h2
    rw [a1] at c5 c6
    have hsub : ∀ a', ReadFrom C s.sess.files xs a' → ReadFrom C s.sess.files (x :: xs) a' := by
      rintro a' ⟨p, hp, hp2⟩; exact ⟨p, by simp [hp], hp2⟩
    have hmono : ∀ n, Installed s.st.disk n → Installed (builtFile C x s).1.st.disk n := by
      intro n hn
      by_cases hc : n = a.name
      · subst hc; exact ⟨i, mget_some_mem b4⟩
      · exact installed_of_mget (b3 n hc) hn
    refine ⟨c1, c2.trans a1, fun n hn => b7 n (c3 n hn), fun n hn => c4 n (hmono n hn), ?_, ?_⟩
    · intro n hn
      by_cases hd : mget r.st.disk n = mget (builtFile C x s).1.st.disk n
      · by_cases hc : n = a.name
        · exact ⟨a, ⟨x, by simp, b2⟩, hc.symm⟩
        · exact absurd (hd.trans (b3 n hc)) hn
      · obtain ⟨a', h1, h2⟩ := c5 n hd
        exact ⟨a', hsub a' h1, h2⟩
    · rintro a' ⟨p, hp, hp2⟩
      rcases List.mem_cons.mp hp with rfl | hp
      · rw [b2] at hp2
        obtain rfl := Option.some.inj hp2
        by_cases hd : mget r.st.disk a.name = mget (builtFile C p s).1.st.disk a.name
        · exact ⟨a, i, ⟨p, by simp, b2⟩, rfl, hd.trans b4, b5, b6⟩
        · obtain ⟨a2, g1, g2⟩ := c5 _ hd
          obtain ⟨a3, j, k1, k2, k3⟩ := c6 a2 g1
          rw [g2] at k2 k3
          exact ⟨a3, j, hsub a3 k1, k2, k3⟩
      · obtain ⟨a3, j, k1, k2⟩ := c6 a' ⟨p, hp, hp2⟩
        exact ⟨a3, j, hsub a3 k1, k2⟩

theorem builtFiles_any (C : CreEnv) (hm : C.noMeta = false) (ps : List Str) (s : InstSt) (hs : CreInv s.st) :
    WF (seqSteps (builtFile C) ps s).1.st.disk ∧ (UniqueOwner s.st.disk → UniqueOwner (seqSteps (builtFile C) ps s).1.st.disk) ∧
    (seqSteps (builtFile C) ps s).1.sess = s.sess := by
  refine (seqSteps_inv (fun t => CreInv t.st ∧ (UniqueOwner s.st.disk → UniqueOwner t.st.disk) ∧ t.sess = s.sess)
    (fun t => WF t.st.disk ∧ (UniqueOwner s.st.disk → UniqueOwner t.st.disk) ∧ t.sess = s.sess) ps ?_ s ⟨hs, id, rfl⟩ ⟨hs.sane.disk, id, rfl⟩).1
  rintro x - t ⟨h1, h2, h3⟩
  obtain ⟨a1, a2, a3, a4⟩ := builtFile_spec C hm x t h1
  exact ⟨⟨a2, fun hu => a3 (h2 hu), a1.trans h3⟩, fun hok => ⟨(a4 hok).1, fun hu => a3 (h2 hu), a1.trans h3⟩⟩

theorem readFrom_group {C : CreEnv} {files : List (Str × Str)} {repo : List (Str × RepoPkg)} {d : Str} {a : Archive} :
    ReadFrom C files (pathsOfGroup repo d) a ↔ OfferedFor C.E.pkgOf repo files d a := by
  have := @readFrom_offered C files repo [d] a
  simpa using this

/-- One build that succeeds. -/
theorem buildBinary_ok (C : CreEnv) (hm : C.noMeta = false) (name : Str) (s r : CreSt) (hs : CreInv s.inst.st)
    (h : buildBinary C name s = (r, none)) :
    CreInv r.inst.st ∧ (NoStray s.inst.st → NoStray r.inst.st) ∧
    (∀ n i, (n, i) ∈ s.inst.st.disk → InBaseSet i → Installed r.inst.st.disk n) ∧
    (∃ w fs, r.seen = w :: s.seen ∧ w.port = name ∧ RawReady C (NoStray s.inst.st) w ∧ (C.portDir name = true → w.dir = name) ∧
      w.repo = s.repo ∧ w.files = s.inst.sess.files ∧
      C.make s.seen.length w.dir w.fs s.repo s.inst.sess.files = (fs, some (r.repo, r.inst.sess.files))) ∧
    (∀ a, OfferedFor C.E.pkgOf r.repo r.inst.sess.files name a → ∃ a' i, OfferedFor C.E.pkgOf r.repo r.inst.sess.files name a' ∧
      a'.name = a.name ∧ (a.name, i) ∈ r.inst.st.disk ∧ (∀ l, l ≠ d1 → (l ∈ i.md ↔ l ∈ a'.md)) ∧
      ∃ k, i.files = shipped (C.E.env k) C.E.rules a') := by
  unfold buildBinary at h
  cases hp : prepare C name s with
  | mk t e =>
    rw [hp] at h
    cases e with
    | some e => simp at h
    | none =>
      simp only at h
      obtain ⟨a1, a2, a3, a4, a5, a6, _, a8⟩ := prepare_ok C hm name s t hs hp
      unfold makeAndInstall at h
      have hd : C.portDir name = true → (if C.portDir name = true then name else C.cwd t.seen.length) = name := fun h => if_pos h
      generalize (if C.portDir name = true then name else C.cwd t.seen.length) = dir at h hd
      simp only at h
      · generalize hmk : C.make t.seen.length dir t.inst.st.fs t.repo t.inst.sess.files = mk at h
        obtain ⟨fs, res⟩ := mk
        cases res with
        | none => simp at h
        | some rf =>
          obtain ⟨repo, files⟩ := rf
          simp only at h
          generalize hi0 : ({ t.inst with st := { t.inst.st with fs := fs }, sess := { t.inst.sess with files := files } } : InstSt) = i0 at h
          have hinv0 : CreInv i0.st := by subst hi0; exact ⟨⟨a1.sane.mem, a1.sane.disk, a1.sane.agree⟩, a1.md⟩
          have hfiles : i0.sess.files = files := by subst hi0; rfl
          have hdisk0 : i0.st.disk = t.inst.st.disk := by subst hi0; rfl
          have hname0 : ∀ n, i0.st.nameExists n = t.inst.st.nameExists n := by subst hi0; intro n; rfl
          cases hb : seqSteps (builtFile C) (pathsOfGroup repo name) i0 with
          | mk j e =>
            rw [hb] at h
            cases e with
            | some e => simp at h
            | none =>
              simp only [Option.map_none, Prod.mk.injEq, and_true] at h
              subst h
              obtain ⟨b1, b2, b3, b4, b5, b6⟩ := builtFiles_ok C hm _ i0 j hinv0 hb
              have hjf : j.sess.files = files := by rw [b2, hfiles]
              refine ⟨b1, ?_, ?_, ⟨_, fs, congrArg _ a3, rfl, a8 _, hd, a2, congrArg RepoSess.files a4, ?_⟩, ?_⟩
              · intro hn n hx
                have := a5 hn n (by rw [← hname0]; exact b3 n hx)
                exact b4 n (by rw [hdisk0]; exact this)
              · intro n i h1 h2
                exact b4 n (by rw [hdisk0]; exact a6 n i h1 h2)
              · show C.make s.seen.length dir t.inst.st.fs s.repo s.inst.sess.files = (fs, some (repo, j.sess.files))
                rw [hjf, ← a2, ← a4, ← a3]; exact hmk
              · intro a ha
                simp only [hjf] at ha ⊢
                rw [← readFrom_group, ← hfiles] at ha
                obtain ⟨a', i, h1, h2, h3, h4⟩ := b6 a ha
                rw [hfiles, readFrom_group] at h1
                exact ⟨a', i, h1, h2, mget_some_mem h3, h4⟩

/-- One build, successful or not. -/
theorem buildBinary_any (C : CreEnv) (hm : C.noMeta = false) (name : Str) (s : CreSt) (hs : CreInv s.inst.st) :
    let r := (buildBinary C name s).1
    WF r.inst.st.disk ∧ (UniqueOwner s.inst.st.disk → UniqueOwner r.inst.st.disk) ∧
    (r.seen = s.seen ∨ ∃ w, r.seen = w :: s.seen ∧ w.port = name ∧ RawReady C (NoStray s.inst.st) w) := by
  have hany := prepare_any C hm name s hs
  simp only [buildBinary]
  cases hp : prepare C name s with
  | mk t e =>
    rw [hp] at hany
    obtain ⟨h1, h2, h3, h4, h5⟩ := hany
    cases e with
    | some e => exact ⟨h1, h2, Or.inl h3⟩
    | none =>
      simp only
      obtain ⟨a1, a2, a3, a4, a5, a6, _, a8⟩ := prepare_ok C hm name s t hs hp
      unfold makeAndInstall
      generalize (if C.portDir name = true then name else C.cwd t.seen.length) = dir
      simp only
      · generalize C.make t.seen.length dir t.inst.st.fs t.repo t.inst.sess.files = mk
        obtain ⟨fs, res⟩ := mk
        cases res with
        | none =>
          simp only
          exact ⟨h1, h2, Or.inr ⟨_, congrArg _ h3, rfl, a8 _⟩⟩
        | some rf =>
          simp only
          generalize hi0 : ({ t.inst with st := { t.inst.st with fs := fs }, sess := { t.inst.sess with files := rf.2 } } : InstSt) = i0
          have hinv0 : CreInv i0.st := by subst hi0; exact ⟨⟨a1.sane.mem, a1.sane.disk, a1.sane.agree⟩, a1.md⟩
          have hdisk0 : i0.st.disk = t.inst.st.disk := by subst hi0; rfl
          obtain ⟨b1, b2, _⟩ := builtFiles_any C hm (pathsOfGroup rf.1 name) i0 hinv0
          exact ⟨b1, fun h => b2 (by rw [hdisk0]; exact h2 h), Or.inr ⟨_, congrArg _ h3, rfl, a8 _⟩⟩

/-! ### core -/

theorem quiet_baseMember (C : CreEnv) : Quiet (baseMember C) := by
  intro n s; unfold baseMember; split
  · exact ⟨rfl, rfl⟩
  · exact quiet_resolveArg C.E n s

theorem quiet_createPrefetch (C : CreEnv) : Quiet (createPrefetch C) := by
  intro n s; unfold createPrefetch
  split
  · exact ⟨rfl, rfl⟩
  · split <;> exact ⟨rfl, rfl⟩

theorem quiet_createGroups (C : CreEnv) (s : InstSt) : (createGroups C s).1.st = s.st := by
  unfold createGroups
  have h1 := quiet_seq (quiet_createPrefetch C) (groupNames C.E s.sess.list) s
  simp only
  cases h : seqSteps (createPrefetch C) (groupNames C.E s.sess.list) s with
  | mk s' e =>
    rw [h] at h1
    cases e with
    | some e => exact h1.1
    | none =>
      have h2 := quiet_seq (quiet_resolveArg C.E) (groupNames C.E s.sess.list) s'
      simp only; rw [h2.1]; exact h1.1

/-- What `core` keeps at every moment, and what it keeps when it goes on. -/
theorem core_split (C : CreEnv) (s : InstSt) :
    (core C s).1.st = s.st ∨ ∃ t : InstSt, t.st = s.st ∧ core C s = seqSteps (coreListed C) t.sess.list t := by
  have h1 := quiet_seq (quiet_baseMember C) (packagesOfSet C.E.net.repo setChroot ++ packagesOfSet C.E.net.repo setDevel) s
  unfold core
  cases ha : seqSteps (baseMember C) (packagesOfSet C.E.net.repo setChroot ++ packagesOfSet C.E.net.repo setDevel) s with
  | mk s1 e =>
    rw [ha] at h1
    cases e with
    | some e => exact Or.inl h1.1
    | none =>
      simp only
      have h2 := quiet_resolveArg C.E cardsDevel s1
      cases hb : resolveArg C.E cardsDevel s1 with
      | mk s2 e =>
        rw [hb] at h2
        cases e with
        | some e => exact Or.inl (h2.1.trans h1.1)
        | none =>
          simp only
          have h3 := quiet_createGroups C s2
          cases hc : createGroups C s2 with
          | mk s3 e =>
            rw [hc] at h3
            cases e with
            | some e => exact Or.inl (h3.trans (h2.1.trans h1.1))
            | none => exact Or.inr ⟨s3, h3.trans (h2.1.trans h1.1), rfl⟩

theorem core_split_ok (C : CreEnv) (s r : InstSt) (h : core C s = (r, none)) :
    ∃ t : InstSt, t.st = s.st ∧ seqSteps (coreListed C) t.sess.list t = (r, none) := by
  have h1 := quiet_seq (quiet_baseMember C) (packagesOfSet C.E.net.repo setChroot ++ packagesOfSet C.E.net.repo setDevel) s
  unfold core at h
  cases ha : seqSteps (baseMember C) (packagesOfSet C.E.net.repo setChroot ++ packagesOfSet C.E.net.repo setDevel) s with
  | mk s1 e =>
    rw [ha] at h1 h
    cases e with
    | some e => simp at h
    | none =>
      simp only at h
      have h2 := quiet_resolveArg C.E cardsDevel s1
      cases hb : resolveArg C.E cardsDevel s1 with
      | mk s2 e =>
        rw [hb] at h2 h
        cases e with
        | some e => simp at h
        | none =>
          simp only at h
          have h3 := quiet_createGroups C s2
          cases hc : createGroups C s2 with
          | mk s3 e =>
            rw [hc] at h3 h
            cases e with
            | some e => simp at h
            | none => exact ⟨s3, h3.trans (h2.1.trans h1.1), h⟩

theorem coreListed_spec (C : CreEnv) (hm : C.noMeta = false) (x : Str × Nat) (s : InstSt) (hs : CreInv s.st) :
    let r := coreListed C x s
    r.1.sess = s.sess ∧ WF r.1.st.disk ∧ (UniqueOwner s.st.disk → UniqueOwner r.1.st.disk) ∧
    (r.2 = none → CreInv r.1.st ∧ ∃ a, FileOf C.E s.sess.files x.1 = some a ∧
      (∀ n, (n ≠ a.name ∨ s.st.nameExists n = true) → mget r.1.st.disk n = mget s.st.disk n) ∧
      (s.st.nameExists a.name = false → ∃ i, mget r.1.st.disk a.name = some i ∧ (∀ l, l ≠ d1 → (l ∈ i.md ↔ l ∈ a.md))) ∧
      (∀ n, r.1.st.nameExists n = s.st.nameExists n)) := by
  simp only [coreListed, listedFile_eq]
  cases hf : FileOf C.E s.sess.files x.1 with
  | none => simp only; exact ⟨trivial, hs.sane.disk, id, by simp⟩
  | some a =>
    obtain ⟨a1, a2, a3, a4⟩ := createIfNew_spec C hm (decide (0 < x.2)) a s hs
    refine ⟨a1, a2, a3, fun hok => ?_⟩
    obtain ⟨b1, b2⟩ := a4 hok
    exact ⟨b1, a, rfl, b2⟩

theorem coreListed_ok (C : CreEnv) (hm : C.noMeta = false) (xs : List (Str × Nat)) (s r : InstSt) (hs : CreInv s.st)
    (h : seqSteps (coreListed C) xs s = (r, none)) :
    CreInv r.st ∧ r.sess = s.sess ∧ (∀ n, r.st.nameExists n = s.st.nameExists n) ∧
    (∀ n, Installed s.st.disk n → Installed r.st.disk n) ∧
    (∀ x ∈ xs, ∃ a, FileOf C.E s.sess.files x.1 = some a ∧ (s.st.nameExists a.name = false → Installed r.st.disk a.name)) := by
  induction xs generalizing s with
  | nil =>
    simp only [seqSteps, Prod.mk.injEq, and_true] at h
    subst h
    exact ⟨hs, rfl, fun _ => rfl, fun _ h => h, by simp⟩
  | cons x xs ih =>
    obtain ⟨h1, h2⟩ := seqSteps_cons.mp h
    obtain ⟨a1, _, _, a4⟩ := coreListed_spec C hm x s hs
    obtain ⟨b1, a, b2, b3, b4, b5⟩ := a4 h1
    obtain ⟨c1, c2, c3, c4, c5⟩ := ih _ b1 h2
    have hmono : ∀ n, Installed s.st.disk n → Installed (coreListed C x s).1.st.disk n := by
      intro n hn
      by_cases hc : n ≠ a.name ∨ s.st.nameExists n = true
      · exact installed_of_mget (b3 n hc) hn
      · push Not at hc
        obtain ⟨rfl, e1⟩ := hc
        obtain ⟨i, hi, _⟩ := b4 (by simpa using e1)
        exact ⟨i, mget_some_mem hi⟩
    refine ⟨c1, c2.trans a1, fun n => (c3 n).trans (b5 n), fun n hn => c4 n (hmono n hn), ?_⟩
    intro y hy
    rcases List.mem_cons.mp hy with rfl | hy
    · refine ⟨a, b2, fun hx => ?_⟩
      obtain ⟨i, hi, _⟩ := b4 hx
      exact c4 _ ⟨i, mget_some_mem hi⟩
    · obtain ⟨a', g1, g2⟩ := c5 y hy
      rw [a1] at g1
      exact ⟨a', g1, fun hx => g2 ((b5 _).trans hx)⟩

theorem core_any (C : CreEnv) (hm : C.noMeta = false) (s : InstSt) (hs : CreInv s.st) :
    WF (core C s).1.st.disk ∧ (UniqueOwner s.st.disk → UniqueOwner (core C s).1.st.disk) := by
  rcases core_split C s with h | ⟨t, ht, h⟩
  · rw [h]; exact ⟨hs.sane.disk, id⟩
  · rw [h]
    have h0 : CreInv t.st := by rw [ht]; exact hs
    refine (seqSteps_inv (fun u => CreInv u.st ∧ (UniqueOwner s.st.disk → UniqueOwner u.st.disk))
      (fun u => WF u.st.disk ∧ (UniqueOwner s.st.disk → UniqueOwner u.st.disk)) _ ?_ t ⟨h0, by rw [ht]; exact id⟩ ⟨h0.sane.disk, by rw [ht]; exact id⟩).1
    rintro x - u ⟨h1, h2⟩
    obtain ⟨_, a2, a3, a4⟩ := coreListed_spec C hm x u h1
    exact ⟨⟨a2, fun hu => a3 (h2 hu)⟩, fun hok => ⟨(a4 hok).1, fun hu => a3 (h2 hu)⟩⟩

theorem core_ok (C : CreEnv) (hm : C.noMeta = false) (s r : InstSt) (hs : CreInv s.st) (h : core C s = (r, none)) :
    CreInv r.st ∧ (NoStray s.st → NoStray r.st) ∧ (∀ n, Installed s.st.disk n → Installed r.st.disk n) ∧
    (NoStray s.st → ∀ x ∈ r.sess.list, ∃ a, FileOf C.E r.sess.files x.1 = some a ∧ Installed r.st.disk a.name) := by
  obtain ⟨t, ht, h'⟩ := core_split_ok C s r h
  have h0 : CreInv t.st := by rw [ht]; exact hs
  obtain ⟨a1, a2, a3, a4, a5⟩ := coreListed_ok C hm _ t r h0 h'
  rw [ht] at a3 a4 a5
  refine ⟨a1, ?_, a4, ?_⟩
  · intro hn n hx
    rw [a3] at hx
    exact a4 n (hn n hx)
  · intro hn x hx
    rw [a2] at hx ⊢
    obtain ⟨a, h1, h2⟩ := a5 x hx
    refine ⟨a, h1, ?_⟩
    cases hx : s.st.nameExists a.name with
    | true => exact a4 _ (hn _ hx)
    | false => exact h2 hx

/-! ### Collections -/

/-- What every state of the loop has. -/
structure LoopInv (C : CreEnv) (stray : Prop) (s : CreSt) : Prop where
  inv : CreInv s.inst.st
  names : stray → NoStray s.inst.st
  seen : ∀ w ∈ s.seen, RawReady C stray w

theorem rawReady_mono {C : CreEnv} {p q : Prop} (h : q → p) {w : Seen} (hw : RawReady C p w) : RawReady C q w := by
  obtain ⟨l, h1, h2, h3⟩ := hw
  exact ⟨l, h1, h2, fun hq => h3 (h hq)⟩

theorem loopInv_build (C : CreEnv) (hm : C.noMeta = false) (stray : Prop) (name : Str) (s : CreSt) (hs : LoopInv C stray s) :
    let r := buildBinary C name s
    (WF r.1.inst.st.disk ∧ (UniqueOwner s.inst.st.disk → UniqueOwner r.1.inst.st.disk) ∧ ∀ w ∈ r.1.seen, RawReady C stray w) ∧
    (r.2 = none → LoopInv C stray r.1) := by
  intro r
  obtain ⟨a1, a2, a3⟩ := buildBinary_any C hm name s hs.inv
  have hseen : ∀ w ∈ r.1.seen, RawReady C stray w := by
    rcases a3 with h | ⟨w, h, _, hw⟩
    · rw [h]; exact hs.seen
    · rw [h]
      intro v hv
      rcases List.mem_cons.mp hv with rfl | hv
      · exact rawReady_mono hs.names hw
      · exact hs.seen v hv
  refine ⟨⟨a1, a2, hseen⟩, fun hok => ?_⟩
  have heq : buildBinary C name s = (r.1, none) := by rw [← hok]
  obtain ⟨b1, b2, _⟩ := buildBinary_ok C hm name s r.1 hs.inv heq
  exact ⟨b1, fun h => b2 (hs.names h), hseen⟩

theorem buildPorts_any (C : CreEnv) (hm : C.noMeta = false) (stray : Prop) (is : List Str) (s : CreSt) (hs : LoopInv C stray s) :
    let r := buildPorts C is s
    WF r.1.inst.st.disk ∧ (UniqueOwner s.inst.st.disk → UniqueOwner r.1.inst.st.disk) ∧ ∀ w ∈ r.1.seen, RawReady C stray w := by
  induction is generalizing s with
  | nil => exact ⟨hs.inv.sane.disk, id, hs.seen⟩
  | cons i is ih =>
    simp only [buildPorts]
    split
    · split
      · exact ih s hs
      · obtain ⟨h1, h2⟩ := loopInv_build C hm stray i s hs
        cases hb : buildBinary C i s with
        | mk t e =>
          rw [hb] at h1 h2
          cases e with
          | some e => exact h1
          | none =>
            obtain ⟨c1, c2, c3⟩ := ih t (h2 rfl)
            exact ⟨c1, fun h => c2 (h1.2.1 h), c3⟩
    · exact ih s hs

/-- The whole command: the database stays well formed, no file gets a second owner, and every run of pkgmk finds what it should. -/
theorem cardsCreate_any (C : CreEnv) (hm : C.noMeta = false) (arg : Str) (isColl : Bool) (s : Sys) (sess : RepoSess) (hw : WF s.disk) :
    let r := cardsCreate C arg isColl s sess
    WF r.1.inst.st.disk ∧ (UniqueOwner s.disk → UniqueOwner r.1.inst.st.disk) ∧
    ∀ w ∈ r.1.seen, RawReady C (NoStray (load s false)) w := by
  simp only [cardsCreate]
  have h0 : CreInv (load s false) := creInv_load hw
  generalize hs0 : ({ st := load s false, sess := sess, count := 0 } : InstSt) = s0
  have hst : s0.st = load s false := by subst hs0; rfl
  have hd : s0.st.disk = s.disk := by rw [hst]; rfl
  have hinv : CreInv s0.st := by rw [hst]; exact h0
  have hc : let c := if C.dry then (s0, none) else core C s0
      WF c.1.st.disk ∧ (UniqueOwner s.disk → UniqueOwner c.1.st.disk) ∧ (c.2 = none → CreInv c.1.st ∧ (NoStray (load s false) → NoStray c.1.st)) := by
    intro c
    by_cases hdry : C.dry = true
    · have : c = (s0, none) := if_pos hdry
      rw [this]
      exact ⟨hinv.sane.disk, by rw [hd]; exact id, fun _ => ⟨hinv, by rw [hst]; exact id⟩⟩
    · have : c = core C s0 := if_neg hdry
      rw [this]
      obtain ⟨h1, h2⟩ := core_any C hm s0 hinv
      refine ⟨h1, by rw [← hd]; exact h2, fun hok => ?_⟩
      obtain ⟨b1, b2, _⟩ := core_ok C hm s0 (core C s0).1 hinv (by rw [← hok])
      exact ⟨b1, by rw [← hst]; exact b2⟩
  generalize (if C.dry then (s0, none) else core C s0) = c at hc
  obtain ⟨i, e⟩ := c
  obtain ⟨h1, h2, h3⟩ := hc
  cases e with
  | some e => exact ⟨h1, h2, by simp⟩
  | none =>
    obtain ⟨h4, h5⟩ := h3 rfl
    have hl : LoopInv C (NoStray (load s false)) { inst := i, repo := C.E.net.repo, seen := [] } := ⟨h4, h5, by simp⟩
    simp only
    cases isColl with
    | false =>
      simp only [Bool.false_eq_true, if_false]
      obtain ⟨⟨a1, a2, a3⟩, _⟩ := loopInv_build C hm _ arg _ hl
      exact ⟨a1, fun h => a2 (h2 h), a3⟩
    | true =>
      simp only [if_true]
      unfold buildCollection
      have hl' : LoopInv C (NoStray (load s false)) (checkBinaries C arg { inst := i, repo := C.E.net.repo, seen := [] }) := by
        unfold checkBinaries
        split
        · exact hl
        · exact ⟨h4, h5, by simp⟩
      have hdk : (checkBinaries C arg { inst := i, repo := C.E.net.repo, seen := [] }).inst.st = i.st := by
        unfold checkBinaries; split <;> rfl
      cases portsOfCollection C.tree arg [] with
      | none => exact ⟨hl'.inv.sane.disk, by rw [hdk]; exact h2, hl'.seen⟩
      | some ports =>
        obtain ⟨a1, a2, a3⟩ := buildPorts_any C hm _ ports _ hl'
        exact ⟨a1, fun h => a2 (by rw [hdk]; exact h2 h), a3⟩

end Cards
