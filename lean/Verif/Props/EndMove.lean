import Verif.Props.Rebuild
/-!
# C236: a file moves from one package of a port to another
-/
namespace Cards.Props
open Cards Cards.Spec

/-- Nothing in a package file is at or below a file of the build that is not in it. -/
theorem no_entry_at {port : Str → Option Str} {md file : Str → Str} {groups locales : List Str} {keepLa : Bool} {pkg : Fs} {pkgs : List (Str × Tar)}
    (hb : Built pkg) (hrun : buildPort port md file groups locales keepLa pkg = some pkgs) {f : Str} {t : Tar} (hf : (f, t) ∈ pkgs)
    {k : List Str} {c : Str} {p : Nat} (hk : (k, Node.file c p) ∈ pkg) (hv : visible k = true) (hno : ∀ c p, (k, Node.file c p) ∉ t) : ∀ e ∈ t, ¬ k <+: e.1 := by
  obtain ⟨archs, hs, _, h2⟩ := build_at hb hrun
  obtain ⟨h, es, rfl, ha, hfin⟩ := h2 f t hf
  have hmem := tarOf_mem hb hs ha
  have hne := (hb.names _ hk).1
  have strict : ∀ q ∈ pkg, k <+: q.1 → k ≠ q.1 → False := by
    intro q hq h1 h2
    obtain ⟨x, hx⟩ := hb.tree q hq k hne h1 h2
    cases built_same hb hk hx
  intro e he hpre
  have hve : visible e.1 = true := by
    obtain ⟨r, hr⟩ := hpre
    cases k with
    | nil => exact absurd rfl hne
    | cons x k =>
      rw [← hr]
      simpa [visible] using hv
  rcases (hfin.files e.1 e.2 hve).mp he with hm | ⟨_, ⟨q, hq, q1, q2, q3⟩, _⟩
  · have hm' := hmem _ hm
    by_cases hke : k = e.1
    · have h2 : e.2 = .file c p := built_same hb (k := k) (by rw [hke]; exact hm') hk
      exact hno c p (by rw [hke, ← h2]; exact he)
    · exact strict _ hm' hpre hke
  · refine strict q (hmem q hq) (hpre.trans q2) ?_
    intro h
    have l1 := hpre.length_le
    have l2 := q2.length_le
    rw [h] at l1
    exact q3 (q2.eq_of_length (Nat.le_antisymm l2 l1))

/-- An upgrade without `--force` makes nothing, and keeps nothing it did not keep, where the new version has nothing at or below the place. -/
theorem upgrade_src {env : Env} {rules : List Rule} {opts : Opts} {a : Archive} {s : Sys} {k : List Str} {n : Node} (hw : WF s.disk) (hup : opts.upgrade = true)
    (hforce : opts.force = false) (hok : (pkgadd env rules opts a s).2 = none) (hq : ∀ fs, (a.pre fs).1 = fs ∧ a.post fs = fs)
    (hent : ∀ e ∈ a.entries, ¬ k <+: comps e.path) (haway : AwayFromRejected k) (h : (pkgadd env rules opts a s).1.fs.get k = some n) : s.fs.get k = some n := by
  have hconf : conflicts (stPre opts a s) a.name (shipped env rules a) = [] := by
    obtain ⟨_, h2, _⟩ := pkgadd_disk env rules opts a s hw
    by_cases hc : conflicts (stPre opts a s) a.name (shipped env rules a) = []
    · exact hc
    · exact absurd ((h2 hok).1 hc) (by rw [hforce]; simp)
  have hst : stForce env rules opts a s = stPre opts a s := by
    unfold stForce forcePhase conf
    rw [hconf]; rfl
  rw [(pkgadd_fs env rules opts a s).1 hok] at h
  have h1 : fsEnd env rules opts a s = fsNew env rules opts a s := by
    unfold fsEnd
    split
    · exact (hq _).2
    · rfl
  rw [h1] at h
  unfold fsNew at h
  rw [installArchive_ne env _ _ _ _ _ haway.1 haway.2 (fun e he _ => hent e he)] at h
  unfold fsOld at h
  rw [hst, hup] at h
  simp only [if_true] at h
  have hpre : (stPre opts a s).fs = s.fs := by
    show fsPre opts a s = s.fs
    unfold fsPre preRun
    split
    · exact (hq _).1
    · rfl
  rw [hpre] at h
  rcases Fs.removeRev_le (toDelete (stPre opts a s).mem a.name (keepFileList env.rx (shipped env rules a) rules)) s.fs k with h' | h'
  · rw [← h']; exact h
  · rw [h'] at h; cases h

/-- Nor does it change the records of others. -/
theorem upgrade_others {env : Env} {rules : List Rule} {opts : Opts} {a : Archive} {s : Sys} (hw : WF s.disk) (hforce : opts.force = false)
    (hok : (pkgadd env rules opts a s).2 = none) {n g : Str} (hn : n ≠ a.name) : Owns (pkgadd env rules opts a s).1.disk n g ↔ Owns s.disk n g := by
  obtain ⟨h1, h2, _⟩ := pkgadd_disk env rules opts a s hw
  obtain ⟨g1, g2, _⟩ := h2 hok
  have hconf : conflicts (stPre opts a s) a.name (shipped env rules a) = [] := by
    by_cases hc : conflicts (stPre opts a s) a.name (shipped env rules a) = []
    · exact hc
    · exact absurd (g1 hc) (by rw [hforce]; simp)
  rw [owns_iff_mget h1, owns_iff_mget hw, g2 n hn, hconf]
  cases mget s.disk n <;> simp [dropInfo]

/-- **C236**: a package of one build is installed, and upgraded to that of a later build. Whatever is then in the way of another package of the later build was in its way
before anything was installed — also where files have moved from the one package to the other between the builds. -/
theorem C236_moved_files (port port2 : Str → Option Str) (md md2 file file2 : Str → Str) (groups groups2 locales locales2 : List Str) (keepLa keepLa2 : Bool) (pkg pkg2 : Fs)
    (pkgs pkgs2 : List (Str × Tar)) (hb : Built pkg) (hb2 : Built pkg2) (hrun : buildPort port md file groups locales keepLa pkg = some pkgs)
    (hrun2 : buildPort port2 md2 file2 groups2 locales2 keepLa2 pkg2 = some pkgs2) (f f2 f' : Str) (t t2 t' : Tar) (hf : (f, t) ∈ pkgs) (hf2 : (f2, t2) ∈ pkgs2)
    (hf' : (f', t') ∈ pkgs2) (hne : f' ≠ f2)
    (hsome : ∃ m ∈ t, (m.1.head?.bind List.head?) ≠ some '.') (hsome2 : ∃ m ∈ t2, (m.1.head?.bind List.head?) ≠ some '.')
    (hsome' : ∃ m ∈ t', (m.1.head?.bind List.head?) ≠ some '.')
    (n n' : Str) (hn : NamedIn (md f) n) (hn2 : NamedIn (md2 f2) n) (hn' : NamedIn (md2 f') n') (machine root : Str) (pre pre2 pre' : Fs → Fs × Bool) (post post2 post' : Fs → Fs)
    (hquiet : ∀ fs, (pre2 fs).1 = fs ∧ post2 fs = fs) :
    ∃ a a2 b, openTar machine root pre post t = .ok a ∧ openTar machine root pre2 post2 t2 = .ok a2 ∧ openTar machine root pre' post' t' = .ok b ∧
      a.name = n ∧ a2.name = n ∧ b.name = n' ∧
      ∀ env rules opts opts2 s, FreshInstall env rules opts a s → opts2.upgrade = true → opts2.force = false →
        (pkgadd env rules opts2 a2 (pkgadd env rules opts a s).1).2 = none →
        ∀ g, Ships env.rx rules b g → AwayFromRejected (comps g) → (∀ m, (pkgadd env rules opts a s).1.fs.get (comps g) ≠ some (.dir m)) →
          InTheWay (pkgadd env rules opts2 a2 (pkgadd env rules opts a s).1).1.disk (pkgadd env rules opts2 a2 (pkgadd env rules opts a s).1).1.fs n' g →
          InTheWay s.disk s.fs n' g := by
  obtain ⟨a, a2, h1, g1, h2, g2, key⟩ := C232_old_build_gone port port2 md md2 file file2 groups groups2 locales locales2 keepLa keepLa2 pkg pkg2 pkgs pkgs2 hb hb2 hrun hrun2
    f f2 t t2 hf hf2 hsome hsome2 n hn hn2 machine root pre pre2 post post2
  obtain ⟨b, b1, b2, _, _, _, b6, _⟩ := built_open hb2 hrun2 hf' hsome' hn' machine root pre' post'
  refine ⟨a, a2, b, h1, g1, b1, h2, g2, b2, ?_⟩
  intro env rules opts opts2 s hfr hup hforce hok g hg haway hnd hway
  obtain ⟨a', a1', _, _, _, _, _, a7'⟩ := built_open hb hrun hf hsome hn machine root pre post
  rw [h1] at a1'; cases a1'
  obtain ⟨a', a1', _, q3, q4, _, q6, q7⟩ := built_open hb2 hrun2 hf2 hsome2 hn2 machine root pre2 post2
  rw [g1] at a1'; cases a1'
  have hw1 := (fresh_disk hfr).1
  obtain ⟨hrec, hgone⟩ := key env rules opts opts2 s hfr hup hforce hok
  obtain ⟨e, he, het, hev, rfl⟩ := b6 g ⟨hg.1, hg.2.1⟩
  have ho := hb2.names e he
  obtain ⟨w1, w2, w3⟩ := hway
  obtain ⟨_, hcomps, hdir, _, _⟩ := memberName_facts ho
  obtain ⟨c, p, hnode⟩ := isDir_node (fun h => w1 (hdir.mpr h))
  obtain ⟨k, nd⟩ := e
  simp only at hnode hcomps ho hev
  subst hnode
  have hname : memberName (k, Node.file c p) = pathText k := rfl
  have habs : ∀ c' p', (k, Node.file c' p') ∉ t2 := fun c' p' =>
    C228_no_common_file port2 md2 file2 groups2 locales2 keepLa2 pkg2 pkgs2 hb2 hrun2 f' f2 t' t2 hf' hf2 hne k hev c c' p p' het
  have hnone := no_entry_at hb2 hrun2 hf2 he hev habs
  have hent : ∀ x ∈ a2.entries, ¬ k <+: comps x.path := by
    intro x hx
    obtain ⟨m, hmt, hcase⟩ := q7 x hx
    have : comps x.path = m.1 := by
      rcases hcase with ⟨hm, _, _, rfl⟩ | ⟨_, om, _, rfl⟩
      · exact (memberName_facts (hb2.names m hm)).2.1
      · exact (memberName_facts om).2.1
    rw [this]
    exact hnone m hmt
  rw [hcomps] at haway
  simp only [hcomps] at hnd
  refine ⟨w1, ?_, ?_⟩
  · rcases w2 with ⟨n2, hn2', ho2⟩ | ⟨nd, hget, hd2⟩
    · left
      refine ⟨n2, hn2', ?_⟩
      by_cases h : n2 = n
      · exfalso
        subst h
        have hsh := (hrec _).mp ho2
        obtain ⟨m, hm, hmt, _, hmn⟩ := q6 _ ⟨hsh.1, hsh.2.1⟩
        have hk : m.1 = k := by
          rw [← (memberName_facts (hb2.names m hm)).2.1, hmn, hcomps]
        exact hnone m hmt (hk ▸ List.prefix_refl _)
      · have := (upgrade_others hw1 hforce hok (by rw [g2]; exact h)).mp ho2
        exact (other_owns hfr (by rw [h2]; exact h)).mp this
    · right
      rw [hcomps] at hget
      have hs1 := upgrade_src hw1 hup hforce hok (fun fs => by rw [q3, q4]; exact hquiet fs) hent haway hget
      have hs1' := hs1
      rw [fresh_fs hfr] at hs1'
      rcases extracted_src env _ a.entries s.fs k _ hs1' with h | ⟨x, hx, _, hck, hnode⟩ | ⟨x, hx, _, _, hnode⟩
      · exact ⟨nd, by rw [hcomps]; exact h, hd2⟩
      · exfalso
        obtain ⟨m, hmt, hcase⟩ := a7' x hx
        rcases hcase with ⟨hm, hmv, _, rfl⟩ | ⟨_, _, ⟨y, hd⟩, rfl⟩
        · simp only at hck hnode
          rw [(memberName_facts (hb.names m hm)).2.1] at hck
          obtain ⟨mk, mn⟩ := m
          simp only at hck hnode hmv
          subst hck hnode
          cases nd with
          | dir q => exact absurd hs1 (hnd q)
          | file c1 p1 =>
            have := hgone mk c1 p1 hm hmt hmv hg.2.2 haway (fun q => by rw [hs1]; simp) (fun fs => by simp only; rw [(hquiet fs).1]) (fun fs => by rw [(hquiet fs).2]) hnone
            rw [this] at hget; cases hget
        · simp only at hnode
          rw [hd] at hnode
          subst hnode
          exact absurd hs1 (hnd _)
      · subst hnode
        exact absurd hs1 (hnd _)
  · intro hown
    by_cases h : n' = n
    · have := fresh_absent hfr
      rw [h, owns_iff_mget hfr.wf, ← h2, this] at hown
      obtain ⟨_, hx, _⟩ := hown
      cases hx
    · refine w3 ((upgrade_others hw1 hforce hok (by rw [g2]; exact h)).mpr ?_)
      exact (other_owns hfr (by rw [h2]; exact h)).mpr hown

/-- What an earlier build of the port `tool` made where everything went into the one package. -/
def xWhole : Option Archive :=
  ((buildPort (fun _ => none) xBuiltMeta xBuiltFile [] [] false xBuiltFs).getD []).find? (·.1 = "tool.cards-1-1".toList) |>.bind (xOpened ·.2)

/-- The old whole, then the new main package, then the new `tool.devel` (or the last two the other way round): did each work, what is recorded? -/
def xMoved (w a a' : Archive) : Bool × Bool × Bool × List (Str × List Str) × Bool :=
  let s := pkgadd xEnv [] xOpts w xNothing
  let s2 := pkgadd xEnv [] { xOpts with upgrade := true } a s.1
  let s3 := pkgadd xEnv [] xOpts a' s2.1
  let early := pkgadd xEnv [] xOpts a' s.1
  (s.2.isNone, s2.2.isNone, s3.2.isNone, s3.1.disk.map (fun e => (e.1, e.2.files)), early.2.isNone)

set_option synthInstance.maxSize 2000 in
/-- `usr/include/tool.h` moves from `tool` to `tool.devel`: upgrading `tool` first makes room for it; installing `tool.devel` first is refused. -/
example : xWhole.bind (fun w => (xPack "tool.cards-1-1").bind (fun a => (xPack "tool.devel.cards-1-1").map (xMoved w a))) = some (true, true, true,
      [("tool".toList, ["usr/".toList, "usr/bin/".toList, "usr/bin/tool".toList]), ("tool.devel".toList, ["usr/include/".toList, "usr/include/tool.h".toList])], false) := by
  decide +kernel

end Cards.Props
