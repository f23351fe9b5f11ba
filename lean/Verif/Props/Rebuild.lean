import Verif.Props.EndAgain
import Verif.Props.Replace
/-!
# C232: a new build replaces the old one
-/
namespace Cards.Props
open Cards Cards.Spec

/-- An upgrade without `--force` deletes what only this package had and the new version does not ship, unless an entry of the new version is at or below the place. -/
theorem upgrade_gone {env : Env} {rules : List Rule} {opts : Opts} {a : Archive} {s : Sys} {f : Str} (hw : WF s.disk) (hup : opts.upgrade = true)
    (hforce : opts.force = false) (hok : (pkgadd env rules opts a s).2 = none) (hpre : Leaves (fun fs => (a.pre fs).1) (comps f)) (hpost : Leaves a.post (comps f))
    (hown : OnlyOwner s.disk a.name f) (hnd : ¬ IsDirName f) (hplain : ∀ m, s.fs.get (comps f) ≠ some (.dir m)) (hns : ¬ Ships env.rx rules a f)
    (hent : ∀ e ∈ a.entries, ¬ comps f <+: comps e.path) (haway : AwayFromRejected (comps f)) :
    (pkgadd env rules opts a s).1.fs.get (comps f) = none := by
  have hconf : conflicts (stPre opts a s) a.name (shipped env rules a) = [] := by
    obtain ⟨_, h2, _⟩ := pkgadd_disk env rules opts a s hw
    by_cases hc : conflicts (stPre opts a s) a.name (shipped env rules a) = []
    · exact hc
    · exact absurd ((h2 hok).1 hc) (by rw [hforce]; simp)
  have hst : stForce env rules opts a s = stPre opts a s := by
    unfold stForce forcePhase conf
    rw [hconf]; rfl
  rw [(pkgadd_fs env rules opts a s).1 hok]
  have h1 : (fsEnd env rules opts a s).get (comps f) = (fsNew env rules opts a s).get (comps f) := by
    unfold fsEnd
    split
    · exact hpost _
    · rfl
  rw [h1]
  unfold fsNew
  rw [installArchive_ne env _ _ _ _ _ haway.1 haway.2 (fun e he _ => hent e he)]
  unfold fsOld
  rw [hst, hup]
  simp only [if_true]
  refine removeRev_file_gone _ _ f ?_ (by rw [Bool.eq_false_iff]; exact fun h => hnd (endsSlash_iff.mp h)) ?_
  · have hd := (mem_toDelete_iff hw).mpr hown
    rw [mem_toDelete] at hd
    have hd' : f ∈ toDelete s.disk a.name (keepFileList env.rx (shipped env rules a) rules) := by
      rw [mem_toDelete]
      refine ⟨hd.1, ?_, hd.2.2⟩
      intro hk
      exact hns (mem_shipped.mp (mem_keepFileList.mp hk).1)
    exact hd'
  · intro m
    have : (stPre opts a s).fs.get (comps f) = s.fs.get (comps f) := by
      show (fsPre opts a s).get (comps f) = _
      unfold fsPre preRun
      split
      · exact hpre _
      · rfl
    rw [this]
    exact hplain m

/-- A file that is in the package file is in the list of the opened package. -/
theorem built_listed {port : Str → Option Str} {md file : Str → Str} {groups locales : List Str} {keepLa : Bool} {pkg : Fs} {pkgs : List (Str × Tar)}
    (hb : Built pkg) (hrun : buildPort port md file groups locales keepLa pkg = some pkgs) {f : Str} {t' : Tar} (hf : (f, t') ∈ pkgs)
    {n : Str} (hn : NamedIn (md f) n)
    {machine root : Str} {pre : Fs → Fs × Bool} {post : Fs → Fs} {a : Archive} (ha : openTar machine root pre post t' = .ok a)
    {k : List Str} {c : Str} {p : Nat} (hk : (k, Node.file c p) ∈ t') (hv : visible k = true) : pathText k ∈ a.mtree := by
  obtain ⟨archs, hs, _, h2⟩ := build_at hb hrun
  obtain ⟨h, es, rfl, hes, hfin⟩ := h2 f t' hf
  have hmem := tarOf_mem hb hs hes
  have ho : ∀ m ∈ tarOf pkg es, OrdinaryPath m.1 := fun m hm => hb.names m (hmem m hm)
  have hkt : (k, Node.file c p) ∈ tarOf pkg es := by
    rcases (hfin.files k _ hv).mp hk with h | ⟨_, _, h⟩
    · exact h
    · cases h
  obtain ⟨ls, l1, l2, l3⟩ := hn
  obtain ⟨b, b1, _, _, b4, _⟩ := open_finished hfin ho (List.ne_nil_of_mem hkt) l1 l2 l3 machine root pre post
  rw [ha] at b1
  cases b1
  rw [b4]
  exact List.mem_map.mpr ⟨_, List.mem_append_left _ hkt, rfl⟩

/-- **C232**: one build is installed, a later one put in its place with `--upgrade`. A file of the first package that the second has nothing at or below the place of is
gone afterwards, and the record is that of the second package alone. -/
theorem C232_old_build_gone (port port2 : Str → Option Str) (md md2 file file2 : Str → Str) (groups groups2 locales locales2 : List Str) (keepLa keepLa2 : Bool) (pkg pkg2 : Fs)
    (pkgs pkgs2 : List (Str × Tar)) (hb : Built pkg) (hb2 : Built pkg2) (hrun : buildPort port md file groups locales keepLa pkg = some pkgs)
    (hrun2 : buildPort port2 md2 file2 groups2 locales2 keepLa2 pkg2 = some pkgs2) (f f2 : Str) (t t2 : Tar) (hf : (f, t) ∈ pkgs) (hf2 : (f2, t2) ∈ pkgs2)
    (hsome : ∃ m ∈ t, (m.1.head?.bind List.head?) ≠ some '.') (hsome2 : ∃ m ∈ t2, (m.1.head?.bind List.head?) ≠ some '.')
    (n : Str) (hn : NamedIn (md f) n) (hn2 : NamedIn (md2 f2) n) (machine root : Str) (pre pre2 : Fs → Fs × Bool) (post post2 : Fs → Fs) :
    ∃ a a2, openTar machine root pre post t = .ok a ∧ openTar machine root pre2 post2 t2 = .ok a2 ∧ a.name = n ∧ a2.name = n ∧
      ∀ env rules opts opts2 s, FreshInstall env rules opts a s → opts2.upgrade = true → opts2.force = false →
        (pkgadd env rules opts2 a2 (pkgadd env rules opts a s).1).2 = none →
        (∀ g, Owns (pkgadd env rules opts2 a2 (pkgadd env rules opts a s).1).1.disk n g ↔ Ships env.rx rules a2 g) ∧
        ∀ k c p, (k, Node.file c p) ∈ pkg → (k, Node.file c p) ∈ t → visible k = true → ¬ Excluded env.rx rules (pathText k) → AwayFromRejected k →
          (∀ m, (pkgadd env rules opts a s).1.fs.get k ≠ some (.dir m)) → Leaves (fun fs => (pre2 fs).1) k → Leaves post2 k →
          (∀ e ∈ t2, ¬ k <+: e.1) → (pkgadd env rules opts2 a2 (pkgadd env rules opts a s).1).1.fs.get k = none := by
  obtain ⟨a, h1, rfl, _, _, h5, h6, h7⟩ := built_open hb hrun hf hsome hn machine root pre post
  obtain ⟨a2, g1, g2, g3, g4, g5, g6, g7⟩ := built_open hb2 hrun2 hf2 hsome2 hn2 machine root pre2 post2
  refine ⟨a, a2, h1, g1, rfl, g2, ?_⟩
  intro env rules opts opts2 s hfr hup hforce hok
  have hw := (fresh_disk hfr).1
  refine ⟨?_, ?_⟩
  · intro g
    rw [← g2]
    exact C07_recorded_iff_not_excluded env rules opts2 a2 _ hw hok g
  intro k c p hk hkt hv hex haway hplain e1 e2 hno
  have hok' := hb.names _ hk
  obtain ⟨_, hcomps, hdir, _, _⟩ := memberName_facts (m := (k, Node.file c p)) hok'
  have hnd : ¬ IsDirName (pathText k) := by
    intro hd
    obtain ⟨q, hq⟩ := hdir.mp hd
    cases hq
  have hlist : pathText k ∈ a.mtree := built_listed hb hrun hf hn h1 hkt hv
  have hsh : Ships env.rx rules a (pathText k) := ⟨hlist, (visible_member (m := (k, Node.file c p)) hok').mp hv, hex⟩
  have hent : ∀ e ∈ a2.entries, ¬ comps (pathText k) <+: comps e.path := by
    intro e he
    rw [show comps (pathText k) = k from hcomps]
    obtain ⟨m, hmt, hcase⟩ := g7 e he
    have : comps e.path = m.1 := by
      rcases hcase with ⟨hm, _, _, rfl⟩ | ⟨_, om, _, rfl⟩
      · exact (memberName_facts (hb2.names m hm)).2.1
      · exact (memberName_facts om).2.1
    rw [this]
    exact hno m hmt
  have honly : OnlyOwner (pkgadd env rules opts a s).1.disk a.name (pathText k) := by
    refine ⟨(owned_iff hfr).mpr hsh, ?_⟩
    intro n' hn'
    by_contra hne
    have hn2 := (other_owns hfr hne).mp hn'
    refine fresh_free hfr hsh ⟨hnd, Or.inl ⟨n', hne, hn2⟩, ?_⟩
    intro hown
    obtain ⟨i, hi, _⟩ := (owns_iff_mget hfr.wf).mp hown
    rw [fresh_absent hfr] at hi
    cases hi
  have := upgrade_gone (f := pathText k) hw hup hforce hok (by rw [show comps (pathText k) = k from hcomps, g3]; exact e1)
    (by rw [show comps (pathText k) = k from hcomps, g4]; exact e2) (g2 ▸ honly) hnd (by rw [show comps (pathText k) = k from hcomps]; exact hplain)
    (by
      intro hs2
      obtain ⟨e, he, het, _, hme⟩ := g6 _ ⟨hs2.1, hs2.2.1⟩
      have : e.1 = k := by
        rw [← (memberName_facts (hb2.names e he)).2.1, hme]; exact hcomps
      exact hno e het (this ▸ List.prefix_refl _)) hent (by rw [show comps (pathText k) = k from hcomps]; exact haway)
  rwa [show comps (pathText k) = k from hcomps] at this

/-! ### A case -/

/-- The next build: the program has another name. -/
def xBuiltFs2 : Fs :=
  [(["usr".toList], .dir 0o755), (["usr".toList, "bin".toList], .dir 0o755), (["usr".toList, "bin".toList, "tool2".toList], .file "elf2".toList 0o755),
   (["usr".toList, "include".toList], .dir 0o755), (["usr".toList, "include".toList, "tool.h".toList], .file "int".toList 0o644)]

/-- The main package of the next build, opened. -/
def xPack2 : Option Archive :=
  ((buildPort (fun _ => none) xBuiltMeta xBuiltFile ["devel".toList] [] false xBuiltFs2).getD []).find? (·.1 = "tool.cards-1-1".toList) |>.bind (xOpened ·.2)

/-- Install the one, upgrade to the other. -/
def xRebuilt (a a2 : Archive) : Bool × Bool × List (List Str) × List (List Str) :=
  let s := pkgadd xEnv [] xOpts a xNothing
  let r := pkgadd xEnv [] { xOpts with upgrade := true } a2 s.1
  (s.2.isNone, r.2.isNone, s.1.fs.map (·.1), r.1.fs.map (·.1))

set_option synthInstance.maxSize 2000 in
/-- `tool` is there after the first, and gone after the second; `tool2` is there. -/
example : ((xPack "tool.cards-1-1").bind (fun a => xPack2.map (xRebuilt a))) =
    some (true, true, [["usr".toList], ["usr".toList, "bin".toList], ["usr".toList, "bin".toList, "tool".toList]],
      [["usr".toList], ["usr".toList, "bin".toList], ["usr".toList, "bin".toList, "tool2".toList]]) := by
  decide +kernel

/-- The first installation is as the theorem asks. -/
theorem xPack_fresh : ∀ a, xPack "tool.cards-1-1" = some a → FreshInstall xEnv [] xOpts a xNothing := by
  have h : (xPack "tool.cards-1-1").map (fun a => (pkgadd xEnv [] xOpts a xNothing).2) = some none := by decide +kernel
  intro a ha
  rw [ha] at h
  have hq : a.pre = (fun fs => (fs, true)) ∧ a.post = id := by
    unfold xPack at ha
    obtain ⟨p, _, hp⟩ := Option.bind_eq_some_iff.mp ha
    unfold xOpened at hp
    split at hp
    · next b hb =>
      cases hp
      unfold openTar at hb
      split at hb
      · cases hb; exact ⟨rfl, rfl⟩
      · cases hb
    · cases hp
  exact ⟨by unfold xNothing; exact ⟨List.Pairwise.nil, fun p hp => by cases hp⟩, rfl, rfl, fun fs => by rw [hq.1, hq.2]; exact ⟨rfl, rfl⟩, Option.some.inj h⟩

end Cards.Props
