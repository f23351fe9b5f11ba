import Verif.Lemmas.Tree
import Verif.Props.Remove
/-!
# C06, C07, C08: what pkgadd does to the file tree
-/
namespace Cards.Props
open Cards Cards.Spec

/-- `k` is neither inside nor above (nor equal to) the directory of rejected files, `var/lib/pkg/rejected`. -/
def AwayFromRejected (k : List Str) : Prop := ¬ rejectedDir <+: k ∧ ¬ k <+: rejectedDir

/-- The scripts of the package do not touch the node at `k`. -/
def ScriptsLeave (a : Archive) (k : List Str) : Prop := Leaves (fun fs => (a.pre fs).1) k ∧ Leaves a.post k

theorem fsPre_get {opts : Opts} {a : Archive} {s : Sys} {k : List Str} (h : Leaves (fun fs => (a.pre fs).1) k) :
    (fsPre opts a s).get k = s.fs.get k := by
  unfold fsPre preRun; split
  · exact h s.fs
  · rfl

theorem fsEnd_get {env : Env} {rules : List Rule} {opts : Opts} {a : Archive} {s : Sys} {k : List Str}
    (h : Leaves a.post k) : (fsEnd env rules opts a s).get k = (fsNew env rules opts a s).get k := by
  unfold fsEnd; split
  · exact h _
  · rfl

theorem pairwise_once {a : Archive} (hg : GoodArchive a) {e e' : Entry} (he : e ∈ a.entries) (he' : e' ∈ a.entries)
    (h : comps e.path = comps e'.path) : e = e' := by
  have key : ∀ l : List Entry, l.Pairwise (fun e e' => comps e.path ≠ comps e'.path) → e ∈ l → e' ∈ l → e = e' := by
    intro l
    induction l with
    | nil => simp
    | cons b l ih =>
      intro hp h1 h2
      rw [List.pairwise_cons] at hp
      rcases List.mem_cons.mp h1 with r1 | r1 <;> rcases List.mem_cons.mp h2 with r2 | r2
      · rw [r1, r2]
      · subst r1; exact absurd h (hp.1 _ r2)
      · subst r2; exact absurd h.symm (hp.1 _ r1)
      · exact ih hp.2 r1 r2
  exact key _ hg.once he he'

theorem good_leaf {a : Archive} (hg : GoodArchive a) {e e' : Entry} (he : e ∈ a.entries) (he' : e' ∈ a.entries)
    (hd : ¬ IsDirName e.path) (h : comps e.path <+: comps e'.path) : e' = e := by
  by_cases hc : comps e.path = comps e'.path
  · exact (pairwise_once hg he he' hc).symm
  · exact absurd (hg.leaf e he e' he' (inside_iff.mpr ⟨h, Ne.symm hc⟩)) hd

theorem good_entry {a : Archive} (hg : GoodArchive a) {rx : Matcher} {rules : List Rule} {f : Str} (h : Ships rx rules a f) :
    ∃ e ∈ a.entries, e.path = f := hg.listed f h.1 h.2.1

/-! ## C06 -/

/-- On an upgrade, whatever its outcome, a regular file that the new version ships and whose last matching UPGRADE rule says NO
keeps its content and permissions. (`hspell`: the old version does not list the same file under another spelling.) -/
theorem C06_protected_untouched (env : Env) (rules : List Rule) (opts : Opts) (a : Archive) (s : Sys) (hw : WF s.disk)
    (hg : GoodArchive a) (hup : opts.upgrade = true) (f : Str) (hship : Ships env.rx rules a f)
    (hprot : Protected env.rx rules f) (hd : ¬ IsDirName f) (c : Str) (m : Nat)
    (hfile : s.fs.get (comps f) = some (.file c m))
    (haway : AwayFromRejected (comps f)) (hsc : ScriptsLeave a (comps f))
    (hspell : ∀ g, Owns s.disk a.name g → comps g = comps f → g = f ∨ IsDirName g) :
    (pkgadd env rules opts a s).1.fs.get (comps f) = some (.file c m) := by
  obtain ⟨e, he, hef⟩ := good_entry hg hship
  have hpre : (fsPre opts a s).get (comps f) = some (.file c m) := by rw [fsPre_get hsc.1, hfile]
  have hforce : (stForce env rules opts a s).fs.get (comps f) = some (.file c m) := by
    obtain ⟨del, h1, h2⟩ := stForce_fs env rules opts a s hw
    rw [h1]
    apply Fs.removeRev_file _ _ _ _ _ hpre
    intro p hp hpc
    exfalso
    obtain ⟨h3, h4⟩ := h2 p hp
    have h5 : Ships env.rx rules a p := mem_shipped.mp (mem_conflicts.mp h3).1
    obtain ⟨e', he', hp'⟩ := good_entry hg h5
    have : e' = e := pairwise_once hg he' he (by rw [hp', hef, hpc])
    subst this
    have hpf : p = f := by rw [← hp', hef]
    subst hpf
    exact h4 hup hprot
  have hkeep : f ∈ keepFileList env.rx (shipped env rules a) rules :=
    mem_keepFileList.mpr ⟨mem_shipped.mpr hship, hprot⟩
  have hold : (fsOld env rules opts a s).get (comps f) = some (.file c m) := by
    unfold fsOld
    rw [if_pos hup]
    apply Fs.removeRev_file _ _ _ _ _ hforce
    intro p hp hpc
    obtain ⟨h1, h2⟩ := mem_toDelete_force hw hp
    rcases hspell p h1 hpc with rfl | h
    · exact absurd hkeep h2
    · exact endsSlash_iff.mpr h
  have hend : (fsEnd env rules opts a s).get (comps f) = some (.file c m) := by
    rw [fsEnd_get hsc.2]
    unfold fsNew keepOf
    rw [if_pos hup]
    apply installArchive_keeps env _ _ _ _ f c m haway.1 haway.2 hold _ hkeep
    · intro e' he' _ hp
      have := good_leaf hg he he' (by rw [hef]; exact hd) (by rw [hef]; exact hp)
      rw [this, hef]
    · rw [Bool.eq_false_iff]; intro h; exact hd (endsSlash_iff.mp h)
  rcases (pkgadd_fs env rules opts a s).2 with h | h | h | h | h <;> rw [h]
  · exact hfile
  · exact hpre
  · exact hforce
  · exact hold
  · exact hend

/-- `etc/foo.conf` protected by `UPGRADE ^etc/ NO` (the matcher of `xEnv` is "is a prefix of"). -/
def xRules : List Rule := [⟨.UPGRADE, "etc/".toList, false⟩]
def xUp : Opts := { xOpts with upgrade := true }
def xFoo2 : Archive := xArch "foo" ["etc/", "etc/foo.conf", "etc/foo.new"]

theorem xFoo2_good : GoodArchive xFoo2 := by
  have hent : ∀ e ∈ xFoo2.entries, e.path = "etc/".toList ∧ e.node = .dir 0o755 ∨
      e.path = "etc/foo.conf".toList ∧ e.node = .file "etc/foo.conf".toList 0o644 ∨
      e.path = "etc/foo.new".toList ∧ e.node = .file "etc/foo.new".toList 0o644 := by decide
  have c1 : comps "etc/".toList = ["etc".toList] := by decide
  have c2 : comps "etc/foo.conf".toList = ["etc".toList, "foo.conf".toList] := by decide
  have c3 : comps "etc/foo.new".toList = ["etc".toList, "foo.new".toList] := by decide
  have d1 : IsDirName "etc/".toList := ⟨"etc".toList, by decide⟩
  have d2 : ¬ IsDirName "etc/foo.conf".toList := by rw [← endsSlash_iff]; decide
  have d3 : ¬ IsDirName "etc/foo.new".toList := by rw [← endsSlash_iff]; decide
  refine ⟨?_, by decide, ?_, ?_, ?_⟩
  · intro e he
    rcases hent e he with h | h | h <;> rw [h.1]
    · exact ⟨["etc".toList], by decide, by decide, Or.inr (by decide)⟩
    · exact ⟨["etc".toList, "foo.conf".toList], by decide, by decide, Or.inl (by decide)⟩
    · exact ⟨["etc".toList, "foo.new".toList], by decide, by decide, Or.inl (by decide)⟩
  · intro e he
    rcases hent e he with h | h | h <;> rw [h.1, h.2]
    · exact ⟨fun _ => ⟨_, rfl⟩, fun _ => d1⟩
    · exact ⟨fun x => absurd x d2, by rintro ⟨m, h⟩; simp at h⟩
    · exact ⟨fun x => absurd x d3, by rintro ⟨m, h⟩; simp at h⟩
  · rintro e he e' he' ⟨c, r, hin⟩
    rcases hent e he with h | h | h <;> rw [h.1] at hin ⊢
    · exact d1
    all_goals
      exfalso
      rcases hent e' he' with h' | h' | h' <;> rw [h'.1] at hin <;> simp only [c1, c2, c3] at hin <;>
        · have := congrArg List.length hin; simp at this
  · decide

example : (pkgadd xEnv xRules xUp xFoo2 xSys).2 = none ∧
    (pkgadd xEnv xRules xUp xFoo2 xSys).1.fs.get (comps "etc/foo.conf".toList) = some (.file "x".toList 0o600) ∧
    (pkgadd xEnv xRules xUp xFoo2 xSys).1.fs.get (rejectedDir ++ comps "etc/foo.conf".toList) =
      some (.file "etc/foo.conf".toList 0o644) ∧
    (pkgadd xEnv xRules xUp xFoo2 xSys).1.fs.get (comps "etc/foo.new".toList) = some (.file "etc/foo.new".toList 0o644) := by
  refine ⟨?_, ?_, ?_, ?_⟩ <;> decide
example : Protected xEnv.rx xRules "etc/foo.conf".toList ∧ Ships xEnv.rx xRules xFoo2 "etc/foo.conf".toList ∧
    AwayFromRejected (comps "etc/foo.conf".toList) ∧ ScriptsLeave xFoo2 (comps "etc/foo.conf".toList) := by
  refine ⟨⟨_, ⟨[], [], rfl, rfl, by decide, by simp⟩, rfl⟩, ⟨by decide, by decide, ?_⟩, ⟨?_, ?_⟩, fun _ => rfl, fun _ => rfl⟩
  · rw [← installFile_iff]; decide
  · rw [← List.isPrefixOf_iff_prefix]; decide
  · rw [← List.isPrefixOf_iff_prefix]; decide

theorem removeUp_other (fs : Fs) (base rest x : List Str) (h : ∀ p, p <+: rest.reverse → x ≠ base ++ p) :
    (fs.removeUp base rest).get x = fs.get x := by
  induction rest generalizing fs with
  | nil => rfl
  | cons c rest ih =>
    have hne : base ++ (c :: rest).reverse ≠ x := fun e => h _ (List.prefix_refl _) e.symm
    have ih' := fun fs' => ih (fs := fs') (fun p hp => h p (by
      simp only [List.reverse_cons]; exact hp.trans (List.prefix_append _ _)))
    simp only [Fs.removeUp]
    split
    · rfl
    · rw [ih', Fs.get_del]; simp only [hne, if_false]
    · split
      · rfl
      · rw [ih', Fs.get_del]; simp only [hne, if_false]

/-- An entry that is neither inside the rejected tree nor at or below `k` does not touch the rejected copy of `k`. -/
theorem installEntry_rej_ne (env : Env) (keep nonInst : List Str) (fs : Fs) (e : Entry) (k t : List Str)
    (hr : ¬ rejectedDir <+: comps e.path) (hk : ¬ k <+: comps e.path) :
    (installEntry env keep nonInst fs e).get (rejectedDir ++ (k ++ t)) = fs.get (rejectedDir ++ (k ++ t)) := by
  have hpk : ∀ p, p <+: comps e.path → rejectedDir ++ (k ++ t) ≠ rejectedDir ++ p := by
    intro p hp he
    have : k ++ t = p := List.append_cancel_left he
    exact hk ((List.prefix_append k t).trans (this ▸ hp))
  unfold installEntry
  split
  · rfl
  · split
    · simp only []
      have hne : rejectedDir ++ (k ++ t) ≠ rejectedDir ++ comps e.path := hpk _ (List.prefix_refl _)
      have hnp : rejectedDir ++ (k ++ t) ∉ parents (rejectedDir ++ comps e.path) := by
        rw [mem_parents]; rintro ⟨_, h, _⟩
        rw [List.prefix_append_right_inj] at h
        exact hk ((List.prefix_append k t).trans h)
      split
      · rfl
      · split
        · rfl
        · rename_i fs1 hfs1
          split
          · rw [removeUp_other _ _ _ _ (by simpa using hpk), Fs.extract_ne hfs1 hne hnp]
          · rw [Fs.extract_ne hfs1 hne hnp]
    · have hnp : ¬ (rejectedDir ++ (k ++ t)) <+: comps e.path := fun h => hr ((List.prefix_append _ _).trans h)
      split
      · rfl
      · split
        · rfl
        · rename_i fs1 hfs1
          rw [Fs.extract_ne hfs1 (by intro h; apply hnp; rw [← h]; exact List.prefix_refl _)
            (by rw [mem_parents]; rintro ⟨_, h, _⟩; exact hnp h)]

theorem installArchive_rej_ne (env : Env) (keep nonInst : List Str) (entries : List Entry) (fs : Fs) (k t : List Str)
    (h : ∀ e ∈ entries, ¬ rejectedDir <+: comps e.path ∧ ¬ k <+: comps e.path) :
    (installArchive env keep nonInst fs entries).get (rejectedDir ++ (k ++ t)) = fs.get (rejectedDir ++ (k ++ t)) := by
  unfold installArchive
  induction entries generalizing fs with
  | nil => rfl
  | cons e es ih =>
    simp only [List.foldl_cons]
    rw [ih _ (fun e' he' => h e' (by simp [he']))]
    exact installEntry_rej_ne env keep nonInst fs e k t (h e (by simp)).1 (h e (by simp)).2

/-- After a successful upgrade the packaged version of a protected file is found under `var/lib/pkg/rejected/`, or was dropped because it
has the permissions and content of the kept file, or because it has its permissions and is empty. -/
theorem C06_new_version_rejected (env : Env) (rules : List Rule) (opts : Opts) (a : Archive) (s : Sys) (hw : WF s.disk)
    (hg : GoodArchive a) (hup : opts.upgrade = true) (f : Str) (hship : Ships env.rx rules a f)
    (hprot : Protected env.rx rules f) (hd : ¬ IsDirName f) (c : Str) (m : Nat)
    (hfile : s.fs.get (comps f) = some (.file c m))
    (haway : AwayFromRejected (comps f)) (hsc : ScriptsLeave a (comps f))
    (hspell : ∀ g, Owns s.disk a.name g → comps g = comps f → g = f ∨ IsDirName g)
    (hok : (pkgadd env rules opts a s).2 = none)
    (hnorej : ∀ e ∈ a.entries, ¬ rejectedDir <+: comps e.path)
    (hclean : ∀ t, s.fs.get (rejectedDir ++ (comps f ++ t)) = none)
    (hsc2 : ∀ t, ScriptsLeave a (rejectedDir ++ (comps f ++ t)))
    (hext : env.extractFails (rejectedDir ++ comps f) = false)
    (e : Entry) (he : e ∈ a.entries) (hef : e.path = f) :
    (pkgadd env rules opts a s).1.fs.get (rejectedDir ++ comps f) = some e.node ∨
    e.node = .file c m ∨ e.node = .file [] m := by
  have hkeep : f ∈ keepFileList env.rx (shipped env rules a) rules :=
    mem_keepFileList.mpr ⟨mem_shipped.mpr hship, hprot⟩
  have hsl : endsSlash f = false := by rw [Bool.eq_false_iff]; intro h; exact hd (endsSlash_iff.mp h)
  -- the kept file and the rejected place before extraction
  have hpre : (fsPre opts a s).get (comps f) = some (.file c m) := by rw [fsPre_get hsc.1, hfile]
  have hforce : (stForce env rules opts a s).fs.get (comps f) = some (.file c m) ∧
      ∀ t, (stForce env rules opts a s).fs.get (rejectedDir ++ (comps f ++ t)) = none := by
    obtain ⟨del, h1, h2⟩ := stForce_fs env rules opts a s hw
    rw [h1]
    constructor
    · apply Fs.removeRev_file _ _ _ _ _ hpre
      intro p hp hpc
      exfalso
      obtain ⟨h3, h4⟩ := h2 p hp
      have h5 : Ships env.rx rules a p := mem_shipped.mp (mem_conflicts.mp h3).1
      obtain ⟨e', he', hp'⟩ := good_entry hg h5
      have : e' = e := pairwise_once hg he' he (by rw [hp', hef, hpc])
      subst this
      have hpf : p = f := by rw [← hp', hef]
      subst hpf
      exact h4 hup hprot
    · intro t
      rcases Fs.removeRev_le del (fsPre opts a s) (rejectedDir ++ (comps f ++ t)) with h | h
      · rw [h, fsPre_get (hsc2 t).1, hclean]
      · exact h
  have hold : (fsOld env rules opts a s).get (comps f) = some (.file c m) ∧
      ∀ t, (fsOld env rules opts a s).get (rejectedDir ++ (comps f ++ t)) = none := by
    unfold fsOld
    rw [if_pos hup]
    constructor
    · apply Fs.removeRev_file _ _ _ _ _ hforce.1
      intro p hp hpc
      obtain ⟨h1, h2⟩ := mem_toDelete_force hw hp
      rcases hspell p h1 hpc with rfl | h
      · exact absurd hkeep h2
      · exact endsSlash_iff.mpr h
    · intro t
      rcases Fs.removeRev_le (toDelete (stForce env rules opts a s).mem a.name
        (keepFileList env.rx (shipped env rules a) rules)) (stForce env rules opts a s).fs
        (rejectedDir ++ (comps f ++ t)) with h | h
      · rw [h, hforce.2]
      · exact h
  rw [(pkgadd_fs env rules opts a s).1 hok]
  have hl : (fsEnd env rules opts a s).get (rejectedDir ++ comps f) = (fsNew env rules opts a s).get (rejectedDir ++ comps f) :=
    fsEnd_get (by have := (hsc2 []).2; simpa using this)
  rw [hl]
  unfold fsNew keepOf
  rw [if_pos hup]
  generalize hkl : keepFileList env.rx (shipped env rules a) rules = kl at hkeep
  have hni : f ∉ (applyInstallRules env.rx a.files rules).2 := by
    rw [mem_applyInstallRules.2]; rintro ⟨_, h⟩; exact hship.2.2 h
  generalize (applyInstallRules env.rx a.files rules).2 = ni at hni
  obtain ⟨l, r, hlr⟩ := List.append_of_mem he
  have hothers : ∀ e' ∈ l ++ r, ¬ comps f <+: comps e'.path := by
    intro e' he' hp
    have hmem : e' ∈ a.entries := by rw [hlr]; simp at he' ⊢; grind
    have := good_leaf hg he hmem (by rw [hef]; exact hd) (by rw [hef]; exact hp)
    subst this
    have honce := hg.once
    rw [hlr, List.pairwise_append, List.pairwise_cons] at honce
    rcases List.mem_append.mp he' with h | h
    · exact honce.2.2 e' h e' (by simp) rfl
    · exact honce.2.1.1 e' h rfl
  have hmemE : ∀ e' ∈ l ++ r, e' ∈ a.entries := by
    intro e' he'; rw [hlr]; simp at he' ⊢; grind
  unfold installArchive
  rw [hlr, List.foldl_append, List.foldl_cons]
  generalize hfs0 : List.foldl (installEntry env kl ni) (fsOld env rules opts a s) l = fs0
  have h0f : fs0.get (comps f) = some (.file c m) := by
    rw [← hfs0, ← hold.1]
    exact installArchive_ne env kl ni l _ _ haway.1 haway.2 (fun e' he' _ => hothers e' (by simp [he']))
  have h0r : ∀ t, fs0.get (rejectedDir ++ (comps f ++ t)) = none := by
    intro t
    rw [← hfs0, ← hold.2 t]
    exact installArchive_rej_ne env kl ni l _ _ t (fun e' he' => ⟨hnorej e' (hmemE e' (by simp [he'])), hothers e' (by simp [he'])⟩)
  have hstep : (installEntry env kl ni fs0 e).get (rejectedDir ++ comps f) = some e.node ∨
      e.node = .file c m ∨ e.node = .file [] m := by
    unfold installEntry
    rw [hef]
    have hex : fs0.exist f = true := by simp [Fs.exist, Fs.lstat, h0f, hsl]
    rw [if_neg (by simpa using hni), if_pos (by simp [hex, hkeep])]
    simp only [hext, Bool.false_eq_true, if_false]
    cases hx : fs0.extract (rejectedDir ++ comps f) e.node with
    | none =>
      exfalso
      have h := h0r []
      simp only [List.append_nil] at h
      unfold Fs.extract at hx
      rw [h] at hx
      split at hx
      · rename_i h1; simp at h1
      · simp at hx
    | some fs1 =>
      simp only
      have h1 := Fs.extract_self hx
      have hne : comps f ≠ rejectedDir ++ comps f := by
        intro h; exact haway.1 (by rw [h]; exact List.prefix_append _ _)
      have h2 : fs1.get (comps f) = some (.file c m) := by
        rw [Fs.extract_ne hx hne, h0f]
        rw [mem_parents]; rintro ⟨_, h, _⟩; exact prefix_incomparable haway.1 haway.2 h
      have h3 : fs1.lstat f = some (.file c m) := by simp [Fs.lstat, h2, hsl]
      rw [h1, h3]
      split
      · rename_i hdrop
        right
        cases hnode : e.node with
        | dir p => rw [hnode] at hdrop; simp [dropRejected, Node.permEq] at hdrop
        | file c' p =>
          rw [hnode] at hdrop
          simp [dropRejected, Node.permEq] at hdrop
          obtain ⟨rfl, rfl | rfl⟩ := hdrop <;> simp
      · left; exact h1
  rcases hstep with h | h
  · left
    rw [← h]
    have := installArchive_rej_ne env kl ni r (installEntry env kl ni fs0 e) (comps f) []
      (fun e' he' => ⟨hnorej e' (hmemE e' (by simp [he'])), hothers e' (by simp [he'])⟩)
    simpa [installArchive] using this
  · exact Or.inr h

/-- The place of the packaged version is the one the user is told of: `var/lib/pkg/rejected/` followed by the name of the file. -/
theorem C06_rejected_place (f : Str) : rejectedDir ++ comps f = comps ("var/lib/pkg/rejected/".toList ++ f) := by
  have h : "var/lib/pkg/rejected/".toList ++ f =
      "var".toList ++ '/' :: ("lib".toList ++ '/' :: ("pkg".toList ++ '/' :: ("rejected".toList ++ '/' :: f))) := rfl
  rw [h, comps_append (by decide), comps_append (by decide), comps_append (by decide), comps_append (by decide)]
  rfl

/-- The same for a directory that an UPGRADE rule protects and in which the archive has nothing: when the packaged permissions differ from those of the
directory, the directory with the packaged permissions is found under `var/lib/pkg/rejected/`. -/
theorem C06_directory_rejected (env : Env) (rules : List Rule) (opts : Opts) (a : Archive) (s : Sys) (hw : WF s.disk)
    (hg : GoodArchive a) (hup : opts.upgrade = true) (f : Str) (hship : Ships env.rx rules a f)
    (hprot : Protected env.rx rules f) (hd : IsDirName f) (m p : Nat) (hpm : p ≠ m)
    (hfile : s.fs.get (comps f) = some (.dir m))
    (haway : AwayFromRejected (comps f)) (hsc : ScriptsLeave a (comps f))
    (hspell : ∀ g, Owns s.disk a.name g → comps g = comps f → g = f)
    (hok : (pkgadd env rules opts a s).2 = none)
    (hnorej : ∀ e ∈ a.entries, ¬ rejectedDir <+: comps e.path)
    (hclean : ∀ t, s.fs.get (rejectedDir ++ (comps f ++ t)) = none)
    (hsc2 : ∀ t, ScriptsLeave a (rejectedDir ++ (comps f ++ t)))
    (hext : env.extractFails (rejectedDir ++ comps f) = false)
    (e : Entry) (he : e ∈ a.entries) (hef : e.path = f) (hnode : e.node = .dir p)
    (hnone : ∀ e' ∈ a.entries, ¬ Inside (comps e'.path) (comps f)) :
    (pkgadd env rules opts a s).1.fs.get (rejectedDir ++ comps f) = some (.dir p) := by
  have hkeep : f ∈ keepFileList env.rx (shipped env rules a) rules :=
    mem_keepFileList.mpr ⟨mem_shipped.mpr hship, hprot⟩
  have hsl : endsSlash f = true := endsSlash_iff.mpr hd
  have hpre : (fsPre opts a s).get (comps f) = some (.dir m) := by rw [fsPre_get hsc.1, hfile]
  have hforce : (stForce env rules opts a s).fs.get (comps f) = some (.dir m) ∧
      ∀ t, (stForce env rules opts a s).fs.get (rejectedDir ++ (comps f ++ t)) = none := by
    obtain ⟨del, h1, h2⟩ := stForce_fs env rules opts a s hw
    rw [h1]
    constructor
    · rw [Fs.removeRev_ne, hpre]
      intro q hq hqc
      obtain ⟨h3, h4⟩ := h2 q hq
      have h5 : Ships env.rx rules a q := mem_shipped.mp (mem_conflicts.mp h3).1
      obtain ⟨e', he', hp'⟩ := good_entry hg h5
      have : e' = e := pairwise_once hg he' he (by rw [hp', hef, hqc])
      subst this
      have hpf : q = f := by rw [← hp', hef]
      subst hpf
      exact h4 hup hprot
    · intro t
      rcases Fs.removeRev_le del (fsPre opts a s) (rejectedDir ++ (comps f ++ t)) with h | h
      · rw [h, fsPre_get (hsc2 t).1, hclean]
      · exact h
  have hold : (fsOld env rules opts a s).get (comps f) = some (.dir m) ∧
      ∀ t, (fsOld env rules opts a s).get (rejectedDir ++ (comps f ++ t)) = none := by
    unfold fsOld
    rw [if_pos hup]
    constructor
    · rw [Fs.removeRev_ne, hforce.1]
      intro q hq hqc
      obtain ⟨h1, h2⟩ := mem_toDelete_force hw hq
      obtain rfl := hspell q h1 hqc
      exact absurd hkeep h2
    · intro t
      rcases Fs.removeRev_le (toDelete (stForce env rules opts a s).mem a.name
        (keepFileList env.rx (shipped env rules a) rules)) (stForce env rules opts a s).fs
        (rejectedDir ++ (comps f ++ t)) with h | h
      · rw [h, hforce.2]
      · exact h
  rw [(pkgadd_fs env rules opts a s).1 hok]
  have hl : (fsEnd env rules opts a s).get (rejectedDir ++ comps f) = (fsNew env rules opts a s).get (rejectedDir ++ comps f) :=
    fsEnd_get (by have := (hsc2 []).2; simpa using this)
  rw [hl]
  unfold fsNew keepOf
  rw [if_pos hup]
  generalize hkl : keepFileList env.rx (shipped env rules a) rules = kl at hkeep
  have hni : f ∉ (applyInstallRules env.rx a.files rules).2 := by
    rw [mem_applyInstallRules.2]; rintro ⟨_, h⟩; exact hship.2.2 h
  generalize (applyInstallRules env.rx a.files rules).2 = ni at hni
  obtain ⟨l, r, hlr⟩ := List.append_of_mem he
  have hmemE : ∀ e' ∈ l ++ r, e' ∈ a.entries := by
    intro e' he'; rw [hlr]; simp at he' ⊢; grind
  have hothers : ∀ e' ∈ l ++ r, ¬ comps f <+: comps e'.path := by
    intro e' he' hp
    have hmem := hmemE e' he'
    by_cases hc : comps e'.path = comps f
    · have : e' = e := pairwise_once hg hmem he (by rw [hef, hc])
      subst this
      have honce := hg.once
      rw [hlr, List.pairwise_append, List.pairwise_cons] at honce
      rcases List.mem_append.mp he' with h | h
      · exact honce.2.2 e' h e' (by simp) rfl
      · exact honce.2.1.1 e' h rfl
    · exact hnone e' hmem (inside_iff.mpr ⟨hp, hc⟩)
  unfold installArchive
  rw [hlr, List.foldl_append, List.foldl_cons]
  generalize hfs0 : List.foldl (installEntry env kl ni) (fsOld env rules opts a s) l = fs0
  have h0f : fs0.get (comps f) = some (.dir m) := by
    rw [← hfs0, ← hold.1]
    exact installArchive_ne env kl ni l _ _ haway.1 haway.2 (fun e' he' _ => hothers e' (by simp [he']))
  have h0r : ∀ t, fs0.get (rejectedDir ++ (comps f ++ t)) = none := by
    intro t
    rw [← hfs0, ← hold.2 t]
    exact installArchive_rej_ne env kl ni l _ _ t (fun e' he' => ⟨hnorej e' (hmemE e' (by simp [he'])), hothers e' (by simp [he'])⟩)
  have hstep : (installEntry env kl ni fs0 e).get (rejectedDir ++ comps f) = some (.dir p) := by
    unfold installEntry
    rw [hef]
    have hex : fs0.exist f = true := by simp [Fs.exist, Fs.lstat, h0f]
    rw [if_neg (by simpa using hni), if_pos (by simp [hex, hkeep])]
    simp only [hext, Bool.false_eq_true, if_false]
    cases hx : fs0.extract (rejectedDir ++ comps f) e.node with
    | none =>
      exfalso
      have h := h0r []
      simp only [List.append_nil] at h
      unfold Fs.extract at hx
      rw [h] at hx
      split at hx
      · rename_i h1; simp at h1
      · simp at hx
    | some fs1 =>
      simp only
      have h1 := Fs.extract_self hx
      have hne : comps f ≠ rejectedDir ++ comps f := by
        intro h; exact haway.1 (by rw [h]; exact List.prefix_append _ _)
      have h2 : fs1.get (comps f) = some (.dir m) := by
        rw [Fs.extract_ne hx hne, h0f]
        rw [mem_parents]; rintro ⟨_, h, _⟩; exact prefix_incomparable haway.1 haway.2 h
      have h3 : fs1.lstat f = some (.dir m) := by simp [Fs.lstat, h2]
      rw [h1, h3, hnode]
      rw [if_neg (by simp [dropRejected, Node.permEq, hpm]), h1, hnode]
  rw [← hstep]
  have := installArchive_rej_ne env kl ni r (installEntry env kl ni fs0 e) (comps f) []
    (fun e' he' => ⟨hnorej e' (hmemE e' (by simp [he'])), hothers e' (by simp [he'])⟩)
  simpa [installArchive] using this

/-- A system whose directory `etc/` has been closed to others. -/
def xShut : Sys := { xSys with fs := xSys.fs.set ["etc".toList] (.dir 0o700) }
/-- An upgrade of `foo` that has only the directory. -/
def xShutFoo : Archive := { xArch "foo" ["etc/"] with entries := [⟨"etc/".toList, .dir 0o755⟩] }
/-- The rule that protects it. -/
def xShutRules : List Rule := [⟨.UPGRADE, "etc/".toList, false⟩]

example : (pkgadd xEnv xShutRules xUp xShutFoo xShut).2 = none ∧
    (pkgadd xEnv xShutRules xUp xShutFoo xShut).1.fs.get (rejectedDir ++ comps "etc/".toList) = some (.dir 0o755) ∧
    (pkgadd xEnv xShutRules xUp xShutFoo xShut).1.fs.get (comps "etc/".toList) = some (.dir 0o700) ∧
    ∀ e' ∈ xShutFoo.entries, comps e'.path = comps "etc/".toList := by
  refine ⟨?_, ?_, ?_, ?_⟩ <;> decide

/-- The claim about directories fails when the archive has an identical file in it: dropping the file drops the directory, though its permissions differ. -/
theorem C06_directory_dropped_counterexample :
    let rules := xShutRules ++ xRules
    let a := { xShutFoo with mtree := ["etc/".toList, "etc/foo.conf".toList], entries := [⟨"etc/".toList, .dir 0o755⟩, ⟨"etc/foo.conf".toList, .file "x".toList 0o600⟩] }
    (pkgadd xEnv rules xUp a xShut).2 = none ∧
    (pkgadd xEnv rules xUp a xShut).1.fs.get (comps "etc/".toList) = some (.dir 0o700) ∧
    (pkgadd xEnv rules xUp a xShut).1.fs.get (rejectedDir ++ comps "etc/".toList) = none := by
  refine ⟨?_, ?_, ?_⟩ <;> decide

/-- The full claim fails for an empty packaged file: it is dropped although it is not identical to the kept one, so the user
finds no rejected version. -/
theorem C06_empty_dropped_counterexample :
    let a := { xArch "foo" ["etc/"] with
      mtree := ["etc/".toList, "etc/foo.conf".toList],
      entries := [⟨"etc/".toList, .dir 0o755⟩, ⟨"etc/foo.conf".toList, .file [] 0o600⟩] }
    (pkgadd xEnv xRules xUp a xSys).2 = none ∧
    (pkgadd xEnv xRules xUp a xSys).1.fs.get (comps "etc/foo.conf".toList) = some (.file "x".toList 0o600) ∧
    (pkgadd xEnv xRules xUp a xSys).1.fs.get (rejectedDir ++ comps "etc/foo.conf".toList) = none := by
  refine ⟨?_, ?_, ?_⟩ <;> decide

/-- A file protected by an UPGRADE rule but dropped by the new version (or excluded by an INSTALL rule) is deleted by the upgrade: the
keep list is computed from the files of the new version only. -/
theorem C06_dropped_file_deleted_counterexample :
    (pkgadd xEnv xRules xUp (xArch "foo" ["etc/", "etc/foo.new"]) xSys).2 = none ∧
    xSys.fs.get (comps "etc/foo.conf".toList) = some (.file "x".toList 0o600) ∧
    (pkgadd xEnv xRules xUp (xArch "foo" ["etc/", "etc/foo.new"]) xSys).1.fs.get (comps "etc/foo.conf".toList) = none ∧
    (let rules := ⟨.INSTALL, "etc/foo.conf".toList, false⟩ :: xRules
     (pkgadd xEnv rules xUp xFoo2 xSys).2 = none ∧
     (pkgadd xEnv rules xUp xFoo2 xSys).1.fs.get (comps "etc/foo.conf".toList) = none) := by
  refine ⟨?_, ?_, ?_, ?_, ?_⟩ <;> decide

/-! ## C07 -/

/-- After a successful command the recorded file list is exactly the set of non-meta files of the archive that the rules do not exclude. -/
theorem C07_recorded_iff_not_excluded (env : Env) (rules : List Rule) (opts : Opts) (a : Archive) (s : Sys) (hw : WF s.disk)
    (hok : (pkgadd env rules opts a s).2 = none) (f : Str) :
    Owns (pkgadd env rules opts a s).1.disk a.name f ↔
      f ∈ a.mtree ∧ f.head? ≠ some '.' ∧ ¬ ∃ r, LastRule env.rx rules .INSTALL f r ∧ r.action = false := by
  obtain ⟨h1, h2, _⟩ := pkgadd_disk env rules opts a s hw
  obtain ⟨_, _, dep, g3, _⟩ := h2 hok
  rw [owns_iff_mget h1]
  show _ ↔ Ships env.rx rules a f
  rw [← mem_shipped]
  constructor
  · rintro ⟨i, hi, hf⟩
    replace hi := g3.symm.trans hi
    simp only [Option.some.injEq] at hi; subst hi; exact hf
  · intro h; exact ⟨_, g3, h⟩

/-- The place of an excluded file is not touched, whatever the outcome: neither created, modified nor deleted, unless this is an upgrade
and the old version listed that place. (`hin`: for a directory, everything inside it is excluded as well; for a file this is vacuous.) -/
theorem C07_excluded_untouched (env : Env) (rules : List Rule) (opts : Opts) (a : Archive) (s : Sys) (hw : WF s.disk)
    (hg : GoodArchive a) (f : Str) (hmt : f ∈ a.mtree) (hdot : f.head? ≠ some '.') (hex : Excluded env.rx rules f)
    (hin : ∀ e ∈ a.entries, Inside (comps e.path) (comps f) → e.path ∈ a.mtree ∧ e.path.head? ≠ some '.' ∧ Excluded env.rx rules e.path)
    (haway : AwayFromRejected (comps f)) (hsc : ScriptsLeave a (comps f))
    (hold : opts.upgrade = true → ∀ g, Owns s.disk a.name g → comps g ≠ comps f) :
    (pkgadd env rules opts a s).1.fs.get (comps f) = s.fs.get (comps f) := by
  obtain ⟨e, he, hef⟩ := hg.listed f hmt hdot
  have hpre : (fsPre opts a s).get (comps f) = s.fs.get (comps f) := fsPre_get hsc.1
  have hforce : (stForce env rules opts a s).fs.get (comps f) = s.fs.get (comps f) := by
    obtain ⟨del, h1, h2⟩ := stForce_fs env rules opts a s hw
    rw [h1, Fs.removeRev_ne, hpre]
    intro p hp hpc
    obtain ⟨h3, _⟩ := h2 p hp
    have h5 : Ships env.rx rules a p := mem_shipped.mp (mem_conflicts.mp h3).1
    obtain ⟨e', he', hp'⟩ := good_entry hg h5
    have : e' = e := pairwise_once hg he' he (by rw [hp', hef, hpc])
    subst this
    have hpf : p = f := by rw [← hp', hef]
    subst hpf
    exact h5.2.2 hex
  have hold' : (fsOld env rules opts a s).get (comps f) = s.fs.get (comps f) := by
    unfold fsOld
    split
    · rename_i hup
      rw [Fs.removeRev_ne, hforce]
      intro p hp
      exact hold hup p (mem_toDelete_force hw hp).1
    · exact hforce
  have hend : (fsEnd env rules opts a s).get (comps f) = s.fs.get (comps f) := by
    rw [fsEnd_get hsc.2]
    unfold fsNew
    rw [installArchive_ne _ _ _ _ _ _ haway.1 haway.2, hold']
    intro e' he' hn hp
    apply hn
    rw [mem_applyInstallRules.2, mem_files]
    by_cases hc : comps e'.path = comps f
    · have : e' = e := pairwise_once hg he' he (by rw [hef, hc])
      subst this; rw [hef]; exact ⟨⟨hmt, hdot⟩, hex⟩
    · have := hin e' he' (inside_iff.mpr ⟨hp, hc⟩)
      exact ⟨⟨this.1, this.2.1⟩, this.2.2⟩
  rcases (pkgadd_fs env rules opts a s).2 with h | h | h | h | h <;> rw [h]
  · exact hpre
  · exact hforce
  · exact hold'
  · exact hend

example : let rules := [⟨.INSTALL, "etc/foo.new".toList, false⟩]
    (pkgadd xEnv rules xUp xFoo2 xSys).2 = none ∧
    (pkgadd xEnv rules xUp xFoo2 xSys).1.fs.get (comps "etc/foo.new".toList) = none ∧
    mget (pkgadd xEnv rules xUp xFoo2 xSys).1.disk "foo".toList =
      some { md := ["Nfoo".toList, "d1".toList], files := ["etc/".toList, "etc/foo.conf".toList] } := by
  refine ⟨?_, ?_, ?_⟩ <;> decide
example : Excluded xEnv.rx [⟨.INSTALL, "etc/foo.new".toList, false⟩] "etc/foo.new".toList ∧
    AwayFromRejected (comps "etc/foo.new".toList) := by
  refine ⟨?_, ?_, ?_⟩
  · rw [← installFile_iff]; decide
  · rw [← List.isPrefixOf_iff_prefix]; decide
  · rw [← List.isPrefixOf_iff_prefix]; decide

/-- An archive entry that the MTREE does not list escapes the rules, the conflict test and the record: it is extracted over an existing file of another
package although an INSTALL rule excludes it. -/
theorem C07_unlisted_entry_counterexample :
    let rules := [⟨.INSTALL, "etc/bar".toList, false⟩]
    let a := { xArch "new" ["etc/", "etc/bar"] with mtree := ["etc/".toList] }
    Excluded xEnv.rx rules "etc/bar".toList ∧
    (pkgadd xEnv rules xOpts a xSys).2 = none ∧
    xSys.fs.get (comps "etc/bar".toList) = some (.file "y".toList 0o600) ∧
    (pkgadd xEnv rules xOpts a xSys).1.fs.get (comps "etc/bar".toList) = some (.file "etc/bar".toList 0o644) := by
  refine ⟨?_, ?_, ?_, ?_⟩
  · rw [← installFile_iff]; decide
  all_goals decide

/-! ## C08 -/

/-- After a successful install or upgrade everything that is recorded exists on disk; a regular file that is not kept by an UPGRADE rule is
exactly the one of the archive. Hypotheses: the archive is as pkgmk writes them, extraction itself does not fail, no directory occupies the place
of a shipped file, and no shipped file lies in (nor replaces a parent of) the directory of rejected files. -/
theorem C08_recorded_on_disk (env : Env) (rules : List Rule) (opts : Opts) (a : Archive) (s : Sys) (hw : WF s.disk)
    (hg : GoodArchive a) (hok : (pkgadd env rules opts a s).2 = none)
    (f : Str) (hf : Owns (pkgadd env rules opts a s).1.disk a.name f)
    (hext : env.extractFails (comps f) = false)
    (hnd : ¬ IsDirName f → ∀ m, s.fs.get (comps f) ≠ some (.dir m))
    (haway1 : IsDirName f → ¬ Inside (comps f) rejectedDir) (haway2 : ¬ IsDirName f → AwayFromRejected (comps f))
    (hsc : ScriptsLeave a (comps f)) :
    Present (pkgadd env rules opts a s).1.fs f ∧
    (¬ IsDirName f → ¬ (opts.upgrade = true ∧ Protected env.rx rules f) →
      ∀ e ∈ a.entries, e.path = f → (pkgadd env rules opts a s).1.fs.get (comps f) = some e.node) := by
  have hship : Ships env.rx rules a f := (C07_recorded_iff_not_excluded env rules opts a s hw hok f).mp hf
  obtain ⟨e, he, hef⟩ := good_entry hg hship
  have hni : f ∉ (applyInstallRules env.rx a.files rules).2 := by
    rw [mem_applyInstallRules.2]; rintro ⟨_, h⟩; exact hship.2.2 h
  have hres : (pkgadd env rules opts a s).1.fs.get (comps f) = (fsNew env rules opts a s).get (comps f) := by
    rw [(pkgadd_fs env rules opts a s).1 hok, fsEnd_get hsc.2]
  have hkl : ∀ g, g ∈ keepOf env rules opts a → opts.upgrade = true ∧ Protected env.rx rules g := by
    intro g hgk
    unfold keepOf at hgk
    split at hgk
    · rename_i hu; exact ⟨hu, (mem_keepFileList.mp hgk).2⟩
    · simp at hgk
  have hle : (fsOld env rules opts a s).get (comps f) = s.fs.get (comps f) ∨ (fsOld env rules opts a s).get (comps f) = none := by
    obtain ⟨del, h1, _⟩ := stForce_fs env rules opts a s hw
    have h2 : (stForce env rules opts a s).fs.get (comps f) = s.fs.get (comps f) ∨ (stForce env rules opts a s).fs.get (comps f) = none := by
      rw [h1]
      rcases Fs.removeRev_le del (fsPre opts a s) (comps f) with h | h
      · left; rw [h]; exact fsPre_get hsc.1
      · exact Or.inr h
    unfold fsOld
    split
    · rcases Fs.removeRev_le (toDelete (stForce env rules opts a s).mem a.name
        (keepFileList env.rx (shipped env rules a) rules)) (stForce env rules opts a s).fs (comps f) with h | h
      · rw [h]; exact h2
      · exact Or.inr h
    · exact h2
  obtain ⟨l, r, hlr⟩ := List.append_of_mem he
  have hmemE : ∀ e' ∈ l ++ r, e' ∈ a.entries := by
    intro e' he'; rw [hlr]; simp at he' ⊢; grind
  have hdist : ∀ e' ∈ l ++ r, comps e'.path ≠ comps f := by
    intro e' he' hc
    have honce := hg.once
    rw [hlr, List.pairwise_append, List.pairwise_cons] at honce
    rw [← hef] at hc
    rcases List.mem_append.mp he' with h | h
    · exact honce.2.2 e' h e (by simp) hc
    · exact honce.2.1.1 e' h hc.symm
  have hnew : fsNew env rules opts a s =
      installArchive env (keepOf env rules opts a) (applyInstallRules env.rx a.files rules).2
        (installEntry env (keepOf env rules opts a) (applyInstallRules env.rx a.files rules).2
          (installArchive env (keepOf env rules opts a) (applyInstallRules env.rx a.files rules).2 (fsOld env rules opts a s) l) e) r := by
    unfold fsNew installArchive
    rw [hlr, List.foldl_append, List.foldl_cons]
  unfold Present
  rw [hres, hnew]
  generalize (applyInstallRules env.rx a.files rules).2 = ni at hni
  generalize hkk : keepOf env rules opts a = kl at hkl
  generalize hfs0 : installArchive env kl ni (fsOld env rules opts a s) l = fs0
  by_cases hd : IsDirName f
  · -- a directory
    have haway := haway1 hd
    obtain ⟨md, hnode⟩ := (hg.kind e he).mp (by rw [hef]; exact hd)
    have hstep : ∃ m, (installEntry env kl ni fs0 e).get (comps f) = some (.dir m) := by
      unfold installEntry
      rw [hef, if_neg (by simpa using hni)]
      split
      · rename_i hk
        simp only [Bool.and_eq_true] at hk
        obtain ⟨n, hn, hdir⟩ := exist_iff.mp hk.1
        obtain ⟨m, rfl⟩ := hdir hd
        have hpl := (plainName_comps (hg.plain e he)).1
        rw [hef] at hpl
        have hne : comps f ≠ rejectedDir ++ comps f := by
          intro h
          have := congrArg List.length h
          simp [rejectedDir] at this
          omega
        refine ⟨m, ?_⟩
        simp only []
        split
        · exact hn
        · split
          · exact hn
          · rename_i fs1 hfs1
            have h1 : fs1.get (comps f) = some (.dir m) := by
              rw [Fs.extract_eq hfs1, Fs.get_set]; simp [Ne.symm hne, Fs.mkParents_dir hn]
            split
            · rw [Fs.removeUp_notInside _ _ _ _ haway]; exact h1
            · exact h1
      · simp only [hext, Bool.false_eq_true, if_false]
        cases hx : fs0.extract (comps f) e.node with
        | none =>
          exfalso
          rw [hnode] at hx
          unfold Fs.extract at hx
          simp at hx
        | some fs1 => exact ⟨md, by simp only; rw [Fs.extract_self hx, hnode]⟩
    obtain ⟨m, hm⟩ := hstep
    have := installArchive_dir env kl ni r (installEntry env kl ni fs0 e) (comps f) m haway
      (fun e' he' => ⟨hdist e' (by simp [he']), (plainName_comps (hg.plain e' (hmemE e' (by simp [he'])))).1⟩) hm
    exact ⟨⟨_, this, fun _ => ⟨m, rfl⟩⟩, fun h => absurd hd h⟩
  · have haway := haway2 hd
    have hothers : ∀ e' ∈ l ++ r, ¬ comps f <+: comps e'.path := by
      intro e' he' hp
      have := good_leaf hg he (hmemE e' he') (by rw [hef]; exact hd) (by rw [hef]; exact hp)
      exact hdist e' he' (by rw [this, hef])
    have h0 : fs0.get (comps f) = s.fs.get (comps f) ∨ fs0.get (comps f) = none := by
      rw [← hfs0, installArchive_ne env kl ni l _ _ haway.1 haway.2 (fun e' he' _ => hothers e' (by simp [he']))]
      exact hle
    have hnodir : ∀ m, fs0.get (comps f) ≠ some (.dir m) := by
      intro m hm
      rcases h0 with h | h
      · exact hnd hd m (h ▸ hm)
      · rw [h] at hm; simp at hm
    have hrest : (installArchive env kl ni (installEntry env kl ni fs0 e) r).get (comps f) =
        (installEntry env kl ni fs0 e).get (comps f) :=
      installArchive_ne env kl ni r _ _ haway.1 haway.2 (fun e' he' _ => hothers e' (by simp [he']))
    rw [hrest]
    have huniq : ∀ e' ∈ a.entries, e'.path = f → e' = e := by
      intro e' he' hp; exact pairwise_once hg he' he (by rw [hp, hef])
    have hstep : (f ∈ kl ∧ fs0.exist f = true ∧ (installEntry env kl ni fs0 e).get (comps f) = fs0.get (comps f)) ∨
        (installEntry env kl ni fs0 e).get (comps f) = some e.node := by
      by_cases hk : f ∈ kl ∧ fs0.exist f = true
      · left
        refine ⟨hk.1, hk.2, ?_⟩
        apply installEntry_ne env kl ni fs0 e _ haway.1 haway.2
        intro _ _; rw [hef]; exact hk
      · right
        unfold installEntry
        rw [hef, if_neg (by simpa using hni), if_neg (by simp; grind)]
        simp only [hext, Bool.false_eq_true, if_false]
        cases hx : fs0.extract (comps f) e.node with
        | none =>
          exfalso
          unfold Fs.extract at hx
          split at hx
          · rename_i hm; exact hnodir _ hm
          · simp at hx
        | some fs1 => exact Fs.extract_self hx
    rcases hstep with ⟨hk, hexi, hsame⟩ | hst
    · refine ⟨?_, fun _ hnp => absurd (hkl f hk) hnp⟩
      obtain ⟨n, hn, _⟩ := exist_iff.mp hexi
      exact ⟨n, hsame.trans hn, fun h => absurd h hd⟩
    · refine ⟨⟨e.node, hst, fun h => absurd h hd⟩, ?_⟩
      intro _ _ e' he' hp
      rw [huniq e' he' hp, hst]

example : (pkgadd xEnv [] xUp xFoo2 xSys).2 = none ∧
    (pkgadd xEnv [] xUp xFoo2 xSys).1.fs.get (comps "etc/foo.conf".toList) = some (.file "etc/foo.conf".toList 0o644) ∧
    mget (pkgadd xEnv [] xUp xFoo2 xSys).1.disk "foo".toList =
      some { md := ["Nfoo".toList, "d1".toList], files := ["etc/".toList, "etc/foo.conf".toList, "etc/foo.new".toList] } := by
  refine ⟨?_, ?_, ?_⟩ <;> decide

/-- The package is installed with exactly the shipped files, and every other package keeps its record except for the files taken
over by force (see C09_forced_takeover for those): without a conflict nothing changes for it. -/
theorem C08_record_exact (env : Env) (rules : List Rule) (opts : Opts) (a : Archive) (s : Sys) (hw : WF s.disk)
    (hok : (pkgadd env rules opts a s).2 = none) :
    (∀ f, Owns (pkgadd env rules opts a s).1.disk a.name f ↔ Ships env.rx rules a f) ∧
    Installed (pkgadd env rules opts a s).1.disk a.name ∧
    (opts.force = false → ∀ n i, n ≠ a.name →
      ((n, i) ∈ (pkgadd env rules opts a s).1.disk ↔ (n, i) ∈ s.disk)) := by
  obtain ⟨h1, h2, _⟩ := pkgadd_disk env rules opts a s hw
  obtain ⟨g1, g2, dep, g3, _⟩ := h2 hok
  refine ⟨fun f => C07_recorded_iff_not_excluded env rules opts a s hw hok f, ?_, ?_⟩
  · rw [← mget_isSome_installed, g3]; rfl
  · intro hnf n i hn
    have hc : conflicts (stPre opts a s) a.name (shipped env rules a) = [] := by
      cases hcc : conflicts (stPre opts a s) a.name (shipped env rules a) with
      | nil => rfl
      | cons x y => have := g1 (by rw [hcc]; simp); rw [hnf] at this; simp at this
    have h := g2 n hn
    rw [hc] at h
    rw [← mget_iff_mem (wf_msorted h1), ← mget_iff_mem (wf_msorted hw), h]
    cases mget s.disk n <;> simp [dropInfo_nil]

/-- A forced install over a non-empty directory, or any failing extraction, is still reported as success and recorded, though the
file is not on disk. -/
theorem C08_failed_extraction_counterexample :
    let a := xArch "new" ["etc"]
    (pkgadd xEnv [] { xOpts with force := true } a xSys).2 = none ∧
    mget (pkgadd xEnv [] { xOpts with force := true } a xSys).1.disk "new".toList = some { md := ["Nnew".toList], files := ["etc".toList] } ∧
    (pkgadd xEnv [] { xOpts with force := true } a xSys).1.fs.get (comps "etc".toList) = some (.dir 0o755) ∧
    (let env := { xEnv with extractFails := fun _ => true }
     (pkgadd env [] xOpts (xArch "new" ["etc/new"]) xSys).2 = none ∧
     mget (pkgadd env [] xOpts (xArch "new" ["etc/new"]) xSys).1.disk "new".toList = some { md := ["Nnew".toList], files := ["etc/new".toList] } ∧
     (pkgadd env [] xOpts (xArch "new" ["etc/new"]) xSys).1.fs.get (comps "etc/new".toList) = none) := by
  refine ⟨?_, ?_, ?_, ?_, ?_, ?_⟩ <;> decide

end Cards.Props
