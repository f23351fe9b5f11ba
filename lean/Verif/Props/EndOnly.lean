import Verif.Props.EndRest
/-!
# C239: an upgraded port: nothing but what was there and what was built
-/
namespace Cards.Props
open Cards Cards.Spec

/-- What the extraction loop leaves at a place away from the rejected files was there, or is an entry, or a directory above one; with a keep list. -/
theorem extracted_src_keep (env : Env) (keep nonInst : List Str) (entries : List Cards.Entry) (fs : Fs) (k : List Str) (n : Node) (haway : AwayFromRejected k)
    (h : (installArchive env keep nonInst fs entries).get k = some n) :
    fs.get k = some n ∨ (∃ e ∈ entries, e.path ∉ nonInst ∧ comps e.path = k ∧ n = e.node) ∨
      (∃ e ∈ entries, e.path ∉ nonInst ∧ k ∈ parents (comps e.path) ∧ n = .dir 0o755) := by
  unfold installArchive at h
  induction entries generalizing fs with
  | nil => exact Or.inl h
  | cons e es ih =>
    simp only [List.foldl_cons] at h
    rcases ih _ h with h | ⟨e', he', h⟩ | ⟨e', he', h⟩
    · by_cases hkeep : e.path ∈ keep ∧ fs.exist e.path = true
      · rw [installEntry_ne env keep nonInst fs e k haway.1 haway.2 (fun _ _ => hkeep)] at h
        exact Or.inl h
      · have heq : installEntry env keep nonInst fs e = installEntry env [] nonInst fs e := by
          have hc : (fs.exist e.path && keep.contains e.path) = false := by
            rw [Bool.and_eq_false_iff]
            by_cases h1 : e.path ∈ keep
            · left
              by_contra h2
              exact hkeep ⟨h1, by simpa using h2⟩
            · right; simpa using h1
          unfold installEntry
          simp only [hc, List.contains_nil, Bool.and_false, Bool.false_eq_true, if_false]
        rw [heq] at h
        rcases extracted_src env nonInst [e] fs k n h with h | ⟨x, hx, h2⟩ | ⟨x, hx, h2⟩
        · exact Or.inl h
        · rw [List.mem_singleton] at hx
          subst hx
          exact Or.inr (Or.inl ⟨x, by simp, h2⟩)
        · rw [List.mem_singleton] at hx
          subst hx
          exact Or.inr (Or.inr ⟨x, by simp, h2⟩)
    · exact Or.inr (Or.inl ⟨e', by simp [he'], h⟩)
    · exact Or.inr (Or.inr ⟨e', by simp [he'], h⟩)

/-- What a step without `--force` leaves at a place was there, or is an entry, or a directory above one. -/
theorem add_src {env : Env} {rules : List Rule} {opts : Opts} {a : Archive} {s : Sys} {k : List Str} {n : Node} (hw : WF s.disk)
    (hforce : opts.force = false) (hok : (pkgadd env rules opts a s).2 = none) (hq : ∀ fs, (a.pre fs).1 = fs ∧ a.post fs = fs) (haway : AwayFromRejected k)
    (h : (pkgadd env rules opts a s).1.fs.get k = some n) :
    s.fs.get k = some n ∨ (∃ e ∈ a.entries, comps e.path = k ∧ n = e.node) ∨ (∃ e ∈ a.entries, k ∈ parents (comps e.path) ∧ n = .dir 0o755) := by
  have hconf : conflicts (stPre opts a s) a.name (shipped env rules a) = [] := by
    obtain ⟨_, h2, _⟩ := pkgadd_disk env rules opts a s hw
    by_cases hc : conflicts (stPre opts a s) a.name (shipped env rules a) = []
    · exact hc
    · exact absurd ((h2 hok).1 hc) (by rw [hforce]; simp)
  have hst : stForce env rules opts a s = stPre opts a s := by
    unfold stForce forcePhase conf
    rw [hconf]; rfl
  have hpre : (stForce env rules opts a s).fs = s.fs := by
    rw [hst]
    show fsPre opts a s = s.fs
    unfold fsPre preRun
    split
    · exact (hq _).1
    · rfl
  have h1 : fsEnd env rules opts a s = fsNew env rules opts a s := by
    unfold fsEnd
    split
    · exact (hq _).2
    · rfl
  rw [(pkgadd_fs env rules opts a s).1 hok, h1] at h
  unfold fsNew at h
  rcases extracted_src_keep env _ _ _ _ _ _ haway h with h | ⟨e, he, _, h⟩ | ⟨e, he, _, h⟩
  · left
    unfold fsOld at h
    rw [hpre] at h
    split at h
    · rcases Fs.removeRev_le (toDelete (stForce env rules opts a s).mem a.name (keepFileList env.rx (shipped env rules a) rules)) s.fs k with h' | h'
      · rw [← h']; exact h
      · rw [h'] at h; cases h
    · exact h
  · exact Or.inr (Or.inl ⟨e, he, h⟩)
  · exact Or.inr (Or.inr ⟨e, he, h⟩)

/-- **C239**: packages of one build are installed or upgraded, in whatever order and any number of times, every step successful and not forced. Whatever file is on the disk then
was there before with the same content and permissions, or is a file of the build with the content and permissions it has there — the rejected files apart. -/
theorem C239_nothing_else (port : Str → Option Str) (md file : Str → Str) (groups locales : List Str) (keepLa : Bool) (pkg : Fs) (pkgs : List (Str × Tar))
    (hb : Built pkg) (hrun : buildPort port md file groups locales keepLa pkg = some pkgs) (hnames : ∀ e ∈ pkgs, ∃ n, NamedIn (md e.1) n)
    (hfull : ∀ e ∈ pkgs, ∃ m ∈ e.2, (m.1.head?.bind List.head?) ≠ some '.')
    (machine root : Str) (pre : Str → Fs → Fs × Bool) (post : Str → Fs → Fs) (hquiet : ∀ f fs, (pre f fs).1 = fs ∧ post f fs = fs)
    (env : Env) (rules : List Rule) (l : List Str) (s s' : Sys) (h : AddsAll pkgs machine root pre post env rules l s s') (hw : WF s.disk)
    (k : List Str) (c : Str) (p : Nat) (haway : AwayFromRejected k) (hk : s'.fs.get k = some (.file c p)) :
    s.fs.get k = some (.file c p) ∨ (k, Node.file c p) ∈ pkg := by
  induction h with
  | nil s => exact Or.inl hk
  | cons f t a opts l s s' hf ho hforce hok _ ih =>
    rcases ih (pkgadd_disk env rules opts a s hw).1 hk with h | h
    · obtain ⟨n, hn⟩ := hnames _ hf
      obtain ⟨d, d1, _, d3, d4, _, _, d7⟩ := built_open hb hrun hf (hfull _ hf) hn machine root (pre f) (post f)
      rw [ho] at d1
      cases d1
      rcases add_src hw hforce hok (fun fs => by rw [d3, d4]; exact hquiet f fs) haway h with h | ⟨e, he, hck, hnode⟩ | ⟨e, he, _, hnode⟩
      · exact Or.inl h
      · right
        obtain ⟨m, _, hcase⟩ := d7 e he
        rcases hcase with ⟨hm, _, _, rfl⟩ | ⟨_, _, ⟨x, hd⟩, rfl⟩
        · simp only at hck hnode
          rw [(memberName_facts (hb.names m hm)).2.1] at hck
          rw [← hck, hnode]
          exact hm
        · simp only at hnode
          rw [hd] at hnode; cases hnode
      · cases hnode
    · exact Or.inr h

/-! ### A case -/

/-- `tool.devel` of the next build, opened. -/
def xDevel2 : Option Archive :=
  ((buildPort (fun _ => none) xBuiltMeta xBuiltFile ["devel".toList] [] false xBuiltFs2).getD []).find? (·.1 = "tool.devel.cards-1-1".toList) |>.bind (xOpened ·.2)

/-- The old whole of the port beside a file of someone else, then the two packages of the next build: did each step work, and what is on the disk that was not built? -/
def xReplaced (w a a' : Archive) : Bool × Bool × Bool × Fs × Bool :=
  let s := pkgadd xEnv [] xOpts w { xNothing with fs := [(["home".toList], .dir 0o755), (["home".toList, "letter".toList], .file "dear".toList 0o600)] }
  let s2 := pkgadd xEnv [] { xOpts with upgrade := true } a s.1
  let s3 := pkgadd xEnv [] xOpts a' s2.1
  (s.2.isNone, s2.2.isNone, s3.2.isNone, s3.1.fs.filter (fun e => decide (e ∉ xBuiltFs2)), xBuiltFs2.all (fun e => s3.1.fs.get e.1 = some e.2))

set_option synthInstance.maxSize 2000 in
/-- Just what was someone else's; and all that was built is there. -/
example : xWhole.bind (fun w => xPack2.bind (fun a => xDevel2.map (xReplaced w a))) =
    some (true, true, true, [(["home".toList], .dir 0o755), (["home".toList, "letter".toList], .file "dear".toList 0o600)], true) := by
  decide +kernel

end Cards.Props
