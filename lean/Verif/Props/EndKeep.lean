import Verif.Props.EndAgain
/-!
# C233: the packages of one build leave each other alone
-/
namespace Cards.Props
open Cards Cards.Spec

/-- **C233** for files: of two packages of one build, installing the second one — and removing it again — leaves every file of the first as it is. -/
theorem C233_files_stay_partial (port : Str → Option Str) (md file : Str → Str) (groups locales : List Str) (keepLa : Bool) (pkg : Fs) (pkgs : List (Str × Tar))
    (hb : Built pkg) (hrun : buildPort port md file groups locales keepLa pkg = some pkgs) (f f' : Str) (t t' : Tar) (hf : (f, t) ∈ pkgs) (hf' : (f', t') ∈ pkgs)
    (hne : f ≠ f') (hsome' : ∃ m ∈ t', (m.1.head?.bind List.head?) ≠ some '.') (n' : Str) (hn' : NamedIn (md f') n')
    (machine root : Str) (pre' : Fs → Fs × Bool) (post' : Fs → Fs) :
    ∃ a', openTar machine root pre' post' t' = .ok a' ∧ a'.name = n' ∧
      ∀ env rules opts s sc, FreshInstall env rules opts a' s → NoSideEffects sc →
        ∀ k c p, (k, Node.file c p) ∈ pkg → (k, Node.file c p) ∈ t → visible k = true → AwayFromRejected k →
          (pkgadd env rules opts a' s).1.fs.get k = s.fs.get k ∧
          (pkgrm false sc n' (pkgadd env rules opts a' s).1).1.fs.get k = s.fs.get k := by
  obtain ⟨a', g1, rfl, _, _, _, g6, g7⟩ := built_open hb hrun hf' hsome' hn' machine root pre' post'
  refine ⟨a', g1, rfl, ?_⟩
  intro env rules opts s sc hfr hq k c p hk hkt hv haway
  have habs : ∀ c' p', (k, Node.file c' p') ∉ t' := fun c' p' =>
    C228_no_common_file port md file groups locales keepLa pkg pkgs hb hrun f f' t t' hf hf' hne k hv c c' p p' hkt
  have hstay : (pkgadd env rules opts a' s).1.fs.get k = s.fs.get k := by
    rw [fresh_fs hfr]
    refine installArchive_ne env _ _ _ _ _ haway.1 haway.2 ?_
    intro e he _ hpre
    obtain ⟨m, hmt, hcase⟩ := g7 e he
    rcases hcase with ⟨hm, _, _, rfl⟩ | ⟨⟨q, hq, q1, q2, q3⟩, om, _, rfl⟩
    · simp only at hpre
      rw [(memberName_facts (hb.names m hm)).2.1] at hpre
      by_cases hkm : k = m.1
      · have hm2 : m.2 = .file c p := built_same hb (k := k) (by rw [hkm]; exact hm) hk
        exact habs c p (by rw [hkm, ← hm2]; exact hmt)
      · obtain ⟨x, hx⟩ := hb.tree m hm k (hb.names _ hk).1 hpre hkm
        cases built_same hb hk hx
    · simp only at hpre
      rw [(memberName_facts om).2.1] at hpre
      have h2 := hpre.trans q2
      obtain ⟨x, hx⟩ := hb.tree q hq k (hb.names _ hk).1 h2 (by
        intro he
        have l1 := hpre.length_le
        have l2 := q2.length_le
        rw [he] at l1
        exact q3 (q2.eq_of_length (Nat.le_antisymm l2 l1)))
      cases built_same hb hk hx
  refine ⟨hstay, ?_⟩
  rw [rm_fresh_fs hfr hq, ← hstay]
  refine Fs.removeRev_ne _ _ _ ?_
  intro g hg hgk
  have hown := ((mem_toDelete_iff (fresh_disk hfr).1).mp hg).1
  have hsh := (owned_iff hfr).mp hown
  obtain ⟨e, he, het, _, rfl⟩ := g6 g ⟨hsh.1, hsh.2.1⟩
  rw [(memberName_facts (hb.names e he)).2.1] at hgk
  have he2 : e.2 = .file c p := built_same hb (k := k) (by rw [← hgk]; exact he) hk
  exact habs c p (by rw [← hgk, ← he2]; exact het)

/-! ### A case -/

/-- A build with a directory that only its owner may look into. -/
def xBuiltFs3 : Fs :=
  [(["opt".toList], .dir 0o755), (["opt".toList, "app".toList], .dir 0o700), (["opt".toList, "app".toList, "key".toList], .file "k".toList 0o644),
   (["opt".toList, "app".toList, "include".toList], .dir 0o755), (["opt".toList, "app".toList, "include".toList, "app.h".toList], .file "int".toList 0o644)]

theorem xBuilt_built3 : Built xBuiltFs3 where
  once := by decide +kernel
  tree := by
    have key : ∀ e ∈ xBuiltFs3, ∀ k ∈ parents e.1, ∃ m, (k, Node.dir m) ∈ xBuiltFs3 := by
      have : ∀ e ∈ xBuiltFs3, ∀ k ∈ parents e.1, (k, Node.dir 0o755) ∈ xBuiltFs3 ∨ (k, Node.dir 0o700) ∈ xBuiltFs3 := by decide +kernel
      intro e he k hk
      rcases this e he k hk with h | h
      · exact ⟨_, h⟩
      · exact ⟨_, h⟩
    exact fun e he k h1 h2 h3 => key e he k (mem_parents.mpr ⟨h1, h2, h3⟩)
  names := by
    have key : ∀ e ∈ xBuiltFs3, e.1 ≠ [] ∧ ∀ k ∈ e.1, k ≠ [] ∧ '/' ∉ k ∧ '\n' ∉ k ∧ '\x00' ∉ k := by decide +kernel
    exact key
  noScript := by decide +kernel

/-- The package file of that name of this build, opened. -/
def xPack3 (f : String) : Option Archive :=
  ((buildPort (fun _ => none) xBuiltMeta xBuiltFile ["devel".toList] [] false xBuiltFs3).getD []).find? (·.1 = f.toList) |>.bind (xOpened ·.2)

/-- The one installed, and then the other: the directory `opt/app` and the file in it, before and after the second. -/
def xTwoOf (a a' : Archive) : Bool × Bool × List (Option Node) :=
  let s := pkgadd xEnv [] xOpts a xNothing
  let r := pkgadd xEnv [] xOpts a' s.1
  (s.2.isNone, r.2.isNone, [s.1.fs.get ["opt".toList, "app".toList], s.1.fs.get ["opt".toList, "app".toList, "key".toList],
    r.1.fs.get ["opt".toList, "app".toList], r.1.fs.get ["opt".toList, "app".toList, "key".toList]])

set_option synthInstance.maxSize 2000 in
/-- **C233** is false for directories: the main package has `opt/app`, for its owner only; when `tool.devel` of the same build is installed, everyone may look into it. (The
file in it stays as it is.) -/
theorem C233_directory_counterexample :
    ((xPack3 "tool.cards-1-1").bind (fun a => (xPack3 "tool.devel.cards-1-1").map (xTwoOf a))) =
    some (true, true, [some (.dir 0o700), some (.file "k".toList 0o644), some (.dir 0o755), some (.file "k".toList 0o644)]) := by
  decide +kernel

end Cards.Props
