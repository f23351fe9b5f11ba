import Verif.Lemmas.Hist
import Verif.Lemmas.Names
import Verif.Props.TransDb
/-!
# C04, C05, C40: what pkgrm does to the file tree
-/
namespace Cards.Props
open Cards Cards.Spec

theorem pkgrm_fs (locked : Bool) (sc : RmScripts) (name : Str) (s : Sys) :
    let r := pkgrm locked sc name s
    (r.2 = none → r.1.fs = sc.post ((sc.pre s.fs).1.removeRev (toDelete s.disk name []))) ∧
    (r.1.fs = s.fs ∨ r.1.fs = (sc.pre s.fs).1 ∨
      r.1.fs = sc.post ((sc.pre s.fs).1.removeRev (toDelete s.disk name []))) := by
  simp only [pkgrm, runRm]
  split
  · simp [load, St.sys]
  · split
    · simp [load, St.sys]
    · split
      · simp [load, St.sys]
      · have : ∀ st : St, (removeRecord st name).1.fs = st.fs := by
          intro st; simp only [removeRecord]; split <;> rfl
        simp only [St.sys, this]
        simp [removeFiles, load]

/-- A path of the tree that no file list entry of the removed package denotes is never touched, whatever the outcome of the
command (provided the removal scripts of the package do not touch it themselves). -/
theorem C04_unlisted_untouched (locked : Bool) (sc : RmScripts) (name : Str) (s : Sys) (k : List Str)
    (hpre : Leaves (fun fs => (sc.pre fs).1) k) (hpost : Leaves sc.post k)
    (hk : ∀ f, Owns s.disk name f → comps f ≠ k) :
    (pkgrm locked sc name s).1.fs.get k = s.fs.get k := by
  have hdel : ∀ p ∈ toDelete s.disk name [], comps p ≠ k := by
    intro p hp
    obtain ⟨⟨i, hi, hf⟩, _⟩ := mem_toDelete.mp hp
    exact hk p ⟨i, mget_some_mem hi, hf⟩
  rcases (pkgrm_fs locked sc name s).2 with h | h | h <;> rw [h]
  · exact hpre s.fs
  · rw [hpost, Fs.removeRev_ne _ _ _ hdel]; exact hpre s.fs

/-- A path that another installed package lists is never touched, if the removed package does not list the same path
under a different spelling. -/
theorem C04_shared_untouched (locked : Bool) (sc : RmScripts) (name : Str) (s : Sys) (n f : Str)
    (hpre : Leaves (fun fs => (sc.pre fs).1) (comps f)) (hpost : Leaves sc.post (comps f))
    (hn : n ≠ name) (hf : Owns s.disk n f)
    (hspell : ∀ g, Owns s.disk name g → comps g = comps f → g = f) :
    (pkgrm locked sc name s).1.fs.get (comps f) = s.fs.get (comps f) := by
  have hdel : ∀ p ∈ toDelete s.disk name [], comps p ≠ comps f := by
    intro p hp he
    obtain ⟨⟨i, hi, hf'⟩, _, hoth⟩ := mem_toDelete.mp hp
    have := hspell p ⟨i, mget_some_mem hi, hf'⟩ he
    subst this
    obtain ⟨j, hj, hjf⟩ := hf
    exact hoth _ hj hn hjf
  rcases (pkgrm_fs locked sc name s).2 with h | h | h <;> rw [h]
  · exact hpre s.fs
  · rw [hpost, Fs.removeRev_ne _ _ _ hdel]; exact hpre s.fs

/-- The same without any assumption on spelling when the other package lists a regular file that is on disk and the removed package
only spells it as a directory, or as the same name. -/
theorem C04_shared_file_untouched (locked : Bool) (sc : RmScripts) (name : Str) (s : Sys) (n f : Str) (c : Str) (m : Nat)
    (hpre : Leaves (fun fs => (sc.pre fs).1) (comps f)) (hpost : Leaves sc.post (comps f))
    (hn : n ≠ name) (hf : Owns s.disk n f) (hfile : s.fs.get (comps f) = some (.file c m))
    (hspell : ∀ g, Owns s.disk name g → comps g = comps f → g = f ∨ IsDirName g) :
    (pkgrm locked sc name s).1.fs.get (comps f) = some (.file c m) := by
  have hdel : ∀ p ∈ toDelete s.disk name [], comps p = comps f → endsSlash p = true := by
    intro p hp he
    obtain ⟨⟨i, hi, hf'⟩, _, hoth⟩ := mem_toDelete.mp hp
    rcases hspell p ⟨i, mget_some_mem hi, hf'⟩ he with h | h
    · subst h
      obtain ⟨j, hj, hjf⟩ := hf
      exact absurd hjf (hoth _ hj hn)
    · exact endsSlash_iff.mpr h
  rcases (pkgrm_fs locked sc name s).2 with h | h | h <;> rw [h]
  · exact hfile
  · rw [← hfile]; exact hpre s.fs
  · rw [hpost, Fs.removeRev_file _ _ _ c m (by rw [← hfile]; exact hpre s.fs) hdel]

/-- The records of all other packages are exactly as before. -/
theorem C04_other_records_unchanged (locked : Bool) (sc : RmScripts) (name : Str) (s : Sys) (hw : WF s.disk) (n : Str)
    (i : Info) (hn : n ≠ name) : (n, i) ∈ (pkgrm locked sc name s).1.disk ↔ (n, i) ∈ s.disk := by
  obtain ⟨h1, h2, _⟩ := pkgrm_disk locked sc name s hw
  rw [← mget_iff_mem (wf_msorted h1), ← mget_iff_mem (wf_msorted hw), h2 n hn]

def noScripts : RmScripts := { pre := fun fs => (fs, true), post := fun fs => fs }

example : Leaves (fun fs => (noScripts.pre fs).1) (comps "etc/bar".toList) ∧ Leaves noScripts.post (comps "etc/bar".toList) :=
  ⟨fun _ => rfl, fun _ => rfl⟩
-- removing foo deletes etc/foo.conf, keeps etc/ and etc/bar, which bar lists
example : (pkgrm false noScripts "foo".toList xSys).2 = none ∧
    (pkgrm false noScripts "foo".toList xSys).1.fs =
      [(["etc".toList], .dir 0o755), (["etc".toList, "bar".toList], .file "y".toList 0o600)] := by
  constructor <;> decide
example : ∀ g, Owns xSys.disk "foo".toList g → comps g = comps "etc/".toList → g = "etc/".toList := by
  intro g hg
  rw [owns_iff_mget xSys_wf] at hg
  obtain ⟨i, hi, hg⟩ := hg
  have : mget xSys.disk "foo".toList = some { md := ["Nfoo".toList, "d1".toList], files := ["etc/".toList, "etc/foo.conf".toList] } := rfl
  rw [this] at hi; simp only [Option.some.injEq] at hi; subst hi
  simp only [List.mem_cons, List.not_mem_nil, or_false] at hg
  rcases hg with rfl | rfl <;> decide

/-- Ownership is compared by spelling: if one package lists `lib` (say, a link) and another `lib/`, removing the former
deletes the empty directory the latter still lists. -/
theorem C04_spelling_counterexample :
    let s : Sys := { fs := [(["lib".toList], .dir 0o755)],
                     disk := [("a".toList, { md := [], files := ["lib".toList] }), ("b".toList, { md := [], files := ["lib/".toList] })] }
    (pkgrm false noScripts "a".toList s).2 = none ∧
    mget (pkgrm false noScripts "a".toList s).1.disk "b".toList = some { md := [], files := ["lib/".toList] } ∧
    s.fs.get (comps "lib/".toList) = some (.dir 0o755) ∧
    (pkgrm false noScripts "a".toList s).1.fs.get (comps "lib/".toList) = none := by
  refine ⟨?_, ?_, ?_, ?_⟩ <;> decide

/-! ## C05 -/

/-- After a successful removal the package is not installed any more. -/
theorem C05_not_installed (locked : Bool) (sc : RmScripts) (name : Str) (s : Sys) (hw : WF s.disk)
    (hok : (pkgrm locked sc name s).2 = none) : ¬ Installed (pkgrm locked sc name s).1.disk name := by
  obtain ⟨_, _, h, _⟩ := pkgrm_disk locked sc name s hw
  rw [← mget_isSome_installed, h hok]; simp

/-- The package is the only one that lists `f`. -/
def OnlyOwner (db : Db) (n f : Str) : Prop := Owns db n f ∧ ∀ n', Owns db n' f → n' = n

theorem mem_toDelete_iff {db : Db} (hw : WF db) {name f : Str} : f ∈ toDelete db name [] ↔ OnlyOwner db name f := by
  rw [mem_toDelete]
  unfold OnlyOwner
  rw [owns_iff_mget hw]
  constructor
  · rintro ⟨h1, _, h2⟩
    refine ⟨h1, ?_⟩
    rintro n' ⟨i, hi, hf⟩
    apply Decidable.byContradiction
    intro hne
    exact h2 _ hi hne hf
  · rintro ⟨h1, h2⟩
    refine ⟨h1, by simp, ?_⟩
    rintro ⟨n', i⟩ hp hne hf
    exact hne (h2 n' ⟨i, hp, hf⟩)

/-- After a successful removal every regular file that only this package listed is gone. -/
theorem C05_files_gone (locked : Bool) (sc : RmScripts) (name : Str) (s : Sys) (hw : WF s.disk) (f : Str) (c : Str) (m : Nat)
    (hpre : Leaves (fun fs => (sc.pre fs).1) (comps f)) (hpost : Leaves sc.post (comps f))
    (hok : (pkgrm locked sc name s).2 = none) (hown : OnlyOwner s.disk name f) (hd : ¬ IsDirName f)
    (hfile : s.fs.get (comps f) = some (.file c m)) :
    (pkgrm locked sc name s).1.fs.get (comps f) = none := by
  rw [(pkgrm_fs locked sc name s).1 hok, hpost]
  have hmem := (mem_toDelete_iff hw).mpr hown
  obtain ⟨l, r, hn⟩ := List.append_of_mem hmem
  rw [Fs.removeRev_eq, hn, show (l ++ f :: r).reverse = (r.reverse ++ [f]) ++ l.reverse by simp, List.foldl_append,
    List.foldl_append]
  apply rmFold_mono
  simp only [List.foldl_cons, List.foldl_nil]
  have hs : endsSlash f = false := by rw [Bool.eq_false_iff]; intro h; exact hd (endsSlash_iff.mp h)
  have h1 : (sc.pre s.fs).1.get (comps f) = some (.file c m) := by rw [← hfile]; exact hpre s.fs
  rcases Fs.rmFold_le r.reverse (sc.pre s.fs).1 (comps f) with e | e
  · exact Fs.rmStep_file _ f c m (e.trans h1) hs
  · rcases Fs.rmStep_le (List.foldl Fs.rmStep (sc.pre s.fs).1 r.reverse) f (comps f) with e' | e'
    · rw [e', e]
    · exact e'

/-- After a successful removal a directory that only this package listed is gone, if everything inside it was listed only
by this package. (`names`: the package's names are spelled as in archives. A regular file counts as listed by its
plain name, a directory by either spelling.) -/
theorem C05_dirs_gone (locked : Bool) (sc : RmScripts) (name : Str) (s : Sys) (hw : WF s.disk) (f : Str)
    (hnames : ∀ g, Owns s.disk name g → PlainName g)
    (hpre : ∀ k, k = comps f ∨ Inside k (comps f) → Leaves (fun fs => (sc.pre fs).1) k) (hpost : Leaves sc.post (comps f))
    (hok : (pkgrm locked sc name s).2 = none) (hown : OnlyOwner s.disk name f)
    (m : Nat) (hdir : s.fs.get (comps f) = some (.dir m))
    (hinside : ∀ x n, s.fs.get x = some n → Inside x (comps f) →
      ∃ g, OnlyOwner s.disk name g ∧ comps g = x ∧ (IsDirName g → ∃ p, n = .dir p)) :
    (pkgrm locked sc name s).1.fs.get (comps f) = none := by
  rw [(pkgrm_fs locked sc name s).1 hok, hpost]
  apply removeRev_gone _ (sorted_toDelete hw)
  · intro g hg; exact hnames g ((mem_toDelete_iff hw).mp hg).1
  · exact (mem_toDelete_iff hw).mpr hown
  · intro n hn c p hc
    have h1 : (sc.pre s.fs).1.get (comps f) = some (.dir m) := by rw [← hdir]; exact hpre _ (Or.inl rfl) s.fs
    rw [h1] at hn; simp at hn; subst hn; simp at hc
  · intro x n hx hin
    have h1 : s.fs.get x = some n := by rw [← hx]; exact (hpre x (Or.inr hin) s.fs).symm
    obtain ⟨g, hg, hgx, hgd⟩ := hinside x n h1 hin
    refine ⟨g, (mem_toDelete_iff hw).mpr hg, hgx, ?_⟩
    intro c p hc
    rw [Bool.eq_false_iff]
    intro hsl
    obtain ⟨q, hq⟩ := hgd (endsSlash_iff.mp hsl)
    rw [hq] at hc; simp at hc

/-- A package with a nested directory; `d/own/` holds only its own files, `d/mixed/` also a foreign one. -/
def ySys : Sys :=
  { fs := [(["d".toList], .dir 0o755), (["d".toList, "own".toList], .dir 0o755), (["d".toList, "own".toList, "x".toList], .file [] 0o644),
           (["d".toList, "mixed".toList], .dir 0o755), (["d".toList, "mixed".toList, "foreign".toList], .file [] 0o644)],
    disk := [("p".toList, { md := [], files := ["d/".toList, "d/mixed/".toList, "d/own/".toList, "d/own/x".toList] })] }

example : (pkgrm false noScripts "p".toList ySys).2 = none ∧
    (pkgrm false noScripts "p".toList ySys).1.fs =
      [(["d".toList], .dir 0o755), (["d".toList, "mixed".toList], .dir 0o755),
       (["d".toList, "mixed".toList, "foreign".toList], .file [] 0o644)] := by constructor <;> decide

theorem ySys_only (g : Str) : OnlyOwner ySys.disk "p".toList g ↔ g ∈ ["d/".toList, "d/mixed/".toList, "d/own/".toList, "d/own/x".toList] := by
  unfold OnlyOwner Owns
  simp only [ySys, List.mem_cons, List.not_mem_nil, or_false, Prod.mk.injEq]
  grind

example : PlainName "d/own/x".toList ∧ PlainName "d/own/".toList := by
  refine ⟨⟨["d".toList, "own".toList, "x".toList], by decide, by decide, Or.inl (by decide)⟩,
    ⟨["d".toList, "own".toList], by decide, by decide, Or.inr (by decide)⟩⟩

-- the hypothesis of C05_dirs_gone about `d/own/` holds
example : ∀ x n, ySys.fs.get x = some n → Inside x (comps "d/own/".toList) →
      ∃ g, OnlyOwner ySys.disk "p".toList g ∧ comps g = x ∧ (IsDirName g → ∃ p, n = .dir p) := by
  intro x n hx hin
  have hc : comps "d/own/".toList = ["d".toList, "own".toList] := by decide
  rw [hc] at hin
  obtain ⟨c, r, rfl⟩ := hin
  obtain ⟨w, hw⟩ := Fs.mem_keys_of_get hx
  simp [ySys] at hw
  obtain ⟨⟨rfl, rfl⟩, rfl⟩ := hw
  refine ⟨"d/own/x".toList, (ySys_only _).mpr (by simp), by decide, ?_⟩
  rw [← endsSlash_iff]; intro h; exact absurd h (by decide)

/-! ## C40 -/

/-- In the sequence of deletions a package removal (or the removal of the old version in an upgrade) performs, everything inside a directory comes
before the directory, for names spelled as in archives. -/
theorem C40_children_first (db : Db) (hw : WF db) (name : Str) (keep : List Str)
    (d g : Str) (hd : d ∈ toDelete db name keep) (hg : g ∈ toDelete db name keep)
    (hpd : PlainName d) (hpg : PlainName g) (hin : Inside (comps g) (comps d)) :
    ∃ l1 l2 l3, removalOrder (toDelete db name keep) = l1 ++ g :: l2 ++ d :: l3 := by
  have hs := sorted_toDelete (keep := keep) (name := name) hw
  have hlt := plain_lt hpd hpg hin
  obtain ⟨l, r, hn⟩ := List.append_of_mem hd
  have hgr : g ∈ r := by
    unfold Sorted at hs
    rw [hn] at hg hs
    rw [List.pairwise_append] at hs
    simp only [List.mem_append, List.mem_cons] at hg
    rcases hg with h' | h' | h'
    · exact absurd (hs.2.2 g h' d (by simp)) (fun e => str_lt_irrefl _ (str_lt_trans hlt e))
    · subst h'; exact absurd hlt (str_lt_irrefl _)
    · exact h'
  obtain ⟨r1, r2, hr⟩ := List.append_of_mem hgr
  refine ⟨r2.reverse, r1.reverse, l.reverse, ?_⟩
  unfold removalOrder
  rw [hn, hr]; simp

example : removalOrder (toDelete ySys.disk "p".toList []) =
    ["d/own/x".toList, "d/own/".toList, "d/mixed/".toList, "d/".toList] := by decide
example : Inside (comps "d/own/x".toList) (comps "d/own/".toList) := ⟨"x".toList, [], by decide⟩

/-- Each name of the set is visited exactly once, and nothing else is. -/
theorem C40_visits_each_once (db : Db) (hw : WF db) (name : Str) (keep : List Str) (f : Str) :
    (removalOrder (toDelete db name keep)).Nodup ∧
    (f ∈ removalOrder (toDelete db name keep) ↔ f ∈ toDelete db name keep) := by
  constructor
  · unfold removalOrder
    rw [List.Nodup, List.pairwise_reverse]
    exact (sorted_toDelete hw).imp (fun h e => by subst e; exact str_lt_irrefl _ h)
  · simp [removalOrder]

end Cards.Props
