import Verif.Model.PkgmkRace
import Verif.Props.PkgmkRepo
import Verif.Props.PkgmkKill
/-!
# C226: several runs of `pkgmk` at the same time in one collection
-/
namespace Cards.Props

/-- Of the records `rs`, those of packages that belong to none of the runs are there, whole and in their order; behind them may be anything. -/
def OthersKept (names : List Str) (rs : List FileRec) (repo : List Str) : Prop :=
  ∃ rs' rest, repo = recText rs' ++ rest ∧ rs'.Sublist rs ∧ ∀ r ∈ rs, (∀ n ∈ names, ¬ n <+: r.file) → r ∈ rs'

theorem OthersKept.sed {names : List Str} {rs : List FileRec} {repo : List Str} (hb : ∀ r ∈ rs, BodyOk r.body) (h : OthersKept names rs repo) {n : Str} (hn : n ∈ names) :
    OthersKept names rs (sedDelete (atName n) false repo) := by
  obtain ⟨rs', rest, rfl, hs, hk⟩ := h
  refine ⟨rs'.filter (fun r => !n.isPrefixOf r.file), sedDelete (atName n) false rest, ?_, (List.filter_sublist ..).trans hs, ?_⟩
  · exact sedDelete_recs_append n rs' (fun r hr => hb r (hs.subset hr)) rest
  · intro r hr hno
    refine List.mem_filter.mpr ⟨hk r hr hno, ?_⟩
    rw [Bool.not_eq_true']
    rw [Bool.eq_false_iff]
    intro h
    exact hno n hn (List.isPrefixOf_iff_prefix.mp h)

theorem OthersKept.append {names : List Str} {rs : List FileRec} {repo : List Str} (h : OthersKept names rs repo) (l : Str) : OthersKept names rs (repo ++ [l]) := by
  obtain ⟨rs', rest, rfl, hs, hk⟩ := h
  exact ⟨rs', rest ++ [l], by simp, hs, hk⟩

/-- What holds at every moment: the file and what the runs have read of it keep the other records. -/
def RaceInv (names : List Str) (rs : List FileRec) (s : RaceSt) : Prop :=
  OthersKept names rs s.repo ∧ ∀ r ∈ s.runs, r.name ∈ names ∧ ∀ snap, r.phase = .read snap → OthersKept names rs snap

theorem raceStep_inv {names : List Str} {rs : List FileRec} (hb : ∀ r ∈ rs, BodyOk r.body) {s : RaceSt} (h : RaceInv names rs s) (i : Nat) : RaceInv names rs (raceStep s i) := by
  unfold raceStep
  cases hi : s.runs[i]? with
  | none => exact h
  | some r =>
    obtain ⟨h1, h2⟩ := h
    have hr := List.mem_of_getElem? hi
    obtain ⟨hname, hsnap⟩ := h2 r hr
    have key : OthersKept names rs (raceOne s.repo r).1 ∧ (raceOne s.repo r).2.name ∈ names ∧ ∀ snap, (raceOne s.repo r).2.phase = .read snap → OthersKept names rs snap := by
      unfold raceOne
      split
      · exact ⟨h1, hname, fun snap e => by injection e with e; exact e ▸ h1⟩
      · rename_i snap e
        exact ⟨(hsnap snap e).sed hb hname, hname, fun _ e' => nomatch e'⟩
      · rename_i e
        split
        · exact ⟨h1, hname, fun snap e' => by rw [e] at e'; cases e'⟩
        · exact ⟨h1.append _, hname, fun snap e' => by simp only [e] at e'; cases e'⟩
    refine ⟨key.1, ?_⟩
    intro x hx
    rcases List.mem_or_eq_of_mem_set hx with hx | rfl
    · exact h2 x hx
    · exact key.2

/-- **C226**: however many runs there are and in whatever order they make their steps: at every moment the records of the packages that belong to none of their ports are in `.REPO`, whole,
in their order, and before everything else. -/
theorem C226_others_kept (dir : List BuiltPkg) (names : List Str) (rs : List FileRec) (hb : ∀ r ∈ rs, BodyOk r.body) (sched : List Nat) :
    OthersKept names rs (raceAll ⟨recText rs, names.map (raceBegin dir)⟩ sched).repo := by
  have h0 : RaceInv names rs ⟨recText rs, names.map (raceBegin dir)⟩ := by
    refine ⟨⟨rs, [], by simp, List.Sublist.refl _, fun r hr _ => hr⟩, ?_⟩
    intro r hr
    obtain ⟨n, hn, rfl⟩ := List.mem_map.mp hr
    exact ⟨hn, fun _ e => nomatch e⟩
  have : ∀ (sched : List Nat) (s : RaceSt), RaceInv names rs s → RaceInv names rs (raceAll s sched) := by
    intro sched
    induction sched with
    | nil => exact fun _ h => h
    | cons i sched ih => exact fun s h => ih _ (raceStep_inv hb h i)
  exact (this sched _ h0).1

/-- Alone, a run does what `update_repo_file` does. -/
theorem race_alone (dir : List BuiltPkg) (name : Str) (repo : List Str) :
    (raceAll ⟨repo, [raceBegin dir name]⟩ (List.replicate (2 + ((globPkgs name dir).flatMap repoLines).length) 0)).repo = (updateRepoFile name dir repo []).1 := by
  have loop : ∀ (ls : List Str) (repo : List Str), (raceAll ⟨repo, [⟨name, .loop, ls⟩]⟩ (List.replicate ls.length 0)).repo = repo ++ ls := by
    intro ls
    induction ls with
    | nil => intro repo; simp [raceAll]
    | cons l ls ih =>
      intro repo
      have : raceAll ⟨repo, [⟨name, .loop, l :: ls⟩]⟩ (List.replicate (l :: ls).length 0) = raceAll ⟨repo ++ [l], [⟨name, .loop, ls⟩]⟩ (List.replicate ls.length 0) := rfl
      rw [this, ih]
      simp
  unfold updateRepoFile raceBegin
  generalize (globPkgs name dir).flatMap repoLines = ls
  rw [Nat.add_comm]
  have : raceAll ⟨repo, [⟨name, .start, ls⟩]⟩ (List.replicate (ls.length + 2) 0) =
      raceAll ⟨sedDelete (atName name) false repo, [⟨name, .loop, ls⟩]⟩ (List.replicate ls.length 0) := rfl
  rw [this, loop]

/-- **C226**: one after the other, the runs leave the same records in either order, if no package of one port begins with the name of the other. Missing for the whole property: runs whose
updates overlap (see below). -/
theorem C226_one_after_the_other_partial (dir : List BuiltPkg) (a b : Str) (rs fs : List FileRec) (hr : ∀ r ∈ rs, BodyOk r.body) (hf : ∀ r ∈ fs, BodyOk r.body)
    (hdir : ∀ p ∈ dir, BodyOk p.info ∧ BodyOk p.files) (hab : ∀ p ∈ globPkgs a dir, ¬ b <+: p.file) (hba : ∀ p ∈ globPkgs b dir, ¬ a <+: p.file) :
    let u := updateRepoFile a dir (recText rs) (recText fs)
    let v := updateRepoFile b dir (recText rs) (recText fs)
    ∃ x y x' y', updateRepoFile b dir u.1 u.2 = (recText x, recText y) ∧ updateRepoFile a dir v.1 v.2 = (recText x', recText y') ∧ x.Perm x' ∧ y.Perm y' ∧
      (∀ p ∈ globPkgs a dir, repoRecOf p ∈ x ∧ filesRecOf p ∈ y) ∧ (∀ p ∈ globPkgs b dir, repoRecOf p ∈ x ∧ filesRecOf p ∈ y) ∧
      (∀ r ∈ rs, ¬ a <+: r.file → ¬ b <+: r.file → r ∈ x) ∧ (∀ r ∈ fs, ¬ a <+: r.file → ¬ b <+: r.file → r ∈ y) := by
  have mk : ∀ (n m : Str), (∀ p ∈ globPkgs n dir, ¬ m <+: p.file) →
      updateRepoFile m dir (updateRepoFile n dir (recText rs) (recText fs)).1 (updateRepoFile n dir (recText rs) (recText fs)).2 =
        (recText ((rs.filter (fun r => !n.isPrefixOf r.file)).filter (fun r => !m.isPrefixOf r.file) ++ (globPkgs n dir).map repoRecOf ++ (globPkgs m dir).map repoRecOf),
         recText ((fs.filter (fun r => !n.isPrefixOf r.file)).filter (fun r => !m.isPrefixOf r.file) ++ (globPkgs n dir).map filesRecOf ++ (globPkgs m dir).map filesRecOf)) := by
    intro n m hnm
    have hok := globPkgs_ok (name := n) hdir
    have keep : ∀ (recOf : BuiltPkg → FileRec), (∀ p, (recOf p).file = p.file) →
        ((globPkgs n dir).map recOf).filter (fun r => !m.isPrefixOf r.file) = (globPkgs n dir).map recOf := by
      intro recOf hfile
      rw [List.filter_eq_self]
      intro r hm
      obtain ⟨p, hp, rfl⟩ := List.mem_map.mp hm
      rw [hfile, Bool.not_eq_true', Bool.eq_false_iff]
      exact fun h => hnm p hp (List.isPrefixOf_iff_prefix.mp h)
    rw [C94_update_exact_partial n dir rs fs hr hf]
    dsimp only
    rw [C94_update_exact_partial m dir, List.filter_append, List.filter_append, keep repoRecOf (fun _ => rfl), keep filesRecOf (fun _ => rfl)]
    · intro r hm
      rcases List.mem_append.mp hm with hm | hm
      · exact hr r (List.mem_filter.mp hm).1
      · obtain ⟨p, hp, rfl⟩ := List.mem_map.mp hm
        exact (hok p hp).2.1
    · intro r hm
      rcases List.mem_append.mp hm with hm | hm
      · exact hf r (List.mem_filter.mp hm).1
      · obtain ⟨p, hp, rfl⟩ := List.mem_map.mp hm
        exact (hok p hp).2.2
  intro u v
  have comm : ∀ l : List FileRec, (l.filter (fun r => !a.isPrefixOf r.file)).filter (fun r => !b.isPrefixOf r.file) =
      (l.filter (fun r => !b.isPrefixOf r.file)).filter (fun r => !a.isPrefixOf r.file) := by
    intro l
    rw [List.filter_filter, List.filter_filter]
    congr 1
    funext r
    exact Bool.and_comm _ _
  have perm : ∀ (l m n : List FileRec), (l ++ m ++ n).Perm (l ++ n ++ m) := by
    intro l m n
    rw [List.append_assoc, List.append_assoc]
    exact List.Perm.append_left l List.perm_append_comm
  have stay : ∀ (l : List FileRec) (r : FileRec), r ∈ l → ¬ a <+: r.file → ¬ b <+: r.file →
      r ∈ (l.filter (fun r => !a.isPrefixOf r.file)).filter (fun r => !b.isPrefixOf r.file) := by
    intro l r hm h1 h2
    refine List.mem_filter.mpr ⟨List.mem_filter.mpr ⟨hm, ?_⟩, ?_⟩ <;> rw [Bool.not_eq_true', Bool.eq_false_iff] <;> intro h
    · exact h1 (List.isPrefixOf_iff_prefix.mp h)
    · exact h2 (List.isPrefixOf_iff_prefix.mp h)
  refine ⟨_, _, _, _, mk a b hab, mk b a hba, ?_, ?_, ?_, ?_, ?_, ?_⟩
  · rw [comm]; exact perm _ _ _
  · rw [comm]; exact perm _ _ _
  · intro p hp
    exact ⟨List.mem_append_left _ (List.mem_append_right _ (List.mem_map_of_mem hp)), List.mem_append_left _ (List.mem_append_right _ (List.mem_map_of_mem hp))⟩
  · intro p hp
    exact ⟨List.mem_append_right _ (List.mem_map_of_mem hp), List.mem_append_right _ (List.mem_map_of_mem hp)⟩
  · intro r hm h1 h2
    exact List.mem_append_left _ (List.mem_append_left _ (stay rs r hm h1 h2))
  · intro r hm h1 h2
    exact List.mem_append_left _ (List.mem_append_left _ (stay fs r hm h1 h2))

/-- The example: `zlib` and `bzip2` are built at the same time; `gtk` was there before. -/
def raceDir : List BuiltPkg :=
  [⟨"bzip2.cards-1-1".toList, ["Nbzip2".toList], [], "5".toList, "ee".toList⟩, xBuilt[1], xBuilt[3]]

example : (∀ p ∈ globPkgs "zlib".toList raceDir, ¬ "bzip2".toList <+: p.file) ∧ (∀ p ∈ globPkgs "bzip2".toList raceDir, ¬ "zlib".toList <+: p.file) ∧
    (∀ p ∈ raceDir, BodyOk p.info ∧ BodyOk p.files) ∧ BodyOk (repoRecOf xBuilt[1]).body := by
  unfold BodyOk
  decide +kernel

/-- `sed` of the run for `zlib` has read the list, then the run for `bzip2` does all its work, then `sed` renames its file: the record of `bzip2` is lost. -/
theorem C226_counterexample_lost :
    (raceAll ⟨recText [repoRecOf xBuilt[1]], ["zlib".toList, "bzip2".toList].map (raceBegin raceDir)⟩ ([0] ++ List.replicate 7 1 ++ List.replicate 7 0)).repo =
      recText [repoRecOf xBuilt[1], repoRecOf xBuilt[3]] := by decide +kernel

/-- The lines of the two runs come between each other: the package `zlib` is then read with the file name of `bzip2`, and there is no `bzip2`. -/
theorem C226_counterexample_mixed :
    let s := raceAll ⟨[], ["zlib".toList, "bzip2".toList].map (raceBegin raceDir)⟩ ([0, 0, 1, 1, 0, 1, 1] ++ List.replicate 6 0 ++ List.replicate 6 1)
    ∃ m p, parseRepo defaultPkg [⟨"/srv".toList, "base".toList, [], some s.repo⟩] = some m ∧ mget m "zlib".toList = some p ∧ p.fileName = "bzip2.cards-1-1".toList ∧
      mget m "bzip2".toList = none := by
  refine ⟨_, _, rfl, rfl, ?_, ?_⟩ <;> decide +kernel

end Cards.Props
