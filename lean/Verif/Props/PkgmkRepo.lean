import Mathlib.Tactic.Common
import Verif.Model.PkgmkRepo
import Verif.Model.Repo
import Verif.Lemmas.Base
import Verif.Props.WebPkgs
/-!
# C94: `pkgmk` keeps `.REPO` and `.FILES` in step with the packages
-/
namespace Cards.Props
open Cards

/-- A record of `.REPO` or `.FILES`: the name of a package and lines about it. -/
structure FileRec where
  file : Str
  body : List Str
deriving DecidableEq, Repr

/-- How a record is written. -/
def FileRec.lines (r : FileRec) : List Str := ('@' :: r.file) :: r.body ++ [[]]

/-- The text of a list of records. -/
def recText (rs : List FileRec) : List Str := rs.flatMap FileRec.lines

/-- The record of a package in `.REPO`, and in `.FILES`. -/
def repoRecOf (p : BuiltPkg) : FileRec := ⟨p.file, p.info ++ ['i' :: p.size, 'H' :: p.sha]⟩
def filesRecOf (p : BuiltPkg) : FileRec := ⟨p.file, p.files⟩

theorem repoLines_eq (p : BuiltPkg) : repoLines p = (repoRecOf p).lines := by simp [repoLines, repoRecOf, FileRec.lines]
theorem filesLines_eq (p : BuiltPkg) : filesLines p = (filesRecOf p).lines := rfl

theorem sedDelete_keep (p : Str → Bool) (ls rest : List Str) (h : ∀ l ∈ ls, p l = false) :
    sedDelete p false (ls ++ rest) = ls ++ sedDelete p false rest := by
  induction ls with
  | nil => rfl
  | cons l ls ih =>
    rw [List.cons_append, sedDelete, if_neg (by simp [h l (by simp)]), ih (fun x hx => h x (by simp [hx]))]
    rfl

theorem sedDelete_drop (p : Str → Bool) (ls rest : List Str) (h : [] ∉ ls) : sedDelete p true (ls ++ [] :: rest) = sedDelete p false rest := by
  induction ls with
  | nil => rw [List.nil_append, sedDelete, if_pos rfl]
  | cons l ls ih =>
    rw [List.mem_cons, not_or] at h
    rw [List.cons_append, sedDelete, if_neg (fun e => h.1 e.symm), ih h.2]

theorem atName_at (name f : Str) : atName name ('@' :: f) = name.isPrefixOf f := by
  unfold atName
  rw [List.isPrefixOf_cons_cons]
  simp

theorem atName_other {name l : Str} (h : l.head? ≠ some '@') : atName name l = false := by
  unfold atName
  cases l with
  | nil => rfl
  | cons c l =>
    rw [List.isPrefixOf_cons_cons]
    have : c ≠ '@' := fun e => h (by rw [e]; rfl)
    have : ('@' == c) = false := by simpa using fun e : '@' = c => this e.symm
    rw [this]
    rfl

/-- The lines of a record are not empty and do not begin with `@`. -/
def BodyOk (b : List Str) : Prop := ∀ l ∈ b, l ≠ [] ∧ l.head? ≠ some '@'

theorem sedDelete_recs (name : Str) (rs : List FileRec) (h : ∀ r ∈ rs, BodyOk r.body) :
    sedDelete (atName name) false (recText rs) = recText (rs.filter (fun r => !name.isPrefixOf r.file)) := by
  induction rs with
  | nil => rfl
  | cons r rs ih =>
    have ih := ih (fun x hx => h x (by simp [hx]))
    have hb := h r (by simp)
    have e : recText (r :: rs) = ('@' :: r.file) :: (r.body ++ [] :: recText rs) := by simp [recText, FileRec.lines]
    rw [e, sedDelete, atName_at]
    by_cases hp : name.isPrefixOf r.file = true
    · rw [if_pos hp, sedDelete_drop _ _ _ (fun hm => (hb [] hm).1 rfl), ih, List.filter_cons_of_neg (by simp [hp])]
    · have hp' : name.isPrefixOf r.file = false := Bool.eq_false_iff.mpr hp
      rw [if_neg hp, show r.body ++ [] :: recText rs = (r.body ++ [[]]) ++ recText rs by simp, sedDelete_keep, ih,
        List.filter_cons_of_pos (by simp [hp'])]
      · simp [recText, FileRec.lines]
      · intro l hl
        rcases List.mem_append.mp hl with hl | hl
        · exact atName_other (hb l hl).2
        · rcases List.mem_singleton.mp hl with rfl
          rfl

theorem flatMap_repo (ps : List BuiltPkg) : ps.flatMap repoLines = recText (ps.map repoRecOf) := by
  unfold recText
  rw [List.flatMap_map]
  exact List.flatMap_congr (fun p _ => repoLines_eq p)

theorem flatMap_files (ps : List BuiltPkg) : ps.flatMap filesLines = recText (ps.map filesRecOf) := by
  unfold recText
  rw [List.flatMap_map]
  exact List.flatMap_congr (fun p _ => filesLines_eq p)

theorem recText_append (a b : List FileRec) : recText (a ++ b) = recText a ++ recText b := by simp [recText]

/-- **C94**, exactly: the records of the names that begin with the name of the port go, those of the packages found come, all others stay as they are. -/
theorem C94_update_exact_partial (name : Str) (dir : List BuiltPkg) (rs fs : List FileRec) (hr : ∀ r ∈ rs, BodyOk r.body) (hf : ∀ r ∈ fs, BodyOk r.body) :
    updateRepoFile name dir (recText rs) (recText fs) =
      (recText (rs.filter (fun r => !name.isPrefixOf r.file) ++ (globPkgs name dir).map repoRecOf),
       recText (fs.filter (fun r => !name.isPrefixOf r.file) ++ (globPkgs name dir).map filesRecOf)) := by
  unfold updateRepoFile
  rw [sedDelete_recs name rs hr, sedDelete_recs name fs hf, recText_append, recText_append, flatMap_repo, flatMap_files]

/-! ## In step with the directory -/

/-- A file name of a package: it contains `.cards-`. -/
def IsPkgFile (f : Str) : Prop := ∃ n v, f = n ++ ".cards-".toList ++ v

/-- The records are those of the packages in the directory, as far as the file names `f` with `P f` are concerned. -/
def InStep (P : Str → Prop) (recOf : BuiltPkg → FileRec) (dir : List BuiltPkg) (rs : List FileRec) : Prop :=
  ∀ r, P r.file → (r ∈ rs ↔ ∃ p ∈ dir, r = recOf p)

theorem drop_of_noDot {name n v : Str} (hdot : '.' ∉ name) (h : name <+: n ++ ".cards-".toList ++ v) : name <+: n := by
  by_contra hc
  have hn : n <+: name := by
    rw [List.append_assoc] at h
    rcases List.prefix_or_prefix_of_prefix h (List.prefix_append n (".cards-".toList ++ v)) with h' | h'
    · exact absurd h' hc
    · exact h'
  obtain ⟨t, rfl⟩ := hn
  cases t with
  | nil => simp at hc
  | cons c t =>
    rw [List.append_assoc, List.prefix_append_right_inj] at h
    have : c = '.' := by
      obtain ⟨u, hu⟩ := h
      exact (List.cons.inj hu).1
    subst this
    simp at hdot

theorem globName_iff {name f : Str} (hdot : '.' ∉ name) (hf : IsPkgFile f) : globName name f = name.isPrefixOf f := by
  unfold globName
  cases hp : name.isPrefixOf f with
  | false => rfl
  | true =>
    obtain ⟨n, v, rfl⟩ := hf
    have := drop_of_noDot hdot (List.isPrefixOf_iff_prefix.mp hp)
    obtain ⟨t, rfl⟩ := this
    rw [Bool.true_and]
    have e : List.drop name.length (name ++ t ++ ".cards-".toList ++ v) = t ++ ".cards-".toList ++ v := by simp [List.append_assoc]
    rw [e]
    exact isSome_infix.mpr ⟨t, v, rfl⟩

/-- **C94**: if the records of the other ports were right, then after the update all are: `.REPO` lists exactly the packages in the directory, each with what
its archive says. The port must have a package in the directory. -/
theorem C94_in_step_partial (name : Str) (dir : List BuiltPkg) (rs fs : List FileRec) (hdot : '.' ∉ name)
    (hr : ∀ r ∈ rs, BodyOk r.body) (hf : ∀ r ∈ fs, BodyOk r.body) (hdir : ∀ p ∈ dir, IsPkgFile p.file)
    (hone : ∃ p ∈ dir, name <+: p.file)
    (h1 : InStep (fun f => ¬ name <+: f) repoRecOf dir rs) (h2 : InStep (fun f => ¬ name <+: f) filesRecOf dir fs) :
    ∃ rs' fs', updateRepoFile name dir (recText rs) (recText fs) = (recText rs', recText fs') ∧
      InStep (fun _ => True) repoRecOf dir rs' ∧ InStep (fun _ => True) filesRecOf dir fs' := by
  rw [C94_update_exact_partial name dir rs fs hr hf]
  refine ⟨_, _, rfl, ?_, ?_⟩
  all_goals
    have hg : globPkgs name dir = dir.filter (fun p => globName name p.file) := by
      unfold globPkgs
      split
      · rename_i he
        obtain ⟨p, hp, hpre⟩ := hone
        have : p ∈ dir.filter (fun p => globName name p.file) :=
          List.mem_filter.mpr ⟨hp, by rw [globName_iff hdot (hdir p hp)]; exact List.isPrefixOf_iff_prefix.mpr hpre⟩
        rw [he] at this
        cases this
      · rfl
    rw [hg]
    intro r _
    rw [List.mem_append, List.mem_filter, List.mem_map]
  · have := h1 r
    constructor
    · rintro (⟨hm, hp⟩ | ⟨p, hp, rfl⟩)
      · exact (this (fun hc => by rw [List.isPrefixOf_iff_prefix.mpr hc] at hp; cases hp)).mp hm
      · exact ⟨p, (List.mem_filter.mp hp).1, rfl⟩
    · rintro ⟨p, hp, rfl⟩
      by_cases hc : name <+: (repoRecOf p).file
      · refine Or.inr ⟨p, List.mem_filter.mpr ⟨hp, ?_⟩, rfl⟩
        rw [globName_iff hdot (hdir p hp)]
        exact List.isPrefixOf_iff_prefix.mpr hc
      · refine Or.inl ⟨(this hc).mpr ⟨p, hp, rfl⟩, ?_⟩
        simpa [Bool.not_eq_true', ← Bool.not_eq_true, List.isPrefixOf_iff_prefix] using hc
  · have := h2 r
    constructor
    · rintro (⟨hm, hp⟩ | ⟨p, hp, rfl⟩)
      · exact (this (fun hc => by rw [List.isPrefixOf_iff_prefix.mpr hc] at hp; cases hp)).mp hm
      · exact ⟨p, (List.mem_filter.mp hp).1, rfl⟩
    · rintro ⟨p, hp, rfl⟩
      by_cases hc : name <+: (filesRecOf p).file
      · refine Or.inr ⟨p, List.mem_filter.mpr ⟨hp, ?_⟩, rfl⟩
        rw [globName_iff hdot (hdir p hp)]
        exact List.isPrefixOf_iff_prefix.mpr hc
      · refine Or.inl ⟨(this hc).mpr ⟨p, hp, rfl⟩, ?_⟩
        simpa [Bool.not_eq_true', ← Bool.not_eq_true, List.isPrefixOf_iff_prefix] using hc

/-- **C94**: a second update changes nothing. -/
theorem C94_again_partial (name : Str) (dir : List BuiltPkg) (rs fs : List FileRec) (hr : ∀ r ∈ rs, BodyOk r.body) (hf : ∀ r ∈ fs, BodyOk r.body)
    (hdir : ∀ p ∈ dir, BodyOk p.info ∧ BodyOk p.files) :
    let u := updateRepoFile name dir (recText rs) (recText fs)
    updateRepoFile name dir u.1 u.2 = u := by
  have hpre : ∀ p ∈ globPkgs name dir, name.isPrefixOf p.file = true ∧ BodyOk (repoRecOf p).body ∧ BodyOk (filesRecOf p).body := by
    intro p hp
    have key : ∀ q : BuiltPkg, BodyOk q.info → BodyOk (repoRecOf q).body := by
      intro q hq l hl
      rcases List.mem_append.mp hl with hl | hl
      · exact hq l hl
      · rcases List.mem_cons.mp hl with rfl | hl
        · exact ⟨by simp, by simp⟩
        · rcases List.mem_singleton.mp hl with rfl
          exact ⟨by simp, by simp⟩
    unfold globPkgs at hp
    split at hp
    · rcases List.mem_singleton.mp hp with rfl
      refine ⟨List.isPrefixOf_iff_prefix.mpr (List.prefix_append ..), key _ (fun l hl => by cases hl), fun l hl => by cases hl⟩
    · obtain ⟨hm, hg⟩ := List.mem_filter.mp hp
      unfold globName at hg
      rw [Bool.and_eq_true] at hg
      exact ⟨hg.1, key p (hdir p hm).1, (hdir p hm).2⟩
  have again : ∀ (recOf : BuiltPkg → FileRec), (∀ p, (recOf p).file = p.file) → (∀ p ∈ globPkgs name dir, BodyOk (recOf p).body) → ∀ l : List FileRec,
      (∀ r ∈ l, BodyOk r.body) →
      (∀ r ∈ l.filter (fun r => !name.isPrefixOf r.file) ++ (globPkgs name dir).map recOf, BodyOk r.body) ∧
      (l.filter (fun r => !name.isPrefixOf r.file) ++ (globPkgs name dir).map recOf).filter (fun r => !name.isPrefixOf r.file) =
        l.filter (fun r => !name.isPrefixOf r.file) := by
    intro recOf hfile hbody l hl
    refine ⟨?_, ?_⟩
    · intro r hm
      rcases List.mem_append.mp hm with hm | hm
      · exact hl r (List.mem_filter.mp hm).1
      · obtain ⟨p, hp, rfl⟩ := List.mem_map.mp hm
        exact hbody p hp
    · rw [List.filter_append, List.filter_filter]
      have : ((globPkgs name dir).map recOf).filter (fun r => !name.isPrefixOf r.file) = [] := by
        rw [List.filter_eq_nil_iff]
        intro r hm
        obtain ⟨p, hp, rfl⟩ := List.mem_map.mp hm
        rw [hfile, (hpre p hp).1]
        decide
      rw [this, List.append_nil]
      simp
  simp only
  rw [C94_update_exact_partial name dir rs fs hr hf]
  obtain ⟨a1, a2⟩ := again repoRecOf (fun _ => rfl) (fun p hp => (hpre p hp).2.1) rs hr
  obtain ⟨b1, b2⟩ := again filesRecOf (fun _ => rfl) (fun p hp => (hpre p hp).2.2) fs hf
  rw [C94_update_exact_partial name dir _ _ a1 b1, a2, b2]

/-! ### Examples -/

/-- Two packages of one port and one of another whose name begins alike. -/
def xBuilt : List BuiltPkg :=
  [⟨"gtk-doc.cards-1.0-1".toList, ["Ngtk-doc".toList, "V1.0".toList], ["usr/bin/gtkdoc".toList], "10".toList, "aa".toList⟩,
   ⟨"gtk.cards-4.0-1".toList, ["Ngtk".toList, "V4.0".toList], ["usr/lib/libgtk.so".toList], "20".toList, "bb".toList⟩,
   ⟨"gtk.devel.cards-4.0-1".toList, ["Ngtk.devel".toList, "V4.0".toList], ["usr/include/gtk.h".toList], "30".toList, "cc".toList⟩,
   ⟨"zlib.cards-1.3-1".toList, ["Nzlib".toList, "V1.3".toList], ["usr/lib/libz.so".toList], "40".toList, "dd".toList⟩]

/-- The update after a build of `gtk`: the record of an older `gtk` goes, the one of `zlib` stays, and all the others are there. -/
example : (updateRepoFile "gtk".toList xBuilt (recText [⟨"gtk.cards-3.0-1".toList, ["Ngtk".toList, "V3.0".toList]⟩, repoRecOf xBuilt[3]]) []).1 =
    recText (repoRecOf xBuilt[3] :: (xBuilt.take 3).map repoRecOf) := by decide +kernel

/-- The hypotheses of the theorem hold here. -/
example : '.' ∉ "gtk".toList ∧ (∃ p ∈ xBuilt, "gtk".toList <+: p.file) ∧ (∀ p ∈ xBuilt, IsPkgFile p.file) := by
  refine ⟨by decide, ⟨xBuilt[1], by decide +kernel, ".cards-4.0-1".toList, by decide⟩, ?_⟩
  intro p hp
  simp only [xBuilt, List.mem_cons, List.not_mem_nil, or_false] at hp
  rcases hp with rfl | rfl | rfl | rfl
  · exact ⟨"gtk-doc".toList, "1.0-1".toList, by decide⟩
  · exact ⟨"gtk".toList, "4.0-1".toList, by decide⟩
  · exact ⟨"gtk.devel".toList, "4.0-1".toList, by decide⟩
  · exact ⟨"zlib".toList, "1.3-1".toList, by decide⟩

/-- Other ports are touched: a package published from elsewhere is no longer listed when the name of another port is the beginning of its own. -/
theorem C94_counterexample_prefix : ∃ rs rs', (updateRepoFile "gtk".toList [xBuilt[1]] (recText rs) []).1 = recText rs' ∧
    repoRecOf xBuilt[0] ∈ rs ∧ repoRecOf xBuilt[0] ∉ rs' :=
  ⟨[repoRecOf xBuilt[0]], [repoRecOf xBuilt[1]], by decide +kernel, by decide +kernel, by decide +kernel⟩

/-- An update for a port that has not been built (`pkgmk -ur`) adds a record of a package that does not exist … -/
theorem C94_counterexample_unbuilt : ∃ rs, (updateRepoFile "gcc".toList [xBuilt[3]] (recText [repoRecOf xBuilt[3]]) []).1 = recText rs ∧
    (∃ r ∈ rs, r.file = "gcc*.cards-*".toList) ∧ ∀ p ∈ [xBuilt[3]], p.file ≠ "gcc*.cards-*".toList :=
  ⟨[repoRecOf xBuilt[3], ⟨"gcc*.cards-*".toList, ["i".toList, "H".toList]⟩], by decide +kernel, by decide +kernel, by decide +kernel⟩

/-- … and as that record has no name, `cards` takes it for the package before it: here `zlib` now has the file name `gcc*.cards-*` and no hash. -/
theorem C94_counterexample_reader : ∃ m p, parseRepo defaultPkg [⟨"/srv".toList, "base".toList, [], some (updateRepoFile "gcc".toList [xBuilt[3]] (recText [repoRecOf xBuilt[3]]) []).1⟩] = some m ∧
    mget m "zlib".toList = some p ∧ p.fileName = "gcc*.cards-*".toList ∧ p.hash = [] := by
  refine ⟨_, _, rfl, rfl, ?_, ?_⟩ <;> decide +kernel

end Cards.Props
