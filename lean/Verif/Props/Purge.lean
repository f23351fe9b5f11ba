import Verif.Spec.Sync
import Verif.Lemmas.Fs
import Mathlib.Tactic.Common
/-!
# C71: `cards purge`
-/
namespace Cards.Props
open Cards

theorem mem_entries {fs : Fs} {k : List Str} {n : Str} : n ∈ fs.entries k ↔ (fs.get (k ++ [n])).isSome := by
  unfold Fs.entries
  rw [List.mem_eraseDups, List.mem_filterMap]
  constructor
  · rintro ⟨⟨p, v⟩, he, h⟩
    simp only at h
    split at h
    · rename_i hk
      have hp : p ≠ [] := by rintro rfl; simp at h
      have : p = k ++ [n] := by
        rw [List.getLast?_eq_some_getLast hp, Option.some.injEq] at h
        rw [← hk, ← h, List.dropLast_concat_getLast]
      subst this
      exact Fs.get_isSome_of_mem he
    · cases h
  · intro h
    obtain ⟨v, hv⟩ := Option.isSome_iff_exists.mp h
    obtain ⟨w, hw⟩ := Fs.mem_keys_of_get hv
    exact ⟨_, hw, by simp⟩

theorem parents_all {fs : Fs} (h : ParentsDirs fs) (a b : List Str) (hb : b ≠ []) (ha : a ≠ []) (hs : (fs.get (a ++ b)).isSome) :
    ∃ m, fs.get a = some (.dir m) := by
  generalize hn : b.length = n
  induction n generalizing b with
  | zero => exact absurd (List.length_eq_zero_iff.mp hn) hb
  | succ n ih =>
    obtain ⟨b, x, rfl⟩ : ∃ b' x, b = b' ++ [x] := ⟨b.dropLast, b.getLast hb, (List.dropLast_concat_getLast hb).symm⟩
    rw [← List.append_assoc] at hs
    by_cases h0 : b = []
    · subst h0
      rw [List.append_nil] at hs
      exact h a x hs ha
    · obtain ⟨m, hm⟩ := h (a ++ b) x hs (by simp [ha])
      exact ih b h0 (by rw [hm]; rfl) (by simpa using hn)

/-- The search finds exactly the visible files below the directory. -/
theorem mem_findFiles {fs : Fs} (ht : ParentsDirs fs) (fuel : Nat) (base k : List Str) : k ∈ findFiles fs fuel base ↔
    (∃ c m, fs.get k = some (.file c m)) ∧ ∃ rel, rel ≠ [] ∧ k = base ++ rel ∧ (∀ n ∈ rel, n.head? ≠ some '.') ∧ rel.length ≤ fuel := by
  induction fuel generalizing base with
  | zero =>
    simp only [findFiles, List.not_mem_nil, false_iff]
    rintro ⟨-, rel, h1, -, -, h2⟩
    exact h1 (List.length_eq_zero_iff.mp (by omega))
  | succ fuel ih =>
    unfold findFiles
    rw [List.mem_flatMap]
    constructor
    · rintro ⟨n, hn, h⟩
      split at h
      · simp at h
      · rename_i hdot
        split at h
        · obtain ⟨hf, rel, h1, h2, h3, h4⟩ := (ih _).mp h
          refine ⟨hf, n :: rel, by simp, by rw [h2]; simp, ?_, by simp; omega⟩
          intro x hx
          rcases List.mem_cons.mp hx with rfl | hx
          · exact hdot
          · exact h3 x hx
        · rename_i c m hg
          simp only [List.mem_singleton] at h
          subst h
          exact ⟨⟨c, m, hg⟩, [n], by simp, rfl, by simpa using hdot, by simp⟩
        · simp at h
    · rintro ⟨⟨c, m, hf⟩, rel, h1, h2, h3, h4⟩
      obtain ⟨n, rel', rfl⟩ : ∃ n r, rel = n :: r := by
        cases rel with
        | nil => exact absurd rfl h1
        | cons n r => exact ⟨n, r, rfl⟩
      have hdot := h3 n (by simp)
      have e : k = (base ++ [n]) ++ rel' := by rw [h2]; simp
      by_cases h0 : rel' = []
      · subst h0
        rw [List.append_nil] at e
        refine ⟨n, mem_entries.mpr (by rw [← e, hf]; rfl), ?_⟩
        rw [if_neg hdot, ← e, hf]
        simp
      · obtain ⟨m', hm'⟩ := parents_all ht (base ++ [n]) rel' h0 (by simp) (by rw [← e, hf]; rfl)
        refine ⟨n, mem_entries.mpr (by rw [hm']; rfl), ?_⟩
        rw [if_neg hdot, hm']
        simp only
        rw [ih]
        exact ⟨⟨c, m, hf⟩, rel', h0, e, fun x hx => h3 x (by simp [hx]), by simp at h4; omega⟩

theorem foldl_max_le (l : List Nat) (a x : Nat) : (x ∈ l ∨ x ≤ a) → x ≤ l.foldl max a := by
  induction l generalizing a with
  | nil => intro h; rcases h with h | h; simp at h; exact h
  | cons y l ih =>
    intro h
    rw [List.foldl_cons]
    apply ih
    rcases h with h | h
    · rcases List.mem_cons.mp h with rfl | h
      · right; omega
      · exact .inl h
    · right; omega

theorem length_le_depth {fs : Fs} {k : List Str} (h : (fs.get k).isSome) : k.length ≤ fs.depth := by
  obtain ⟨v, hv⟩ := Option.isSome_iff_exists.mp h
  obtain ⟨w, hw⟩ := Fs.mem_keys_of_get hv
  exact foldl_max_le _ _ _ (.inl (List.mem_map.mpr ⟨_, hw, rfl⟩))

theorem foldl_del_get (l : List (List Str)) (fs : Fs) (k : List Str) : (k ∈ l → (l.foldl Fs.del fs).get k = none) ∧ (k ∉ l → (l.foldl Fs.del fs).get k = fs.get k) := by
  induction l generalizing fs with
  | nil => simp
  | cons x l ih =>
    rw [List.foldl_cons]
    by_cases hl : k ∈ l
    · exact ⟨fun _ => (ih _).1 hl, fun h => absurd (by simp [hl]) h⟩
    · constructor
      · intro h
        have : k = x := by simpa [hl] using h
        rw [(ih _).2 hl, Fs.get_del, if_pos this.symm]
      · intro h
        rw [(ih _).2 hl, Fs.get_del, if_neg]
        rintro rfl
        exact h (by simp)

/-- The state of the loop after the collections `done`. -/
structure PurgeInv (fs : Fs) (done : List DirUrl) (s : Fs × List (List Str)) : Prop where
  gone : ∀ k ∈ s.2, s.1.get k = none
  kept : ∀ k, k ∉ s.2 → s.1.get k = fs.get k
  list : ∀ k, k ∈ s.2 ↔ Purged done fs k

theorem purgeOne_inv {fs : Fs} (ht : ParentsDirs fs) {done : List DirUrl} {s : Fs × List (List Str)} (h : PurgeInv fs done s) (d : DirUrl) :
    PurgeInv fs (done ++ [d]) (purgeOne s d) := by
  unfold purgeOne
  by_cases hu : d.url = []
  · rw [if_pos hu]
    refine ⟨h.gone, h.kept, fun k => ?_⟩
    rw [h.list]
    unfold Purged
    constructor
    · rintro ⟨a, e, he, b⟩
      exact ⟨a, e, by simp [he], b⟩
    · rintro ⟨a, e, he, b⟩
      rcases List.mem_append.mp he with he | he
      · exact ⟨a, e, he, b⟩
      · rw [List.mem_singleton.mp he] at b
        exact absurd hu b.1
  · rw [if_neg hu]
    simp only
    have ht' : ParentsDirs s.1 := by
      intro k n hs hk
      have hkn : k ++ [n] ∉ s.2 := fun hm => by rw [h.gone _ hm] at hs; cases hs
      rw [h.kept _ hkn] at hs
      obtain ⟨m, hm⟩ := ht k n hs hk
      refine ⟨m, ?_⟩
      rw [h.kept k, hm]
      intro hk2
      obtain ⟨⟨c, m', hf⟩, -⟩ := (h.list k).mp hk2
      rw [hm] at hf
      cases hf
    have found : ∀ k, k ∈ (if s.1.isDirAt (comps (d.depot ++ "/".toList ++ d.collection)) then
        findFiles s.1 (s.1.depth + 1) (comps (d.depot ++ "/".toList ++ d.collection)) else []) ↔
        (∃ c m, s.1.get k = some (.file c m)) ∧ VisibleBelow d.place k := by
      intro k
      constructor
      · intro hk
        split at hk
        · obtain ⟨a, rel, b1, b2, b3, -⟩ := (mem_findFiles ht' _ _ _).mp hk
          exact ⟨a, rel, b1, b2, b3⟩
        · simp at hk
      · rintro ⟨⟨c, m, hf⟩, rel, b1, b2, b3⟩
        have hdir : s.1.isDirAt (comps (d.depot ++ "/".toList ++ d.collection)) = true := by
          unfold Fs.isDirAt
          cases hp : comps (d.depot ++ "/".toList ++ d.collection) with
          | nil => rfl
          | cons x y =>
            obtain ⟨m', hm'⟩ := parents_all ht' d.place rel b1 (by unfold DirUrl.place; rw [hp]; simp) (by rw [← b2, hf]; rfl)
            unfold DirUrl.place at hm'
            rw [hp] at hm'
            rw [hm']
        rw [if_pos hdir, mem_findFiles ht']
        refine ⟨⟨c, m, hf⟩, rel, b1, b2, b3, ?_⟩
        have := length_le_depth (fs := s.1) (k := k) (by rw [hf]; rfl)
        rw [b2] at this
        simp only [List.length_append] at this
        omega
    refine ⟨fun k hk => (foldl_del_get _ _ k).1 hk, fun k hk => ?_, fun k => ?_⟩
    · rw [(foldl_del_get _ _ k).2 hk]
      exact h.kept k (fun hm => hk (List.mem_append.mpr (.inl hm)))
    · rw [List.mem_append, found, h.list]
      constructor
      · rintro (⟨a, e, he, b⟩ | ⟨⟨c, m, hf⟩, hv⟩)
        · exact ⟨a, e, by simp [he], b⟩
        · by_cases hk : k ∈ s.2
          · obtain ⟨a, e, he, b⟩ := (h.list k).mp hk
            exact ⟨a, e, by simp [he], b⟩
          · rw [h.kept k hk] at hf
            exact ⟨⟨c, m, hf⟩, d, by simp, hu, hv⟩
      · rintro ⟨⟨c, m, hf⟩, e, he, b⟩
        rcases List.mem_append.mp he with he | he
        · exact .inl ⟨⟨c, m, hf⟩, e, he, b⟩
        · rw [List.mem_singleton.mp he] at b
          by_cases hk : k ∈ s.2
          · exact .inl ((h.list k).mp hk)
          · right
            exact ⟨⟨c, m, by rw [h.kept k hk, hf]⟩, b.2⟩

/-- **C71**: `cards purge` deletes exactly the visible files below the directories of the collections that have an address. The keys, the lists, everything
whose name (or the name of a directory on the way) begins with a point, the directories, the local collections and the rest of the system stay. -/
theorem C71_purges_exactly (dirs : List DirUrl) (fs : Fs) (ht : ParentsDirs fs) (k : List Str) :
    (Purged dirs fs k → (cardsPurge true dirs fs).get k = none) ∧ (¬ Purged dirs fs k → (cardsPurge true dirs fs).get k = fs.get k) := by
  have key : ∀ (l done : List DirUrl) (s : Fs × List (List Str)), PurgeInv fs done s → PurgeInv fs (done ++ l) (l.foldl purgeOne s) := by
    intro l
    induction l with
    | nil => intro done s h; simpa using h
    | cons d l ih =>
      intro done s h
      rw [List.foldl_cons, List.append_cons]
      exact ih _ _ (purgeOne_inv ht h d)
  have h0 : PurgeInv fs [] (fs, []) := ⟨by simp, fun _ _ => rfl, fun k => by simp [Purged]⟩
  have h := key dirs [] _ h0
  rw [List.nil_append] at h
  have e : cardsPurge true dirs fs = (dirs.foldl purgeOne (fs, [])).1 := rfl
  rw [e]
  exact ⟨fun hp => h.gone k ((h.list k).mpr hp), fun hp => h.kept k (fun hm => hp ((h.list k).mp hm))⟩

/-- **C71**: an ordinary user deletes nothing. -/
theorem C71_only_root (dirs : List DirUrl) (fs : Fs) : cardsPurge false dirs fs = fs := rfl

/-- **C71, the lists stay**: nothing whose name begins with a point is deleted - the key and the lists `cards sync` brought. -/
theorem C71_lists_stay (dirs : List DirUrl) (fs : Fs) (ht : ParentsDirs fs) (k : List Str) (n : Str) :
    (cardsPurge true dirs fs).get (k ++ [('.' :: n)]) = fs.get (k ++ [('.' :: n)]) := by
  by_cases hp : Purged dirs fs (k ++ [('.' :: n)])
  · -- a visible file below a collection does not begin with a point
    obtain ⟨-, d, -, -, rel, h1, h2, h3⟩ := hp
    exfalso
    have hl : rel.getLast h1 ∈ rel := List.getLast_mem h1
    have : rel.getLast h1 = '.' :: n := by
      have e := congrArg List.getLast? h2
      rw [List.getLast?_append, List.getLast?_append, List.getLast?_singleton, List.getLast?_eq_some_getLast h1] at e
      exact (Option.some.inj e).symm
    rw [this] at hl
    exact h3 _ hl rfl
  · exact (C71_purges_exactly dirs fs ht _).2 hp

/-- **C71, local collections stay**: a collection without an address that lies below no other one keeps every file. -/
theorem C71_local_stays (dirs : List DirUrl) (fs : Fs) (ht : ParentsDirs fs) (d : DirUrl) (h : ∀ e ∈ dirs, e.url ≠ [] → ¬ e.place <+: d.place ∧ ¬ d.place <+: e.place)
    (rel : List Str) : (cardsPurge true dirs fs).get (d.place ++ rel) = fs.get (d.place ++ rel) := by
  apply (C71_purges_exactly dirs fs ht _).2
  rintro ⟨-, e, he, hu, rel', -, h2, -⟩
  rcases List.prefix_or_prefix_of_prefix (List.prefix_append d.place rel) (h2 ▸ List.prefix_append e.place rel') with hp | hp
  · exact (h e he hu).2 hp
  · exact (h e he hu).1 hp

/-! ### A concrete depot -/

/-- A tree with a depot of two collections, a local one and system files. -/
def pgFs : Fs := [(["var".toList], .dir 0o755), (["var".toList, "d".toList], .dir 0o755), (["var".toList, "d".toList, "base".toList], .dir 0o755),
  (["var".toList, "d".toList, "base".toList, ".REPO".toList], .file "r".toList 0o644), (["var".toList, "d".toList, "base".toList, "bash".toList], .dir 0o755),
  (["var".toList, "d".toList, "base".toList, "bash".toList, "bash.cards".toList], .file "b".toList 0o644),
  (["home".toList], .dir 0o755), (["home".toList, "me".toList], .dir 0o755), (["home".toList, "me".toList, "own".toList], .dir 0o755),
  (["home".toList, "me".toList, "own".toList, "mine.cards".toList], .file "m".toList 0o644),
  (["etc".toList], .dir 0o755), (["etc".toList, "passwd".toList], .file "root".toList 0o644)]

theorem pg_parents : ParentsDirs pgFs := by
  have aux : ∀ e ∈ pgFs, e.1.dropLast = [] ∨ ∃ v ∈ pgFs.map (·.2), pgFs.get e.1.dropLast = some v ∧ v = .dir 0o755 := by decide
  intro k n hs hk
  obtain ⟨v, hv⟩ := Option.isSome_iff_exists.mp hs
  obtain ⟨w, hw⟩ := Fs.mem_keys_of_get hv
  rcases aux _ hw with h | ⟨v, -, h, e⟩
  · simp at h; exact absurd h hk
  · simp at h
    exact ⟨0o755, by rw [h, e]⟩

/-- The package file of a collection with an address goes, its list, the local collection and the system stay. -/
example : (let fs := cardsPurge true [⟨"base".toList, "/var/d".toList, "http://s".toList⟩, ⟨"own".toList, "/home/me".toList, []⟩] pgFs
    fs.map (·.1.getLast!) = ["var", "d", "base", ".REPO", "bash", "home", "me", "own", "mine.cards", "etc", "passwd"].map (·.toList)) := by decide +kernel

/-- **C71 fails for local collections as configured**: with a global `url` line, a `dir` without an address of its own gets that address, and `cards purge`
deletes the package files the user built in it. -/
theorem C71_local_counterexample :
    (let c := loadConf (some (writeList ["url http://m/x".toList, "dir /home/me/own".toList])) none
     (cardsPurge true c.dirUrl pgFs).get ["home".toList, "me".toList, "own".toList, "mine.cards".toList] = none ∧
     (pgFs.get ["home".toList, "me".toList, "own".toList, "mine.cards".toList]).isSome) := by decide +kernel

/-- **C71 fails for a `dir` without a slash**: `dir base|http://s` (no depot configured) names the directory `/`: every visible file of the system is deleted. -/
theorem C71_slash_counterexample (fs : Fs) (ht : ParentsDirs fs) (k : List Str) (hk : k ≠ []) (hf : ∃ c m, fs.get k = some (.file c m))
    (hv : ∀ n ∈ k, n.head? ≠ some '.') :
    (cardsPurge true (loadConf (some (writeList ["dir base|http://s".toList])) none).dirUrl fs).get k = none := by
  apply (C71_purges_exactly _ fs ht k).1
  refine ⟨hf, ⟨[], [], "http://s".toList⟩, by decide, by decide, k, hk, ?_, hv⟩
  have : DirUrl.place ⟨[], [], "http://s".toList⟩ = [] := by decide
  rw [this]; rfl

example : (cardsPurge true (loadConf (some (writeList ["dir base|http://s".toList])) none).dirUrl pgFs).get ["etc".toList, "passwd".toList] = none :=
  C71_slash_counterexample pgFs pg_parents _ (by decide) ⟨_, _, rfl⟩ (by decide)

end Cards.Props
