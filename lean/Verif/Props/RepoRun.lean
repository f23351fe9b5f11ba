import Mathlib.Tactic.Common
import Verif.Model.RepoRun
import Verif.Spec.Sync
import Verif.Lemmas.Levels
import Verif.Props.Purge
import Verif.Props.Publish
/-!
# C151, C152, C153: publishing collections with `cards repo`
-/
namespace Cards.Props
open Cards

/-! ### What a run should do, apart from how the loop does it -/

/-- The names of the lists of a collection and of their compressed forms. -/
def publishedNames : List Str := [".REPO".toList, ".FILES".toList, ".REPO.zst".toList, ".FILES.zst".toList]

/-- The collection is one the user asked for: no argument stands for all. -/
def Asked (arg : Option Str) (d : DirUrl) : Prop := arg = none ∨ arg = some d.collection

/-- `p` describes the file at `q`: its name, what is in it, and what the archive says. -/
def Describes (T : RepoTools) (fs : Fs) (q : List Str) (p : PkgFile) : Prop :=
  ∃ m, fs.get q = some (.file p.content m) ∧ T.opened p.content = some (p.md, p.files) ∧ q.getLast? = some p.file

/-- `ps` describes exactly the visible files below the directory of the collection, each once. -/
def DescribesAll (T : RepoTools) (fs : Fs) (d : DirUrl) (ps : List PkgFile) : Prop :=
  ∃ qs : List (List Str), qs.Nodup ∧ (∀ q, q ∈ qs ↔ (∃ c m, fs.get q = some (.file c m)) ∧ VisibleBelow d.place q) ∧ List.Forall₂ (Describes T fs) qs ps

/-- The names in the tree are names: not empty, without slash. -/
def PlainNames (fs : Fs) : Prop := ∀ k, (fs.get k).isSome → ∀ n ∈ k, n ≠ [] ∧ '/' ∉ n

/-- The text of the list of the packages. -/
def RepoTools.repo (T : RepoTools) (ps : List PkgFile) : Str := repoText T.hash (fun h => (T.sign h).getD []) ps

/-! ### One write -/

theorem get_applyWrite (fs : Fs) (k : List Str) (c : Str) (x : List Str) : (applyWrite fs (k, c)).get x = if k = x then some (.file c 0o644) else fs.get x := by
  unfold applyWrite
  exact Fs.get_set _ _ _ _

theorem has_applyWrite (fs : Fs) (k : List Str) (c : Str) : HasContent (applyWrite fs (k, c)) k c := ⟨0o644, by rw [get_applyWrite, if_pos rfl]⟩

theorem get_applyWrite_ne {fs : Fs} {k : List Str} {c : Str} {x : List Str} (h : k ≠ x) : (applyWrite fs (k, c)).get x = fs.get x := by
  rw [get_applyWrite, if_neg h]

theorem repoPlace_eq (d : DirUrl) : repoPlace d = d.place := rfl

theorem pub_ne {d : DirUrl} {m n : Str} (h : m ≠ n) : repoPlace d ++ [m] ≠ repoPlace d ++ [n] := by
  intro e
  exact h (by simpa using List.append_cancel_left e)

theorem get_compressTo_ne (T : RepoTools) {fs : Fs} {k : List Str} {t : Str} {x : List Str} (h : k ≠ x) : (compressTo T fs k t).get x = fs.get x := by
  unfold compressTo
  split
  · exact get_applyWrite_ne h
  · rfl

/-! ### Only the lists -/

/-- Nothing but the four names of the collection differs. -/
def OnlyLists (d : DirUrl) (fs x : Fs) : Prop := ∀ k, (∀ n ∈ publishedNames, k ≠ d.place ++ [n]) → x.get k = fs.get k

theorem onlyLists_write {d : DirUrl} {fs x : Fs} (h : OnlyLists d fs x) {n : Str} (hn : n ∈ publishedNames) (c : Str) :
    OnlyLists d fs (applyWrite x (repoPlace d ++ [n], c)) := by
  intro k hk
  rw [get_applyWrite_ne (x := k) (k := repoPlace d ++ [n]) (fun e => hk n hn e.symm), h k hk]

theorem onlyLists_compress (T : RepoTools) {d : DirUrl} {fs x : Fs} (h : OnlyLists d fs x) {n : Str} (hn : n ∈ publishedNames) (c : Str) :
    OnlyLists d fs (compressTo T x (repoPlace d ++ [n]) c) := by
  unfold compressTo
  split
  · exact onlyLists_write h hn _
  · exact h

theorem pub_repo : ".REPO".toList ∈ publishedNames := by decide
theorem pub_files : ".FILES".toList ∈ publishedNames := by decide
theorem pub_repoZ : ".REPO.zst".toList ∈ publishedNames := by decide
theorem pub_filesZ : ".FILES.zst".toList ∈ publishedNames := by decide

theorem onlyLists_lists {d : DirUrl} {fs : Fs} (a b : Str) : OnlyLists d fs (repoLists d fs a b) :=
  onlyLists_write (onlyLists_write (fun _ _ => rfl) pub_repo a) pub_files b

theorem onlyLists_dir (T : RepoTools) (d : DirUrl) (fs : Fs) : OnlyLists d fs (repoDir T d fs).1 := by
  unfold repoDir
  split
  · exact fun _ _ => rfl
  · split
    · exact onlyLists_write (fun _ _ => rfl) pub_repo _
    · dsimp only
      split
      · exact onlyLists_lists _ _
      · exact onlyLists_compress T (onlyLists_compress T (onlyLists_lists _ _) pub_filesZ _) pub_repoZ _

theorem onlyLists_moment {T : RepoTools} {d : DirUrl} {fs x : Fs} (h : CollMoment T d fs x) : OnlyLists d fs x := by
  cases h with
  | before => exact fun _ _ => rfl
  | opened => exact onlyLists_write (fun _ _ => rfl) pub_repo _
  | lists a b => exact onlyLists_lists a b
  | filesZst z => exact onlyLists_write (onlyLists_lists _ _) pub_filesZ z
  | repoZst z => exact onlyLists_write (onlyLists_compress T (onlyLists_lists _ _) pub_filesZ _) pub_repoZ z

theorem takes_iff {arg : Option Str} {d : DirUrl} : repoTakes arg d = true ↔ Asked arg d := by
  unfold repoTakes Asked
  cases arg with
  | none => simp
  | some c => simp [eq_comm]

/-- **C151**: at every moment of a run - also when it is stopped there - nothing differs from before but the lists, and their compressed forms, of the collections
that were asked for. -/
theorem C151_only_lists (T : RepoTools) (arg : Option Str) (dirs : List DirUrl) (fs x : Fs) (h : RunMoment T arg dirs fs x) (k : List Str)
    (hk : ∀ d ∈ dirs, Asked arg d → ∀ n ∈ publishedNames, k ≠ d.place ++ [n]) : x.get k = fs.get k := by
  induction h with
  | start => rfl
  | skip d ds fs x ht _ ih => exact ih (fun e he => hk e (List.mem_cons_of_mem _ he))
  | inside d ds fs x ht hm => exact onlyLists_moment hm k (hk d (List.mem_cons_self ..) (takes_iff.mp ht))
  | next d ds fs x ha hd _ ih =>
    rw [ih (fun e he => hk e (List.mem_cons_of_mem _ he))]
    exact onlyLists_dir T d fs k (hk d (List.mem_cons_self ..) (.inl ha))

/-- What a run over a collection that came to its end has gone through. -/
theorem dir_done {T : RepoTools} {d : DirUrl} {fs : Fs} (h : (repoDir T d fs).2 = .done) :
    canWrite fs (repoPlace d ++ [".REPO".toList]) = true ∧
    canWrite (applyWrite fs (repoPlace d ++ [".REPO".toList], [])) (repoPlace d ++ [".FILES".toList]) = true ∧ (repoFound T d fs).2 = none ∧
    (repoDir T d fs).1 = compressTo T (compressTo T (repoLists d fs (repoWritten T (repoFound T d fs)) (filesWritten (repoFound T d fs)))
      (repoPlace d ++ [".FILES.zst".toList]) (filesWritten (repoFound T d fs))) (repoPlace d ++ [".REPO.zst".toList]) (repoWritten T (repoFound T d fs)) := by
  revert h
  unfold repoDir
  split
  · intro h; cases h
  · next h1 =>
    split
    · intro h; cases h
    · next h2 =>
      dsimp only
      split
      · intro h; cases h
      · next hr => exact fun _ => ⟨by simpa using h1, by simpa using h2, hr, rfl⟩

theorem coll_end (T : RepoTools) (d : DirUrl) (fs : Fs) : CollMoment T d fs (repoDir T d fs).1 := by
  cases he : (repoDir T d fs).2 with
  | done =>
    obtain ⟨h1, h2, hr, e⟩ := dir_done he
    rw [e]
    have hc : ∀ y k t, compressTo T y k t = applyWrite y (k, T.zst t) ∨ compressTo T y k t = y := by
      intro y k t
      unfold compressTo
      split
      · exact .inl rfl
      · exact .inr rfl
    rcases hc (compressTo T (repoLists d fs (repoWritten T (repoFound T d fs)) (filesWritten (repoFound T d fs)))
      (repoPlace d ++ [".FILES.zst".toList]) (filesWritten (repoFound T d fs))) (repoPlace d ++ [".REPO.zst".toList]) (repoWritten T (repoFound T d fs)) with e1 | e1
    · rw [e1]; exact .repoZst _ h1 h2 hr (List.prefix_refl _)
    · rw [e1]
      rcases hc (repoLists d fs (repoWritten T (repoFound T d fs)) (filesWritten (repoFound T d fs))) (repoPlace d ++ [".FILES.zst".toList])
        (filesWritten (repoFound T d fs)) with e2 | e2
      · rw [e2]; exact .filesZst _ h1 h2 hr (List.prefix_refl _)
      · rw [e2]; exact .lists _ _ h1 h2 (List.prefix_refl _) (List.prefix_refl _)
  | gaveUp =>
    revert he
    unfold repoDir
    split
    · exact fun _ => .before
    · next h1 =>
      split
      · exact fun _ => .opened (by simpa using h1)
      · dsimp only
        split <;> intro h <;> cases h
  | threw =>
    revert he
    unfold repoDir
    split
    · intro h; cases h
    · next h1 =>
      split
      · intro h; cases h
      · next h2 =>
        dsimp only
        split
        · exact fun _ => .lists _ _ (by simpa using h1) (by simpa using h2) (List.prefix_refl _) (List.prefix_refl _)
        · intro h; cases h

/-- The end of a run is one of its moments. -/
theorem C151_end (T : RepoTools) (arg : Option Str) (dirs : List DirUrl) (fs : Fs) : RunMoment T arg dirs fs (repoRun T arg dirs fs).1 := by
  induction dirs generalizing fs with
  | nil => exact .start _ _
  | cons d ds ih =>
    unfold repoRun
    cases ht : repoTakes arg d with
    | false => exact .skip _ _ _ _ ht (ih fs)
    | true =>
      rw [if_pos rfl]
      have hm := coll_end T d fs
      rcases hr : repoDir T d fs with ⟨f1, e⟩
      cases e with
      | done =>
        dsimp only
        cases arg with
        | some c => exact .inside _ _ _ _ ht (by rw [hr] at hm; exact hm)
        | none =>
          have hn := ih f1
          exact .next _ _ _ _ rfl (by rw [hr]) (by rw [hr]; exact hn)
      | gaveUp => exact .inside _ _ _ _ ht (by rw [hr] at hm; exact hm)
      | threw => exact .inside _ _ _ _ ht (by rw [hr] at hm; exact hm)

/-- With a name, only the first collection of that name is worked on. -/
theorem C151_first (T : RepoTools) (c : Str) (A : List DirUrl) (d : DirUrl) (B : List DirUrl) (fs x : Fs) (hA : ∀ e ∈ A, e.collection ≠ c) (hd : d.collection = c)
    (h : RunMoment T (some c) (A ++ d :: B) fs x) (k : List Str) (hk : ∀ n ∈ publishedNames, k ≠ d.place ++ [n]) : x.get k = fs.get k := by
  induction A generalizing fs with
  | nil =>
    rw [List.nil_append] at h
    cases h with
    | start => rfl
    | skip _ _ _ _ ht _ => simp [repoTakes, hd] at ht
    | inside _ _ _ _ _ hm => exact onlyLists_moment hm k hk
    | next _ _ _ _ ha => cases ha
  | cons e A ih =>
    rw [List.cons_append] at h
    have he := hA e (List.mem_cons_self ..)
    cases h with
    | start => rfl
    | skip _ _ _ _ _ h => exact ih _ (fun e he => hA e (List.mem_cons_of_mem _ he)) h
    | inside _ _ _ _ ht _ => exact absurd (by simpa [repoTakes] using ht) he
    | next _ _ _ _ ha => cases ha

/-! ### The lists are whole -/

theorem joinSlash_comps {l : List Str} (h : ∀ n ∈ l, n ≠ [] ∧ '/' ∉ n) : comps (joinSlash l) = l := by
  induction l with
  | nil => rfl
  | cons a l ih =>
    cases l with
    | nil => exact comps_single (h a (List.mem_cons_self ..))
    | cons b l =>
      unfold joinSlash
      rw [Cards.comps_append (h a (List.mem_cons_self ..)), ih (fun n hn => h n (List.mem_cons_of_mem _ hn))]

theorem foldl_mset_vals {α : Type} (f : α → Str) (l : List α) (hi : ∀ a ∈ l, ∀ b ∈ l, f a = f b → a = b) :
    ∀ (m : List (Str × α)), MSorted m → (∀ e ∈ m, e.1 = f e.2 ∧ (∀ a ∈ l, f e.2 = f a → e.2 = a)) →
      MSorted (l.foldl (fun m q => mset (f q) q m) m) ∧ (∀ e ∈ l.foldl (fun m q => mset (f q) q m) m, e.1 = f e.2) ∧
      ∀ a, a ∈ (l.foldl (fun m q => mset (f q) q m) m).map (·.2) ↔ a ∈ l ∨ a ∈ m.map (·.2) := by
  induction l with
  | nil => intro m hs hm; exact ⟨hs, fun e he => (hm e he).1, by simp⟩
  | cons q l ih =>
    intro m hs hm
    rw [List.foldl_cons]
    have hmem : ∀ e, e ∈ mset (f q) q m ↔ e = (f q, q) ∨ (e ∈ m ∧ e.1 ≠ f q) := by
      intro e
      rw [show e ∈ mset (f q) q m ↔ mget (mset (f q) q m) e.1 = some e.2 from
        ⟨fun h => mem_mget_of_sorted (msorted_mset hs) h, fun h => mget_some_mem h⟩, mget_mset]
      constructor
      · intro h
        split at h
        · next hk => left; cases h; exact Prod.ext hk.symm rfl
        · next hk => exact .inr ⟨mget_some_mem h, fun h' => hk h'.symm⟩
      · rintro (rfl | ⟨h, hk⟩)
        · rw [if_pos rfl]
        · rw [if_neg (fun h' => hk h'.symm)]
          exact mem_mget_of_sorted hs h
    obtain ⟨h1, h2, h3⟩ := ih (fun a ha b hb => hi a (List.mem_cons_of_mem _ ha) b (List.mem_cons_of_mem _ hb)) (mset (f q) q m) (msorted_mset hs) (by
      intro e he
      rcases (hmem e).mp he with rfl | ⟨he, _⟩
      · exact ⟨rfl, fun a ha h => hi q (List.mem_cons_self ..) a (List.mem_cons_of_mem _ ha) h⟩
      · exact ⟨(hm e he).1, fun a ha => (hm e he).2 a (List.mem_cons_of_mem _ ha)⟩)
    refine ⟨h1, h2, fun a => ?_⟩
    rw [h3 a, List.mem_cons]
    have : a ∈ (mset (f q) q m).map (·.2) ↔ a = q ∨ a ∈ m.map (·.2) := by
      rw [List.mem_map, List.mem_map]
      constructor
      · rintro ⟨e, he, rfl⟩
        rcases (hmem e).mp he with rfl | ⟨he, _⟩
        · exact .inl rfl
        · exact .inr ⟨e, he, rfl⟩
      · rintro (rfl | ⟨e, he, rfl⟩)
        · exact ⟨_, (hmem _).mpr (.inl rfl), rfl⟩
        · by_cases hk : e.1 = f q
          · have := (hm e he).2 q (List.mem_cons_self ..) (by rw [← (hm e he).1, hk])
            exact ⟨_, (hmem _).mpr (.inl rfl), this.symm⟩
          · exact ⟨e, (hmem e).mpr (.inr ⟨he, hk⟩), rfl⟩
    rw [this]
    tauto

/-- The listing: every visible file below the directory, once. -/
theorem listing_mem {fs : Fs} (ht : ParentsDirs fs) (hp : PlainNames fs) (k : List Str) (hd : fs.isDirAt k = true) :
    ((repoListing fs k).map (·.2)).Nodup ∧ ∀ q, q ∈ (repoListing fs k).map (·.2) ↔ (∃ c m, fs.get q = some (.file c m)) ∧ VisibleBelow k q := by
  have hmem : ∀ q, q ∈ findFiles fs (fs.depth + 1) k ↔ (∃ c m, fs.get q = some (.file c m)) ∧ VisibleBelow k q := by
    intro q
    rw [mem_findFiles ht]
    constructor
    · rintro ⟨hf, rel, h1, h2, h3, -⟩
      exact ⟨hf, rel, h1, h2, h3⟩
    · rintro ⟨⟨c, m, hf⟩, rel, h1, h2, h3⟩
      refine ⟨⟨c, m, hf⟩, rel, h1, h2, h3, ?_⟩
      have := length_le_depth (fs := fs) (k := q) (by rw [hf]; rfl)
      rw [h2, List.length_append] at this
      omega
  unfold repoListing
  rw [if_pos hd]
  have hplain : ∀ q ∈ findFiles fs (fs.depth + 1) k, comps (joinSlash (q.drop k.length)) = q.drop k.length ∧ q = k ++ q.drop k.length := by
    intro q hq
    obtain ⟨⟨c, m, hf⟩, rel, h1, h2, h3⟩ := (hmem q).mp hq
    have hn := hp q (by rw [hf]; rfl)
    exact ⟨joinSlash_comps (fun n hn' => hn n (List.mem_of_mem_drop hn')), by rw [h2]; simp⟩
  obtain ⟨h1, h2, h3⟩ := foldl_mset_vals (fun q : List Str => joinSlash (q.drop k.length)) (findFiles fs (fs.depth + 1) k)
    (by
      intro a ha b hb he
      have e1 := hplain a ha
      have e2 := hplain b hb
      have he : joinSlash (a.drop k.length) = joinSlash (b.drop k.length) := he
      rw [e1.2, e2.2, ← e1.1, ← e2.1, he]) [] (by unfold MSorted Sorted keys; simp) (by simp)
  constructor
  · have hk := h1.nodup
    unfold keys at hk
    revert hk h2
    generalize List.foldl (fun m q => mset (joinSlash (List.drop k.length q)) q m) [] (findFiles fs (fs.depth + 1) k) = L
    intro h2 hk
    have : L.map (·.1) = (L.map (·.2)).map (fun q => joinSlash (q.drop k.length)) := by
      rw [List.map_map]
      exact List.map_congr_left (fun e he => h2 e he)
    rw [this] at hk
    exact List.Nodup.of_map _ hk
  · intro q
    rw [h3 q, hmem q]
    simp

/-- The loop, when it comes to the end of the set. -/
theorem entries_all (T : RepoTools) (fs : Fs) (qs : List (List Str)) (h : (repoEntries T fs qs).2 = none) (hne : ∀ q ∈ qs, q ≠ []) :
    List.Forall₂ (Describes T fs) qs (repoEntries T fs qs).1 := by
  induction qs with
  | nil => exact .nil
  | cons q qs ih =>
    unfold repoEntries at h ⊢
    revert h
    split
    · intro h; cases h
    · next p hp =>
      split
      · intro h; cases h
      · intro h
        have hq := hne q (List.mem_cons_self ..)
        refine .cons ?_ (ih h (fun q hq => hne q (List.mem_cons_of_mem _ hq)))
        unfold readPkgFile at hp
        revert hp
        split
        · next c m hf =>
          intro hp
          cases ho : T.opened c with
          | none => rw [ho] at hp; cases hp
          | some o =>
            rw [ho] at hp
            cases hp
            refine ⟨m, hf, ho, ?_⟩
            dsimp only
            rw [List.getLast?_eq_some_getLast hq, Option.getD_some]
        · intro hp; cases hp

/-- The loop comes to the end of the set when all the files are packages and the key can be used. -/
theorem entries_none (T : RepoTools) (fs : Fs) (qs : List (List Str)) (hq : ∀ q ∈ qs, ∃ c m, fs.get q = some (.file c m) ∧ (T.opened c).isSome)
    (hs : ∀ h, (T.sign h).isSome) : (repoEntries T fs qs).2 = none := by
  induction qs with
  | nil => rfl
  | cons q qs ih =>
    obtain ⟨c, m, hf, ho⟩ := hq q (List.mem_cons_self ..)
    obtain ⟨o, ho⟩ := Option.isSome_iff_exists.mp ho
    unfold repoEntries readPkgFile
    rw [hf]
    dsimp only
    rw [ho]
    dsimp only [Option.map_some]
    obtain ⟨s, hs'⟩ := Option.isSome_iff_exists.mp (hs (T.hash c))
    rw [hs']
    exact ih (fun q hq' => hq q (List.mem_cons_of_mem _ hq'))

theorem canWrite_dir {fs : Fs} {k : List Str} {n : Str} (h : canWrite fs (k ++ [n]) = true) : fs.isDirAt k = true := by
  unfold canWrite at h
  rw [List.dropLast_concat] at h
  exact (Bool.and_eq_true_iff.mp h).1

theorem canWrite_not_dir {fs : Fs} {k : List Str} (h : canWrite fs k = true) (m : Nat) : fs.get k ≠ some (.dir m) := by
  unfold canWrite at h
  intro e
  rw [e] at h
  simp at h

theorem isDirAt_iff {fs : Fs} {k : List Str} : fs.isDirAt k = true ↔ k = [] ∨ ∃ m, fs.get k = some (.dir m) := by
  unfold Fs.isDirAt
  cases k with
  | nil => simp
  | cons a k =>
    cases h : fs.get (a :: k) with
    | none => simp
    | some v => cases v <;> simp

/-- A tree in order stays one. -/
structure TreeOk (fs : Fs) : Prop where
  parents : ParentsDirs fs
  plain : PlainNames fs

theorem treeOk_write {fs : Fs} (h : TreeOk fs) {k : List Str} {n : Str} (hn : n ≠ [] ∧ '/' ∉ n) (hk : ∀ a ∈ k, a ≠ [] ∧ '/' ∉ a)
    (hw : canWrite fs (k ++ [n]) = true) (c : Str) : TreeOk (applyWrite fs (k ++ [n], c)) := by
  have hdir : ∀ j : List Str, j ≠ [] → (∃ m, fs.get j = some (.dir m)) → ∃ m, (applyWrite fs (k ++ [n], c)).get j = some (.dir m) := by
    rintro j hj ⟨m, hm⟩
    refine ⟨m, ?_⟩
    rw [get_applyWrite_ne (fun e => canWrite_not_dir hw m (by rw [e]; exact hm)), hm]
  constructor
  · intro j x hs hj
    by_cases e : k ++ [n] = j ++ [x]
    · have : k = j := by
        have := congrArg List.dropLast e
        simpa using this
      subst this
      rcases isDirAt_iff.mp (canWrite_dir hw) with h0 | hm
      · exact absurd h0 hj
      · exact hdir k hj hm
    · rw [get_applyWrite_ne e] at hs
      exact hdir j hj (h.parents j x hs hj)
  · intro j hs a ha
    by_cases e : k ++ [n] = j
    · subst e
      rcases List.mem_append.mp ha with ha | ha
      · exact hk a ha
      · rw [List.mem_singleton.mp ha]; exact hn
    · rw [get_applyWrite_ne e] at hs
      exact h.plain j hs a ha

theorem comps_plain (p : Str) : ∀ a ∈ comps p, a ≠ [] ∧ '/' ∉ a := by
  intro a ha
  unfold comps at ha
  rw [List.mem_filter] at ha
  refine ⟨by simpa using ha.2, ?_⟩
  have : ∀ p : Str, ∀ a ∈ splitSlash p, '/' ∉ a := by
    intro p
    induction p with
    | nil => intro a ha; simp [splitSlash] at ha; subst ha; simp
    | cons c cs ih =>
      intro a ha
      unfold splitSlash at ha
      split at ha
      · rcases List.mem_cons.mp ha with rfl | ha
        · simp
        · exact ih a ha
      · next hc =>
        revert ha
        split
        · intro ha; rw [List.mem_singleton.mp ha]; simpa [eq_comm] using hc
        · next x xs hx =>
          intro ha
          rcases List.mem_cons.mp ha with rfl | ha
          · have := ih x (by rw [hx]; exact List.mem_cons_self ..)
            simp only [List.mem_cons, not_or]
            exact ⟨fun e => hc e.symm, this⟩
          · exact ih a (by rw [hx]; exact List.mem_cons_of_mem _ ha)
  exact this p a ha.1

theorem pub_plain : ∀ n ∈ publishedNames, n ≠ [] ∧ '/' ∉ n := by decide
theorem pub_dot : ∀ n ∈ publishedNames, n.head? = some '.' := by decide

theorem visible_ne {base k : List Str} (h : VisibleBelow base k) (e : List Str) {n : Str} (hn : n ∈ publishedNames) : k ≠ e ++ [n] := by
  obtain ⟨rel, h1, h2, h3⟩ := h
  intro hk
  rw [h2] at hk
  have hl := congrArg List.getLast? hk
  rw [List.getLast?_append_of_ne_nil _ h1, List.getLast?_concat] at hl
  exact h3 n (List.mem_of_getLast? hl) (pub_dot n hn)

theorem describesAll_congr {T : RepoTools} {fs fs' : Fs} {d : DirUrl} {ps : List PkgFile} (h : ∀ k, VisibleBelow d.place k → fs'.get k = fs.get k)
    (hd : DescribesAll T fs' d ps) : DescribesAll T fs d ps := by
  obtain ⟨qs, h1, h2, h3⟩ := hd
  refine ⟨qs, h1, fun q => ?_, ?_⟩
  · rw [h2 q]
    constructor
    · rintro ⟨⟨c, m, hf⟩, hv⟩; exact ⟨⟨c, m, by rw [← h q hv, hf]⟩, hv⟩
    · rintro ⟨⟨c, m, hf⟩, hv⟩; exact ⟨⟨c, m, by rw [h q hv, hf]⟩, hv⟩
  · have : ∀ q ∈ qs, VisibleBelow d.place q := fun q hq => ((h2 q).mp hq).2
    clear h1 h2
    induction h3 with
    | nil => exact .nil
    | cons hr _ ih =>
      obtain ⟨m, hf, ho⟩ := hr
      refine .cons ⟨m, by rw [← h _ (this _ (List.mem_cons_self ..)), hf], ho⟩ (ih (fun q hq => this q (List.mem_cons_of_mem _ hq)))

theorem treeOk_opened {fs : Fs} (h : TreeOk fs) {d : DirUrl} (h1 : canWrite fs (repoPlace d ++ [".REPO".toList]) = true)
    (h2 : canWrite (applyWrite fs (repoPlace d ++ [".REPO".toList], [])) (repoPlace d ++ [".FILES".toList]) = true) (a b : Str) :
    TreeOk (repoLists d fs a b) := by
  have hc := comps_plain (d.depot ++ "/".toList ++ d.collection)
  have h3 : canWrite (applyWrite fs (repoPlace d ++ [".REPO".toList], a)) (repoPlace d ++ [".FILES".toList]) = true := by
    have hne : repoPlace d ++ [".REPO".toList] ≠ repoPlace d ++ [".FILES".toList] := pub_ne (by decide)
    unfold canWrite at h2 ⊢
    rw [get_applyWrite_ne hne] at h2 ⊢
    have : (applyWrite fs (repoPlace d ++ [".REPO".toList], a)).isDirAt (repoPlace d ++ [".FILES".toList]).dropLast =
        (applyWrite fs (repoPlace d ++ [".REPO".toList], [])).isDirAt (repoPlace d ++ [".FILES".toList]).dropLast := by
      rw [List.dropLast_concat, Bool.eq_iff_iff, isDirAt_iff, isDirAt_iff]
      have e : ∀ c, (applyWrite fs (repoPlace d ++ [".REPO".toList], c)).get (repoPlace d) = fs.get (repoPlace d) :=
        fun c => get_applyWrite_ne (fun e => by have := congrArg List.length e; simp at this)
      rw [e, e]
    rw [this]
    exact h2
  exact treeOk_write (treeOk_write h (pub_plain _ pub_repo) hc h1 a) (pub_plain _ pub_files) hc h3 b

/-- What a loop that came to its end has found. -/
theorem found_all {T : RepoTools} {fs : Fs} (h : TreeOk fs) {d : DirUrl} (h1 : canWrite fs (repoPlace d ++ [".REPO".toList]) = true)
    (h2 : canWrite (applyWrite fs (repoPlace d ++ [".REPO".toList], [])) (repoPlace d ++ [".FILES".toList]) = true)
    (hr : (repoFound T d fs).2 = none) : DescribesAll T fs d (repoFound T d fs).1 := by
  have hok : TreeOk (repoOpened d fs) := treeOk_opened h h1 h2 [] []
  have hdir : (repoOpened d fs).isDirAt (repoPlace d) = true := by
    have := canWrite_dir h1
    rw [isDirAt_iff] at this ⊢
    have e : (repoOpened d fs).get (repoPlace d) = fs.get (repoPlace d) :=
      onlyLists_lists (d := d) (fs := fs) [] [] _ (fun n _ e => by have := congrArg List.length e; simp [repoPlace_eq] at this)
    rw [e]
    exact this
  obtain ⟨hn, hm⟩ := listing_mem hok.parents hok.plain (repoPlace d) hdir
  have hall := entries_all T (repoOpened d fs) _ hr (fun q hq => by
    obtain ⟨-, rel, h1, h2, -⟩ := (hm q).mp hq
    rw [h2]
    simp [h1])
  exact describesAll_congr (fs' := repoOpened d fs) (fun k hv => onlyLists_lists (d := d) (fs := fs) [] [] k (fun n hn => visible_ne hv _ hn))
    ⟨_, hn, hm, hall⟩

theorem repoWritten_none {T : RepoTools} {r : List PkgFile × Option (Option PkgFile)} (h : r.2 = none) : repoWritten T r = RepoTools.repo T r.1 := by
  unfold repoWritten RepoTools.repo
  rw [h]
  simp

theorem filesWritten_none {r : List PkgFile × Option (Option PkgFile)} (h : r.2 = none) : filesWritten r = filesText r.1 := by
  unfold filesWritten
  rw [h]
  simp

/-- The compressed list `n` is new at `x`: both lists are whole and describe exactly the packages, and it is a beginning of the compression of its list. -/
def NewZst (T : RepoTools) (fs x : Fs) (d : DirUrl) (n : Str) (text : List PkgFile → Str) : Prop :=
  ∃ ps, DescribesAll T fs d ps ∧ HasContent x (d.place ++ [".REPO".toList]) (RepoTools.repo T ps) ∧ HasContent x (d.place ++ [".FILES".toList]) (filesText ps) ∧
    ∃ z, HasContent x (d.place ++ [n]) z ∧ z <+: T.zst (text ps)

/-- Both compressed lists are as before or new in this sense. -/
def ZstSound (T : RepoTools) (fs x : Fs) (d : DirUrl) : Prop :=
  (x.get (d.place ++ [".REPO.zst".toList]) = fs.get (d.place ++ [".REPO.zst".toList]) ∨ NewZst T fs x d ".REPO.zst".toList (RepoTools.repo T)) ∧
  (x.get (d.place ++ [".FILES.zst".toList]) = fs.get (d.place ++ [".FILES.zst".toList]) ∨ NewZst T fs x d ".FILES.zst".toList filesText)

theorem names_ne : ".REPO".toList ≠ ".FILES".toList ∧ ".REPO".toList ≠ ".REPO.zst".toList ∧ ".REPO".toList ≠ ".FILES.zst".toList ∧
    ".FILES".toList ≠ ".REPO.zst".toList ∧ ".FILES".toList ≠ ".FILES.zst".toList ∧ ".FILES.zst".toList ≠ ".REPO.zst".toList := by decide

theorem lists_repo (d : DirUrl) (fs : Fs) (a b : Str) : HasContent (repoLists d fs a b) (d.place ++ [".REPO".toList]) a := by
  refine ⟨0o644, ?_⟩
  unfold repoLists
  rw [get_applyWrite_ne (k := repoPlace d ++ [".FILES".toList]) (x := d.place ++ [".REPO".toList]) (pub_ne (Ne.symm names_ne.1))]
  rw [get_applyWrite, if_pos (by rw [repoPlace_eq])]

theorem lists_files (d : DirUrl) (fs : Fs) (a b : Str) : HasContent (repoLists d fs a b) (d.place ++ [".FILES".toList]) b := has_applyWrite _ _ _

theorem lists_other (d : DirUrl) (fs : Fs) (a b : Str) (n : Str) (h1 : ".REPO".toList ≠ n) (h2 : ".FILES".toList ≠ n) :
    (repoLists d fs a b).get (d.place ++ [n]) = fs.get (d.place ++ [n]) := by
  unfold repoLists
  rw [get_applyWrite_ne (k := repoPlace d ++ [".FILES".toList]) (x := d.place ++ [n]) (pub_ne h2),
    get_applyWrite_ne (k := repoPlace d ++ [".REPO".toList]) (x := d.place ++ [n]) (pub_ne h1)]

theorem has_congr {fs fs' : Fs} {k : List Str} {c : Str} (h : fs'.get k = fs.get k) (hc : HasContent fs k c) : HasContent fs' k c := by
  obtain ⟨m, hm⟩ := hc
  exact ⟨m, by rw [h, hm]⟩

theorem write_other {d : DirUrl} {fs : Fs} {m n : Str} {c : Str} (h : m ≠ n) : (applyWrite fs (repoPlace d ++ [m], c)).get (d.place ++ [n]) = fs.get (d.place ++ [n]) :=
  get_applyWrite_ne (k := repoPlace d ++ [m]) (x := d.place ++ [n]) (pub_ne h)

theorem compress_other (T : RepoTools) {d : DirUrl} {fs : Fs} {m n : Str} {c : Str} (h : m ≠ n) :
    (compressTo T fs (repoPlace d ++ [m]) c).get (d.place ++ [n]) = fs.get (d.place ++ [n]) :=
  get_compressTo_ne T (k := repoPlace d ++ [m]) (x := d.place ++ [n]) (pub_ne h)

/-- One collection. -/
theorem coll_zst {T : RepoTools} {fs x : Fs} {d : DirUrl} (hok : TreeOk fs) (h : CollMoment T d fs x) : ZstSound T fs x d := by
  obtain ⟨n1, n2, n3, n4, n5, n6⟩ := names_ne
  cases h with
  | before => exact ⟨.inl rfl, .inl rfl⟩
  | opened => exact ⟨.inl (write_other n2), .inl (write_other n3)⟩
  | lists a b => exact ⟨.inl (lists_other d fs a b _ n2 n4), .inl (lists_other d fs a b _ n3 n5)⟩
  | filesZst z h1 h2 hr hz =>
    refine ⟨.inl (by rw [write_other n6, lists_other d fs _ _ _ n2 n4]), .inr ⟨_, found_all hok h1 h2 hr, ?_, ?_, z, has_applyWrite _ _ _, ?_⟩⟩
    · rw [← repoWritten_none hr]
      exact has_congr (write_other (Ne.symm n3)) (lists_repo d fs _ _)
    · rw [← filesWritten_none hr]
      exact has_congr (write_other (Ne.symm n5)) (lists_files d fs _ _)
    · rw [← filesWritten_none hr]; exact hz
  | repoZst z h1 h2 hr hz =>
    have hR : HasContent (applyWrite (compressTo T (repoLists d fs (repoWritten T (repoFound T d fs)) (filesWritten (repoFound T d fs)))
        (repoPlace d ++ [".FILES.zst".toList]) (filesWritten (repoFound T d fs))) (repoPlace d ++ [".REPO.zst".toList], z)) (d.place ++ [".REPO".toList])
        (RepoTools.repo T (repoFound T d fs).1) := by
      rw [← repoWritten_none hr]
      exact has_congr (by rw [write_other (Ne.symm n2), compress_other T (Ne.symm n3)]) (lists_repo d fs _ _)
    have hF : HasContent (applyWrite (compressTo T (repoLists d fs (repoWritten T (repoFound T d fs)) (filesWritten (repoFound T d fs)))
        (repoPlace d ++ [".FILES.zst".toList]) (filesWritten (repoFound T d fs))) (repoPlace d ++ [".REPO.zst".toList], z)) (d.place ++ [".FILES".toList])
        (filesText (repoFound T d fs).1) := by
      rw [← filesWritten_none hr]
      exact has_congr (by rw [write_other (Ne.symm n4), compress_other T (Ne.symm n5)]) (lists_files d fs _ _)
    refine ⟨.inr ⟨_, found_all hok h1 h2 hr, hR, hF, z, has_applyWrite _ _ _, by rw [← repoWritten_none hr]; exact hz⟩, ?_⟩
    rw [write_other (Ne.symm n6)]
    revert hR hF
    unfold compressTo
    split
    · intro hR hF
      refine .inr ⟨_, found_all hok h1 h2 hr, hR, hF, T.zst (filesWritten (repoFound T d fs)), ?_, ?_⟩
      · exact has_congr (write_other (Ne.symm n6)) (has_applyWrite _ _ _)
      · rw [filesWritten_none hr]
    · intro _ _
      exact .inl (lists_other d fs _ _ _ n3 n5)

theorem treeOk_compress {T : RepoTools} {fs : Fs} (h : TreeOk fs) {d : DirUrl} {n : Str} (hn : n ∈ publishedNames) (t : Str) :
    TreeOk (compressTo T fs (repoPlace d ++ [n]) t) := by
  unfold compressTo
  split
  · next hw => exact treeOk_write h (pub_plain n hn) (comps_plain _) hw _
  · exact h

theorem treeOk_dir {T : RepoTools} {fs : Fs} (h : TreeOk fs) {d : DirUrl} (hd : (repoDir T d fs).2 = .done) : TreeOk (repoDir T d fs).1 := by
  obtain ⟨h1, h2, hr, e⟩ := dir_done hd
  rw [e]
  exact treeOk_compress (treeOk_compress (treeOk_opened h h1 h2 _ _) pub_filesZ _) pub_repoZ _

theorem place_ne {d e : DirUrl} (h : d.place ≠ e.place) (m n : Str) : d.place ++ [m] ≠ e.place ++ [n] := by
  intro he
  have := congrArg List.dropLast he
  simp at this
  exact h this

theorem zstSound_congr {T : RepoTools} {fs fs' x : Fs} {d : DirUrl} (hv : ∀ k, VisibleBelow d.place k → fs'.get k = fs.get k)
    (hp : ∀ n, fs'.get (d.place ++ [n]) = fs.get (d.place ++ [n])) (h : ZstSound T fs' x d) : ZstSound T fs x d := by
  obtain ⟨h1, h2⟩ := h
  rw [hp] at h1 h2
  refine ⟨h1.imp_right ?_, h2.imp_right ?_⟩
  · rintro ⟨ps, ha, hb⟩; exact ⟨ps, describesAll_congr hv ha, hb⟩
  · rintro ⟨ps, ha, hb⟩; exact ⟨ps, describesAll_congr hv ha, hb⟩

theorem zstSound_later {T : RepoTools} {fs x x' : Fs} {d : DirUrl} (hp : ∀ n, x'.get (d.place ++ [n]) = x.get (d.place ++ [n])) (h : ZstSound T fs x d) :
    ZstSound T fs x' d := by
  obtain ⟨h1, h2⟩ := h
  unfold ZstSound
  rw [hp, hp]
  refine ⟨h1.imp_right ?_, h2.imp_right ?_⟩
  · rintro ⟨ps, ha, hb, hc, z, hz, hzz⟩
    exact ⟨ps, ha, has_congr (hp _) hb, has_congr (hp _) hc, z, has_congr (hp _) hz, hzz⟩
  · rintro ⟨ps, ha, hb, hc, z, hz, hzz⟩
    exact ⟨ps, ha, has_congr (hp _) hb, has_congr (hp _) hc, z, has_congr (hp _) hz, hzz⟩

/-- **C152**: at every moment of a run the compressed lists of a collection are as before, or they are (beginnings of) the compression of lists that are whole at
that moment and describe exactly the packages in the directory: an unfinished list is never offered to the clients, who read the compressed ones. -/
theorem C152_whole_lists (T : RepoTools) (arg : Option Str) (dirs : List DirUrl) (fs x : Fs) (hok : TreeOk fs) (hn : (dirs.map DirUrl.place).Nodup)
    (h : RunMoment T arg dirs fs x) (d : DirUrl) (hd : d ∈ dirs) : ZstSound T fs x d := by
  induction h with
  | start => exact ⟨.inl rfl, .inl rfl⟩
  | skip e ds fs x ht hm ih =>
    rw [List.map_cons, List.nodup_cons] at hn
    rcases List.mem_cons.mp hd with rfl | hd
    · have hp : ∀ n, x.get (d.place ++ [n]) = fs.get (d.place ++ [n]) := fun n =>
        C151_only_lists T arg ds fs x hm _ (fun e he _ m _ => place_ne (fun h => hn.1 (List.mem_map.mpr ⟨e, he, h.symm⟩)) n m)
      exact ⟨.inl (hp _), .inl (hp _)⟩
    · exact ih hok hn.2 hd
  | inside e ds fs x ht hm =>
    rw [List.map_cons, List.nodup_cons] at hn
    rcases List.mem_cons.mp hd with rfl | hd
    · exact coll_zst hok hm
    · have hp : ∀ n, x.get (d.place ++ [n]) = fs.get (d.place ++ [n]) := fun n =>
        onlyLists_moment hm _ (fun m _ => place_ne (fun h => hn.1 (List.mem_map.mpr ⟨d, hd, h⟩)) n m)
      exact ⟨.inl (hp _), .inl (hp _)⟩
  | next e ds fs x ha hdone hm ih =>
    rw [List.map_cons, List.nodup_cons] at hn
    rcases List.mem_cons.mp hd with rfl | hd
    · have hp : ∀ n, x.get (d.place ++ [n]) = (repoDir T d fs).1.get (d.place ++ [n]) := fun n =>
        C151_only_lists T arg ds _ x hm _ (fun e he _ m _ => place_ne (fun h => hn.1 (List.mem_map.mpr ⟨e, he, h.symm⟩)) n m)
      exact zstSound_later hp (coll_zst hok (coll_end T d fs))
    · have hp : ∀ n, (repoDir T e fs).1.get (d.place ++ [n]) = fs.get (d.place ++ [n]) := fun n =>
        onlyLists_dir T e fs _ (fun m _ => place_ne (fun h => hn.1 (List.mem_map.mpr ⟨d, hd, h⟩)) n m)
      exact zstSound_congr (fun k hv => onlyLists_dir T e fs k (fun n hn => visible_ne hv _ hn)) hp (ih (treeOk_dir hok hdone) hn.2 hd)

/-! ### The end of the run -/

/-- The collection is published at `x`: the lists describe exactly the packages of the directory as it was at `fs`; so do the compressed ones, unless a directory
stands in their place. -/
def PublishedAt (T : RepoTools) (fs x : Fs) (d : DirUrl) : Prop :=
  ∃ ps, DescribesAll T fs d ps ∧ HasContent x (d.place ++ [".REPO".toList]) (RepoTools.repo T ps) ∧ HasContent x (d.place ++ [".FILES".toList]) (filesText ps) ∧
    ((∀ m, fs.get (d.place ++ [".REPO.zst".toList]) ≠ some (.dir m)) → HasContent x (d.place ++ [".REPO.zst".toList]) (T.zst (RepoTools.repo T ps))) ∧
    ((∀ m, fs.get (d.place ++ [".FILES.zst".toList]) ≠ some (.dir m)) → HasContent x (d.place ++ [".FILES.zst".toList]) (T.zst (filesText ps)))

theorem compress_has {T : RepoTools} {fs : Fs} {d : DirUrl} {n t : Str} (hdir : fs.isDirAt d.place = true) (h : ∀ m, fs.get (d.place ++ [n]) ≠ some (.dir m)) :
    HasContent (compressTo T fs (repoPlace d ++ [n]) t) (d.place ++ [n]) (T.zst t) := by
  unfold compressTo
  have : canWrite fs (repoPlace d ++ [n]) = true := by
    unfold canWrite
    rw [List.dropLast_concat, Bool.and_eq_true]
    refine ⟨hdir, ?_⟩
    rw [repoPlace_eq]
    cases hg : fs.get (d.place ++ [n]) with
    | none => rfl
    | some v =>
      cases v with
      | file => rfl
      | dir m => exact absurd hg (h m)
  rw [if_pos this]
  exact has_applyWrite _ _ _

theorem published_dir {T : RepoTools} {fs : Fs} {d : DirUrl} (hok : TreeOk fs) (h : (repoDir T d fs).2 = .done) : PublishedAt T fs (repoDir T d fs).1 d := by
  obtain ⟨n1, n2, n3, n4, n5, n6⟩ := names_ne
  obtain ⟨h1, h2, hr, e⟩ := dir_done h
  rw [e, repoWritten_none hr, filesWritten_none hr]
  have hplace : ∀ y, OnlyLists d fs y → y.isDirAt d.place = true := by
    intro y hy
    have := canWrite_dir h1
    rw [isDirAt_iff] at this ⊢
    rw [hy d.place (fun n _ e => by have := congrArg List.length e; simp at this)]
    exact this
  refine ⟨_, found_all hok h1 h2 hr, ?_, ?_, ?_, ?_⟩
  · exact has_congr (by rw [compress_other T (Ne.symm n2), compress_other T (Ne.symm n3)]) (lists_repo d fs _ _)
  · exact has_congr (by rw [compress_other T (Ne.symm n4), compress_other T (Ne.symm n5)]) (lists_files d fs _ _)
  · intro hz
    refine compress_has (hplace _ (onlyLists_compress T (onlyLists_lists _ _) pub_filesZ _)) (fun m => ?_)
    rw [compress_other T n6, lists_other d fs _ _ _ n2 n4]
    exact hz m
  · intro hz
    refine has_congr (compress_other T (Ne.symm n6)) (compress_has (hplace _ (onlyLists_lists _ _)) (fun m => ?_))
    rw [lists_other d fs _ _ _ n3 n5]
    exact hz m

theorem published_later {T : RepoTools} {fs x x' : Fs} {d : DirUrl} (hp : ∀ n, x'.get (d.place ++ [n]) = x.get (d.place ++ [n])) (h : PublishedAt T fs x d) :
    PublishedAt T fs x' d := by
  obtain ⟨ps, h1, h2, h3, h4, h5⟩ := h
  exact ⟨ps, h1, has_congr (hp _) h2, has_congr (hp _) h3, fun h => has_congr (hp _) (h4 h), fun h => has_congr (hp _) (h5 h)⟩

theorem published_congr {T : RepoTools} {fs fs' x : Fs} {d : DirUrl} (hv : ∀ k, VisibleBelow d.place k → fs'.get k = fs.get k)
    (hp : ∀ n, fs'.get (d.place ++ [n]) = fs.get (d.place ++ [n])) (h : PublishedAt T fs' x d) : PublishedAt T fs x d := by
  obtain ⟨ps, h1, h2, h3, h4, h5⟩ := h
  rw [hp] at h4 h5
  exact ⟨ps, describesAll_congr hv h1, h2, h3, h4, h5⟩

/-- **C153, all the collections**: when a run without argument came to its end, every collection is published. -/
theorem C153_all_partial (T : RepoTools) (dirs : List DirUrl) (fs : Fs) (hok : TreeOk fs) (hn : (dirs.map DirUrl.place).Nodup)
    (h : (repoRun T none dirs fs).2 = .done) (d : DirUrl) (hd : d ∈ dirs) : PublishedAt T fs (repoRun T none dirs fs).1 d := by
  induction dirs generalizing fs with
  | nil => cases hd
  | cons e ds ih =>
    rw [List.map_cons, List.nodup_cons] at hn
    unfold repoRun at h ⊢
    have ht : repoTakes none e = true := rfl
    rw [if_pos ht] at h ⊢
    rcases hr : repoDir T e fs with ⟨f1, r⟩
    rw [hr] at h
    cases r with
    | gaveUp => cases h
    | threw => cases h
    | done =>
      dsimp only at h ⊢
      have he : (repoDir T e fs).2 = .done := by rw [hr]
      have hf : f1 = (repoDir T e fs).1 := by rw [hr]
      subst hf
      rw [if_neg (by simp)] at h ⊢
      rcases List.mem_cons.mp hd with rfl | hd
      · exact published_later (fun n => C151_only_lists T none ds _ _ (C151_end T none ds _) _
          (fun e he _ m _ => place_ne (fun h => hn.1 (List.mem_map.mpr ⟨e, he, h.symm⟩)) n m)) (published_dir hok he)
      · exact published_congr (fun k hv => onlyLists_dir T e fs k (fun n hn => visible_ne hv _ hn))
          (fun n => onlyLists_dir T e fs _ (fun m _ => place_ne (fun h => hn.1 (List.mem_map.mpr ⟨d, hd, h⟩)) n m))
          (ih _ (treeOk_dir hok he) hn.2 h hd)

/-- With a name: the first collection of that name is published. -/
theorem C153_named_partial (T : RepoTools) (A : List DirUrl) (d : DirUrl) (B : List DirUrl) (fs : Fs) (hok : TreeOk fs) (hA : ∀ e ∈ A, e.collection ≠ d.collection)
    (h : (repoRun T (some d.collection) (A ++ d :: B) fs).2 = .done) : PublishedAt T fs (repoRun T (some d.collection) (A ++ d :: B) fs).1 d := by
  induction A with
  | nil =>
    rw [List.nil_append] at h ⊢
    unfold repoRun at h ⊢
    rw [if_pos (by simp [repoTakes])] at h ⊢
    rcases hr : repoDir T d fs with ⟨f1, r⟩
    rw [hr] at h
    cases r with
    | gaveUp => cases h
    | threw => cases h
    | done =>
      have he : (repoDir T d fs).2 = .done := by rw [hr]
      have := published_dir hok he
      rw [hr] at this
      exact this
  | cons e A ih =>
    rw [List.cons_append] at h ⊢
    unfold repoRun at h ⊢
    rw [if_neg (by simp [repoTakes, hA e (List.mem_cons_self ..)])] at h ⊢
    exact ih (fun e he => hA e (List.mem_cons_of_mem _ he)) h

/-- A collection published with the key beside it is what the readers of C70 expect: they read back every package (`C70_roundtrip_partial`). -/
theorem C153_in_depot_partial (T : RepoTools) (fs x : Fs) (d : DirUrl) (key : Str) (h : PublishedAt T fs x d) (hk : HasContent x (d.place ++ [".PKEY".toList]) key) :
    ∃ ps, DescribesAll T fs d ps ∧ InDepot x T.hash d { pkgs := ps, sign := fun h => (T.sign h).getD [], key := key } := by
  obtain ⟨ps, h1, h2, h3, -, -⟩ := h
  exact ⟨ps, h1, ⟨hk, h2, h3⟩⟩

/-- A collection that can be published: its directory is there, no directory has the name of a list, and every visible file is a package. -/
structure Publishable (T : RepoTools) (fs : Fs) (d : DirUrl) : Prop where
  place : d.place = [] ∨ ∃ m, fs.get d.place = some (.dir m)
  lists : ∀ n ∈ listNames, ∀ m, fs.get (d.place ++ [n]) ≠ some (.dir m)
  packages : ∀ q c m, fs.get q = some (.file c m) → VisibleBelow d.place q → (T.opened c).isSome

theorem done_dir {T : RepoTools} {fs : Fs} {d : DirUrl} (hok : TreeOk fs) (hp : Publishable T fs d) (hs : ∀ h, (T.sign h).isSome) : (repoDir T d fs).2 = .done := by
  have hw : ∀ (y : Fs) (n : Str), OnlyLists d fs y → (∀ m, y.get (d.place ++ [n]) ≠ some (.dir m)) → canWrite y (repoPlace d ++ [n]) = true := by
    intro y n hy hn
    unfold canWrite
    rw [List.dropLast_concat, Bool.and_eq_true, isDirAt_iff, repoPlace_eq, hy d.place (fun n _ e => by have := congrArg List.length e; simp at this)]
    refine ⟨hp.place, ?_⟩
    cases hg : y.get (d.place ++ [n]) with
    | none => rfl
    | some v =>
      cases v with
      | file => rfl
      | dir m => exact absurd hg (hn m)
  have h1 : canWrite fs (repoPlace d ++ [".REPO".toList]) = true := hw fs _ (fun _ _ => rfl) (hp.lists _ (by decide))
  have h2 : canWrite (applyWrite fs (repoPlace d ++ [".REPO".toList], [])) (repoPlace d ++ [".FILES".toList]) = true := by
    refine hw _ _ (onlyLists_write (fun _ _ => rfl) pub_repo _) (fun m => ?_)
    rw [write_other names_ne.1]
    exact hp.lists _ (by decide) m
  have hoko : TreeOk (repoOpened d fs) := treeOk_opened hok h1 h2 [] []
  have hdir : (repoOpened d fs).isDirAt (repoPlace d) = true := by
    have e : (repoOpened d fs).get d.place = fs.get d.place :=
      onlyLists_lists (d := d) (fs := fs) [] [] _ (fun n _ e => by have := congrArg List.length e; simp at this)
    rw [isDirAt_iff, repoPlace_eq, e]
    exact hp.place
  have hr : (repoFound T d fs).2 = none := by
    refine entries_none T _ _ (fun q hq => ?_) hs
    obtain ⟨⟨c, m, hf⟩, hv⟩ := ((listing_mem hoko.parents hoko.plain (repoPlace d) hdir).2 q).mp hq
    refine ⟨c, m, hf, hp.packages q c m ?_ hv⟩
    rw [← hf]
    exact (onlyLists_lists (d := d) (fs := fs) [] [] q (fun n hn => visible_ne hv _ hn)).symm
  unfold repoDir
  rw [h1, h2]
  simp only [Bool.not_true, Bool.false_eq_true, if_false]
  rw [hr]

/-- **C153, nothing in the way**: with a key that works, directories that are there and nothing but packages in them, the run comes to its end. -/
theorem C153_succeeds (T : RepoTools) (dirs : List DirUrl) (fs : Fs) (hok : TreeOk fs) (hn : (dirs.map DirUrl.place).Nodup)
    (hp : ∀ d ∈ dirs, Publishable T fs d) (hs : ∀ h, (T.sign h).isSome) (arg : Option Str) : (repoRun T arg dirs fs).2 = .done := by
  induction dirs generalizing fs with
  | nil => rfl
  | cons e ds ih =>
    rw [List.map_cons, List.nodup_cons] at hn
    unfold repoRun
    split
    · have he := done_dir hok (hp e (List.mem_cons_self ..)) hs
      rcases hr : repoDir T e fs with ⟨f1, r⟩
      rw [hr] at he
      dsimp only at he
      subst he
      dsimp only
      split
      · rfl
      · have hf : f1 = (repoDir T e fs).1 := by rw [hr]
        subst hf
        refine ih _ (treeOk_dir hok (by rw [hr])) hn.2 (fun d hd => ?_)
        have hne : d.place ≠ e.place := fun h => hn.1 (List.mem_map.mpr ⟨d, hd, h⟩)
        have hd' := hp d (List.mem_cons_of_mem _ hd)
        refine ⟨?_, ?_, ?_⟩
        · refine hd'.place.imp_right ?_
          rintro ⟨m, hm⟩
          refine ⟨m, ?_⟩
          by_cases hq : ∃ n ∈ publishedNames, d.place = e.place ++ [n]
          · obtain ⟨n, hn', hq⟩ := hq
            rw [hq] at hm ⊢
            have hcm := coll_end T e fs
            obtain ⟨h1, h2, -, e'⟩ := dir_done (T := T) (d := e) (fs := fs) (by rw [hr])
            rw [e']
            have hdirn : ∀ (y : Fs) (t : Str), y.get (e.place ++ [n]) = some (.dir m) → ∀ n', (compressTo T y (repoPlace e ++ [n']) t).get (e.place ++ [n]) = some (.dir m) := by
              intro y t hy n'
              by_cases hnn : n' = n
              · subst hnn
                unfold compressTo
                rw [repoPlace_eq, if_neg (fun hw => canWrite_not_dir hw m hy)]
                exact hy
              · rw [compress_other T hnn, hy]
            refine hdirn _ _ (hdirn _ _ ?_ _) _
            have hR : ".REPO".toList ≠ n := fun h => canWrite_not_dir h1 m (by rw [h]; exact hm)
            have hF : ".FILES".toList ≠ n := fun h => canWrite_not_dir h2 m (by
              rw [h]
              exact (write_other hR).trans hm)
            rw [lists_other e fs _ _ n hR hF, hm]
          · rw [onlyLists_dir T e fs _ (fun n hn' h => hq ⟨n, hn', h⟩), hm]
        · intro n hn' m
          rw [onlyLists_dir T e fs _ (fun m _ => place_ne hne n m)]
          exact hd'.lists n hn' m
        · intro q c m hf hv
          rw [onlyLists_dir T e fs q (fun n hn' => visible_ne hv _ hn')] at hf
          exact hd'.packages q c m hf hv
    · exact ih fs hok hn.2 (fun d hd => hp d (List.mem_cons_of_mem _ hd))

/-! ### Cases -/

/-- A key, and two files that are packages. -/
def rrT : RepoTools where
  opened c := if c = "A".toList then some (["Nalpha".toList, "r1".toList], ["usr/bin/alpha".toList])
    else if c = "B".toList then some (["Nbeta".toList, "r2".toList], ["usr/bin/beta".toList]) else none
  hash c := 'h' :: c
  sign h := some ('s' :: h)
  zst c := 'z' :: c

def rrBase : DirUrl := { depot := "/srv".toList, collection := "base".toList, url := [] }
def rrExtra : DirUrl := { depot := "/srv".toList, collection := "extra".toList, url := [] }

/-- Two collections, published before. `bad`: what lies in the second file. -/
def rrFs (second : Str) : Fs := [
  (["srv".toList], .dir 0o755), (["srv".toList, "base".toList], .dir 0o755), (["srv".toList, "extra".toList], .dir 0o755),
  (["srv".toList, "base".toList, "alpha.cards-1".toList], .file "A".toList 0o644),
  (["srv".toList, "base".toList, "beta.cards-1".toList], .file second 0o644),
  (["srv".toList, "base".toList, ".REPO".toList], .file "old".toList 0o644),
  (["srv".toList, "base".toList, ".REPO.zst".toList], .file "zold".toList 0o644),
  (["srv".toList, "extra".toList, "beta.cards-1".toList], .file "B".toList 0o644)]

theorem rr_tree (s : Str) : TreeOk (rrFs s) := by
  have aux : ∀ s : Str, ∀ e ∈ rrFs s, (e.1.dropLast = [] ∨ (rrFs s).get e.1.dropLast = some (.dir 0o755)) ∧ ∀ n ∈ e.1, n ≠ [] ∧ '/' ∉ n := by
    intro s e he
    unfold rrFs at he
    simp only [List.mem_cons, List.not_mem_nil, or_false] at he
    rcases he with rfl | rfl | rfl | rfl | rfl | rfl | rfl | rfl <;>
      exact ⟨by first | (left; rfl) | (right; rfl), by dsimp only; decide⟩
  constructor
  · intro k n hs hk
    obtain ⟨v, hv⟩ := Option.isSome_iff_exists.mp hs
    obtain ⟨w, hw⟩ := Fs.mem_keys_of_get hv
    have := (aux s _ hw).1
    rw [List.dropLast_concat] at this
    rcases this with h | h
    · exact absurd h hk
    · exact ⟨_, h⟩
  · intro k hs
    obtain ⟨v, hv⟩ := Option.isSome_iff_exists.mp hs
    obtain ⟨w, hw⟩ := Fs.mem_keys_of_get hv
    exact (aux s _ hw).2

/-- Both collections: a run to its end. -/
example : (([rrBase, rrExtra].map DirUrl.place).Nodup ∧ (repoRun rrT none [rrBase, rrExtra] (rrFs "B".toList)).2 = .done) := by decide +kernel

/-- The hypotheses of `C153_succeeds` are met. -/
example : ∀ d ∈ [rrBase, rrExtra], Publishable rrT (rrFs "B".toList) d := by
  have hm : ∀ q c m, (rrFs "B".toList).get q = some (.file c m) → (q, Node.file c m) ∈ rrFs "B".toList := by
    have : ∀ (l : Fs) q c m, l.get q = some (.file c m) → (q, Node.file c m) ∈ l := by
      intro l q c m
      induction l with
      | nil => intro h; cases h
      | cons e l ih =>
        intro h
        unfold Fs.get at h
        split at h
        · next hk => rw [← Option.some.inj h, ← hk]; exact List.mem_cons_self ..
        · exact List.mem_cons_of_mem _ (ih h)
    exact this _
  have hp : ∀ d ∈ [rrBase, rrExtra], ∀ q c m, (rrFs "B".toList).get q = some (.file c m) → VisibleBelow d.place q → (rrT.opened c).isSome := by
    intro d _ q c m h hv
    have := hm q c m h
    unfold rrFs at this
    simp only [List.mem_cons, List.not_mem_nil, or_false, Prod.mk.injEq, Node.file.injEq, reduceCtorEq, and_false, false_or] at this
    rcases this with ⟨-, rfl, -⟩ | ⟨-, rfl, -⟩ | ⟨rfl, -⟩ | ⟨rfl, -⟩ | ⟨-, rfl, -⟩
    · decide
    · decide
    · exact absurd rfl (visible_ne hv ["srv".toList, "base".toList] pub_repo)
    · exact absurd rfl (visible_ne hv ["srv".toList, "base".toList] pub_repoZ)
    · decide
  intro d hd
  refine ⟨.inr ⟨0o755, ?_⟩, ?_, hp d hd⟩
  · revert d; decide
  · have aux : ∀ d ∈ [rrBase, rrExtra], ∀ n ∈ listNames, ¬ ((rrFs "B".toList).get (d.place ++ [n])).any (fun v => match v with | .dir _ => true | _ => false) = true := by decide
    intro n hn m e
    have := aux d hd n hn
    rw [e] at this
    exact this rfl

/-- What the list holds then. -/
example : (repoRun rrT none [rrBase, rrExtra] (rrFs "B".toList)).1.get (rrBase.place ++ [".REPO".toList]) =
    some (.file (writeList ["@alpha.cards-1".toList, "Nalpha".toList, "r1".toList, "HhA".toList, "IshA".toList, "i1".toList, [],
      "@beta.cards-1".toList, "Nbeta".toList, "r2".toList, "HhB".toList, "IshB".toList, "i1".toList, []]) 0o644) := by decide +kernel

/-- **C153 fails**: a file in the directory that is not a package ends the run with an error, and the list that was there is gone: it ends before that file. The
collections after it are not worked on. -/
theorem C153_not_a_package_counterexample :
    (let r := repoRun rrT none [rrBase, rrExtra] (rrFs "a note".toList)
     r.2 = .threw ∧ r.2.status = 1 ∧
     r.1.get (rrBase.place ++ [".REPO".toList]) =
       some (.file (writeList ["@alpha.cards-1".toList, "Nalpha".toList, "r1".toList, "HhA".toList, "IshA".toList, "i1".toList, []]) 0o644) ∧
     r.1.get (rrBase.place ++ [".REPO.zst".toList]) = some (.file "zold".toList 0o644) ∧
     r.1.get (rrExtra.place ++ [".REPO".toList]) = none) := by decide +kernel

/-- **C153 fails**: when the key cannot be used the list is left with a half description, without hash, signature and size. -/
theorem C153_no_key_counterexample :
    (let r := repoRun { rrT with sign := fun _ => none } none [rrBase] (rrFs "B".toList)
     r.2 = .threw ∧ r.1.get (rrBase.place ++ [".REPO".toList]) = some (.file (writeList ["@alpha.cards-1".toList, "Nalpha".toList, "r1".toList]) 0o644)) := by
  decide +kernel

/-- **C153 fails**: a collection that is not configured is reported as success, whatever is there. -/
theorem C153_unknown_counterexample (T : RepoTools) (c : Str) (dirs : List DirUrl) (fs : Fs) (h : ∀ d ∈ dirs, d.collection ≠ c) :
    repoRun T (some c) dirs fs = (fs, .done) ∧ (repoRun T (some c) dirs fs).2.status = 0 := by
  have : repoRun T (some c) dirs fs = (fs, .done) := by
    induction dirs with
    | nil => rfl
    | cons d ds ih =>
      unfold repoRun
      rw [if_neg (by simp [repoTakes, h d (List.mem_cons_self ..)])]
      exact ih (fun e he => h e (List.mem_cons_of_mem _ he))
  rw [this]
  exact ⟨rfl, rfl⟩

/-- **C153 fails**: a collection whose directory is missing ends the run: the ones after it are not published, and the exit status says success. -/
theorem C153_missing_counterexample :
    (let r := repoRun rrT none [{ rrBase with collection := "gone".toList }, rrExtra] (rrFs "B".toList)
     r.2 = .gaveUp ∧ r.2.status = 0 ∧ r.1 = rrFs "B".toList) := by decide +kernel

/-- **C153 fails**: a package in a subdirectory is announced by its bare name; no file has that name in the directory of the collection. -/
theorem C153_subdirectory_counterexample :
    (let fs : Fs := [(["srv".toList], .dir 0o755), (["srv".toList, "base".toList], .dir 0o755), (["srv".toList, "base".toList, "old".toList], .dir 0o755),
       (["srv".toList, "base".toList, "old".toList, "alpha.cards-1".toList], .file "A".toList 0o644)]
     let r := repoRun rrT none [rrBase] fs
     r.2 = .done ∧ r.1.get (rrBase.place ++ [".FILES".toList]) = some (.file (writeList ["@alpha.cards-1".toList, "usr/bin/alpha".toList, []]) 0o644) ∧
     r.1.get (rrBase.place ++ ["alpha.cards-1".toList]) = none) := by decide +kernel

end Cards.Props
