import Verif.Model.Fs
import Verif.Lemmas.Base
namespace Cards

@[simp] theorem Fs.get_nil (k : List Str) : Fs.get [] k = none := rfl

theorem Fs.get_del (fs : Fs) (k x : List Str) : (fs.del k).get x = if k = x then none else fs.get x := by
  unfold Fs.del
  induction fs with
  | nil => simp
  | cons p m ih =>
    obtain ⟨k', w⟩ := p
    by_cases h : k' = k
    · subst h; simp only [ne_eq, not_true_eq_false, decide_false, Bool.false_eq_true, not_false_eq_true,
        List.filter_cons_of_neg, Fs.get]; grind
    · simp only [ne_eq, h, not_false_eq_true, decide_true, List.filter_cons_of_pos, Fs.get]; grind

theorem Fs.get_set (fs : Fs) (k : List Str) (v : Node) (x : List Str) :
    (fs.set k v).get x = if k = x then some v else fs.get x := by
  simp only [Fs.set, Fs.get, Fs.get_del]; split <;> simp_all

theorem Fs.get_none_of_not_mem {fs : Fs} {k : List Str} (h : k ∉ fs.map (·.1)) : fs.get k = none := by
  induction fs with
  | nil => rfl
  | cons p m ih => obtain ⟨k', w⟩ := p; simp at h; simp [Fs.get]; grind

theorem Fs.mem_keys_of_get {fs : Fs} {k : List Str} {n : Node} (h : fs.get k = some n) : ∃ w, (k, w) ∈ fs := by
  induction fs with
  | nil => simp at h
  | cons p m ih =>
    obtain ⟨k', w⟩ := p
    simp only [Fs.get] at h
    split at h
    · rename_i e; exact ⟨w, by simp [e]⟩
    · obtain ⟨w', h'⟩ := ih h; exact ⟨w', by simp [h']⟩

theorem Fs.get_isSome_of_mem {fs : Fs} {k : List Str} {w : Node} (h : (k, w) ∈ fs) : (fs.get k).isSome := by
  induction fs with
  | nil => simp at h
  | cons p m ih =>
    obtain ⟨k', w'⟩ := p
    simp only [Fs.get]
    split
    · simp
    · rcases List.mem_cons.mp h with e | h
      · simp at e; grind
      · exact ih h

/-- `hasChild` says that some existing node lies strictly below. -/
theorem Fs.hasChild_iff {fs : Fs} {k : List Str} :
    fs.hasChild k = true ↔ ∃ x, k <+: x ∧ x ≠ k ∧ (fs.get x).isSome := by
  simp only [Fs.hasChild, List.any_eq_true, Bool.and_eq_true, List.isPrefixOf_iff_prefix, ne_eq, decide_not,
    Bool.not_eq_eq_eq_not, Bool.not_true, decide_eq_false_iff_not]
  constructor
  · rintro ⟨⟨x, w⟩, hm, hp, hne⟩
    exact ⟨x, hp, hne, Fs.get_isSome_of_mem hm⟩
  · rintro ⟨x, hp, hne, hs⟩
    obtain ⟨n, hn⟩ := Option.isSome_iff_exists.mp hs
    obtain ⟨w, hw⟩ := Fs.mem_keys_of_get hn
    exact ⟨(x, w), hw, hp, hne⟩

/-- Deleting one name changes nothing elsewhere. -/
theorem Fs.remove_get_ne (fs : Fs) (p : Str) (k : List Str) (h : k ≠ comps p) :
    (fs.remove p).1.get k = fs.get k := by
  unfold Fs.remove
  split
  · rfl
  · simp only [Fs.get_del]; grind
  · split
    · rfl
    · simp only [Fs.get_del]; grind

/-- Deleting can only delete. -/
theorem Fs.remove_get_le (fs : Fs) (p : Str) (k : List Str) :
    (fs.remove p).1.get k = fs.get k ∨ (fs.remove p).1.get k = none := by
  by_cases h : k = comps p
  · unfold Fs.remove
    split
    · simp
    · simp [Fs.get_del, h]
    · split
      · simp
      · simp [Fs.get_del, h]
  · exact Or.inl (Fs.remove_get_ne fs p k h)

/-- One step of the deletion loops. -/
def Fs.rmStep (fs : Fs) (f : Str) : Fs := if fs.exist f then (fs.remove f).1 else fs

theorem Fs.removeRev_eq (fs : Fs) (names : List Str) : fs.removeRev names = names.reverse.foldl Fs.rmStep fs := rfl

theorem Fs.rmStep_ne (fs : Fs) (p : Str) (k : List Str) (h : k ≠ comps p) : (fs.rmStep p).get k = fs.get k := by
  unfold Fs.rmStep; split
  · exact Fs.remove_get_ne fs p k h
  · rfl

theorem Fs.rmStep_le (fs : Fs) (p : Str) (k : List Str) : (fs.rmStep p).get k = fs.get k ∨ (fs.rmStep p).get k = none := by
  unfold Fs.rmStep; split
  · exact Fs.remove_get_le fs p k
  · exact Or.inl rfl

theorem Fs.rmFold_ne (names : List Str) (fs : Fs) (k : List Str) (h : ∀ p ∈ names, comps p ≠ k) :
    (names.foldl Fs.rmStep fs).get k = fs.get k := by
  induction names generalizing fs with
  | nil => rfl
  | cons a l ih =>
    simp only [List.foldl_cons]
    rw [ih _ (fun p hp => h p (by simp [hp]))]
    exact Fs.rmStep_ne fs a k (fun e => h a (by simp) e.symm)

theorem Fs.rmFold_le (names : List Str) (fs : Fs) (k : List Str) :
    (names.foldl Fs.rmStep fs).get k = fs.get k ∨ (names.foldl Fs.rmStep fs).get k = none := by
  induction names generalizing fs with
  | nil => exact Or.inl rfl
  | cons a l ih =>
    simp only [List.foldl_cons]
    rcases ih (fs.rmStep a) with h | h
    · rw [h]; exact Fs.rmStep_le fs a k
    · exact Or.inr h

theorem Fs.removeRev_ne (names : List Str) (fs : Fs) (k : List Str) (h : ∀ p ∈ names, comps p ≠ k) :
    (fs.removeRev names).get k = fs.get k := by
  rw [Fs.removeRev_eq]; exact Fs.rmFold_ne _ _ _ (by simpa using h)

theorem Fs.removeRev_le (names : List Str) (fs : Fs) (k : List Str) :
    (fs.removeRev names).get k = fs.get k ∨ (fs.removeRev names).get k = none := by
  rw [Fs.removeRev_eq]; exact Fs.rmFold_le _ _ _

/-- A regular file reached by a name that ends in a slash is not deleted; reached by a plain name it is. -/
theorem Fs.rmStep_file (fs : Fs) (p : Str) (c : Str) (m : Nat) (h : fs.get (comps p) = some (.file c m))
    (hs : endsSlash p = false) : (fs.rmStep p).get (comps p) = none := by
  have hl : fs.lstat p = some (.file c m) := by simp [Fs.lstat, h, hs]
  simp [Fs.rmStep, Fs.exist, hl, Fs.remove, Fs.get_del]

theorem Fs.rmStep_slash (fs : Fs) (p : Str) (c : Str) (m : Nat) (k : List Str) (h : fs.get k = some (.file c m))
    (hs : endsSlash p = true) : (fs.rmStep p).get k = some (.file c m) := by
  by_cases hk : k = comps p
  · subst hk
    have hl : fs.lstat p = none := by simp [Fs.lstat, h, hs]
    simp [Fs.rmStep, Fs.exist, hl, h]
  · rw [Fs.rmStep_ne _ _ _ hk, h]

theorem Fs.rmStep_dir (fs : Fs) (p : Str) (m : Nat) (h : fs.get (comps p) = some (.dir m))
    (hc : fs.hasChild (comps p) = false) : (fs.rmStep p).get (comps p) = none := by
  have hl : fs.lstat p = some (.dir m) := by simp [Fs.lstat, h]
  simp [Fs.rmStep, Fs.exist, hl, Fs.remove, hc, Fs.get_del]

/-- A regular file survives the deletion of names that do not denote it by a plain (slash-free at the end) name. -/
theorem Fs.rmFold_file (names : List Str) (fs : Fs) (k : List Str) (c : Str) (m : Nat)
    (hf : fs.get k = some (.file c m)) (h : ∀ p ∈ names, comps p = k → endsSlash p = true) :
    (names.foldl Fs.rmStep fs).get k = some (.file c m) := by
  induction names generalizing fs with
  | nil => exact hf
  | cons a l ih =>
    simp only [List.foldl_cons]
    apply ih _ _ (fun p hp => h p (by simp [hp]))
    by_cases hk : comps a = k
    · exact Fs.rmStep_slash fs a c m k hf (h a (by simp) hk)
    · rw [Fs.rmStep_ne _ _ _ (fun e => hk e.symm), hf]

theorem Fs.removeRev_file (names : List Str) (fs : Fs) (k : List Str) (c : Str) (m : Nat)
    (hf : fs.get k = some (.file c m)) (h : ∀ p ∈ names, comps p = k → endsSlash p = true) :
    (fs.removeRev names).get k = some (.file c m) := by
  rw [Fs.removeRev_eq]; exact Fs.rmFold_file _ _ _ _ _ hf (by simpa using h)

/-! ### Extraction -/

theorem mem_parents {k d : List Str} : d ∈ parents k ↔ d ≠ [] ∧ d <+: k ∧ d ≠ k := by
  induction k generalizing d with
  | nil => simp [parents]
  | cons c cs ih =>
    cases cs with
    | nil =>
      simp only [parents, List.not_mem_nil, ne_eq, false_iff, not_and, Decidable.not_not]
      intro h1 h2
      obtain ⟨t, ht⟩ := h2
      cases d with
      | nil => exact absurd rfl h1
      | cons a d => simp at ht; simp [ht]
    | cons c' cs' =>
      simp only [parents, List.mem_cons, List.mem_map]
      constructor
      · rintro (rfl | ⟨d', hd', rfl⟩)
        · simp
        · have := ih.mp hd'
          refine ⟨by simp, ?_, ?_⟩
          · simpa using this.2.1
          · simpa using this.2.2
      · rintro ⟨h1, h2, h3⟩
        cases d with
        | nil => exact absurd rfl h1
        | cons a d =>
          have hac : a = c := by obtain ⟨t, ht⟩ := h2; simp at ht; exact ht.1
          subst hac
          cases d with
          | nil => simp
          | cons b d =>
            right
            refine ⟨b :: d, ih.mpr ⟨by simp, ?_, ?_⟩, rfl⟩
            · simpa using h2
            · intro e; exact h3 (by simp [e])

theorem Fs.mkParentsFold_get (ds : List (List Str)) (fs : Fs) (x : List Str) :
    (x ∉ ds → (ds.foldl (fun fs d => match fs.get d with
      | some (.dir _) => fs
      | _ => fs.set d (.dir 0o755)) fs).get x = fs.get x) ∧
    ((fs.get x).isSome → ((ds.foldl (fun fs d => match fs.get d with
      | some (.dir _) => fs
      | _ => fs.set d (.dir 0o755)) fs).get x).isSome) := by
  induction ds generalizing fs with
  | nil => simp
  | cons d ds ih =>
    simp only [List.foldl_cons, List.mem_cons, not_or]
    constructor
    · rintro ⟨h1, h2⟩
      rw [(ih _).1 h2]
      split
      · rfl
      · rw [Fs.get_set]; simp [Ne.symm h1]
    · intro h
      apply (ih _).2
      split
      · exact h
      · rw [Fs.get_set]; split
        · simp
        · exact h

theorem Fs.mkParents_ne {fs : Fs} {k x : List Str} (h : x ∉ parents k) : (fs.mkParents k).get x = fs.get x :=
  (Fs.mkParentsFold_get _ _ _).1 h

theorem Fs.mkParents_isSome {fs : Fs} {k x : List Str} (h : (fs.get x).isSome) : ((fs.mkParents k).get x).isSome :=
  (Fs.mkParentsFold_get _ _ _).2 h

theorem Fs.extract_eq {fs fs' : Fs} {k : List Str} {n : Node} (h : fs.extract k n = some fs') :
    fs' = (fs.mkParents k).set k n := by
  unfold Fs.extract at h
  split at h
  · split at h <;> simp at h; exact h.symm
  · simp at h; exact h.symm

theorem Fs.extract_self {fs fs' : Fs} {k : List Str} {n : Node} (h : fs.extract k n = some fs') :
    fs'.get k = some n := by
  rw [Fs.extract_eq h, Fs.get_set]; simp

theorem Fs.extract_ne {fs fs' : Fs} {k x : List Str} {n : Node} (h : fs.extract k n = some fs')
    (hx : x ≠ k) (hp : x ∉ parents k) : fs'.get x = fs.get x := by
  rw [Fs.extract_eq h, Fs.get_set]; simp [Ne.symm hx, Fs.mkParents_ne hp]

theorem Fs.extract_isSome {fs fs' : Fs} {k x : List Str} {n : Node} (h : fs.extract k n = some fs')
    (hx : (fs.get x).isSome) : (fs'.get x).isSome := by
  rw [Fs.extract_eq h, Fs.get_set]; split
  · simp
  · exact Fs.mkParents_isSome hx

/-- Removing with cleanup of empty parents changes only nodes strictly below the base. -/
theorem Fs.removeUp_ne (fs : Fs) (base rest x : List Str) (h : ¬ base <+: x) :
    (fs.removeUp base rest).get x = fs.get x := by
  induction rest generalizing fs with
  | nil => rfl
  | cons c rest ih =>
    have hne : base ++ (c :: rest).reverse ≠ x := by
      rintro rfl; exact h (List.prefix_append _ _)
    simp only [Fs.removeUp]
    split
    · rfl
    · rw [ih, Fs.get_del]; simp only [hne, if_false]
    · split
      · rfl
      · rw [ih, Fs.get_del]; simp only [hne, if_false]

end Cards
