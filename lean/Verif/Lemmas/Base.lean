import Verif.Model.Base
namespace Cards

theorem str_lt_irrefl (a : Str) : ¬ a < a := List.lt_irrefl a
theorem str_lt_trans {a b c : Str} (h : a < b) (h' : b < c) : a < c := List.lt_trans h h'
theorem str_lt_of_not {a b : Str} (h : ¬ a < b) (h' : a ≠ b) : b < a := by
  have h1 : b ≤ a := List.not_lt.mp h
  apply Decidable.byContradiction
  intro h2
  have h3 : a ≤ b := List.not_lt.mp h2
  exact h' (List.le_antisymm h3 h1)

@[simp] theorem mem_sinsert {x y : Str} {l : List Str} : y ∈ sinsert x l ↔ y = x ∨ y ∈ l := by
  induction l with
  | nil => simp [sinsert]
  | cons z zs ih =>
    simp only [sinsert]
    split
    · simp
    · split
      · rename_i h; subst h; simp
      · simp [ih]; grind

@[simp] theorem mem_serase {x y : Str} {l : List Str} : y ∈ serase x l ↔ y ∈ l ∧ y ≠ x := by
  simp [serase]

theorem mem_foldl_sinsert (l : List Str) (s : List Str) (y : Str) :
    y ∈ l.foldl (fun s x => sinsert x s) s ↔ y ∈ s ∨ y ∈ l := by
  induction l generalizing s with
  | nil => simp
  | cons a l ih => simp [List.foldl_cons, ih]; grind

@[simp] theorem mem_sofList {l : List Str} {y : Str} : y ∈ sofList l ↔ y ∈ l := by
  simp [sofList, mem_foldl_sinsert]

@[simp] theorem mem_seraseAll {xs l : List Str} {y : Str} : y ∈ seraseAll xs l ↔ y ∈ l ∧ y ∉ xs := by
  unfold seraseAll
  induction xs generalizing l with
  | nil => simp
  | cons a xs ih => simp [List.foldl_cons, ih]; grind

theorem sorted_sinsert {x : Str} {l : List Str} (h : Sorted l) : Sorted (sinsert x l) := by
  unfold Sorted at *
  induction l with
  | nil => simp [sinsert]
  | cons z zs ih =>
    have hz := List.pairwise_cons.mp h
    simp only [sinsert]
    split
    · rename_i hlt
      refine List.pairwise_cons.mpr ⟨?_, h⟩
      intro a ha
      rcases List.mem_cons.mp ha with rfl | ha
      · exact hlt
      · exact str_lt_trans hlt (hz.1 a ha)
    · split
      · exact h
      · rename_i h1 h2
        refine List.pairwise_cons.mpr ⟨?_, ih hz.2⟩
        intro a ha
        rcases mem_sinsert.mp ha with rfl | ha
        · exact str_lt_of_not h1 h2
        · exact hz.1 a ha

theorem sorted_serase {x : Str} {l : List Str} (h : Sorted l) : Sorted (serase x l) :=
  List.Pairwise.filter _ h

theorem sorted_seraseAll {xs l : List Str} (h : Sorted l) : Sorted (seraseAll xs l) := by
  unfold seraseAll
  induction xs generalizing l with
  | nil => exact h
  | cons a xs ih => exact ih (sorted_serase h)

theorem sorted_foldl_sinsert {l s : List Str} (h : Sorted s) :
    Sorted (l.foldl (fun s x => sinsert x s) s) := by
  induction l generalizing s with
  | nil => exact h
  | cons a l ih => exact ih (sorted_sinsert h)

theorem sorted_sofList (l : List Str) : Sorted (sofList l) :=
  sorted_foldl_sinsert List.Pairwise.nil

/-- Two sorted lists with the same elements are equal. -/
theorem sorted_ext {l l' : List Str} (h : Sorted l) (h' : Sorted l') (he : ∀ x, x ∈ l ↔ x ∈ l') : l = l' := by
  induction l generalizing l' with
  | nil =>
    cases l' with
    | nil => rfl
    | cons b t => exact absurd ((he b).mpr (by simp)) (by simp)
  | cons a t ih =>
    cases l' with
    | nil => exact absurd ((he a).mp (by simp)) (by simp)
    | cons b t' =>
      have h1 := List.pairwise_cons.mp h
      have h2 := List.pairwise_cons.mp h'
      have hab : a = b := by
        have ha : a ∈ b :: t' := (he a).mp (by simp)
        have hb : b ∈ a :: t := (he b).mpr (by simp)
        rcases List.mem_cons.mp ha with e | ha
        · exact e
        · rcases List.mem_cons.mp hb with e | hb
          · exact e.symm
          · exact absurd (str_lt_trans (h2.1 a ha) (h1.1 b hb)) (str_lt_irrefl _)
      subst hab
      congr 1
      apply ih h1.2 h2.2
      intro x
      have := he x
      constructor
      · intro hx
        have hlt := h1.1 x hx
        rcases List.mem_cons.mp (this.mp (by simp [hx])) with e | hx'
        · subst e; exact absurd hlt (str_lt_irrefl _)
        · exact hx'
      · intro hx
        have hlt := h2.1 x hx
        rcases List.mem_cons.mp (this.mpr (by simp [hx])) with e | hx'
        · subst e; exact absurd hlt (str_lt_irrefl _)
        · exact hx'

/-! maps -/

theorem mget_mset {α} (m : List (Str × α)) (k : Str) (v : α) (x : Str) :
    mget (mset k v m) x = if k = x then some v else mget m x := by
  induction m with
  | nil => simp [mset, mget]
  | cons p m ih =>
    obtain ⟨k', w⟩ := p
    simp only [mset]
    split
    · simp [mget]
    · split
      · rename_i h; subst h; simp only [mget]; grind
      · simp only [mget, ih]; grind

theorem mget_merase {α} (m : List (Str × α)) (k x : Str) :
    mget (merase k m) x = if k = x then none else mget m x := by
  unfold merase
  induction m with
  | nil => simp [mget]
  | cons p m ih =>
    obtain ⟨k', w⟩ := p
    by_cases h : k' = k
    · subst h; simp [ih, mget]; grind
    · simp [h, mget, ih]; grind

theorem mget_some_mem {α} {m : List (Str × α)} {k : Str} {v : α} (h : mget m k = some v) : (k, v) ∈ m := by
  induction m with
  | nil => simp [mget] at h
  | cons p m ih =>
    obtain ⟨k', w⟩ := p
    simp only [mget] at h
    split at h
    · rename_i e; subst e; simp at h; subst h; simp
    · simp [ih h]

theorem mget_none_iff {α} {m : List (Str × α)} {k : Str} : mget m k = none ↔ k ∉ keys m := by
  induction m with
  | nil => simp [mget, keys]
  | cons p m ih =>
    obtain ⟨k', w⟩ := p
    simp only [mget, keys] at *
    split <;> simp_all [keys]
    grind

/-- Map representation invariant: keys strictly increasing. -/
def MSorted {α} (m : List (Str × α)) : Prop := Sorted (keys m)

theorem mem_keys_mset {α} {m : List (Str × α)} {k x : Str} {v : α} : x ∈ keys (mset k v m) ↔ x = k ∨ x ∈ keys m := by
  have := @mget_none_iff α (mset k v m) x
  have h2 := @mget_none_iff α m x
  rw [mget_mset] at this
  by_cases h : k = x
  · subst h; simp at this; simp [this]
  · simp [h] at this; grind

theorem mem_mget_of_sorted {α} {m : List (Str × α)} (hs : MSorted m) {k : Str} {v : α} (h : (k, v) ∈ m) :
    mget m k = some v := by
  induction m with
  | nil => simp at h
  | cons p m ih =>
    obtain ⟨k', w⟩ := p
    have hs' := List.pairwise_cons.mp hs
    simp only [mget]
    rcases List.mem_cons.mp h with e | h
    · simp at e; simp [e]
    · have hk : k ∈ keys m := by simp [keys]; exact ⟨v, h⟩
      have := hs'.1 k hk
      have hne : k' ≠ k := by rintro rfl; exact str_lt_irrefl _ this
      simp [hne]; exact ih hs'.2 h

theorem mget_iff_mem {α} {m : List (Str × α)} (hs : MSorted m) {k : Str} {v : α} :
    mget m k = some v ↔ (k, v) ∈ m := ⟨mget_some_mem, mem_mget_of_sorted hs⟩

theorem msorted_mset {α} {m : List (Str × α)} {k : Str} {v : α} (h : MSorted m) : MSorted (mset k v m) := by
  unfold MSorted Sorted at *
  induction m with
  | nil => simp [mset, keys]
  | cons p m ih =>
    obtain ⟨k', w⟩ := p
    have hz := List.pairwise_cons.mp h
    simp only [mset]
    split
    · rename_i hlt
      refine List.pairwise_cons.mpr ⟨?_, h⟩
      intro a ha
      rcases List.mem_cons.mp ha with rfl | ha
      · exact hlt
      · exact str_lt_trans hlt (hz.1 a ha)
    · split
      · rename_i e; subst e; exact h
      · rename_i h1 h2
        refine List.pairwise_cons.mpr ⟨?_, ih hz.2⟩
        intro a ha
        rcases mem_keys_mset.mp ha with rfl | ha
        · exact str_lt_of_not h1 h2
        · exact hz.1 a ha

theorem msorted_merase {α} {m : List (Str × α)} {k : Str} (h : MSorted m) : MSorted (merase k m) := by
  unfold MSorted Sorted keys merase at *
  rw [List.pairwise_map] at *
  exact List.Pairwise.filter _ h

theorem mem_merase {α} {m : List (Str × α)} {k : Str} {p : Str × α} : p ∈ merase k m ↔ p ∈ m ∧ p.1 ≠ k := by
  simp [merase]

theorem mem_mset_of_sorted {α} {m : List (Str × α)} (hs : MSorted m) {k : Str} {v : α} {p : Str × α} :
    p ∈ mset k v m ↔ p = (k, v) ∨ (p ∈ m ∧ p.1 ≠ k) := by
  obtain ⟨x, w⟩ := p
  rw [← mget_iff_mem (msorted_mset hs), ← mget_iff_mem hs, mget_mset]
  by_cases h : k = x
  · subst h; simp; grind
  · simp [h]; grind

end Cards
