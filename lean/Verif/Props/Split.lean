import Mathlib.Tactic.Common
import Verif.Model.PkgmkSplit
import Verif.Spec.PkgmkSplit
import Verif.Lemmas.Base
/-!
# C93: the packages of a port hold what the build has made
-/
namespace Cards.Props
open Cards Cards.Spec

/-! ## One file `e` on its way -/

/-- Nothing but `e` itself is at its path or below it. -/
def Alone (e : PEnt) (t : List PEnt) : Prop := ∀ f ∈ t, e.path <+: f.path → f = e

theorem below_prefix {d p : List Str} (h : Below d p) : d <+: p := by
  obtain ⟨x, r, rfl⟩ := h
  exact List.prefix_append ..

theorem below_ne {d p : List Str} (h : Below d p) : p ≠ d := by
  obtain ⟨x, r, rfl⟩ := h
  intro e
  have := congrArg List.length e
  simp at this

theorem below_of {d p : List Str} (h : d <+: p) (hn : p ≠ d) : Below d p := by
  obtain ⟨t, rfl⟩ := h
  cases t with
  | nil => simp at hn
  | cons x r => exact ⟨x, r, rfl⟩

theorem under_iff {e : PEnt} {d : List Str} : e.under d = true ↔ d <+: e.path := List.isPrefixOf_iff_prefix

theorem isDirAt_of_below {t : List PEnt} {e : PEnt} {d : List Str} (he : e ∈ t) (h : Below d e.path) : isDirAt t d = true := by
  unfold isDirAt
  rw [List.any_eq_true]
  exact ⟨e, he, by simp [under_iff.mpr (below_prefix h), below_ne h]⟩

theorem below_of_isDirAt {t : List PEnt} {e : PEnt} {d : List Str} (ha : Alone e t) (hd : e.dir = false) (h : isDirAt t d = true) (hu : e.under d = true) :
    Below d e.path := by
  refine below_of (under_iff.mp hu) fun heq => ?_
  unfold isDirAt at h
  obtain ⟨f, hf, hff⟩ := List.any_eq_true.mp h
  simp only [Bool.and_eq_true, under_iff, Bool.or_eq_true, decide_eq_true_eq] at hff
  have : f = e := ha f hf (by rw [heq]; exact hff.1)
  subst this
  rcases hff.2 with h | h
  · rw [hd] at h; cases h
  · exact h heq

theorem get_put (s : PackSt) (a b : Str) (es : List PEnt) : (s.put a es).get b = if a = b then s.get a ++ es else s.get b := by
  unfold PackSt.get PackSt.put
  simp only [mget_mset]
  split <;> rfl

theorem tree_put (s : PackSt) (a : Str) (es : List PEnt) : (s.put a es).tree = s.tree := rfl

/-- `e` is in the tree, once, and in no archive. -/
structure Here (e : PEnt) (s : PackSt) : Prop where
  one : s.tree.count e = 1
  none : ∀ a, (s.get a).count e = 0
  alone : Alone e s.tree

/-- `e` has gone: to the archive `o`, or nowhere. -/
structure Gone (e : PEnt) (o : Option Str) (s : PackSt) : Prop where
  no : e ∉ s.tree
  at_ : ∀ a, (s.get a).count e = if o = some a then 1 else 0

theorem Here.mem {e : PEnt} {s : PackSt} (h : Here e s) : e ∈ s.tree := List.count_pos_iff.mp (by rw [h.one]; decide)

theorem Alone.filter {e : PEnt} {t : List PEnt} (h : Alone e t) (p : PEnt → Bool) : Alone e (t.filter p) :=
  fun f hf hp => h f (List.mem_filter.mp hf).1 hp

/-! ### The single steps -/

theorem packDir_no {e : PEnt} {s : PackSt} (h : Here e s) (hd : e.dir = false) (a : Str) {d : List Str} (hb : ¬ Below d e.path) : Here e (packDir a s d) := by
  unfold packDir
  split
  · rename_i hi
    refine ⟨h.one, fun b => ?_, h.alone⟩
    rw [get_put]
    split
    · rename_i hab
      rw [List.count_append, h.none, List.count_eq_zero.mpr]
      intro hm
      exact hb (below_of_isDirAt h.alone hd hi (List.mem_filter.mp hm).2)
    · exact h.none b
  · exact h

theorem packDir_tree (a : Str) (s : PackSt) (d : List Str) : (packDir a s d).tree = s.tree := by
  unfold packDir
  split <;> rfl

theorem packDir_yes {e : PEnt} {s : PackSt} (h1 : s.tree.count e = 1) (a : Str) {d : List Str} (hb : Below d e.path) (b : Str) :
    ((packDir a s d).get b).count e = (s.get b).count e + if b = a then 1 else 0 := by
  have he : e ∈ s.tree := List.count_pos_iff.mp (by rw [h1]; decide)
  unfold packDir
  rw [if_pos (isDirAt_of_below he hb), get_put]
  have hc : (s.tree.filter (·.under d)).count e = 1 := by
    rw [List.count_filter (under_iff.mpr (below_prefix hb)), h1]
  by_cases hab : a = b
  · subst hab
    rw [if_pos rfl, if_pos rfl, List.count_append, hc]
  · rw [if_neg hab, if_neg (fun h => hab h.symm)]
    rfl

theorem packDir_keeps {e : PEnt} {s : PackSt} (ha : Alone e s.tree) (hd : e.dir = false) (a : Str) {d : List Str} (hb : ¬ Below d e.path) (b : Str) :
    ((packDir a s d).get b).count e = (s.get b).count e := by
  unfold packDir
  split
  · rename_i hi
    rw [get_put]
    split
    · rename_i hab
      rw [List.count_append, (List.count_eq_zero (a := e) (l := s.tree.filter _)).mpr, hab]
      · rfl
      · intro hm
        exact hb (below_of_isDirAt ha hd hi (List.mem_filter.mp hm).2)
    · rfl
  · rfl

theorem rmDir_get (s : PackSt) (d : List Str) (a : Str) : (rmDir s d).get a = s.get a := by
  unfold rmDir
  split <;> rfl

theorem rmDir_sub (s : PackSt) (d : List Str) : ∀ f ∈ (rmDir s d).tree, f ∈ s.tree := by
  unfold rmDir
  split
  · intro f hf
    exact (List.mem_filter.mp hf).1
  · exact fun f hf => hf

theorem rmDir_no {e : PEnt} {s : PackSt} (ha : Alone e s.tree) (hd : e.dir = false) {d : List Str} (hb : ¬ Below d e.path) :
    (rmDir s d).tree.count e = s.tree.count e := by
  unfold rmDir
  split
  · rename_i hi
    refine List.count_filter ?_
    cases hu : e.under d with
    | true => exact absurd (below_of_isDirAt ha hd hi hu) hb
    | false => rfl
  · rfl

theorem rmDir_alone {e : PEnt} {s : PackSt} (ha : Alone e s.tree) (d : List Str) : Alone e (rmDir s d).tree :=
  fun f hf hp => ha f (rmDir_sub s d f hf) hp

theorem rmDir_yes {e : PEnt} {s : PackSt} {d : List Str} (hb : Below d e.path) : e ∉ (rmDir s d).tree := by
  intro hm
  have he := rmDir_sub s d e hm
  unfold rmDir at hm
  rw [if_pos (isDirAt_of_below he hb)] at hm
  have := (List.mem_filter.mp hm).2
  rw [under_iff.mpr (below_prefix hb)] at this
  cases this

/-- What has gone stays so. -/
theorem packDir_gone {e : PEnt} {o : Option Str} {s : PackSt} (h : Gone e o s) (a : Str) (d : List Str) : Gone e o (packDir a s d) := by
  refine ⟨by rw [packDir_tree]; exact h.no, fun b => ?_⟩
  unfold packDir
  split
  · rw [get_put]
    split
    · rename_i hab
      subst hab
      rw [List.count_append, h.at_, (List.count_eq_zero (a := e) (l := s.tree.filter _)).mpr]
      · rfl
      · exact fun hm => h.no (List.mem_filter.mp hm).1
    · exact h.at_ b
  · exact h.at_ b

theorem rmDir_gone {e : PEnt} {o : Option Str} {s : PackSt} (h : Gone e o s) (d : List Str) : Gone e o (rmDir s d) :=
  ⟨fun hm => h.no (rmDir_sub s d e hm), fun b => by rw [rmDir_get]; exact h.at_ b⟩

theorem packLibDir_gone {e : PEnt} {o : Option Str} {s : PackSt} (hd : e.dir = false) (h : Gone e o s) (a : Str) (d : List Str) : Gone e o (packLibDir a s d) := by
  unfold packLibDir
  split
  · simp only
    generalize hk : (if isDirAt s.tree (d ++ ["pkgconfig".toList]) then s.tree.filter (·.under (d ++ ["pkgconfig".toList])) else []) = keep
    have hkeep : e ∉ keep := by
      rw [← hk]
      split
      · exact fun hm => h.no (List.mem_filter.mp hm).1
      · simp
    refine ⟨?_, fun b => ?_⟩
    · intro hm
      rcases List.mem_append.mp hm with hm | hm
      · exact h.no (List.mem_filter.mp hm).1
      · split at hm
        · cases hm
        · rcases List.mem_cons.mp hm with hm | hm
          · rw [hm] at hd; cases hd
          · exact hkeep hm
    · show ((s.put a _).get b).count e = _
      rw [get_put]
      split
      · rename_i hab
        subst hab
        rw [List.count_append, h.at_, (List.count_eq_zero (a := e) (l := List.filter _ _)).mpr]
        · rfl
        · exact fun hm => h.no (List.mem_filter.mp (List.mem_filter.mp hm).1).1
      · exact h.at_ b
  · exact h

theorem packLibDir_no {e : PEnt} {s : PackSt} (hd : e.dir = false) (h : Here e s) (a : Str) {d : List Str}
    (hb : Below d e.path → Below (d ++ ["pkgconfig".toList]) e.path) : Here e (packLibDir a s d) := by
  unfold packLibDir
  split
  · rename_i hi
    simp only
    generalize hk : (if isDirAt s.tree (d ++ ["pkgconfig".toList]) then s.tree.filter (·.under (d ++ ["pkgconfig".toList])) else []) = keep
    have hsub : ∀ f ∈ keep, f ∈ s.tree ∧ f.under d = true := by
      intro f hf
      rw [← hk] at hf
      split at hf
      · obtain ⟨h1, h2⟩ := List.mem_filter.mp hf
        exact ⟨h1, under_iff.mpr ((List.prefix_append d _).trans (under_iff.mp h2))⟩
      · cases hf
    have hde : (⟨d, true⟩ : PEnt) ≠ e := fun h => by rw [← h] at hd; cases hd
    have halone : Alone e (s.tree.filter (fun f => !f.under d) ++ if keep = [] then [] else ⟨d, true⟩ :: keep) := by
      intro f hf hp
      rcases List.mem_append.mp hf with hf | hf
      · exact h.alone f (List.mem_filter.mp hf).1 hp
      · split at hf
        · cases hf
        · rcases List.mem_cons.mp hf with hf | hf
          · subst hf
            exfalso
            simp only at hp
            unfold isDirAt at hi
            obtain ⟨f, hf, hff⟩ := List.any_eq_true.mp hi
            simp only [Bool.and_eq_true, under_iff, Bool.or_eq_true, decide_eq_true_eq] at hff
            have : f = e := h.alone f hf (hp.trans hff.1)
            subst this
            rcases hff.2 with h | h
            · rw [hd] at h; cases h
            · exact h (hp.eq_of_length (Nat.le_antisymm hp.length_le hff.1.length_le))
          · exact h.alone f (hsub f hf).1 hp
    by_cases hu : e.under d = true
    · have hbd := below_of_isDirAt h.alone hd hi hu
      have hbp := hb hbd
      have hip := isDirAt_of_below h.mem hbp
      rw [if_pos hip] at hk
      have hke : keep.count e = 1 := by
        rw [← hk, List.count_filter (under_iff.mpr (below_prefix hbp)), h.one]
      have hne : keep ≠ [] := by
        intro e0
        rw [e0] at hke
        cases hke
      have hmem : e ∈ keep := List.count_pos_iff.mp (by rw [hke]; decide)
      refine ⟨?_, fun b => ?_, halone⟩
      · show (s.tree.filter _ ++ _).count e = 1
        rw [if_neg hne, List.count_append, List.count_cons_of_ne hde, hke, List.count_eq_zero.mpr]
        intro hm
        have := (List.mem_filter.mp hm).2
        rw [hu] at this
        cases this
      · show ((s.put a _).get b).count e = 0
        rw [get_put]
        split
        · rw [List.count_append, h.none, List.count_eq_zero.mpr]
          intro hm
          have := (List.mem_filter.mp hm).2
          simp [hmem] at this
        · exact h.none b
    · have hu' : e.under d = false := by simpa using hu
      refine ⟨?_, fun b => ?_, halone⟩
      · show (s.tree.filter _ ++ _).count e = 1
        rw [List.count_append, List.count_filter (by rw [hu']; rfl), h.one, List.count_eq_zero.mpr]
        split
        · simp
        · intro hm
          rcases List.mem_cons.mp hm with hm | hm
          · exact hde hm.symm
          · exact hu (hsub e hm).2
      · show ((s.put a _).get b).count e = 0
        rw [get_put]
        split
        · rw [List.count_append, h.none, List.count_eq_zero.mpr]
          intro hm
          exact hu (List.mem_filter.mp (List.mem_filter.mp hm).1).2
        · exact h.none b
  · exact h

theorem packLibDir_yes {e : PEnt} {s : PackSt} (hd : e.dir = false) (h : Here e s) (a : Str) {d : List Str}
    (hb : Below d e.path) (hp : ¬ Below (d ++ ["pkgconfig".toList]) e.path) : Gone e (some a) (packLibDir a s d) := by
  unfold packLibDir
  rw [if_pos (isDirAt_of_below h.mem hb)]
  simp only
  generalize hk : (if isDirAt s.tree (d ++ ["pkgconfig".toList]) then s.tree.filter (·.under (d ++ ["pkgconfig".toList])) else []) = keep
  have hu : e.under d = true := under_iff.mpr (below_prefix hb)
  have hkeep : e ∉ keep := by
    rw [← hk]
    split
    · rename_i hi
      exact fun hm => hp (below_of_isDirAt h.alone hd hi (List.mem_filter.mp hm).2)
    · simp
  refine ⟨?_, fun b => ?_⟩
  · intro hm
    rcases List.mem_append.mp hm with hm | hm
    · have := (List.mem_filter.mp hm).2
      rw [hu] at this
      cases this
    · split at hm
      · cases hm
      · rcases List.mem_cons.mp hm with hm | hm
        · rw [hm] at hd; cases hd
        · exact hkeep hm
  · show ((s.put a _).get b).count e = _
    rw [get_put]
    by_cases hab : a = b
    · subst hab
      rw [if_pos rfl, if_pos rfl, List.count_append, h.none, List.count_filter (by simpa using hkeep), List.count_filter hu, h.one]
    · rw [if_neg hab, if_neg (fun h => hab (Option.some.inj h)), h.none]

/-! ### The loops -/

theorem foldl_gone {e : PEnt} {o : Option Str} {α : Type} (step : PackSt → α → PackSt) (hstep : ∀ s x, Gone e o s → Gone e o (step s x)) (l : List α) :
    ∀ s, Gone e o s → Gone e o (l.foldl step s) := by
  induction l with
  | nil => exact fun s h => h
  | cons x l ih => exact fun s h => ih _ (hstep s x h)

theorem packRm_gone {e : PEnt} {o : Option Str} {s : PackSt} (h : Gone e o s) (a : Str) (d : List Str) : Gone e o (packRmDir a s d) :=
  rmDir_gone (packDir_gone h a d) d

theorem packRm_fold {e : PEnt} (hd : e.dir = false) (a : Str) (ds : List (List Str)) : ∀ s, Here e s →
    ((∃ d ∈ ds, Below d e.path) → Gone e (some a) (ds.foldl (packRmDir a) s)) ∧ ((∀ d ∈ ds, ¬ Below d e.path) → Here e (ds.foldl (packRmDir a) s)) := by
  induction ds with
  | nil => exact fun s h => ⟨fun ⟨d, hm, _⟩ => (by cases hm), fun _ => h⟩
  | cons d ds ih =>
    intro s h
    rw [List.foldl_cons]
    by_cases hb : Below d e.path
    · have hg : Gone e (some a) (packRmDir a s d) := by
        refine ⟨rmDir_yes hb, fun b => ?_⟩
        unfold packRmDir
        rw [rmDir_get, packDir_yes h.one a hb, h.none]
        by_cases hab : b = a
        · subst hab; simp
        · rw [if_neg hab, if_neg (fun h => hab (Option.some.inj h).symm)]
      exact ⟨fun _ => foldl_gone (packRmDir a) (fun s x h => packRm_gone h a x) ds _ hg, fun hn => absurd hb (hn d (by simp))⟩
    · have hh : Here e (packRmDir a s d) := by
        have h1 := packDir_no h hd a hb
        unfold packRmDir
        refine ⟨?_, fun b => ?_, rmDir_alone h1.alone d⟩
        · rw [rmDir_no h1.alone hd hb, h1.one]
        · rw [rmDir_get, h1.none]
      obtain ⟨i1, i2⟩ := ih _ hh
      refine ⟨?_, fun hn => i2 (fun x hx => hn x (by simp [hx]))⟩
      rintro ⟨x, hx, hbx⟩
      rcases List.mem_cons.mp hx with rfl | hx
      · exact absurd hbx hb
      · exact i1 ⟨x, hx, hbx⟩

theorem rm_fold {e : PEnt} (hd : e.dir = false) (ds : List (List Str)) : ∀ s, Alone e s.tree →
    (∀ b, ((ds.foldl rmDir s).get b) = s.get b) ∧ Alone e (ds.foldl rmDir s).tree ∧
    (((∃ d ∈ ds, Below d e.path) ∨ e ∉ s.tree) → e ∉ (ds.foldl rmDir s).tree) ∧
    ((∀ d ∈ ds, ¬ Below d e.path) → (ds.foldl rmDir s).tree.count e = s.tree.count e) := by
  induction ds with
  | nil =>
    intro s h
    refine ⟨fun _ => rfl, h, ?_, fun _ => rfl⟩
    rintro (⟨d, hm, _⟩ | h)
    · cases hm
    · exact h
  | cons d ds ih =>
    intro s h
    rw [List.foldl_cons]
    obtain ⟨i1, i2, i3, i4⟩ := ih (rmDir s d) (rmDir_alone h d)
    refine ⟨fun b => by rw [i1, rmDir_get], i2, ?_, ?_⟩
    · rintro (⟨x, hx, hb⟩ | hn)
      · rcases List.mem_cons.mp hx with rfl | hx
        · exact i3 (Or.inr (rmDir_yes hb))
        · exact i3 (Or.inl ⟨x, hx, hb⟩)
      · exact i3 (Or.inr (fun hm => hn (rmDir_sub s d e hm)))
    · intro hn
      rw [i4 (fun x hx => hn x (by simp [hx])), rmDir_no h hd (hn d (by simp))]

theorem rm_fold_here {e : PEnt} (hd : e.dir = false) (ds : List (List Str)) (s : PackSt) (h : Here e s) :
    ((∃ d ∈ ds, Below d e.path) → Gone e none (ds.foldl rmDir s)) ∧ ((∀ d ∈ ds, ¬ Below d e.path) → Here e (ds.foldl rmDir s)) := by
  obtain ⟨i1, i2, i3, i4⟩ := rm_fold hd ds s h.alone
  refine ⟨fun hx => ⟨i3 (Or.inl hx), fun b => ?_⟩, fun hn => ⟨by rw [i4 hn, h.one], fun b => by rw [i1, h.none], i2⟩⟩
  rw [i1, h.none]
  simp

open Classical in
theorem pack_fold {e : PEnt} (hd : e.dir = false) (a : Str) (ds : List (List Str)) : ∀ s, s.tree.count e = 1 → Alone e s.tree →
    (ds.foldl (packDir a) s).tree = s.tree ∧
    ∀ b, ((ds.foldl (packDir a) s).get b).count e = (s.get b).count e + if b = a then ds.countP (fun d => decide (Below d e.path)) else 0 := by
  induction ds with
  | nil => intro s _ _; exact ⟨rfl, fun b => by simp⟩
  | cons d ds ih =>
    intro s h1 h2
    rw [List.foldl_cons]
    obtain ⟨i1, i2⟩ := ih (packDir a s d) (by rw [packDir_tree, h1]) (by rw [packDir_tree]; exact h2)
    refine ⟨by rw [i1, packDir_tree], fun b => ?_⟩
    rw [i2]
    by_cases hb : Below d e.path
    · rw [packDir_yes h1 a hb, List.countP_cons_of_pos (by simpa using hb)]
      split
      · omega
      · rfl
    · rw [packDir_keeps h2 hd a hb, List.countP_cons_of_neg (by simpa using hb)]

theorem lib_fold {e : PEnt} (hd : e.dir = false) (a : Str) (ds : List (List Str)) : ∀ s, Here e s →
    ((∃ d ∈ ds, Below d e.path ∧ ¬ Below (d ++ ["pkgconfig".toList]) e.path) → Gone e (some a) (ds.foldl (packLibDir a) s)) ∧
    ((∀ d ∈ ds, Below d e.path → Below (d ++ ["pkgconfig".toList]) e.path) → Here e (ds.foldl (packLibDir a) s)) := by
  induction ds with
  | nil => exact fun s h => ⟨fun ⟨d, hm, _⟩ => (by cases hm), fun _ => h⟩
  | cons d ds ih =>
    intro s h
    rw [List.foldl_cons]
    by_cases hb : Below d e.path ∧ ¬ Below (d ++ ["pkgconfig".toList]) e.path
    · have hg := packLibDir_yes hd h a hb.1 hb.2
      exact ⟨fun _ => foldl_gone (packLibDir a) (fun s x h => packLibDir_gone hd h a x) ds _ hg, fun hn => absurd (hn d (by simp) hb.1) hb.2⟩
    · have hb' : Below d e.path → Below (d ++ ["pkgconfig".toList]) e.path := fun h1 => Classical.not_not.mp (fun h2 => hb ⟨h1, h2⟩)
      obtain ⟨i1, i2⟩ := ih _ (packLibDir_no hd h a hb')
      refine ⟨?_, fun hn => i2 (fun x hx => hn x (by simp [hx]))⟩
      rintro ⟨x, hx, hbx⟩
      rcases List.mem_cons.mp hx with rfl | hx
      · exact absurd hbx hb
      · exact i1 ⟨x, hx, hbx⟩

end Cards.Props
