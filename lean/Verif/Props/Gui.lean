import Verif.Model.Gui
import Verif.Props.WebPkgs
import Mathlib.Tactic.Common
/-!
# C106-C109: the table of flcards

C106 what "Go !" will do is what the user marked. C107 the table shows exactly the packages that match the search text, as they are. C108 the comparison the table is sorted with is a
strict weak ordering, and a click on a header sorts. C109 how long the order lasts.
-/
namespace Cards.Props
open Cards

/-! ## Specification -/

/-- The menu item the user takes in an event, if he takes one: the package it belongs to. -/
def gtaken (g : Gui) : GEv → List Nat
  | .click row pick =>
    match g.rows[row]? with
    | none => []
    | some r =>
      match g.packs[r.pkg]? with
      | none => []
      | some p => if (gmenus p).any pick then [r.pkg] else []
  | _ => []

/-- The packages whose item was taken, one entry each time. -/
def gchosen (S : StdSort) (g : Gui) : List GEv → List Nat
  | [] => []
  | e :: es => gtaken g e ++ (match g.step S e with | none => [] | some g' => gchosen S g' es)

/-- A list as it is after loading: no package is marked. -/
def Unmarked (ps : List GPack) : Prop := ∀ p ∈ ps, p.toInst = false ∧ p.toRem = false

/-- A text occurs in another. -/
def Occurs (t s : Str) : Prop := ∃ a b, s = a ++ t ++ b

/-! ## Proofs -/

def gmark (b : Bool) (p : GPack) : GPack := { p with toInst := !p.inst && b, toRem := p.inst && b }

def growsOf (text : Str) (ps : List GPack) : List GRow :=
  ps.zipIdx.filterMap (fun x => if gshown text x.1 then some ⟨x.2, gcells x.1⟩ else none)

def gjobsOf (ps : List GPack) : List Nat :=
  ps.zipIdx.filterMap (fun x => if x.1.toInst || x.1.toRem then some x.2 else none)

structure GInv (ps : List GPack) (f : Nat → Bool) (g : Gui) : Prop where
  packs : g.packs = ps.mapIdx (fun k p => gmark (f k) p)
  rows : g.rows.Perm (growsOf g.search g.packs)
  jobs : g.jobs = gjobsOf g.packs
  apply : g.apply = !g.jobs.isEmpty

def gflip (f : Nat → Bool) (l : List Nat) (k : Nat) : Bool := f k != decide (l.count k % 2 = 1)

theorem gmenus_mark (b : Bool) (p : GPack) :
    gmenus (gmark b p) = [if p.inst then (if b then "Cancel Remove".toList else "Remove".toList) else (if b then "Cancel Install".toList else "Install".toList)] := by
  cases hi : p.inst <;> cases b <;> simp [gmenus, gmark, hi]

theorem gtake_mark (b : Bool) (p : GPack) :
    gtake (if p.inst then (if b then "Cancel Remove".toList else "Remove".toList) else (if b then "Cancel Install".toList else "Install".toList)) (gmark b p) = gmark (!b) p := by
  cases hi : p.inst <;> cases b <;> simp [gtake, gmark, hi]

theorem mem_growsOf {text : Str} {ps : List GPack} {r : GRow} :
    r ∈ growsOf text ps ↔ ∃ p, ps[r.pkg]? = some p ∧ gshown text p = true ∧ r.cols = gcells p := by
  unfold growsOf
  simp only [List.mem_filterMap, Prod.exists]
  constructor
  · rintro ⟨p, k, hm, e⟩
    rw [List.mem_zipIdx_iff_getElem?] at hm
    split at e
    · next hs => cases e; exact ⟨p, hm, hs, rfl⟩
    · exact absurd e nofun
  · rintro ⟨p, hm, hs, hc⟩
    refine ⟨p, r.pkg, List.mem_zipIdx_iff_getElem?.mpr hm, ?_⟩
    rw [if_pos hs, ← hc]

theorem mem_gjobsOf {ps : List GPack} {k : Nat} :
    k ∈ gjobsOf ps ↔ ∃ p, ps[k]? = some p ∧ (p.toInst = true ∨ p.toRem = true) := by
  unfold gjobsOf
  simp only [List.mem_filterMap, Prod.exists]
  constructor
  · rintro ⟨p, k', hm, e⟩
    rw [List.mem_zipIdx_iff_getElem?] at hm
    split at e
    · next hs => cases e; exact ⟨p, hm, by simpa using hs⟩
    · exact absurd e nofun
  · rintro ⟨p, hm, hs⟩
    refine ⟨p, k, List.mem_zipIdx_iff_getElem?.mpr hm, ?_⟩
    rw [if_pos (by simpa using hs)]


def grank : Str → Nat
  | [] => 0
  | c :: _ => if c < '0' then 0 else if c ≤ '9' then 1 else 2

theorem grank_digit (s : Str) : startsDigit s = true ↔ grank s = 1 := by
  cases s with
  | nil => simp [startsDigit, grank]
  | cons c cs =>
    simp only [startsDigit, isDigitC, grank, Bool.and_eq_true, decide_eq_true_eq]
    by_cases h1 : c < '0'
    · rw [if_pos h1]
      exact ⟨fun ⟨h, _⟩ => absurd h1 (Char.not_lt.mpr h), fun h => by omega⟩
    · rw [if_neg h1]
      by_cases h2 : c ≤ '9'
      · rw [if_pos h2]
        exact ⟨fun _ => rfl, fun _ => ⟨Char.not_lt.mp h1, h2⟩⟩
      · rw [if_neg h2]
        exact ⟨fun ⟨_, h⟩ => absurd h h2, fun h => by omega⟩

theorem grank_lt {a b : Str} (h : grank a < grank b) : a < b := by
  cases b with
  | nil => simp [grank] at h
  | cons d ds =>
    cases a with
    | nil => exact List.nil_lt_cons _ _
    | cons c cs =>
      rw [List.cons_lt_cons_iff]
      left
      simp only [grank] at h
      by_cases h1 : c < '0'
      · rw [if_pos h1] at h
        by_cases h2 : d < '0'
        · rw [if_pos h2] at h; omega
        · exact Std.lt_of_lt_of_le h1 (Char.not_lt.mp h2)
      · rw [if_neg h1] at h
        by_cases h2 : c ≤ '9'
        · rw [if_pos h2] at h
          by_cases h3 : d < '0'
          · rw [if_pos h3] at h; omega
          · rw [if_neg h3] at h
            by_cases h4 : d ≤ '9'
            · rw [if_pos h4] at h; omega
            · exact Std.lt_of_le_of_lt h2 (Char.not_le.mp h4)
        · rw [if_neg h2] at h
          split at h
          · omega
          · split at h <;> omega

/-- The comparison on texts, going up. -/
def gtless (a b : Str) : Bool :=
  if startsDigit a && startsDigit b then decide (atoi32 b < atoi32 a) else decide (a < b)

theorem gtless_iff (a b : Str) : gtless a b = true ↔ grank a < grank b ∨ (grank a = grank b ∧ ((grank a = 1 ∧ atoi32 b < atoi32 a) ∨ (grank a ≠ 1 ∧ a < b))) := by
  unfold gtless
  by_cases h : startsDigit a = true ∧ startsDigit b = true
  · rw [if_pos (by simp [h.1, h.2])]
    have h1 := (grank_digit a).mp h.1
    have h2 := (grank_digit b).mp h.2
    simp only [decide_eq_true_eq, h1, h2]
    simp
  · rw [if_neg (by simpa using h)]
    have h' : ¬ (grank a = 1 ∧ grank b = 1) := by rw [← grank_digit, ← grank_digit]; exact h
    simp only [decide_eq_true_eq]
    rcases Nat.lt_trichotomy (grank a) (grank b) with hl | he | hg
    · exact ⟨fun _ => Or.inl hl, fun _ => grank_lt hl⟩
    · constructor
      · intro hh
        exact Or.inr ⟨he, Or.inr ⟨fun e => h' ⟨e, by omega⟩, hh⟩⟩
      · rintro (hh | ⟨_, ⟨h1, _⟩ | ⟨_, h2⟩⟩)
        · omega
        · exact absurd ⟨h1, by omega⟩ h'
        · exact h2
    · have := grank_lt hg
      constructor
      · intro hh
        exact absurd (str_lt_trans hh this) (str_lt_irrefl _)
      · rintro (hh | ⟨hh, _⟩) <;> omega

theorem gtless_swo : Swo gtless where
  irrefl a := by
    rw [Bool.eq_false_iff, ne_eq, gtless_iff]
    rintro (h | ⟨_, ⟨_, h⟩ | ⟨_, h⟩⟩)
    · omega
    · omega
    · exact str_lt_irrefl _ h
  trans a b c h1 h2 := by
    rw [gtless_iff] at *
    rcases h1 with h1 | ⟨e1, h1⟩
    · rcases h2 with h2 | ⟨e2, _⟩
      · left; omega
      · left; omega
    · rcases h2 with h2 | ⟨e2, h2⟩
      · left; omega
      · right
        refine ⟨e1.trans e2, ?_⟩
        rcases h1 with ⟨k1, h1⟩ | ⟨k1, h1⟩
        · rcases h2 with ⟨k2, h2⟩ | ⟨k2, h2⟩
          · left; exact ⟨k1, by omega⟩
          · exact absurd (e1 ▸ k1) k2
        · rcases h2 with ⟨k2, h2⟩ | ⟨k2, h2⟩
          · exact absurd (e1.trans k2) k1
          · exact Or.inr ⟨k1, str_lt_trans h1 h2⟩
  incomp a b c h1 h2 h3 h4 := by
    rw [Bool.eq_false_iff, ne_eq, gtless_iff] at *
    have eab : grank a = grank b := by
      rcases Nat.lt_trichotomy (grank a) (grank b) with h | h | h
      · exact absurd (Or.inl h) h1
      · exact h
      · exact absurd (Or.inl h) h2
    have ebc : grank b = grank c := by
      rcases Nat.lt_trichotomy (grank b) (grank c) with h | h | h
      · exact absurd (Or.inl h) h3
      · exact h
      · exact absurd (Or.inl h) h4
    by_cases k : grank a = 1
    · have v1 : ¬ atoi32 b < atoi32 a := fun h => h1 (Or.inr ⟨eab, Or.inl ⟨k, h⟩⟩)
      have v2 : ¬ atoi32 a < atoi32 b := fun h => h2 (Or.inr ⟨eab.symm, Or.inl ⟨by omega, h⟩⟩)
      have v3 : ¬ atoi32 c < atoi32 b := fun h => h3 (Or.inr ⟨ebc, Or.inl ⟨by omega, h⟩⟩)
      have v4 : ¬ atoi32 b < atoi32 c := fun h => h4 (Or.inr ⟨ebc.symm, Or.inl ⟨by omega, h⟩⟩)
      rintro (h | ⟨_, ⟨_, h⟩ | ⟨h, _⟩⟩)
      · omega
      · omega
      · exact h k
    · have eq1 : a = b := by
        by_cases h : a < b
        · exact absurd (Or.inr ⟨eab, Or.inr ⟨k, h⟩⟩) h1
        · exact Decidable.byContradiction (fun hne => h2 (Or.inr ⟨eab.symm, Or.inr ⟨by omega, str_lt_of_not h hne⟩⟩))
      rw [eq1]
      exact h3

theorem gless_eq (col : Nat) (rev : Bool) (a b : GRow) :
    gless col rev a b = if rev then gtless (cellText col b) (cellText col a) else gtless (cellText col a) (cellText col b) := by
  unfold gless gtless
  cases rev
  · simp
  · simp only [if_true]
    cases startsDigit (cellText col a) <;> cases startsDigit (cellText col b) <;> simp

theorem gless_swo (col : Nat) (rev : Bool) : Swo (gless col rev) where
  irrefl a := by rw [gless_eq]; split <;> exact gtless_swo.irrefl _
  trans a b c h1 h2 := by
    rw [gless_eq] at *
    cases rev
    · exact gtless_swo.trans _ _ _ h1 h2
    · exact gtless_swo.trans _ _ _ h2 h1
  incomp a b c h1 h2 h3 h4 := by
    rw [gless_eq] at *
    cases rev
    · exact gtless_swo.incomp _ _ _ h1 h2 h3 h4
    · exact gtless_swo.incomp _ _ _ h3 h4 h1 h2

theorem refreshTable_rows (g : Gui) : g.refreshTable.rows = growsOf g.search g.packs := rfl

theorem gflip_nil (f : Nat → Bool) : gflip f [] = f := by
  funext k
  simp [gflip]

theorem gflip_append (f : Nat → Bool) (a b : List Nat) : gflip (gflip f a) b = gflip f (a ++ b) := by
  funext k
  simp only [gflip, List.count_append]
  have h1 := Nat.mod_two_eq_zero_or_one (a.count k)
  have h2 := Nat.mod_two_eq_zero_or_one (b.count k)
  have h3 : (a.count k + b.count k) % 2 = ((a.count k % 2) + (b.count k % 2)) % 2 := Nat.add_mod _ _ _
  rw [h3]
  rcases h1 with h1 | h1 <;> rcases h2 with h2 | h2 <;> rw [h1, h2] <;> cases f k <;> rfl

theorem gset_mark (ps : List GPack) (f : Nat → Bool) (k : Nat) (p : GPack) (hp : ps[k]? = some p) :
    (ps.mapIdx (fun k p => gmark (f k) p)).set k (gmark (!f k) p) = ps.mapIdx (fun j p => gmark (gflip f [k] j) p) := by
  apply List.ext_getElem?
  intro j
  rw [List.getElem?_set, List.getElem?_mapIdx, List.getElem?_mapIdx]
  by_cases e : k = j
  · subst e
    have hlt : k < ps.length := by
      rw [List.getElem?_eq_some_iff] at hp
      exact hp.1
    rw [if_pos rfl, List.length_mapIdx, if_pos hlt, hp]
    simp [gflip]
  · rw [if_neg e]
    cases ps[j]? with
    | none => rfl
    | some q => simp [gflip, e]

theorem gstep_inv (S : StdSort) {ps : List GPack} {f : Nat → Bool} {g : Gui} (h : GInv ps f g) (e : GEv) :
    ∃ g', g.step S e = some g' ∧ GInv ps (gflip f (gtaken g e)) g' := by
  cases e with
  | search text =>
    refine ⟨_, rfl, ?_⟩
    rw [show gtaken g (.search text) = [] from rfl, gflip_nil]
    exact ⟨h.packs, List.Perm.refl _, h.jobs, h.apply⟩
  | header col =>
    refine ⟨_, rfl, ?_⟩
    rw [show gtaken g (.header col) = [] from rfl, gflip_nil]
    exact ⟨h.packs, (S.perm _ _ (gless_swo _ _)).trans h.rows, h.jobs, h.apply⟩
  | click row pick =>
    simp only [Gui.step, Gui.click, gtaken]
    cases hr : g.rows[row]? with
    | none => exact ⟨g, rfl, by rw [gflip_nil]; exact h⟩
    | some r =>
      have hm : r ∈ growsOf g.search g.packs := (List.Perm.mem_iff h.rows).mp (List.mem_of_getElem? hr)
      obtain ⟨p, hp, hs, hc⟩ := mem_growsOf.mp hm
      have hp' := hp
      rw [h.packs, List.getElem?_mapIdx] at hp'
      obtain ⟨p0, hp0, rfl⟩ := Option.map_eq_some_iff.mp hp'
      simp only [hp, gmenus_mark, List.getLast?_singleton, List.any_cons, List.any_nil, Bool.or_false]
      set lab := (if p0.inst then (if f r.pkg then "Cancel Remove".toList else "Remove".toList) else (if f r.pkg then "Cancel Install".toList else "Install".toList)) with hlab
      by_cases hpk : pick lab = true
      · rw [if_pos hpk, if_pos hpk]
        have hne : ¬ (lab = "Remove".toList ∧ (gmark (f r.pkg) p0).inst = false) := by
          rintro ⟨e1, e2⟩
          have e2' : p0.inst = false := e2
          rw [hlab, e2'] at e1
          revert e1
          cases f r.pkg <;> decide
        rw [if_neg hne]
        refine ⟨_, rfl, ?_⟩
        have hpk' : g.packs.set r.pkg (gtake lab (gmark (f r.pkg) p0)) = ps.mapIdx (fun j p => gmark (gflip f [r.pkg] j) p) := by
          rw [hlab, gtake_mark, h.packs]
          exact gset_mark ps f r.pkg p0 hp0
        exact ⟨hpk', List.Perm.refl _, rfl, rfl⟩
      · rw [if_neg hpk, if_neg hpk, gflip_nil]
        exact ⟨g, rfl, h⟩

theorem grun_inv (S : StdSort) {ps : List GPack} : ∀ (es : List GEv) {f : Nat → Bool} {g : Gui}, GInv ps f g →
    ∃ g', g.run S es = some g' ∧ GInv ps (gflip f (gchosen S g es)) g'
  | [], f, g, h => ⟨g, rfl, by rw [show gchosen S g [] = [] from rfl, gflip_nil]; exact h⟩
  | e :: es, f, g, h => by
    obtain ⟨g1, h1, i1⟩ := gstep_inv S h e
    obtain ⟨g2, h2, i2⟩ := grun_inv S es i1
    refine ⟨g2, ?_, ?_⟩
    · simp only [Gui.run, h1]
      exact h2
    · rw [gflip_append] at i2
      have : gchosen S g (e :: es) = gtaken g e ++ gchosen S g1 es := by
        simp only [gchosen, h1]
      rw [this]
      exact i2

theorem gfresh_inv {ps : List GPack} (h : Unmarked ps) : GInv ps (fun _ => false) (Gui.fresh ps) := by
  have hid : ps.mapIdx (fun _ p => gmark false p) = ps := by
    apply List.ext_getElem?
    intro j
    rw [List.getElem?_mapIdx]
    cases hj : ps[j]? with
    | none => rfl
    | some q =>
      obtain ⟨h1, h2⟩ := h q (List.mem_of_getElem? hj)
      obtain ⟨a, b, c, d, e, i, ti, tr⟩ := q
      cases h1
      cases h2
      simp [gmark]
  have hj : gjobsOf ps = [] := by
    rw [List.eq_nil_iff_forall_not_mem]
    intro k hk
    obtain ⟨p, hp, hh⟩ := mem_gjobsOf.mp hk
    obtain ⟨h1, h2⟩ := h p (List.mem_of_getElem? hp)
    rw [h1, h2] at hh
    simp at hh
  exact ⟨hid.symm, List.Perm.refl _, hj.symm, rfl⟩

theorem gfresh_run (S : StdSort) {ps : List GPack} (h : Unmarked ps) (es : List GEv) :
    ∃ g, (Gui.fresh ps).run S es = some g ∧ GInv ps (fun k => decide ((gchosen S (Gui.fresh ps) es).count k % 2 = 1)) g := by
  obtain ⟨g, h1, h2⟩ := grun_inv S es (gfresh_inv h)
  refine ⟨g, h1, ?_⟩
  have : gflip (fun _ => false) (gchosen S (Gui.fresh ps) es) = fun k => decide ((gchosen S (Gui.fresh ps) es).count k % 2 = 1) := by
    funext k
    simp [gflip]
  rw [this] at h2
  exact h2

/-! ## C106 -/

/-- Whatever the user does, nothing undefined happens, and "Go !" would install exactly the packages that are not installed and whose item was taken an odd number of times, and remove
exactly those that are installed and whose item was taken an odd number of times. The button is active just when there is something to do. -/
theorem C106_marks (S : StdSort) (ps : List GPack) (h : Unmarked ps) (es : List GEv) :
    ∃ g, (Gui.fresh ps).run S es = some g ∧
      (∀ n, n ∈ g.installList ↔ ∃ k p, ps[k]? = some p ∧ p.name = n ∧ p.inst = false ∧ (gchosen S (Gui.fresh ps) es).count k % 2 = 1) ∧
      (∀ n, n ∈ g.removeList ↔ ∃ k p, ps[k]? = some p ∧ p.name = n ∧ p.inst = true ∧ (gchosen S (Gui.fresh ps) es).count k % 2 = 1) ∧
      (g.apply = true ↔ g.installList ≠ [] ∨ g.removeList ≠ []) := by
  obtain ⟨g, hr, hi⟩ := gfresh_run S h es
  have hin : ∀ n, n ∈ g.installList ↔ ∃ k p, ps[k]? = some p ∧ p.name = n ∧ p.inst = false ∧ (gchosen S (Gui.fresh ps) es).count k % 2 = 1 := by
    intro n
    unfold Gui.installList
    rw [mem_sofList, List.mem_filterMap]
    constructor
    · rintro ⟨k, _, e⟩
      split at e
      · next p hp =>
        split at e
        · next ht =>
          cases e
          rw [hi.packs, List.getElem?_mapIdx] at hp
          obtain ⟨p0, hp0, rfl⟩ := Option.map_eq_some_iff.mp hp
          simp only [gmark, Bool.and_eq_true, Bool.not_eq_true', decide_eq_true_eq] at ht
          exact ⟨k, p0, hp0, rfl, ht.1, ht.2⟩
        · exact absurd e nofun
      · exact absurd e nofun
    · rintro ⟨k, p, hp, rfl, hn, hc⟩
      have hg : g.packs[k]? = some (gmark true p) := by
        rw [hi.packs, List.getElem?_mapIdx, hp]
        simp [hc]
      have ht : (gmark true p).toInst = true := by simp [gmark, hn]
      refine ⟨k, ?_, ?_⟩
      · rw [hi.jobs]
        exact mem_gjobsOf.mpr ⟨_, hg, Or.inl ht⟩
      · simp only [hg]
        rw [if_pos ht]
        rfl
  have hrm : ∀ n, n ∈ g.removeList ↔ ∃ k p, ps[k]? = some p ∧ p.name = n ∧ p.inst = true ∧ (gchosen S (Gui.fresh ps) es).count k % 2 = 1 := by
    intro n
    unfold Gui.removeList
    rw [mem_sofList, List.mem_filterMap]
    constructor
    · rintro ⟨k, _, e⟩
      split at e
      · next p hp =>
        split at e
        · next ht =>
          cases e
          rw [hi.packs, List.getElem?_mapIdx] at hp
          obtain ⟨p0, hp0, rfl⟩ := Option.map_eq_some_iff.mp hp
          simp only [gmark, Bool.and_eq_true, decide_eq_true_eq] at ht
          exact ⟨k, p0, hp0, rfl, ht.1, ht.2⟩
        · exact absurd e nofun
      · exact absurd e nofun
    · rintro ⟨k, p, hp, rfl, hn, hc⟩
      have hg : g.packs[k]? = some (gmark true p) := by
        rw [hi.packs, List.getElem?_mapIdx, hp]
        simp [hc]
      have ht : (gmark true p).toRem = true := by simp [gmark, hn]
      refine ⟨k, ?_, ?_⟩
      · rw [hi.jobs]
        exact mem_gjobsOf.mpr ⟨_, hg, Or.inr ht⟩
      · simp only [hg]
        rw [if_pos ht]
        rfl
  refine ⟨g, hr, hin, hrm, ?_⟩
  rw [hi.apply]
  simp only [Bool.not_eq_true', List.isEmpty_eq_false_iff]
  constructor
  · intro hne
    obtain ⟨k, hk⟩ := List.exists_mem_of_ne_nil _ hne
    rw [hi.jobs] at hk
    obtain ⟨p, hp, hh⟩ := mem_gjobsOf.mp hk
    rw [hi.packs, List.getElem?_mapIdx] at hp
    obtain ⟨p0, hp0, rfl⟩ := Option.map_eq_some_iff.mp hp
    simp only [gmark, Bool.and_eq_true, Bool.not_eq_true', decide_eq_true_eq] at hh
    rcases hh with ⟨a, b⟩ | ⟨a, b⟩
    · exact Or.inl (List.ne_nil_of_mem ((hin p0.name).mpr ⟨k, p0, hp0, rfl, a, b⟩))
    · exact Or.inr (List.ne_nil_of_mem ((hrm p0.name).mpr ⟨k, p0, hp0, rfl, a, b⟩))
  · rintro hh e
    rw [hi.jobs] at e
    have hno : ∀ k p, ps[k]? = some p → (gchosen S (Gui.fresh ps) es).count k % 2 = 1 → False := by
      intro k p hp hc
      have : k ∈ gjobsOf g.packs := by
        refine mem_gjobsOf.mpr ⟨gmark true p, ?_, ?_⟩
        · rw [hi.packs, List.getElem?_mapIdx, hp]
          simp [hc]
        · cases hq : p.inst
          · exact Or.inl (by simp [gmark, hq])
          · exact Or.inr (by simp [gmark, hq])
      rw [e] at this
      exact absurd this (by simp)
    rcases hh with hh | hh
    · obtain ⟨n, hn⟩ := List.exists_mem_of_ne_nil _ hh
      obtain ⟨k, p, hp, _, _, hc⟩ := (hin n).mp hn
      exact hno k p hp hc
    · obtain ⟨n, hn⟩ := List.exists_mem_of_ne_nil _ hh
      obtain ⟨k, p, hp, _, _, hc⟩ := (hrm n).mp hn
      exact hno k p hp hc

/-- The names of a list are those of a map, each once: no package is both to install and to remove. -/
theorem C106_one (S : StdSort) (ps : List GPack) (h : Unmarked ps) (hn : (ps.map (·.name)).Nodup) (es : List GEv) (g : Gui)
    (hr : (Gui.fresh ps).run S es = some g) (n : Str) : ¬ (n ∈ g.installList ∧ n ∈ g.removeList) := by
  obtain ⟨g', hr', h1, h2, _⟩ := C106_marks S ps h es
  cases hr.symm.trans hr'
  rintro ⟨a, b⟩
  obtain ⟨k, p, hp, e1, i1, _⟩ := (h1 n).mp a
  obtain ⟨k', p', hp', e2, i2, _⟩ := (h2 n).mp b
  obtain ⟨hl, hg⟩ := List.getElem?_eq_some_iff.mp hp
  obtain ⟨hl', hg'⟩ := List.getElem?_eq_some_iff.mp hp'
  have := (List.nodup_iff_injective_get.mp hn) (a₁ := ⟨k, by simpa using hl⟩) (a₂ := ⟨k', by simpa using hl'⟩)
    (by simp [hg, hg', e1, e2])
  have hkk : k = k' := by simpa using this
  subst hkk
  rw [hp] at hp'
  cases hp'
  rw [i1] at i2
  exact absurd i2 (by decide)

/-- On any row of the table, at any time, exactly one item is offered: to install or remove the package, or to take the mark back. -/
theorem C106_menu (S : StdSort) (ps : List GPack) (h : Unmarked ps) (es : List GEv) (g : Gui) (hr : (Gui.fresh ps).run S es = some g)
    (r : GRow) (hrow : r ∈ g.rows) : ∃ p, g.packs[r.pkg]? = some p ∧
      gmenus p = [if p.name ∈ g.installList ∧ p.inst = false ∧ p.toInst = true then "Cancel Install".toList
        else if p.name ∈ g.removeList ∧ p.inst = true ∧ p.toRem = true then "Cancel Remove".toList
        else if p.inst then "Remove".toList else "Install".toList] := by
  obtain ⟨g', hr', hi⟩ := gfresh_run S h es
  cases hr.symm.trans hr'
  obtain ⟨p, hp, _, _⟩ := mem_growsOf.mp ((List.Perm.mem_iff hi.rows).mp hrow)
  refine ⟨p, hp, ?_⟩
  have hp' := hp
  rw [hi.packs, List.getElem?_mapIdx] at hp'
  obtain ⟨p0, hp0, rfl⟩ := Option.map_eq_some_iff.mp hp'
  obtain ⟨g'', hr'', h1, h2, _⟩ := C106_marks S ps h es
  cases hr.symm.trans hr''
  have hni := h1 p0.name
  have hnr := h2 p0.name
  generalize hb : decide ((gchosen S (Gui.fresh ps) es).count r.pkg % 2 = 1) = b at *
  rw [gmenus_mark]
  cases hinst : p0.inst
  · cases b
    · simp [gmark, hinst]
    · have : p0.name ∈ g.installList := hni.mpr ⟨r.pkg, p0, hp0, rfl, hinst, by simpa using hb⟩
      simp [gmark, hinst, this]
  · cases b
    · simp [gmark, hinst]
    · have : p0.name ∈ g.removeList := hnr.mpr ⟨r.pkg, p0, hp0, rfl, hinst, by simpa using hb⟩
      simp [gmark, hinst, this]

/-! ## C107 -/

/-- Whatever the user does, the table shows exactly the packages in which the text of the search field occurs (in the name, the collection, the description or the version), each in
one row, with its own data and mark. -/
theorem C107_rows (S : StdSort) (ps : List GPack) (h : Unmarked ps) (es : List GEv) :
    ∃ g, (Gui.fresh ps).run S es = some g ∧
      (∀ k, (∃ r ∈ g.rows, r.pkg = k) ↔
        ∃ p, ps[k]? = some p ∧ (Occurs g.search p.name ∨ Occurs g.search p.collection ∨ Occurs g.search p.description ∨ Occurs g.search p.version)) ∧
      (g.rows.map (·.pkg)).Nodup ∧
      (∀ r ∈ g.rows, ∃ p, ps[r.pkg]? = some p ∧
        r.cols = [if p.inst then (if p.name ∈ g.removeList ∧ (gchosen S (Gui.fresh ps) es).count r.pkg % 2 = 1 then "B".toList else "C".toList)
          else (if p.name ∈ g.installList ∧ (gchosen S (Gui.fresh ps) es).count r.pkg % 2 = 1 then "A".toList else "D".toList),
          p.name, p.version, p.description, p.collection, p.packager]) := by
  obtain ⟨g, hr, hi⟩ := gfresh_run S h es
  obtain ⟨g'', hr'', h1, h2, _⟩ := C106_marks S ps h es
  cases hr.symm.trans hr''
  have hocc : ∀ t s : Str, (cutFirst t s).isSome = true ↔ Occurs t s := by
    intro t s
    rw [isSome_infix]
    constructor
    · rintro ⟨a, b, e⟩; exact ⟨a, b, e.symm⟩
    · rintro ⟨a, b, e⟩; exact ⟨a, b, e.symm⟩
  have hshow : ∀ p : GPack, gshown g.search p = true ↔
      (Occurs g.search p.name ∨ Occurs g.search p.collection ∨ Occurs g.search p.description ∨ Occurs g.search p.version) := by
    intro p
    simp only [gshown, Bool.or_eq_true, hocc, List.isEmpty_iff]
    constructor
    · rintro ((((e | h) | h) | h) | h)
      · exact Or.inl ⟨[], p.name, by rw [e]; rfl⟩
      · exact Or.inl h
      · exact Or.inr (Or.inl h)
      · exact Or.inr (Or.inr (Or.inl h))
      · exact Or.inr (Or.inr (Or.inr h))
    · rintro (h | h | h | h) <;> simp [h]
  refine ⟨g, hr, ?_, ?_, ?_⟩
  · intro k
    constructor
    · rintro ⟨r, hm, rfl⟩
      obtain ⟨p, hp, hs, _⟩ := mem_growsOf.mp ((List.Perm.mem_iff hi.rows).mp hm)
      rw [hi.packs, List.getElem?_mapIdx] at hp
      obtain ⟨p0, hp0, rfl⟩ := Option.map_eq_some_iff.mp hp
      exact ⟨p0, hp0, (hshow _).mp hs⟩
    · rintro ⟨p, hp, ho⟩
      refine ⟨⟨k, gcells (gmark (decide ((gchosen S (Gui.fresh ps) es).count k % 2 = 1)) p)⟩, ?_, rfl⟩
      rw [List.Perm.mem_iff hi.rows, mem_growsOf]
      refine ⟨gmark (decide ((gchosen S (Gui.fresh ps) es).count k % 2 = 1)) p, ?_, (hshow _).mpr ho, rfl⟩
      rw [hi.packs, List.getElem?_mapIdx, hp]
      rfl
  · refine (List.Perm.nodup_iff (hi.rows.map _)).mpr ?_
    unfold growsOf
    rw [List.map_filterMap]
    have hsub : ∀ l : List (GPack × Nat), (l.map (·.2)).Nodup →
        (l.filterMap (fun x => Option.map (·.pkg) (if gshown g.search x.1 then some (⟨x.2, gcells x.1⟩ : GRow) else none))).Nodup := by
      intro l
      induction l with
      | nil => simp
      | cons x l ih =>
        intro hnd
        rw [List.map_cons, List.nodup_cons] at hnd
        by_cases hs : gshown g.search x.1 = true
        · rw [List.filterMap_cons_some (b := x.2) (by simp [hs]), List.nodup_cons]
          refine ⟨?_, ih hnd.2⟩
          intro hm
          obtain ⟨y, hy, e⟩ := List.mem_filterMap.mp hm
          apply hnd.1
          rw [List.mem_map]
          refine ⟨y, hy, ?_⟩
          revert e
          by_cases hs' : gshown g.search y.1 = true <;> simp [hs']
        · rw [List.filterMap_cons_none (by simp [hs])]
          exact ih hnd.2
    apply hsub
    rw [List.zipIdx_map_snd]
    exact List.nodup_range'
  · intro r hm
    obtain ⟨p, hp, _, hc⟩ := mem_growsOf.mp ((List.Perm.mem_iff hi.rows).mp hm)
    rw [hi.packs, List.getElem?_mapIdx] at hp
    obtain ⟨p0, hp0, rfl⟩ := Option.map_eq_some_iff.mp hp
    refine ⟨p0, hp0, ?_⟩
    rw [hc]
    by_cases hodd : (gchosen S (Gui.fresh ps) es).count r.pkg % 2 = 1
    · cases hq : p0.inst
      · have := (h1 p0.name).mpr ⟨r.pkg, p0, hp0, rfl, hq, hodd⟩
        simp [gcells, gmark, hodd, hq, this]
      · have := (h2 p0.name).mpr ⟨r.pkg, p0, hp0, rfl, hq, hodd⟩
        simp [gcells, gmark, hodd, hq, this]
    · cases hq : p0.inst <;> simp [gcells, gmark, hodd, hq]

/-! ## C108 -/

/-- Two rows are in order: numbers (texts that begin with a digit) from the highest to the lowest, anything else as text; the other way round for the reverse order. -/
def RowOrder (col : Nat) (reverse : Bool) (a b : GRow) : Prop :=
  let x := cellText col a
  let y := cellText col b
  if startsDigit x ∧ startsDigit y then (if reverse then atoi32 x ≤ atoi32 y else atoi32 y ≤ atoi32 x)
  else (if reverse then y ≤ x else x ≤ y)

/-- A strict weak ordering for every column, in both directions, whatever the cells are: `std::sort` is used as it has to be. -/
theorem C108_swo (col : Nat) (reverse : Bool) : Swo (gless col reverse) := gless_swo col reverse

/-- After a click on the header of a column the rows are the same ones, in the order of that column; a second click on the same header reverses it. -/
theorem C108_header (S : StdSort) (g : Gui) (col : Nat) :
    ∃ g', g.step S (.header col) = some g' ∧ g'.rows.Perm g.rows ∧
      g'.reverse = (if g.lastCol = some col then !g.reverse else false) ∧ g'.lastCol = some col ∧
      g'.rows.Pairwise (RowOrder col g'.reverse) ∧ g'.packs = g.packs ∧ g'.jobs = g.jobs ∧ g'.search = g.search := by
  refine ⟨_, rfl, S.perm _ _ (gless_swo _ _), rfl, rfl, ?_, rfl, rfl, rfl⟩
  refine List.Pairwise.imp ?_ (S.sorted _ _ (gless_swo col _))
  intro a b hab
  revert hab
  show gless col (if g.lastCol = some col then !g.reverse else false) b a = false → RowOrder col (if g.lastCol = some col then !g.reverse else false) a b
  generalize (if g.lastCol = some col then !g.reverse else false) = rev
  intro hab
  simp only [gless, RowOrder] at *
  cases hx : startsDigit (cellText col a) <;> cases hy : startsDigit (cellText col b) <;> cases rev <;>
    simp_all [List.not_lt]

/-- `std::sort` exists. -/
def mergeStdSort : StdSort where
  sort lt l := l.mergeSort (fun a b => !lt b a)
  perm _ _ _ := List.mergeSort_perm _ _
  sorted lt l h := by
    have := List.pairwise_mergeSort (le := fun a b => !lt b a) (l := l) ?_ ?_
    · exact this.imp (fun hab => by simpa using hab)
    · intro a b c hab hbc
      simp only [Bool.not_eq_true'] at *
      rw [Bool.eq_false_iff]
      intro hca
      cases hcb : lt b a
      · cases hbc' : lt a b
        · cases h3 : lt b c
          · have := h.incomp c b a hbc h3 hcb hbc'
            rw [this] at hca; exact absurd hca (by decide)
          · have := h.trans _ _ _ h3 hca
            rw [this] at hcb; exact absurd hcb (by decide)
        · have := h.trans _ _ _ hca hbc'
          rw [this] at hbc; exact absurd hbc (by decide)
      · rw [hcb] at hab; exact absurd hab (by decide)
    · intro a b
      cases h1 : lt b a
      · rfl
      · cases h2 : lt a b
        · rfl
        · have := h.trans _ _ _ h1 h2
          rw [h.irrefl] at this
          exact absurd this (by decide)

/-! ## C109 -/

/-- The order of the rows after any event: a click on a header sorts; another text in the search field, or an item taken from a menu, puts the rows back in the order of the list
(and leaves the column and the direction of the last sort as they were); a click that takes nothing changes nothing. -/
theorem C109_exact (S : StdSort) (ps : List GPack) (h : Unmarked ps) (es : List GEv) (g g' : Gui) (hr : (Gui.fresh ps).run S es = some g) (e : GEv)
    (he : g.step S e = some g') :
    match e with
    | .header col => g'.rows.Pairwise (RowOrder col g'.reverse) ∧ g'.lastCol = some col
    | .search _ => (g'.rows.map (·.pkg)).Pairwise (· < ·) ∧ g'.lastCol = g.lastCol ∧ g'.reverse = g.reverse
    | .click row pick => if gtaken g (.click row pick) = [] then g' = g
        else (g'.rows.map (·.pkg)).Pairwise (· < ·) ∧ g'.lastCol = g.lastCol ∧ g'.reverse = g.reverse := by
  have hinc : ∀ (t : Str) (qs : List GPack), ((growsOf t qs).map (·.pkg)).Pairwise (· < ·) := by
    intro t qs
    unfold growsOf
    rw [List.map_filterMap]
    have hsub : ∀ l : List (GPack × Nat), (l.map (·.2)).Pairwise (· < ·) →
        (l.filterMap (fun x => Option.map (·.pkg) (if gshown t x.1 then some (⟨x.2, gcells x.1⟩ : GRow) else none))).Pairwise (· < ·) := by
      intro l
      induction l with
      | nil => simp
      | cons x l ih =>
        intro hnd
        rw [List.map_cons, List.pairwise_cons] at hnd
        by_cases hs : gshown t x.1 = true
        · rw [List.filterMap_cons_some (b := x.2) (by simp [hs]), List.pairwise_cons]
          refine ⟨?_, ih hnd.2⟩
          intro k hm
          obtain ⟨y, hy, e⟩ := List.mem_filterMap.mp hm
          apply hnd.1
          rw [List.mem_map]
          refine ⟨y, hy, ?_⟩
          revert e
          by_cases hs' : gshown t y.1 = true <;> simp [hs']
        · rw [List.filterMap_cons_none (by simp [hs])]
          exact ih hnd.2
    apply hsub
    rw [List.zipIdx_map_snd]
    exact List.pairwise_lt_range'
  cases e with
  | header col =>
    obtain ⟨g1, h1, _, _, h4, h5, _⟩ := C108_header S g col
    cases he.symm.trans h1
    exact ⟨h5, h4⟩
  | search text =>
    cases he
    exact ⟨hinc _ _, rfl, rfl⟩
  | click row pick =>
    obtain ⟨g0, hr0, hi⟩ := gfresh_run S h es
    cases hr.symm.trans hr0
    have he' : g.click row pick = some g' := he
    show if gtaken g (.click row pick) = [] then g' = g else _
    unfold Gui.click at he'
    cases hrow : g.rows[row]? with
    | none =>
      rw [hrow] at he'
      cases he'
      have ht : gtaken g (.click row pick) = [] := by simp only [gtaken, hrow]
      rw [if_pos ht]
    | some r =>
      obtain ⟨p, hp, _, _⟩ := mem_growsOf.mp ((List.Perm.mem_iff hi.rows).mp (List.mem_of_getElem? hrow))
      have hp' := hp
      rw [hi.packs, List.getElem?_mapIdx] at hp'
      obtain ⟨p0, hp0, rfl⟩ := Option.map_eq_some_iff.mp hp'
      generalize decide ((gchosen S (Gui.fresh ps) es).count r.pkg % 2 = 1) = b at *
      have hmen := gmenus_mark b p0
      generalize hlab : (if p0.inst then (if b then "Cancel Remove".toList else "Remove".toList) else (if b then "Cancel Install".toList else "Install".toList)) = lab at hmen
      have ht : gtaken g (.click row pick) = if pick lab then [r.pkg] else [] := by
        simp only [gtaken, hrow, hp, hmen, List.any_cons, List.any_nil, Bool.or_false]
      simp only [hrow, hp, hmen, List.getLast?_singleton] at he'
      rw [ht]
      by_cases hpk : pick lab = true
      · rw [if_pos hpk] at he'
        rw [if_pos hpk, if_neg (by simp)]
        split at he'
        · next hbad =>
          exfalso
          obtain ⟨e1, e2⟩ := hbad
          have e2' : p0.inst = false := e2
          rw [e1, e2'] at hlab
          revert hlab
          cases b <;> decide
        · cases he'
          exact ⟨hinc _ _, rfl, rfl⟩
      · rw [if_neg hpk] at he'
        cases he'
        rw [if_neg hpk, if_pos rfl]

/-! ## Examples -/

def gpA : GPack := ⟨"abiword".toList, "3.0".toList, "word processor".toList, "gui".toList, "tnut".toList, false, false, false⟩
def gpB : GPack := ⟨"bash".toList, "5.2".toList, "shell".toList, "base".toList, "tnut".toList, true, false, false⟩
def gpC : GPack := ⟨"cards".toList, "2.4".toList, "package manager".toList, "base".toList, "tnut".toList, true, false, false⟩
def gps : List GPack := [gpA, gpB, gpC]

example : Unmarked gps ∧ (gps.map (·.name)).Nodup := by
  constructor
  · intro p hp
    simp only [gps, List.mem_cons, List.not_mem_nil, or_false] at hp
    rcases hp with rfl | rfl | rfl <;> decide
  · decide

/-- Mark two packages through the filtered table, take one mark back. -/
def ges : List GEv :=
  [.search "base".toList, .click 1 (fun _ => true), .click 0 (fun _ => true), .search [], .click 0 (fun _ => true), .click 1 (fun _ => true), .click 2 (fun _ => false)]

example : ((Gui.fresh gps).run mergeStdSort ges).map (fun g => (g.installList, g.removeList, g.apply)) =
    some (["abiword".toList], ["cards".toList], true) := by decide +kernel

example : gchosen mergeStdSort (Gui.fresh gps) ges = [2, 1, 0, 1] := by decide +kernel

/-- The order the user asked for is lost with the next change of the search text, while the arrow at the column stays: the versions are not in order any more, and the next click on the
header, which should restore the order, reverses it. -/
theorem C109_counterexample : ∃ g, (Gui.fresh gps).run mergeStdSort [.header 2, .search []] = some g ∧
    g.lastCol = some 2 ∧ g.reverse = false ∧ ¬ g.rows.Pairwise (RowOrder 2 false) ∧ (g.header mergeStdSort 2).reverse = true := by
  refine ⟨_, rfl, rfl, rfl, ?_, rfl⟩
  intro h
  have := (List.pairwise_cons.mp h).1 ⟨1, gcells gpB⟩ (by decide +kernel)
  revert this
  unfold RowOrder
  decide +kernel

/-- Versions are compared by the number they begin with only. -/
theorem C109_versions : gless 2 false ⟨0, gcells { gpA with version := "1.9".toList }⟩ ⟨1, gcells { gpA with version := "1.10".toList }⟩ = false ∧
    gless 2 false ⟨1, gcells { gpA with version := "1.10".toList }⟩ ⟨0, gcells { gpA with version := "1.9".toList }⟩ = false := by decide +kernel

end Cards.Props
