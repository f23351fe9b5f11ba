import Verif.Spec.Upgrade
import Verif.Props.Resolve
import Verif.Props.Numbers
import Verif.Lemmas.Single
/-!
# C28, C29: cards diff and cards upgrade
-/
namespace Cards.Props
open Cards

/-! ### Versions -/

theorem dash_not_digit (k : Nat) : digitC k ≠ '-' := by
  unfold digitC
  split <;> decide

theorem dash_not_dec (n : Nat) : '-' ∉ dec n := by
  induction n using dec.induct with
  | case1 n h => rw [dec, if_pos h]; simp only [List.mem_singleton]; exact fun e => dash_not_digit n e.symm
  | case2 n h ih =>
    rw [dec, if_neg h, List.mem_append, List.mem_singleton]
    rintro (h | h)
    · exact ih h
    · exact dash_not_digit _ h.symm

theorem dec_inj {a b : Nat} (h : dec a = dec b) : a = b := by
  have h1 := digits_dec a
  rw [h, digits_dec b] at h1
  exact (Option.some.inj h1).symm

theorem last_dash {u v x y : Str} (hx : '-' ∉ x) (hy : '-' ∉ y) (h : u ++ '-' :: x = v ++ '-' :: y) : u = v ∧ x = y := by
  rcases List.append_eq_append_iff.mp h with ⟨z, h1, h2⟩ | ⟨z, h1, h2⟩
  · cases z with
    | nil => simp at h1 h2; exact ⟨h1.symm, h2⟩
    | cons c z => simp at h2; exact absurd (h2.2 ▸ by simp) hx
  · cases z with
    | nil => simp at h1 h2; exact ⟨h1, h2.symm⟩
    | cons c z => simp at h2; exact absurd (h2.2 ▸ by simp) hy

theorem verRel_inj {v w : Str} {r q : Nat} (hr : r < 65536) (hq : q < 65536) : verRel v r = verRel w q ↔ v = w ∧ r = q := by
  unfold verRel itos
  constructor
  · intro h
    obtain ⟨h1, h2⟩ := last_dash (dash_not_dec _) (dash_not_dec _) h
    have := dec_inj h2
    rw [Nat.mod_eq_of_lt (by omega), Nat.mod_eq_of_lt (by omega)] at this
    exact ⟨h1, this⟩
  · rintro ⟨rfl, rfl⟩; rfl

/-! ### C28 -/

/-- Releases are `unsigned short`. -/
def ShortReleases (db : InstDb) (repo : List (Str × RepoPkg)) : Prop := (∀ p ∈ db, p.2.release < 65536) ∧ ∀ p ∈ repo, p.2.release < 65536

theorem standing_unique {db : InstDb} {repo : List (Str × RepoPkg)} {n : Str} {i : Inst} {s t : UpgStatus}
    (hs : Standing db repo n i s) (ht : Standing db repo n i t) : s = t := by
  cases s <;> cases t <;> simp only [Standing] at hs ht ⊢ <;> grind

theorem standing_dealOf {db : InstDb} {repo : List (Str × RepoPkg)} (hr : ShortReleases db repo) {n : Str} {i : Inst} (hi : (n, i) ∈ db) :
    Standing db repo n i (dealOf db repo n i).status := by
  unfold dealOf
  cases h : mget repo n with
  | none => cases hd : i.dependency <;> simp [Standing, h, hd]
  | some p =>
    simp only
    by_cases hs : dateSame db (n, p.build) = true
    · rw [if_pos hs]; exact ⟨p, h, (C25_dependency db _).mp hs⟩
    · rw [if_neg hs]
      have hns : ¬ Satisfied db (n, p.build) := fun x => hs ((C25_dependency db _).mpr x)
      have hv := verRel_inj (v := i.version) (w := p.version) (hr.1 _ hi) (hr.2 _ (mget_some_mem h))
      simp only
      by_cases he : verRel i.version i.release = verRel p.version p.release
      · rw [if_pos he]; exact ⟨p, h, hns, hv.mp he⟩
      · rw [if_neg he]; exact ⟨p, h, hns, fun x => he (hv.mpr x)⟩

theorem mset_last {α : Type} (m : List (Str × α)) (k : Str) (v : α) (h : ∀ x ∈ keys m, x < k) : mset k v m = m ++ [(k, v)] := by
  induction m with
  | nil => rfl
  | cons p m ih =>
    obtain ⟨j, w⟩ := p
    have hj : j < k := h j (by simp [keys])
    rw [mset, if_neg (fun e => str_lt_irrefl _ (str_lt_trans hj e)), if_neg (fun e => str_lt_irrefl _ (e ▸ hj)),
      ih (fun x hx => h x (by simp [keys] at hx ⊢; exact Or.inr hx))]
    rfl

/-- The counter of a class. -/
def _root_.Cards.Diff.count (d : Diff) : UpgStatus → Nat
  | .ok => d.okCount
  | .newBuild => d.newBuildCount
  | .outOfDate => d.outOfDateCount
  | .obsolete => d.obsoleteCount
  | .unmaintained => d.unmaintainedCount

theorem diff_step (db : InstDb) (repo : List (Str × RepoPkg)) (d : Diff) (p : Str × Inst) :
    (Diff.step db repo d p).deals = mset p.1 (dealOf db repo p.1 p.2) d.deals ∧
    ∀ s, (Diff.step db repo d p).count s = d.count s + if (dealOf db repo p.1 p.2).status = s then 1 else 0 := by
  unfold Diff.step
  simp only
  split <;> rename_i h <;> refine ⟨rfl, ?_⟩ <;> intro s <;> rw [h] <;> cases s <;> simp [Diff.count]

theorem diff_fold (db : InstDb) (repo : List (Str × RepoPkg)) (l : List (Str × Inst)) (d : Diff) (hl : MSorted l)
    (hd : ∀ x ∈ keys d.deals, ∀ y ∈ keys l, x < y) :
    (l.foldl (Diff.step db repo) d).deals = d.deals ++ l.map (fun p => (p.1, dealOf db repo p.1 p.2)) ∧
    ∀ s, (l.foldl (Diff.step db repo) d).count s = d.count s + l.countP (fun p => decide ((dealOf db repo p.1 p.2).status = s)) := by
  induction l generalizing d with
  | nil => simp
  | cons p l ih =>
    have hp := List.pairwise_cons.mp hl
    obtain ⟨h1, h2⟩ := diff_step db repo d p
    rw [mset_last _ _ _ (fun x hx => hd x hx p.1 (by simp [keys]))] at h1
    obtain ⟨k1, k2⟩ := ih (Diff.step db repo d p) hp.2 (by
      intro x hx y hy
      rw [h1] at hx
      simp only [keys, List.map_append, List.map_cons, List.map_nil, List.mem_append, List.mem_singleton] at hx
      rcases hx with hx | rfl
      · exact hd x hx y (by simp only [keys, List.map_cons, List.mem_cons]; exact Or.inr hy)
      · exact hp.1 y hy)
    rw [List.foldl_cons]
    refine ⟨by rw [k1, h1]; simp, ?_⟩
    intro s
    rw [k2, h2, List.countP_cons]
    simp only [decide_eq_true_eq]
    omega

theorem diff_deals {db : InstDb} (repo : List (Str × RepoPkg)) (hs : MSorted db) :
    (mkDiff db repo).deals = db.map (fun p => (p.1, dealOf db repo p.1 p.2)) ∧
    ∀ s, (mkDiff db repo).count s = db.countP (fun p => decide ((dealOf db repo p.1 p.2).status = s)) := by
  obtain ⟨h1, h2⟩ := diff_fold db repo db ⟨0, 0, 0, 0, 0, []⟩ hs (by intro x hx; simp [keys] at hx)
  refine ⟨by unfold mkDiff; rw [h1]; rfl, ?_⟩
  intro s
  unfold mkDiff
  rw [h2]
  cases s <;> simp [Diff.count]

/-- **C28.** Every installed package stands in exactly one way to the repository, and this is what `cards diff` lists for it. -/
theorem C28_class {db : InstDb} {repo : List (Str × RepoPkg)} (hs : MSorted db) (hr : ShortReleases db repo) :
    (∀ n i, (n, i) ∈ db → (∃! s, Standing db repo n i s) ∧
      ∃ d, mget (mkDiff db repo).deals n = some d ∧ Standing db repo n i d.status) ∧
    keys (mkDiff db repo).deals = keys db := by
  have hk : keys (mkDiff db repo).deals = keys db := by
    rw [(diff_deals repo hs).1]; simp [keys]
  refine ⟨?_, hk⟩
  intro n i hi
  have hst := standing_dealOf hr hi
  refine ⟨⟨_, hst, fun t ht => standing_unique ht hst⟩, dealOf db repo n i, ?_, hst⟩
  apply mem_mget_of_sorted (by unfold MSorted; rw [hk]; exact hs)
  rw [(diff_deals repo hs).1, List.mem_map]
  exact ⟨(n, i), hi, rfl⟩

/-- **C28, counts.** Each counter is the number of installed packages in its class, and together they count every package once. -/
theorem C28_counts {db : InstDb} {repo : List (Str × RepoPkg)} (hs : MSorted db) (hr : ShortReleases db repo) (cls : Str × Inst → UpgStatus)
    (hc : ∀ p ∈ db, Standing db repo p.1 p.2 (cls p)) :
    (mkDiff db repo).okCount = db.countP (fun p => decide (cls p = .ok)) ∧
    (mkDiff db repo).newBuildCount = db.countP (fun p => decide (cls p = .newBuild)) ∧
    (mkDiff db repo).outOfDateCount = db.countP (fun p => decide (cls p = .outOfDate)) ∧
    (mkDiff db repo).obsoleteCount = db.countP (fun p => decide (cls p = .obsolete)) ∧
    (mkDiff db repo).unmaintainedCount = db.countP (fun p => decide (cls p = .unmaintained)) ∧
    (mkDiff db repo).okCount + (mkDiff db repo).newBuildCount + (mkDiff db repo).outOfDateCount + (mkDiff db repo).obsoleteCount +
      (mkDiff db repo).unmaintainedCount = db.length ∧
    (mkDiff db repo).size + (mkDiff db repo).okCount = db.length := by
  have key : ∀ s, (mkDiff db repo).count s = db.countP (fun p => decide (cls p = s)) := by
    intro s
    rw [(diff_deals repo hs).2]
    apply List.countP_congr
    intro p hp
    rw [standing_unique (standing_dealOf hr hp) (hc p hp)]
  have sum : ∀ l : InstDb, l.countP (fun p => decide (cls p = .ok)) + l.countP (fun p => decide (cls p = .newBuild)) +
      l.countP (fun p => decide (cls p = .outOfDate)) + l.countP (fun p => decide (cls p = .obsolete)) +
      l.countP (fun p => decide (cls p = .unmaintained)) = l.length := by
    intro l
    induction l with
    | nil => rfl
    | cons p l ih =>
      simp only [List.countP_cons, List.length_cons]
      cases cls p <;> simp <;> omega
  have h1 := key .ok
  have h2 := key .newBuild
  have h3 := key .outOfDate
  have h4 := key .obsolete
  have h5 := key .unmaintained
  simp only [Diff.count] at h1 h2 h3 h4 h5
  have h6 := sum db
  refine ⟨h1, h2, h3, h4, h5, by omega, ?_⟩
  unfold Diff.size
  omega

/-! ### C29 -/

theorem mem_groupUpdates {db : InstDb} {repo : List (Str × RepoPkg)} {groups : List Str} {u : List (Str × Nat)} {x : Str × Nat} :
    x ∈ groupUpdates db repo groups u ↔ x ∈ u ∨ ∃ g ∈ groups, ∃ p ∈ db, p.2.group = [] ∧ x.1 = p.1 ++ '.' :: g ∧
      ∃ r, mget repo x.1 = some r ∧ r.build = x.2 ∧ ¬ Satisfied db x := by
  have inner : ∀ (g : Str) (l : InstDb) (u : List (Str × Nat)), x ∈ l.foldl (groupStep db repo g) u ↔
      x ∈ u ∨ ∃ p ∈ l, p.2.group = [] ∧ x.1 = p.1 ++ '.' :: g ∧ ∃ r, mget repo x.1 = some r ∧ r.build = x.2 ∧ ¬ Satisfied db x := by
    intro g l
    induction l with
    | nil => simp
    | cons p l ih =>
      intro u
      rw [List.foldl_cons, ih]
      have step : x ∈ groupStep db repo g u p ↔
          x ∈ u ∨ (p.2.group = [] ∧ x.1 = p.1 ++ '.' :: g ∧ ∃ r, mget repo x.1 = some r ∧ r.build = x.2 ∧ ¬ Satisfied db x) := by
        unfold groupStep
        by_cases hg : p.2.group = []
        · rw [if_neg (not_not_intro hg)]
          cases hm : mget repo (p.1 ++ '.' :: g) with
          | none =>
            simp only
            constructor
            · exact Or.inl
            · rintro (h | ⟨_, h2, r, h3, _⟩)
              · exact h
              · rw [h2, hm] at h3; simp at h3
          | some r =>
            simp only
            by_cases hd : dateSame db (p.1 ++ '.' :: g, r.build) = true
            · rw [if_pos hd]
              constructor
              · exact Or.inl
              · rintro (h | ⟨_, h2, r', h3, h4, h5⟩)
                · exact h
                · exfalso
                  rw [h2, hm] at h3
                  injection h3 with h3
                  subst h3
                  apply h5
                  rw [← C25_dependency]
                  have : x = (p.1 ++ '.' :: g, r.build) := Prod.ext h2 h4.symm
                  rw [this]; exact hd
            · rw [if_neg hd, mem_dinsert]
              constructor
              · rintro (rfl | h)
                · exact Or.inr ⟨hg, rfl, r, hm, rfl, fun hs => hd ((C25_dependency db _).mpr hs)⟩
                · exact Or.inl h
              · rintro (h | ⟨_, h2, r', h3, h4, _⟩)
                · exact Or.inr h
                · rw [h2, hm] at h3
                  injection h3 with h3
                  subst h3
                  exact Or.inl (Prod.ext h2 h4.symm)
        · rw [if_pos hg]
          constructor
          · exact Or.inl
          · rintro (h | ⟨h1, _⟩)
            · exact h
            · exact absurd h1 hg
      rw [step]
      simp only [List.mem_cons, exists_eq_or_imp]
      rw [or_assoc]
  have main : ∀ (gs : List Str) (u : List (Str × Nat)), x ∈ groupUpdates db repo gs u ↔ x ∈ u ∨ ∃ g ∈ gs, ∃ p ∈ db, p.2.group = [] ∧ x.1 = p.1 ++ '.' :: g ∧
      ∃ r, mget repo x.1 = some r ∧ r.build = x.2 ∧ ¬ Satisfied db x := by
    intro gs
    induction gs with
    | nil => intro u; simp [groupUpdates]
    | cons g gs ih =>
      intro u
      have e : groupUpdates db repo (g :: gs) u = groupUpdates db repo gs (db.foldl (groupStep db repo g) u) := rfl
      rw [e]
      refine (ih _).trans ?_
      rw [inner]
      simp only [List.mem_cons, exists_eq_or_imp]
      rw [or_assoc]
  exact main groups u

theorem mem_upgradeScan {db : InstDb} {repo : List (Str × RepoPkg)} (l : InstDb) (s : List (Str × Nat) × List Str) :
    (∀ x, x ∈ (l.foldl (scanStep db repo) s).1 ↔
      x ∈ s.1 ∨ (x.1 ∈ keys l ∧ ∃ r, mget repo x.1 = some r ∧ r.build = x.2 ∧ ¬ Satisfied db x)) ∧
    (∀ n, n ∈ (l.foldl (scanStep db repo) s).2 ↔
      n ∈ s.2 ∨ ∃ i, (n, i) ∈ l ∧ i.dependency = true ∧ mget repo n = none) := by
  induction l generalizing s with
  | nil => simp [keys]
  | cons p l ih =>
    rw [List.foldl_cons]
    obtain ⟨h1, h2⟩ := ih (scanStep db repo s p)
    have a1 : ∀ x, x ∈ (scanStep db repo s p).1 ↔
        x ∈ s.1 ∨ (x.1 = p.1 ∧ ∃ r, mget repo x.1 = some r ∧ r.build = x.2 ∧ ¬ Satisfied db x) := by
      intro x
      unfold scanStep
      cases hm : mget repo p.1 with
      | none =>
        simp only
        have : x ∈ s.1 ↔ x ∈ s.1 ∨ (x.1 = p.1 ∧ ∃ r, mget repo x.1 = some r ∧ r.build = x.2 ∧ ¬ Satisfied db x) := by
          constructor
          · exact Or.inl
          · rintro (h | ⟨h, r, h3, _⟩)
            · exact h
            · rw [h, hm] at h3; simp at h3
        split <;> exact this
      | some r =>
        simp only
        by_cases hd : dateSame db (p.1, r.build) = true
        · rw [if_pos hd]
          constructor
          · exact Or.inl
          · rintro (h | ⟨h, r', h3, h4, h5⟩)
            · exact h
            · exfalso
              rw [h, hm] at h3
              injection h3 with h3
              subst h3
              apply h5
              rw [← C25_dependency]
              have : x = (p.1, r.build) := Prod.ext h h4.symm
              rw [this]; exact hd
        · rw [if_neg hd, mem_dinsert]
          constructor
          · rintro (rfl | h)
            · exact Or.inr ⟨rfl, r, hm, rfl, fun hs => hd ((C25_dependency db _).mpr hs)⟩
            · exact Or.inl h
          · rintro (h | ⟨h, r', h3, h4, _⟩)
            · exact Or.inr h
            · rw [h, hm] at h3
              injection h3 with h3
              subst h3
              exact Or.inl (Prod.ext h h4.symm)
    have a2 : ∀ n, n ∈ (scanStep db repo s p).2 ↔
        n ∈ s.2 ∨ (n = p.1 ∧ p.2.dependency = true ∧ mget repo n = none) := by
      intro n
      unfold scanStep
      cases hm : mget repo p.1 with
      | none =>
        simp only
        by_cases hd : p.2.dependency = true
        · rw [if_pos hd]
          simp only [mem_sinsert]
          constructor
          · rintro (h | h)
            · exact Or.inr ⟨h, hd, by rw [h, hm]⟩
            · exact Or.inl h
          · rintro (h | ⟨h, _⟩)
            · exact Or.inr h
            · exact Or.inl h
        · rw [if_neg hd]
          constructor
          · exact Or.inl
          · rintro (h | ⟨_, h, _⟩)
            · exact h
            · exact absurd h hd
      | some r =>
        simp only
        have : n ∈ s.2 ↔ n ∈ s.2 ∨ (n = p.1 ∧ p.2.dependency = true ∧ mget repo n = none) := by
          constructor
          · exact Or.inl
          · rintro (h | ⟨h, _, h3⟩)
            · exact h
            · rw [h, hm] at h3; simp at h3
        split <;> exact this
    refine ⟨?_, ?_⟩
    · intro x
      rw [h1, a1]
      simp only [keys, List.map_cons, List.mem_cons]
      rw [or_assoc, or_and_right]
    · intro n
      rw [h2, a2]
      simp only [List.mem_cons]
      constructor
      · rintro ((h | ⟨rfl, h, h'⟩) | ⟨i, h, h'⟩)
        · exact Or.inl h
        · exact Or.inr ⟨p.2, Or.inl rfl, h, h'⟩
        · exact Or.inr ⟨i, Or.inr h, h'⟩
      · rintro (h | ⟨i, rfl | h, h'⟩)
        · exact Or.inl (Or.inl h)
        · exact Or.inl (Or.inr ⟨rfl, h'⟩)
        · exact Or.inr ⟨i, h, h'⟩

theorem newer_iff {db : InstDb} {repo : List (Str × RepoPkg)} {n : Str} {t : Nat} :
    (∃ r, mget repo n = some r ∧ r.build = t ∧ ¬ Satisfied db (n, t)) ↔ NewerInRepo db repo n t := by
  unfold NewerInRepo Satisfied
  constructor
  · rintro ⟨r, h1, h2, h3⟩
    refine ⟨r, h1, h2, ?_⟩
    by_cases h0 : t = 0
    · exact Or.inl h0
    · exact Or.inr (fun i hi => Nat.lt_of_not_le fun hle => h3 ⟨h0, i, hi, hle⟩)
  · rintro ⟨r, h1, h2, h3⟩
    refine ⟨r, h1, h2, ?_⟩
    rintro ⟨h4, i, h5, h6⟩
    rcases h3 with h3 | h3
    · exact h4 h3
    · exact absurd (h3 i h5) (by simp only at h6; omega)

/-- What the two loops select. -/
theorem upgrade_selected (db : InstDb) (repo : List (Str × RepoPkg)) (groups : List Str) :
    (∀ n t, (n, t) ∈ (upgradeScan db repo (groupUpdates db repo groups [])).1 ↔ ToUpdate db repo groups n t) ∧
    (∀ n, n ∈ (upgradeScan db repo (groupUpdates db repo groups [])).2 ↔ ToDelete db repo n) := by
  obtain ⟨h1, h2⟩ := mem_upgradeScan (db := db) (repo := repo) db (groupUpdates db repo groups [], [])
  refine ⟨?_, ?_⟩
  · intro n t
    unfold upgradeScan
    rw [h1, mem_groupUpdates]
    simp only [List.not_mem_nil, false_or]
    rw [newer_iff]
    unfold ToUpdate GroupOfInstalled
    constructor
    · rintro (⟨g, hg, p, hp, h3, h4, h5⟩ | ⟨h3, h4⟩)
      · exact ⟨h5, Or.inr ⟨p.1, p.2, g, hp, h3, hg, h4⟩⟩
      · exact ⟨h4, Or.inl h3⟩
    · rintro ⟨h, h3 | ⟨base, i, g, h3, h4, h5, h6⟩⟩
      · exact Or.inr ⟨h3, h⟩
      · exact Or.inl ⟨g, h5, (base, i), h3, h4, h6, h⟩
  · intro n
    unfold upgradeScan
    rw [h2]
    simp [ToDelete]

/-- **C29.** When `cards upgrade` goes to work, the packages it updates are exactly the installed ones with a newer build in the repository and the
sub-packages of installed ones for the configured groups that are missing or have a newer build; the packages it deletes are exactly the installed
dependencies that are no longer in the repository. -/
theorem C29_selected {junk : Nat} {o : UpgOpts} {groups : List Str} {diffDb db : InstDb} {repo : List (Str × RepoPkg)} {update : List (Str × Nat)}
    {delete : List Str} (h : upgradePlan junk o groups diffDb db repo = .perform update delete) :
    (∀ n t, (n, t) ∈ update ↔ ToUpdate db repo groups n t) ∧ (∀ n, n ∈ delete ↔ ToDelete db repo n) := by
  unfold upgradePlan at h
  simp only at h
  split at h; · simp at h
  split at h; · simp at h
  split at h; · simp at h
  split at h; · simp at h
  split at h; · simp at h
  split at h; · simp at h
  split at h
  · simp at h
  · injection h with h1 h2
    rw [← h1, ← h2]
    exact upgrade_selected db repo groups

/-- **C29, when.** `cards upgrade` changes something exactly when it is run by root without any of the options that only inform, some installed package
is in the repository, there is something to update or to delete and, without `--proceed`, at least 80 percent of the packages are up to date. -/
theorem C29_when {junk : Nat} {o : UpgOpts} {groups : List Str} {diffDb db : InstDb} {repo : List (Str × RepoPkg)} (hs : MSorted diffDb)
    (hr : ShortReleases diffDb repo) (cls : Str × Inst → UpgStatus) (hc : ∀ p ∈ diffDb, Standing diffDb repo p.1 p.2 (cls p))
    (h0 : diffDb ≠ []) (hn : diffDb.length ≤ 2 ^ 21) :
    (∃ update delete, upgradePlan junk o groups diffDb db repo = .perform update delete) ↔
      o.check = false ∧ o.size = false ∧ o.downloadOnly = false ∧ o.downloadReady = false ∧ o.root = true ∧
      (o.proceed = true ∨ 80 * diffDb.length ≤ 100 * diffDb.countP (fun p => decide (cls p = .ok))) ∧
      (∃ n, n ∈ keys db ∧ n ∈ keys repo) ∧ ((∃ n t, ToUpdate db repo groups n t) ∨ ∃ n, ToDelete db repo n) := by
  obtain ⟨c1, _, _, _, _, c6, _⟩ := C28_counts hs hr cls hc
  have hlim := ratio_limit junk (mkDiff diffDb repo).okCount diffDb.length (List.length_pos_iff.mpr h0) hn (by omega)
  obtain ⟨s1, s2⟩ := upgrade_selected db repo groups
  have hany : db.any (fun p => (mget repo p.1).isSome) = true ↔ ∃ n, n ∈ keys db ∧ n ∈ keys repo := by
    rw [List.any_eq_true]
    constructor
    · rintro ⟨p, h1, h2⟩
      refine ⟨p.1, List.mem_map_of_mem h1, ?_⟩
      rw [mem_keys_iff]
      exact Option.isSome_iff_exists.mp h2
    · rintro ⟨n, h1, h2⟩
      obtain ⟨p, h3, rfl⟩ := List.mem_map.mp h1
      exact ⟨p, h3, Option.isSome_iff_exists.mpr (mem_keys_iff.mp h2)⟩
  have hsel : ¬ ((upgradeScan db repo (groupUpdates db repo groups [])).1 = [] ∧ (upgradeScan db repo (groupUpdates db repo groups [])).2 = []) ↔
      ((∃ n t, ToUpdate db repo groups n t) ∨ ∃ n, ToDelete db repo n) := by
    rw [List.eq_nil_iff_forall_not_mem, List.eq_nil_iff_forall_not_mem]
    constructor
    · intro h
      by_contra hne
      push Not at hne
      exact h ⟨fun x hx => hne.1 x.1 x.2 ((s1 _ _).mp hx), fun n hn' => hne.2 n ((s2 n).mp hn')⟩
    · rintro (⟨n, t, h⟩ | ⟨n, h⟩) ⟨e1, e2⟩
      · exact e1 _ ((s1 n t).mpr h)
      · exact e2 _ ((s2 n).mpr h)
  rw [← hany, ← hsel, ← c1]
  have hl2 : 80 * diffDb.length ≤ 100 * (mkDiff diffDb repo).okCount ↔ ¬ 20 < ratio junk (mkDiff diffDb repo).okCount diffDb.length := by
    rw [hlim]; omega
  rw [hl2]
  unfold upgradePlan
  simp only
  cases o.check
  case true => simp
  cases o.size
  case true => simp
  cases hany' : db.any (fun p => (mget repo p.1).isSome)
  case false => simp; split <;> simp
  cases o.downloadOnly <;> cases o.downloadReady <;> cases o.root <;> cases o.proceed <;>
    (by_cases hrat : 20 < ratio junk (mkDiff diffDb repo).okCount diffDb.length) <;>
    (by_cases hnil : ((upgradeScan db repo (groupUpdates db repo groups [])).1 = [] ∧ (upgradeScan db repo (groupUpdates db repo groups [])).2 = [])) <;>
    simp [hrat, hnil]

/-- **C29, no repository.** When no installed package is in the repository (for example because there is none), nothing is updated or deleted, whatever
the options. -/
theorem C29_no_repository {junk : Nat} {o : UpgOpts} {groups : List Str} {diffDb db : InstDb} {repo : List (Str × RepoPkg)}
    (h : ∀ n, n ∈ keys db → n ∉ keys repo) (update : List (Str × Nat)) (delete : List Str) :
    upgradePlan junk o groups diffDb db repo ≠ .perform update delete := by
  have hany : db.any (fun p => (mget repo p.1).isSome) = false := by
    rw [List.any_eq_false]
    intro p hp hsome
    exact h p.1 (List.mem_map_of_mem hp) (mem_keys_iff.mpr (Option.isSome_iff_exists.mp hsome))
  unfold upgradePlan
  simp only [hany]
  split; · simp
  split; · simp
  split; · simp
  simp

/-- **C29, --check.** The answer is "yes" exactly when some installed package is not up to date with the repository or is not in it. -/
theorem C29_check {junk : Nat} {o : UpgOpts} {groups : List Str} {diffDb db : InstDb} {repo : List (Str × RepoPkg)} (hs : MSorted diffDb)
    (hr : ShortReleases diffDb repo) (ho : o.check = true) :
    ∃ b, upgradePlan junk o groups diffDb db repo = .answer b ∧ (b = true ↔ ∃ n i, (n, i) ∈ diffDb ∧ ¬ Standing diffDb repo n i .ok) := by
  refine ⟨_, by unfold upgradePlan; rw [if_pos ho], ?_⟩
  rw [decide_eq_true_eq]
  obtain ⟨c1, _, _, _, _, _, c7⟩ := C28_counts hs hr (fun p => (dealOf diffDb repo p.1 p.2).status) (fun p hp => standing_dealOf hr hp)
  have hle := List.countP_le_length (l := diffDb) (p := fun p => decide ((dealOf diffDb repo p.1 p.2).status = .ok))
  have hall := List.countP_eq_length (l := diffDb) (p := fun p => decide ((dealOf diffDb repo p.1 p.2).status = .ok))
  constructor
  · intro h
    by_contra hne
    push Not at hne
    have : diffDb.countP (fun p => decide ((dealOf diffDb repo p.1 p.2).status = .ok)) = diffDb.length := by
      rw [hall]
      intro p hp
      rw [decide_eq_true_eq]
      exact standing_unique (standing_dealOf hr hp) (hne p.1 p.2 hp)
    omega
  · rintro ⟨n, i, hi, hn⟩
    by_contra h
    have : diffDb.countP (fun p => decide ((dealOf diffDb repo p.1 p.2).status = .ok)) = diffDb.length := by omega
    rw [hall] at this
    have h2 := this (n, i) hi
    rw [decide_eq_true_eq] at h2
    have h3 := standing_dealOf hr hi
    simp only at h2
    rw [h2] at h3
    exact hn h3

/-- **C29, installation list.** With a repository in order, the packages `cards upgrade` installs are exactly those to update and those they need, each
once, dependencies first. -/
theorem C29_installs_partial {net : Net} {A : Str → ArchMeta} (files : List (Str × Str)) (ho : InOrder net files A) (fuel : Nat)
    (update : List (Str × Nat)) (r r' : RepoSess) (hr : SessOk net A r) (hf : r.files = files) (hl : Ordered net A r.list)
    (h : upgradeList net fuel update r = .ok r') :
    Ordered net A r'.list ∧ ∀ m, m ∈ r'.list.map (·.1) ↔ m ∈ r.list.map (·.1) ∨ ∃ x ∈ update, NeededFor net A x.1 m := by
  unfold upgradeList at h
  induction update generalizing r with
  | nil =>
    have h : r = r' := by simpa [pure, Except.pure] using h
    subst h
    exact ⟨hl, by simp⟩
  | cons x update ih =>
    rw [List.foldlM_cons] at h
    cases h1 : generateDeps net fuel x.1 r with
    | error e => rw [h1] at h; simp [bind, Except.bind] at h
    | ok r1 =>
      rw [h1] at h
      obtain ⟨a1, a2, a3, _, a5⟩ := C22_resolved_partial files ho fuel x.1 r r1 hr hf hl h1
      obtain ⟨b1, b2⟩ := ih r1 a1 a2 a3 h
      refine ⟨b1, fun m => ?_⟩
      rw [b2, a5]
      simp only [List.mem_cons, exists_eq_or_imp]
      rw [or_assoc]

/-! ### Concrete cases -/

def uInst (v : String) (build : Nat) (dep : Bool) : Inst :=
  { version := v.toList, release := 1, build := build, collection := [], group := [], dependency := dep, space := 1000 }
def uPkg (v : String) (build : Nat) : RepoPkg := { defaultPkg with version := v.toList, release := 1, build := build, size := 70, space := 1200 }

/-- `bash` has a new version, `gcc` a new build, `libx` is a dependency gone from the repository, `mine` was installed by hand from elsewhere, `zlib` is
up to date; the French files of `bash` are not installed yet. -/
def uDb : InstDb := [("bash".toList, uInst "5" 10 false), ("gcc".toList, uInst "9" 10 false), ("libx".toList, uInst "1" 10 true),
  ("mine".toList, uInst "1" 10 false), ("zlib".toList, uInst "1" 10 true)]
def uRepo : List (Str × RepoPkg) := [("bash".toList, uPkg "6" 20), ("bash.fr".toList, uPkg "6" 20), ("gcc".toList, uPkg "9" 30), ("zlib".toList, uPkg "1" 10)]
def uOpts : UpgOpts := { check := false, size := false, proceed := true, downloadOnly := false, downloadReady := false, root := true }

example : upgradePlan 0 uOpts ["fr".toList] uDb uDb uRepo =
    .perform [("bash".toList, 20), ("bash.fr".toList, 20), ("gcc".toList, 30)] ["libx".toList] := by decide +kernel
example : upgradePlan 0 { uOpts with proceed := false } ["fr".toList] uDb uDb uRepo = .refused := by decide +kernel
example : MSorted uDb ∧ ShortReleases uDb uRepo := by
  constructor
  · unfold MSorted Sorted; decide +kernel
  · unfold ShortReleases; decide +kernel

/-- `--check` and `--size` do not say whether `cards upgrade` has something to do: they count packages nobody maintains any more, which it leaves
alone, and they do not look at the configured groups. -/
theorem C29_check_counterexample :
    let db : InstDb := [("bash".toList, uInst "5" 10 false), ("mine".toList, uInst "1" 10 false)]
    let repo := [("bash".toList, uPkg "5" 10)]
    let repo' := [("bash".toList, uPkg "5" 10), ("bash.fr".toList, uPkg "5" 10)]
    (upgradePlan 0 { uOpts with check := true } [] db db repo = .answer true ∧ upgradePlan 0 uOpts [] db db repo = .upToDate) ∧
    (upgradePlan 0 { uOpts with check := true } ["fr".toList] (db.take 1) (db.take 1) repo' = .answer false ∧
      upgradePlan 0 uOpts ["fr".toList] (db.take 1) (db.take 1) repo' = .perform [("bash.fr".toList, 10)] []) := by decide +kernel

/-- `--download-only` downloads nothing. -/
theorem C29_download_only_counterexample (junk : Nat) (o : UpgOpts) (groups : List Str) (diffDb db : InstDb) (repo : List (Str × RepoPkg))
    (h : o.downloadOnly = true) (update : List (Str × Nat)) (delete : List Str) : upgradePlan junk o groups diffDb db repo ≠ .perform update delete := by
  unfold upgradePlan
  simp only [h]
  repeat' (split; · simp)
  rename_i hx
  simp at hx

/-- The hypotheses of `C29_installs_partial` are met (`xNet_inOrder`), and this is the list of an upgrade of `ncurses` and `mutt`. -/
example : (upgradeList (xNet xDeps xDeps) 10 [("mutt".toList, 5), ("ncurses".toList, 5)] (xSess xDeps)).toOption.map (fun r => r.list.map (·.1)) =
    some ["zlib".toList, "ncurses".toList, "mutt".toList] := by decide +kernel

/-! ### C49: the announced sizes -/

theorem foldl_size {α : Type} (l : List α) (c : α → Bool) (f : α → Nat) (v : Nat) (h : v + ((l.filter c).map f).sum < 2 ^ 64) :
    l.foldl (fun v p => if c p then (v + f p) % 2 ^ 64 else v) v = v + ((l.filter c).map f).sum := by
  induction l generalizing v with
  | nil => simp
  | cons a l ih =>
    rw [List.foldl_cons]
    cases hc : c a with
    | false =>
      rw [List.filter_cons, hc] at h ⊢
      simp only [Bool.false_eq_true, if_false] at h ⊢
      exact ih v h
    | true =>
      rw [List.filter_cons, hc] at h ⊢
      simp only [if_true, List.map_cons, List.sum_cons] at h ⊢
      rw [Nat.mod_eq_of_lt (by omega), ih _ (by omega)]
      omega

/-- The package is going to be replaced by the one in the repository. -/
def Replaced (s : UpgStatus) : Bool := s = .newBuild || s = .outOfDate

/-- The file size of a package, and the space it takes, according to the repository. -/
def repoSize (repo : List (Str × RepoPkg)) (n : Str) : Nat := ((mget repo n).map (·.size)).getD 0
def repoSpace (repo : List (Str × RepoPkg)) (n : Str) : Nat := ((mget repo n).map (·.space)).getD 0

theorem dealOf_replaced {db : InstDb} {repo : List (Str × RepoPkg)} {n : Str} {i : Inst} :
    (dealOf db repo n i).replaced = Replaced (dealOf db repo n i).status := by
  unfold Deal.replaced Replaced
  rw [Bool.or_comm]

theorem dealOf_sizes {db : InstDb} {repo : List (Str × RepoPkg)} {n : Str} {i : Inst} (h : Replaced (dealOf db repo n i).status = true) :
    (dealOf db repo n i).availableSize = repoSize repo n % 2 ^ 32 ∧ (dealOf db repo n i).availableSpace = repoSpace repo n % 2 ^ 32 ∧
    (dealOf db repo n i).installedSpace = i.space % 2 ^ 32 := by
  unfold dealOf repoSize repoSpace at *
  cases hm : mget repo n with
  | none => rw [hm] at h; cases hd : i.dependency <;> simp [hd, Replaced] at h
  | some p =>
    rw [hm] at h
    simp only at h ⊢
    split
    · rename_i hs; rw [if_pos hs] at h; simp [Replaced] at h
    · simp

/-- The announced sum over the packages in some classes is the sum over these packages, unless it exceeds 64 bits. -/
theorem size_sum {db : InstDb} {repo : List (Str × RepoPkg)} (hs : MSorted db) (hr : ShortReleases db repo) (cls : Str × Inst → UpgStatus)
    (hc : ∀ p ∈ db, Standing db repo p.1 p.2 (cls p)) (c : Deal → Bool) (cc : UpgStatus → Bool) (f : Deal → Nat) (g : Str × Inst → Nat)
    (h1 : ∀ p ∈ db, c (dealOf db repo p.1 p.2) = cc (dealOf db repo p.1 p.2).status)
    (h2 : ∀ p ∈ db, c (dealOf db repo p.1 p.2) = true → f (dealOf db repo p.1 p.2) = g p)
    (hbig : ((db.filter (fun p => cc (cls p))).map g).sum < 2 ^ 64) :
    (mkDiff db repo).deals.foldl (fun v p => if c p.2 then (v + f p.2) % 2 ^ 64 else v) 0 = ((db.filter (fun p => cc (cls p))).map g).sum := by
  rw [(diff_deals repo hs).1, List.foldl_map]
  have e1 : db.filter (fun p => c (dealOf db repo p.1 p.2)) = db.filter (fun p => cc (cls p)) := by
    apply List.filter_congr
    intro p hp
    rw [h1 p hp, standing_unique (standing_dealOf hr hp) (hc p hp)]
  have e2 : (db.filter (fun p => c (dealOf db repo p.1 p.2))).map (fun p => f (dealOf db repo p.1 p.2)) = (db.filter (fun p => cc (cls p))).map g := by
    rw [← e1]
    apply List.map_congr_left
    intro p hp
    obtain ⟨h3, h4⟩ := List.mem_filter.mp hp
    exact h2 p h3 h4
  have := foldl_size db (fun p => c (dealOf db repo p.1 p.2)) (fun p => f (dealOf db repo p.1 p.2)) 0 (by rw [e2]; omega)
  rw [e2] at this
  simpa using this

/-- **C49.** The download size announced is the sum of the sizes of the files of the packages to replace, the size of the reinstalled packages the sum
of the space they take according to the repository. -/
theorem C49_download {db : InstDb} {repo : List (Str × RepoPkg)} (hs : MSorted db) (hr : ShortReleases db repo) (cls : Str × Inst → UpgStatus)
    (hc : ∀ p ∈ db, Standing db repo p.1 p.2 (cls p)) (hsz : ∀ p ∈ db, repoSize repo p.1 < 2 ^ 32 ∧ repoSpace repo p.1 < 2 ^ 32)
    (hbig : ((db.filter (fun p => Replaced (cls p))).map (fun p => repoSize repo p.1)).sum < 2 ^ 64)
    (hbig' : ((db.filter (fun p => Replaced (cls p))).map (fun p => repoSpace repo p.1)).sum < 2 ^ 64) :
    (mkDiff db repo).downloadSize = ((db.filter (fun p => Replaced (cls p))).map (fun p => repoSize repo p.1)).sum ∧
    (mkDiff db repo).addSize = ((db.filter (fun p => Replaced (cls p))).map (fun p => repoSpace repo p.1)).sum := by
  refine ⟨?_, ?_⟩
  · exact size_sum hs hr cls hc Deal.replaced Replaced (·.availableSize) _ (fun p _ => dealOf_replaced)
      (fun p hp h => by rw [dealOf_replaced] at h; rw [(dealOf_sizes h).1, Nat.mod_eq_of_lt (hsz p hp).1]) hbig
  · exact size_sum hs hr cls hc Deal.replaced Replaced (·.availableSpace) _ (fun p _ => dealOf_replaced)
      (fun p hp h => by rw [dealOf_replaced] at h; rw [(dealOf_sizes h).2.1, Nat.mod_eq_of_lt (hsz p hp).2]) hbig'

/-- **C49, removed size.** Without obsolete packages, the size of the removed packages announced is the sum of the space the packages to replace take. -/
theorem C49_removed_partial {db : InstDb} {repo : List (Str × RepoPkg)} (hs : MSorted db) (hr : ShortReleases db repo) (cls : Str × Inst → UpgStatus)
    (hc : ∀ p ∈ db, Standing db repo p.1 p.2 (cls p)) (hsz : ∀ p ∈ db, p.2.space < 2 ^ 32) (hno : ∀ p ∈ db, cls p ≠ .obsolete)
    (hbig : ((db.filter (fun p => Replaced (cls p))).map (fun p => p.2.space)).sum < 2 ^ 64) :
    (mkDiff db repo).removeSize = ((db.filter (fun p => Replaced (cls p))).map (fun p => p.2.space)).sum := by
  have hst : ∀ p ∈ db, (dealOf db repo p.1 p.2).status ≠ .obsolete := fun p hp => by
    rw [standing_unique (standing_dealOf hr hp) (hc p hp)]; exact hno p hp
  refine size_sum hs hr cls hc (fun d => decide (d.status = .obsolete) || d.replaced) Replaced (·.installedSpace) _ ?_ ?_ hbig
  · intro p hp
    simp only [hst p hp, decide_false, Bool.false_or]
    exact dealOf_replaced
  · intro p hp h
    simp only [hst p hp, decide_false, Bool.false_or] at h
    rw [dealOf_replaced] at h
    rw [(dealOf_sizes h).2.2, Nat.mod_eq_of_lt (hsz p hp)]

/-- **C49** is false for obsolete packages: they are removed, but the space they take is counted as 0. -/
theorem C49_obsolete_counterexample : ToDelete uDb uRepo "libx".toList ∧ (mkDiff uDb uRepo).removeSize = 2000 ∧
    (mkDiff (uDb.filter (fun p => p.1 ≠ "libx".toList)) uRepo).removeSize = 2000 := by
  refine ⟨⟨uInst "1" 10 true, ?_, rfl, ?_⟩, ?_, ?_⟩ <;> decide +kernel

example : (mkDiff uDb uRepo).downloadSize = 140 ∧ (mkDiff uDb uRepo).addSize = 2400 := by decide +kernel

end Cards.Props
