import Verif.Model.Progress
/-!
# C116, C117: progress display
-/
namespace Cards.Props
open Cards

/-- Numbers that are percentages, not falling, the last one 100. -/
def IsProgress (l : List Nat) : Prop := l.Pairwise (· ≤ ·) ∧ (∀ x ∈ l, x ≤ 100) ∧ l.getLast? = some 100

/-- The operations as a command does them: an archive without lines in its `.MTREE` is refused before (/repo/src/pkgdbh.cxx:1129-1132). -/
def POp.ok : POp → Prop
  | .install _ n => n ≠ 0
  | _ => True

theorem showEvents_append {step} (a b : List PEv) (j : Nat) :
    showEvents step (a ++ b) j = (showEvents step a j).bind (fun r => (showEvents step b r.1).map (fun q => (q.1, r.2 ++ q.2))) := by
  induction a generalizing j with
  | nil => simp only [List.nil_append, showEvents, Option.bind_some]; cases showEvents step b j <;> simp
  | cons e a ih =>
    simp only [List.cons_append, showEvents]
    cases step j e with
    | none => rfl
    | some r =>
      obtain ⟨j', v⟩ := r
      simp only [ih]
      cases showEvents step a j' with
      | none => rfl
      | some r' =>
        simp only [Option.bind_some]
        cases showEvents step b r'.1 with
        | none => rfl
        | some q => simp

theorem showEvents_map {step} (n : Nat) (ev : Nat → PEv) (g : Nat → Nat → Nat) (h : ∀ j i, i < n → step j (ev i) = some (j + 1, some (g j i))) (j : Nat) :
    showEvents step ((List.range n).map ev) j = some (j + n, (List.range n).map (fun i => g (j + i) i)) := by
  have main : ∀ m, m ≤ n → showEvents step ((List.range m).map ev) j = some (j + m, (List.range m).map (fun i => g (j + i) i)) := by
    intro m
    induction m with
    | zero => intro _; rfl
    | succ m ih =>
      intro hm
      rw [List.range_succ, List.map_append, List.map_append, showEvents_append, ih (by omega)]
      simp only [Option.bind_some, List.map_cons, List.map_nil, showEvents, h _ _ (show m < n by omega)]
      simp [Nat.add_assoc]
  exact main n (Nat.le_refl _)

/-- What the console shows for each operation, from any value of the counter. -/
theorem conShow (o : POp) (ho : POp.ok o) (j : Nat) : ∃ j', showEvents conStep o.events j = some (j', match o with
    | .openDb n => (List.range n).map (fun i => (j + i + 1) * 100 / n) ++ [100]
    | .install e n => (List.range e).map (fun i => i * 100 / n) ++ [100]
    | .remove f _ => (List.range f).map (fun i => (i + 1) * 100 / f) ++ [100]) ∧ (∀ n, o = .openDb n → j' = 0) := by
  cases o with
  | openDb n =>
    refine ⟨0, ?_, fun _ _ => rfl⟩
    simp only [POp.events, showEvents_append]
    rw [showEvents_map n (fun _ => PEv.openRun n) (fun j _ => (j + 1) * 100 / n) (fun j i hi => by simp only [conStep]; rw [if_neg (by omega)])]
    rfl
  | install e n =>
    have hn : n ≠ 0 := ho
    refine ⟨0 + e, ?_, fun _ h => by simp at h⟩
    simp only [POp.events, List.cons_append, showEvents, conStep, showEvents_append]
    rw [showEvents_map e (fun d => PEv.instRun d n) (fun _ d => d * 100 / n) (fun j i hi => by simp only [conStep]; rw [if_neg hn])]
    simp
  | remove f k =>
    refine ⟨0 + f, ?_, fun _ h => by simp at h⟩
    simp only [POp.events, List.cons_append, showEvents, conStep, showEvents_append]
    rw [showEvents_map f (fun _ => PEv.rmRun f k) (fun j _ => (j + 1) * 100 / f) (fun j i hi => by simp only [conStep]; rw [if_neg (by omega)])]
    simp

theorem isProgress_of (n : Nat) (g : Nat → Nat) (hm : ∀ a b, a ≤ b → g a ≤ g b) (hb : ∀ i, i < n → g i ≤ 100) :
    IsProgress ((List.range n).map g ++ [100]) := by
  refine ⟨?_, ?_, by simp⟩
  · rw [List.pairwise_append]
    refine ⟨?_, by simp, ?_⟩
    · rw [List.pairwise_map]
      exact (List.pairwise_lt_range).imp (fun h => hm _ _ (Nat.le_of_lt h))
    · intro a ha b hb'
      obtain ⟨i, hi, rfl⟩ := List.mem_map.mp ha
      rw [List.mem_singleton] at hb'
      subst hb'
      exact hb i (List.mem_range.mp hi)
  · intro x hx
    rcases List.mem_append.mp hx with h | h
    · obtain ⟨i, hi, rfl⟩ := List.mem_map.mp h
      exact hb i (List.mem_range.mp hi)
    · rw [List.mem_singleton] at h; omega

/-- The console shows a proper progress for an operation done with that counter. -/
def Proper (j : Nat) : POp → Prop
  | .openDb _ => j = 0
  | .install e n => e ≤ n + 1
  | .remove _ _ => True

theorem conShow_proper (o : POp) (ho : POp.ok o) (j : Nat) (hp : Proper j o) :
    ∃ j' vs, showEvents conStep o.events j = some (j', vs) ∧ IsProgress vs ∧ (∀ n, o = .openDb n → j' = 0) := by
  obtain ⟨j', h1, h2⟩ := conShow o ho j
  refine ⟨j', _, h1, ?_, h2⟩
  cases o with
  | openDb n =>
    have hj : j = 0 := hp
    subst hj
    apply isProgress_of n (fun i => (0 + i + 1) * 100 / n)
    · intro a b h; exact Nat.div_le_div_right (by omega)
    · intro i hi
      apply Nat.div_le_of_le_mul
      omega
  | install e n =>
    have he : e ≤ n + 1 := hp
    apply isProgress_of e (fun i => i * 100 / n)
    · intro a b h; exact Nat.div_le_div_right (by omega)
    · intro i hi
      apply Nat.div_le_of_le_mul
      omega
  | remove f k =>
    apply isProgress_of f (fun i => (i + 1) * 100 / f)
    · intro a b h; exact Nat.div_le_div_right (by omega)
    · intro i hi
      apply Nat.div_le_of_le_mul
      omega

/-- **C116, never killed.** On the console the display never divides by zero, whatever is opened, installed and removed in which order. -/
theorem C116_never_killed (os : List POp) (h : ∀ o ∈ os, POp.ok o) (j : Nat) : (showOps conStep os j).isSome = true := by
  induction os generalizing j with
  | nil => rfl
  | cons o os ih =>
    obtain ⟨j', h1, _⟩ := conShow o (h o (by simp)) j
    simp only [showOps, h1, Option.isSome_map]
    exact ih (fun o ho => h o (by simp [ho])) j'

/-- **C116, percentages.** A process that opens the database once, before it installs and removes as much as it likes, shows for each operation
percentages up to 100 that do not fall, the last one 100 - provided no archive has more entries than its `.MTREE` has lines, but for one. -/
theorem C116_percentages_partial (n : Nat) (os : List POp) (h : ∀ o ∈ os, POp.ok o) (h1 : ∀ m, .openDb m ∉ os)
    (h2 : ∀ e l, .install e l ∈ os → e ≤ l + 1) :
    ∃ vss, showOps conStep (.openDb n :: os) 0 = some vss ∧ vss.length = os.length + 1 ∧ ∀ vs ∈ vss, IsProgress vs := by
  have main : ∀ (os : List POp) (j : Nat), (∀ o ∈ os, POp.ok o) → (∀ m, .openDb m ∉ os) → (∀ e l, .install e l ∈ os → e ≤ l + 1) →
      ∃ vss, showOps conStep os j = some vss ∧ vss.length = os.length ∧ ∀ vs ∈ vss, IsProgress vs := by
    intro os
    induction os with
    | nil => intro j _ _ _; exact ⟨[], rfl, rfl, by simp⟩
    | cons o os ih =>
      intro j hok hno hle
      have hp : Proper j o := by
        cases o with
        | openDb m => exact absurd (List.mem_cons_self ..) (hno m)
        | install e l => exact hle e l (List.mem_cons_self ..)
        | remove f k => trivial
      obtain ⟨j', vs, a1, a2, _⟩ := conShow_proper o (hok o (by simp)) j hp
      obtain ⟨vss, b1, b2, b3⟩ := ih j' (fun o ho => hok o (by simp [ho])) (fun m hm => hno m (by simp [hm])) (fun e l hm => hle e l (by simp [hm]))
      refine ⟨vs :: vss, by simp [showOps, a1, b1], by simp [b2], ?_⟩
      intro x hx
      rcases List.mem_cons.mp hx with rfl | hx
      · exact a2
      · exact b3 x hx
  obtain ⟨j', vs, a1, a2, _⟩ := conShow_proper (.openDb n) trivial 0 rfl
  obtain ⟨vss, b1, b2, b3⟩ := main os j' h h1 h2
  refine ⟨vs :: vss, by simp [showOps, a1, b1], by simp [b2], ?_⟩
  intro x hx
  rcases List.mem_cons.mp hx with rfl | hx
  · exact a2
  · exact b3 x hx

/-- **C116 fails** for an archive with more entries than lines in its `.MTREE`: the percentage goes beyond 100, then back. -/
theorem C116_entries_counterexample : showOps conStep [.openDb 1, .install 4 2] 0 = some [[100, 100], [0, 50, 100, 150, 100]] := by decide

/-- **C116 fails** for a second database in the same process after a removal: the counter is not set back. -/
theorem C116_second_counterexample : showOps conStep [.openDb 1, .remove 3 0, .openDb 2] 0 =
    some [[100, 100], [33, 66, 100, 100], [200, 250, 100]] := by decide

/-- The hypotheses of `C116_percentages_partial`. -/
example : (∀ o ∈ [POp.install 3 2, .remove 5 7], POp.ok o) ∧ (∀ m, POp.openDb m ∉ [POp.install 3 2, .remove 5 7]) ∧
    (∀ e l, POp.install e l ∈ [POp.install 3 2, .remove 5 7] → e ≤ l + 1) := by
  refine ⟨?_, by simp, ?_⟩
  · intro o ho
    simp only [List.mem_cons, List.not_mem_nil, or_false] at ho
    rcases ho with rfl | rfl <;> simp [POp.ok]
  · intro e l h
    simp at h
    omega

/-! ## flcards -/

/-- **C117, exactly when.** Opening the database kills flcards exactly when there are packages, but less than hundred. -/
theorem C117_killed_exact (n j : Nat) : showEvents guiStep (POp.openDb n).events j = none ↔ 0 < n ∧ n < 100 := by
  simp only [POp.events]
  by_cases h0 : n = 0
  · subst h0; simp [showEvents, guiStep]
  · by_cases h1 : n < 100
    · obtain ⟨m, rfl⟩ : ∃ m, n = m + 1 := ⟨n - 1, by omega⟩
      rw [List.range_succ_eq_map]
      simp only [List.map_cons, List.cons_append, showEvents, guiStep]
      rw [if_pos (by omega)]
      simp; omega
    · rw [showEvents_append, showEvents_map n (fun _ => PEv.openRun n) (fun j _ => j / (n / 100))
        (fun j i hi => by simp only [guiStep]; rw [if_neg (by omega)])]
      simp only [Option.bind_some, showEvents, guiStep, Option.map_some, reduceCtorEq, false_iff]
      omega

/-- **C117, the others.** Installing and removing never kills flcards by its display. -/
theorem C117_others (o : POp) (h : ∀ n, o ≠ .openDb n) (j : Nat) : (showEvents guiStep o.events j).isSome = true := by
  cases o with
  | openDb n => exact absurd rfl (h n)
  | install e n =>
    simp only [POp.events, List.cons_append, showEvents, guiStep, showEvents_append]
    rw [showEvents_map e (fun d => PEv.instRun d n) (fun j d => if 100 < n then d / (n / 100) else j) (fun j i hi => rfl)]
    rfl
  | remove f k =>
    simp only [POp.events, List.cons_append, showEvents, guiStep, showEvents_append]
    rw [showEvents_map f (fun _ => PEv.rmRun f k) (fun j _ => if 100 < k then j / (k / 100) else j) (fun j i hi => rfl)]
    rfl

/-- **C117 fails.** With 99 packages installed, flcards dies when it opens the database for "Go !"; with 199 the bar goes up to 198. -/
theorem C117_counterexample : showOps guiStep [.openDb 99] 0 = none ∧
    ∃ vs, showOps guiStep [.openDb 199] 0 = some [vs] ∧ 198 ∈ vs := by
  refine ⟨by decide +kernel, ?_⟩
  have : showEvents guiStep (POp.openDb 199).events 0 = some (199, (List.range 199).map (fun i => (0 + i) / (199 / 100)) ++ [0]) := by
    simp only [POp.events, showEvents_append]
    rw [showEvents_map 199 (fun _ => PEv.openRun 199) (fun j _ => j / (199 / 100)) (fun j i hi => by simp only [guiStep]; rw [if_neg (by omega)])]
    rfl
  refine ⟨(List.range 199).map (fun i => (0 + i) / (199 / 100)) ++ [0], by simp only [showOps, this, Option.map_some], ?_⟩
  simp only [List.mem_append, List.mem_map, List.mem_range]
  exact Or.inl ⟨198, by omega, by omega⟩

/-- **C117, percentages.** The first database flcards opens shows percentages when the number of packages is a multiple of hundred. -/
theorem C117_percentages_partial (n : Nat) (hm : n % 100 = 0) :
    ∃ j vs, showEvents guiStep (POp.openDb n).events 0 = some (j, vs) ∧ ∀ x ∈ vs, x ≤ 100 := by
  simp only [POp.events, showEvents_append]
  rw [showEvents_map n (fun _ => PEv.openRun n) (fun j _ => j / (n / 100)) (fun j i hi => by simp only [guiStep]; rw [if_neg (by omega)])]
  refine ⟨_, _, rfl, ?_⟩
  intro x hx
  rcases List.mem_append.mp hx with h | h
  · obtain ⟨i, hi, rfl⟩ := List.mem_map.mp h
    have := List.mem_range.mp hi
    apply Nat.div_le_of_le_mul
    omega
  · simp at h; omega

end Cards.Props
