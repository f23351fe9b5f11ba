import Verif.Model.GuiJobs
import Mathlib.Tactic.Common
/-!
# C110-C112: the threads of flcards

C110 no freed package is used. C111 one job at a time. C112 the progress window closes when the job is done.
-/
namespace Cards.Props
open Cards

/-! ## Specification -/

/-- A thread has freed the old list and has not yet given the new one to the table. -/
def Loading (s : Wrap) : Prop := ⟨.refresh, 2⟩ ∈ s.workers ∨ ⟨.doJob, 4⟩ ∈ s.workers

/-- The threads that close the progress window when they end. -/
def isCloser (k : JobKind) : Bool := k == .sync || k == .doJob

/-- A thread that works on the packages or on the system (the thread of Sync is done with that before it reports). -/
def atWork (w : Worker) : Bool := !(w.kind == .sync && decide (2 ≤ w.pc))

/-- A schedule in which a thread that was started takes its first step at once. -/
def promptStep (root : Bool) (s : Wrap) (e : WEv) : Wrap :=
  let t := s.step root e
  if s.workers.length < t.workers.length then t.step root (.worker (t.workers.length - 1)) else t

/-- An event at which the main thread reads packages of the table. -/
def readsRows : WEv → Bool
  | .redraw => true
  | .click _ => true
  | _ => false

/-! ## C110 -/

theorem workers_other {l : List Worker} {i j : Nat} {w x : Worker} (hj : l[j]? = some x) (hne : j ≠ i) : x ∈ l.set i w ∧ x ∈ l.eraseIdx i := by
  constructor
  · exact List.mem_of_getElem? (i := j) (by rw [List.getElem?_set_ne (Ne.symm hne)]; exact hj)
  · exact List.mem_eraseIdx_iff_getElem?.mpr ⟨j, hne, hj⟩

theorem start_mem {s : Wrap} {k : JobKind} {x : Worker} {j : Nat} (h : s.workers[j]? = some x) : (s.start k).workers[j]? = some x := by
  unfold Wrap.start
  split
  · exact h
  · have := (List.getElem?_eq_some_iff.mp h).1
    rw [List.getElem?_append_left this]
    exact h

theorem start_fields (s : Wrap) (k : JobKind) : (s.start k).gen = s.gen ∧ (s.start k).rowsGen = s.rowsGen ∧ (s.start k).bad = s.bad ∧ (s.start k).jobsGen = s.jobsGen ∧
    (s.start k).box = s.box ∧ (s.start k).running = s.running ∧ (s.start k).marked = s.marked := by
  unfold Wrap.start
  split <;> exact ⟨rfl, rfl, rfl, rfl, rfl, rfl, rfl⟩

theorem workerStep_workers (root : Bool) (s : Wrap) (w : Worker) :
    (workerStep root s w).1.workers = s.workers ∨ (workerStep root s w).1.workers = (s.start .refresh).workers := by
  obtain ⟨k, pc⟩ := w
  cases k <;> simp only [workerStep]
  · split <;> exact Or.inl rfl
  · split
    · exact Or.inl rfl
    · exact Or.inl rfl
    · cases root
      · exact Or.inl rfl
      · exact Or.inr rfl
    · exact Or.inl rfl
  · split <;> exact Or.inl rfl
  · split <;> exact Or.inl rfl

/-- What a step of a thread does to the lists: a new list only by a thread that is in the window afterwards, and a thread in the window gives the list to the table. -/
theorem workerStep_lists (root : Bool) (s : Wrap) (w : Worker) :
    ((workerStep root s w).1.gen = s.gen ∧ ((workerStep root s w).1.rowsGen = s.rowsGen ∨ (workerStep root s w).1.rowsGen = s.gen) ∧
      (w = ⟨.refresh, 2⟩ ∨ w = ⟨.doJob, 4⟩ → (workerStep root s w).1.rowsGen = s.gen)) ∨
    ((workerStep root s w).2 = some ⟨.refresh, 2⟩ ∨ (workerStep root s w).2 = some ⟨.doJob, 4⟩) := by
  obtain ⟨k, pc⟩ := w
  cases k <;> simp only [workerStep]
  · split <;> simp_all [Wrap.newList]
  · split
    · simp
    · simp
    · cases root
      · simp
      · have := start_fields s .refresh
        simp [this]
    · simp
  · split <;> simp_all [Wrap.newList, Wrap.refreshJobs]
  · split <;> simp_all

theorem loading_inv (root : Bool) (s : Wrap) (e : WEv) (h : s.rowsGen = s.gen ∨ Loading s) : (s.step root e).rowsGen = (s.step root e).gen ∨ Loading (s.step root e) := by
  have hst : ∀ (t : Wrap) (k : JobKind), (t.rowsGen = t.gen ∨ Loading t) → ((t.start k).rowsGen = (t.start k).gen ∨ Loading (t.start k)) := by
    intro t k ht
    obtain ⟨e1, e2, _⟩ := start_fields t k
    rcases ht with ht | ht
    · left; rw [e1, e2]; exact ht
    · right
      unfold Loading at *
      have hsub : ∀ x ∈ t.workers, x ∈ (t.start k).workers := by
        intro x hx
        obtain ⟨j, hj⟩ := List.mem_iff_getElem?.mp hx
        exact List.mem_of_getElem? (start_mem hj)
      rcases ht with ht | ht
      · exact Or.inl (hsub _ ht)
      · exact Or.inr (hsub _ ht)
  cases e with
  | redraw => exact h
  | search =>
    simp only [Wrap.step]
    split
    · exact h
    · exact Or.inl rfl
  | click take =>
    simp only [Wrap.step]
    split
    · exact h
    · apply hst
      cases take with
      | none => exact h
      | some m => exact Or.inl rfl
  | press k =>
    simp only [Wrap.step]
    split
    · exact h
    · exact hst s k h
  | worker i =>
    simp only [Wrap.step]
    cases hw : s.workers[i]? with
    | none => exact h
    | some w =>
      have h1 := workerStep_workers root s w
      have h2 := workerStep_lists root s w
      have hi : ∀ (x : Worker) (j : Nat), s.workers[j]? = some x → (workerStep root s w).1.workers[j]? = some x := by
        intro x j hx
        rcases h1 with h1 | h1
        · rw [h1]; exact hx
        · rw [h1]; exact start_mem hx
      have hlt : i < (workerStep root s w).1.workers.length := (List.getElem?_eq_some_iff.mp (hi w i hw)).1
      have key : ∀ t : Wrap, t.gen = (workerStep root s w).1.gen → t.rowsGen = (workerStep root s w).1.rowsGen →
          (∀ (x : Worker) (j : Nat), s.workers[j]? = some x → j ≠ i → x ∈ t.workers) →
          (∀ w', (workerStep root s w).2 = some w' → w' ∈ t.workers) → (t.rowsGen = t.gen ∨ Loading t) := by
        intro t e1 e2 ho hn
        rcases h2 with ⟨g1, g2, g3⟩ | h2 | h2
        · rw [e1, e2, g1]
          rcases g2 with g2 | g2
          · rcases h with h | h
            · left; rw [g2]; exact h
            · have hx : ∃ x, (x = ⟨.refresh, 2⟩ ∨ x = ⟨.doJob, 4⟩) ∧ x ∈ s.workers := by
                rcases h with h | h
                · exact ⟨_, Or.inl rfl, h⟩
                · exact ⟨_, Or.inr rfl, h⟩
              obtain ⟨x, hx1, hx2⟩ := hx
              obtain ⟨j, hj⟩ := List.mem_iff_getElem?.mp hx2
              by_cases hji : j = i
              · subst hji
                rw [hw] at hj
                cases hj
                exact Or.inl (g3 hx1)
              · right
                have := ho x j hj hji
                rcases hx1 with rfl | rfl
                · exact Or.inl this
                · exact Or.inr this
          · exact Or.inl g2
        · exact Or.inr (Or.inl (hn _ h2))
        · exact Or.inr (Or.inr (hn _ h2))
      simp only
      revert key hi hlt
      generalize workerStep root s w = r
      obtain ⟨t, o⟩ := r
      intro hi hlt key
      cases o with
      | none =>
        refine key _ rfl rfl ?_ (fun w' hw' => absurd hw' nofun)
        intro x j hx hne
        exact (workers_other (w := w) (hi x j hx) hne).2
      | some w' =>
        refine key _ rfl rfl ?_ ?_
        · intro x j hx hne
          exact (workers_other (hi x j hx) hne).1
        · rintro _ ⟨⟩
          exact List.mem_set hlt w'

theorem loading_run (root : Bool) (es : List WEv) (s : Wrap) (h : s.rowsGen = s.gen ∨ Loading s) : (s.run root es).rowsGen = (s.run root es).gen ∨ Loading (s.run root es) := by
  induction es generalizing s with
  | nil => exact h
  | cons e es ih => exact ih _ (loading_inv root s e h)

/-- For every schedule: whenever no list is being loaded, the rows of the table belong to the list in memory. -/
theorem C110_rows_partial (root : Bool) (es : List WEv) (h : ¬ Loading (wrapStart.run root es)) :
    (wrapStart.run root es).rowsGen = (wrapStart.run root es).gen :=
  (loading_run root es wrapStart (Or.inl rfl)).resolve_right h

/-- The loop body: when does an event use freed memory? -/
theorem bad_step (root : Bool) (s : Wrap) (e : WEv) (h : s.bad = false) (h' : (s.step root e).bad = true) :
    (readsRows e = true ∧ s.rowsGen ≠ s.gen) ∨
    (∃ i, e = .worker i ∧ s.workers[i]? = some ⟨.doJob, 1⟩ ∧ ∃ k, s.jobsGen = some k ∧ k ≠ s.gen) := by
  cases e with
  | redraw =>
    left
    refine ⟨rfl, ?_⟩
    simpa [Wrap.step, Wrap.useRows, h] using h'
  | search =>
    simp only [Wrap.step] at h'
    split at h' <;> simp_all
  | click take =>
    left
    refine ⟨rfl, ?_⟩
    simp only [Wrap.step] at h'
    split at h'
    · rw [h] at h'; exact absurd h' (by decide)
    · rw [(start_fields _ _).2.2.1] at h'
      cases take with
      | none => simpa [Wrap.useRows, h] using h'
      | some m => simpa [Wrap.useRows, Wrap.refreshJobs, h] using h'
  | press k =>
    simp only [Wrap.step] at h'
    split at h'
    · rw [h] at h'; exact absurd h' (by decide)
    · have h2 : (s.start k).bad = true := h'
      rw [(start_fields _ _).2.2.1, h] at h2
      exact absurd h2 (by decide)
  | worker i =>
    right
    simp only [Wrap.step] at h'
    cases hw : s.workers[i]? with
    | none => rw [hw] at h'; simp only at h'; rw [h] at h'; exact absurd h' (by decide)
    | some w =>
      rw [hw] at h'
      refine ⟨i, rfl, ?_⟩
      have hb : (workerStep root s w).1.bad = true := by
        revert h'
        simp only
        generalize workerStep root s w = r
        obtain ⟨t, o⟩ := r
        cases o <;> exact id
      obtain ⟨k, pc⟩ := w
      cases k <;> simp only [workerStep] at hb
      · split at hb <;> simp_all [Wrap.newList]
      · split at hb
        · simp_all
        · simp_all
        · cases root
          · simp_all
          · rw [if_pos rfl, (start_fields _ _).2.2.1, h] at hb
            exact absurd hb (by decide)
        · simp_all
      · split at hb <;> simp_all [Wrap.newList, Wrap.refreshJobs]
        next =>
          obtain ⟨k, hk⟩ := Option.isSome_iff_exists.mp hb.1
          exact ⟨k, hk, fun e => hb.2 (by rw [hk, e])⟩
      · split at hb <;> simp_all

/-- For every schedule: freed memory is used only when the table is drawn or clicked while a list is being loaded, or when the thread of "Go !" reads a job list whose packages belong
to an older list. -/
theorem C110_exact (root : Bool) (es : List WEv) (h : (wrapStart.run root es).bad = true) :
    ∃ es1 e es2, es = es1 ++ e :: es2 ∧
      ((readsRows e = true ∧ Loading (wrapStart.run root es1)) ∨
       (∃ i k, e = .worker i ∧ (wrapStart.run root es1).workers[i]? = some ⟨.doJob, 1⟩ ∧ (wrapStart.run root es1).jobsGen = some k ∧ k ≠ (wrapStart.run root es1).gen)) := by
  have key : ∀ (es pre : List WEv), (wrapStart.run root pre).bad = false → (wrapStart.run root (pre ++ es)).bad = true →
      ∃ es1 e es2, pre ++ es = es1 ++ e :: es2 ∧
      ((readsRows e = true ∧ Loading (wrapStart.run root es1)) ∨
       (∃ i k, e = .worker i ∧ (wrapStart.run root es1).workers[i]? = some ⟨.doJob, 1⟩ ∧ (wrapStart.run root es1).jobsGen = some k ∧ k ≠ (wrapStart.run root es1).gen)) := by
    intro es
    induction es with
    | nil =>
      intro pre h1 h2
      rw [List.append_nil, h1] at h2
      exact absurd h2 (by decide)
    | cons e es ih =>
      intro pre h1 h2
      by_cases hb : (wrapStart.run root (pre ++ [e])).bad = true
      · refine ⟨pre, e, es, rfl, ?_⟩
        have hs : wrapStart.run root (pre ++ [e]) = (wrapStart.run root pre).step root e := by
          simp [Wrap.run]
        rw [hs] at hb
        rcases bad_step root _ e h1 hb with ⟨a, b⟩ | ⟨i, a, b, k, c, d⟩
        · exact Or.inl ⟨a, (loading_run root pre wrapStart (Or.inl rfl)).resolve_left b⟩
        · exact Or.inr ⟨i, k, a, b, c, d⟩
      · have := ih (pre ++ [e]) (by simpa using hb) (by rw [List.append_assoc]; exact h2)
        obtain ⟨es1, e', es2, a, b⟩ := this
        exact ⟨es1, e', es2, by rw [← a, List.append_assoc]; rfl, b⟩
  exact key es [] rfl h

/-- The user marks a package, presses "Sync" and, when that is done, "Go !". Each thread ends before the user goes on. -/
def syncThenGo : List WEv :=
  [.worker 0, .worker 0, .worker 0, .worker 0, -- the list is loaded
   .click (some true), .worker 0, .worker 0, -- a package is marked, its information is shown
   .press .sync, .worker 0, .worker 0, .worker 0, .worker 0, .worker 0, .worker 0, .worker 0, .worker 0,
   .press .doJob, .worker 0, .worker 0]

/-- "Sync" frees the packages the job list points to, and leaves the job list and the button "Go !" as they are: "Go !" reads freed memory, though never two threads worked at once. -/
theorem C110_counterexample : (wrapStart.run true (syncThenGo.take 16)).workers = [] ∧ (wrapStart.run true (syncThenGo.take 16)).bad = false ∧
    (wrapStart.run true syncThenGo).bad = true := by decide

/-- The table is drawn while the list is being loaded after "Sync": the window is usable again, and the rows point to freed packages. -/
theorem C110_redraw_counterexample : (wrapStart.run true [.worker 0, .worker 0, .redraw]).bad = true ∧
    (wrapStart.run true [.worker 0, .worker 0, .worker 0, .worker 0, .press .sync, .worker 0, .worker 0, .worker 0, .worker 0, .worker 0, .worker 0]).box = none ∧
    (wrapStart.run true [.worker 0, .worker 0, .worker 0, .worker 0, .press .sync, .worker 0, .worker 0, .worker 0, .worker 0, .worker 0, .worker 0, .redraw]).bad = true := by
  decide

/-! ## C111 -/

/-- The control state when threads start promptly. -/
def Ctl (s : Wrap) : Prop :=
  (s.workers = [] ∧ s.running = false) ∨
  (∃ p, s.workers = [⟨.refresh, p⟩] ∧ 1 ≤ p ∧ p ≤ 3 ∧ s.running = true) ∨
  (s.workers = [⟨.info, 1⟩] ∧ s.running = true) ∨
  (s.workers = [⟨.sync, 1⟩] ∧ s.running = true ∧ s.box.isSome = true) ∨
  (s.workers = [⟨.sync, 2⟩] ∧ s.running = false ∧ s.box.isSome = true) ∨
  (s.workers = [⟨.sync, 3⟩] ∧ s.running = false ∧ s.box.isSome = true) ∨
  (∃ p, s.workers = [⟨.sync, 3⟩, ⟨.refresh, p⟩] ∧ 1 ≤ p ∧ p ≤ 3 ∧ s.running = true ∧ s.box.isSome = true) ∨
  (∃ p, s.workers = [⟨.doJob, p⟩] ∧ 1 ≤ p ∧ p ≤ 8 ∧ (p = 8 → s.running = false) ∧ s.box.isSome = true)

theorem prompt_worker_start {root : Bool} {s : Wrap} {e : WEv} (h : s.workers.length < (s.step root e).workers.length) :
    promptStep root s e = (s.step root e).step root (.worker ((s.step root e).workers.length - 1)) := by
  simp [promptStep, h]

theorem prompt_worker_same {root : Bool} {s : Wrap} {e : WEv} (h : ¬ s.workers.length < (s.step root e).workers.length) :
    promptStep root s e = s.step root e := by
  simp [promptStep, h]

theorem ctl_main (root : Bool) (s : Wrap) (e : WEv) (he : ∀ i, e ≠ .worker i) (h : Ctl s) : Ctl (promptStep root s e) := by
  obtain ⟨run, gen, rg, jg, mk, ws, bx, bd⟩ := s
  have same : ∀ t : Wrap, t.running = run → t.workers = ws → t.box = bx → Ctl t := by
    intro t e1 e2 e3
    unfold Ctl at *
    simp only [e1, e2, e3] at *
    exact h
  -- events that start nothing
  have nost : ∀ t : Wrap, (Wrap.step root ⟨run, gen, rg, jg, mk, ws, bx, bd⟩ e) = t → t.running = run → t.workers = ws → t.box = bx → Ctl (promptStep root ⟨run, gen, rg, jg, mk, ws, bx, bd⟩ e) := by
    intro t e0 e1 e2 e3
    rw [prompt_worker_same (by rw [e0, e2]; simp), e0]
    exact same t e1 e2 e3
  cases e with
  | redraw => exact nost _ rfl rfl rfl rfl
  | search =>
    cases hb : bx with
    | none => subst hb; exact nost _ rfl rfl rfl rfl
    | some k => subst hb; exact nost _ rfl rfl rfl rfl
  | click take =>
    cases hb : bx with
    | some k => subst hb; exact nost _ rfl rfl rfl rfl
    | none =>
      subst hb
      cases hr : run with
      | true =>
        subst hr
        cases take with
        | none => exact nost _ rfl rfl rfl rfl
        | some m => exact nost _ rfl rfl rfl rfl
      | false =>
        subst hr
        have hw : ws = [] := by
          unfold Ctl at h
          simp only [Option.isSome_none] at h
          rcases h with h | ⟨p, h⟩ | h | h | h | h | ⟨p, h⟩ | ⟨p, h⟩
          · exact h.1
          all_goals exact absurd h (by simp)
        subst hw
        have : ∀ t : Wrap, t.running = true → t.workers = [⟨.info, 1⟩] → Ctl t := fun t a b => Or.inr (Or.inr (Or.inl ⟨b, a⟩))
        cases take with
        | none => exact this _ rfl rfl
        | some m => exact this _ rfl rfl
  | press k =>
    by_cases hg : (bx.isSome = true) ∨ (k = .doJob ∧ jg = none) ∨ k = .refresh ∨ k = .info
    · refine nost ⟨run, gen, rg, jg, mk, ws, bx, bd⟩ ?_ rfl rfl rfl
      simp only [Wrap.step]
      rw [if_pos hg]
    · have hb : bx = none := by
        cases bx with
        | none => rfl
        | some k => exact absurd (Or.inl rfl) hg
      subst hb
      have hk : k = .sync ∨ k = .doJob := by cases k <;> simp_all
      cases hr : run with
      | true =>
        subst hr
        have e0 : Wrap.step root ⟨true, gen, rg, jg, mk, ws, none, bd⟩ (.press k) = ⟨true, gen, rg, jg, mk, ws, some k, bd⟩ := by
          simp only [Wrap.step]
          rw [if_neg hg]
          rfl
        rw [prompt_worker_same (by rw [e0]; simp), e0]
        unfold Ctl at *
        simp only [Option.isSome_none, Option.isSome_some] at *
        rcases h with h | ⟨p, h⟩ | h | h | h | h | ⟨p, h⟩ | ⟨p, h⟩
        · exact absurd h.2 (by simp)
        · exact Or.inr (Or.inl ⟨p, h⟩)
        · exact Or.inr (Or.inr (Or.inl h))
        all_goals exact absurd h (by simp)
      | false =>
        subst hr
        have hw : ws = [] := by
          unfold Ctl at h
          simp only [Option.isSome_none] at h
          rcases h with h | ⟨p, h⟩ | h | h | h | h | ⟨p, h⟩ | ⟨p, h⟩
          · exact h.1
          all_goals exact absurd h (by simp)
        subst hw
        have e0 : Wrap.step root ⟨false, gen, rg, jg, mk, [], none, bd⟩ (.press k) = ⟨false, gen, rg, jg, mk, [⟨k, 0⟩], some k, bd⟩ := by
          simp only [Wrap.step]
          rw [if_neg hg]
          rfl
        rw [prompt_worker_start (by rw [e0]; simp), e0]
        rcases hk with rfl | rfl
        · exact Or.inr (Or.inr (Or.inr (Or.inl ⟨rfl, rfl, rfl⟩)))
        · cases root
          · exact Or.inr (Or.inr (Or.inr (Or.inr (Or.inr (Or.inr (Or.inr ⟨6, rfl, by omega, by omega, by simp, rfl⟩))))))
          · exact Or.inr (Or.inr (Or.inr (Or.inr (Or.inr (Or.inr (Or.inr ⟨1, rfl, by omega, by omega, by simp, rfl⟩))))))
  | worker i => exact absurd rfl (he i)

theorem ctl_worker (root : Bool) (s : Wrap) (i : Nat) (h : Ctl s) : Ctl (promptStep root s (.worker i)) := by
  obtain ⟨run, gen, rg, jg, mk, ws, bx, bd⟩ := s
  have hnone : ws[i]? = none → Ctl (promptStep root ⟨run, gen, rg, jg, mk, ws, bx, bd⟩ (.worker i)) := by
    intro hn
    have e0 : Wrap.step root ⟨run, gen, rg, jg, mk, ws, bx, bd⟩ (.worker i) = ⟨run, gen, rg, jg, mk, ws, bx, bd⟩ := by
      simp only [Wrap.step, hn]
    rw [prompt_worker_same (by rw [e0]; simp), e0]
    exact h
  unfold Ctl at h
  simp only at h
  rcases h with ⟨rfl, rfl⟩ | ⟨p, rfl, h1, h2, rfl⟩ | ⟨rfl, rfl⟩ | ⟨rfl, rfl, hb⟩ | ⟨rfl, rfl, hb⟩ | ⟨rfl, rfl, hb⟩ | ⟨p, rfl, h1, h2, rfl, hb⟩ | ⟨p, rfl, h1, h2, h3, hb⟩
  · exact hnone rfl
  · rcases i with _ | i
    · rcases p with _ | _ | _ | _ | p
      · omega
      · exact Or.inr (Or.inl ⟨2, rfl, by omega, by omega, rfl⟩)
      · exact Or.inr (Or.inl ⟨3, rfl, by omega, by omega, rfl⟩)
      · exact Or.inl ⟨rfl, rfl⟩
      · omega
    · exact hnone rfl
  · rcases i with _ | i
    · exact Or.inl ⟨rfl, rfl⟩
    · exact hnone rfl
  · rcases i with _ | i
    · exact Or.inr (Or.inr (Or.inr (Or.inr (Or.inl ⟨rfl, rfl, hb⟩))))
    · exact hnone rfl
  · rcases i with _ | i
    · cases root
      · exact Or.inr (Or.inr (Or.inr (Or.inr (Or.inr (Or.inl ⟨rfl, rfl, hb⟩)))))
      · exact Or.inr (Or.inr (Or.inr (Or.inr (Or.inr (Or.inr (Or.inl ⟨1, rfl, by omega, by omega, rfl, hb⟩))))))
    · exact hnone rfl
  · rcases i with _ | i
    · exact Or.inl ⟨rfl, rfl⟩
    · exact hnone rfl
  · rcases i with _ | _ | i
    · exact Or.inr (Or.inl ⟨p, rfl, h1, h2, rfl⟩)
    · rcases p with _ | _ | _ | _ | p
      · omega
      · exact Or.inr (Or.inr (Or.inr (Or.inr (Or.inr (Or.inr (Or.inl ⟨2, rfl, by omega, by omega, rfl, hb⟩))))))
      · exact Or.inr (Or.inr (Or.inr (Or.inr (Or.inr (Or.inr (Or.inl ⟨3, rfl, by omega, by omega, rfl, hb⟩))))))
      · exact Or.inr (Or.inr (Or.inr (Or.inr (Or.inr (Or.inl ⟨rfl, rfl, hb⟩)))))
      · omega
    · exact hnone rfl
  · rcases i with _ | i
    · have next : ∀ (q : Nat) (t : Wrap), t.workers = [⟨.doJob, q⟩] → 1 ≤ q → q ≤ 8 → (q = 8 → t.running = false) → t.box = bx → Ctl t := by
        intro q t a b c d e
        exact Or.inr (Or.inr (Or.inr (Or.inr (Or.inr (Or.inr (Or.inr ⟨q, a, b, c, d, by rw [e]; exact hb⟩))))))
      rcases p with _ | _ | _ | _ | _ | _ | _ | _ | _ | p
      · omega
      · exact next 2 _ rfl (by omega) (by omega) (by omega) rfl
      · exact next 3 _ rfl (by omega) (by omega) (by omega) rfl
      · exact next 4 _ rfl (by omega) (by omega) (by omega) rfl
      · exact next 5 _ rfl (by omega) (by omega) (by omega) rfl
      · exact next 6 _ rfl (by omega) (by omega) (by omega) rfl
      · exact next 7 _ rfl (by omega) (by omega) (by omega) rfl
      · exact next 8 _ rfl (by omega) (by omega) (fun _ => rfl) rfl
      · exact Or.inl ⟨rfl, h3 rfl⟩
      · omega
    · exact hnone rfl

/-- When a thread that was started takes its first step before anything else happens, at most one thread works at any time. -/
theorem C111_prompt_partial (root : Bool) (es : List WEv) :
    (((.worker 0 :: es).foldl (promptStep root) wrapStart).workers.filter atWork).length ≤ 1 := by
  have hc : ∀ (es : List WEv) (s : Wrap), Ctl s → Ctl (es.foldl (promptStep root) s) := by
    intro es
    induction es with
    | nil => exact fun s h => h
    | cons e es ih =>
      intro s h
      refine ih _ ?_
      by_cases he : ∃ i, e = .worker i
      · obtain ⟨i, rfl⟩ := he
        exact ctl_worker root s i h
      · exact ctl_main root s e (fun i hi => he ⟨i, hi⟩) h
  have h := hc es (promptStep root wrapStart (.worker 0)) (Or.inr (Or.inl ⟨1, rfl, by omega, by omega, rfl⟩))
  rw [List.foldl_cons]
  generalize es.foldl (promptStep root) (promptStep root wrapStart (.worker 0)) = s at h
  rcases h with ⟨e, _⟩ | ⟨p, e, _⟩ | ⟨e, _⟩ | ⟨e, _⟩ | ⟨e, _⟩ | ⟨e, _⟩ | ⟨p, e, _⟩ | ⟨p, e, _⟩ <;> rw [e] <;> simp [atWork]

/-- Such schedules are schedules of the program. -/
theorem prompt_is_run (root : Bool) (es : List WEv) : ∃ fs, es.foldl (promptStep root) wrapStart = wrapStart.run root fs := by
  have : ∀ (es : List WEv) (s : Wrap), ∃ fs, es.foldl (promptStep root) s = s.run root fs := by
    intro es
    induction es with
    | nil => exact fun s => ⟨[], rfl⟩
    | cons e es ih =>
      intro s
      obtain ⟨fs, hfs⟩ := ih (promptStep root s e)
      rw [List.foldl_cons, hfs]
      by_cases h : s.workers.length < (s.step root e).workers.length
      · rw [prompt_worker_start h]
        exact ⟨e :: .worker ((s.step root e).workers.length - 1) :: fs, rfl⟩
      · rw [prompt_worker_same h]
        exact ⟨e :: fs, rfl⟩
  exact this es wrapStart

/-- The flag is set by the thread, not by the one who starts it: a click on a package followed at once by "Go !" starts two threads, and so do "Go !" after "Sync" before the new list is
begun. Both work at the same time. -/
theorem C111_counterexample :
    (wrapStart.run true [.worker 0, .worker 0, .worker 0, .worker 0, .click (some true), .press .doJob, .worker 0, .worker 1]).workers = [⟨.info, 1⟩, ⟨.doJob, 1⟩] ∧
    ((wrapStart.run true [.worker 0, .worker 0, .worker 0, .worker 0, .click (some true), .worker 0, .worker 0, .press .sync, .worker 0, .worker 0, .worker 0, .worker 0,
      .press .doJob, .worker 1, .worker 0, .worker 0]).workers.filter atWork).length = 2 := by decide

/-! ## C112 -/

def closers (s : Wrap) : Nat := (s.workers.map (·.kind)).countP isCloser

/-- How many steps the threads can still take. -/
def stepsLeft (w : Worker) : Nat :=
  match w.kind with
  | .refresh => 4 - min w.pc 3
  | .info => 2 - min w.pc 1
  | .sync => (4 - min w.pc 3) + (if w.pc ≤ 2 then 4 else 0)
  | .doJob => 9 - min w.pc 8

def allLeft (s : Wrap) : Nat := (s.workers.map stepsLeft).sum

/-- The steps of threads in a schedule that really happen. -/
def moves (root : Bool) (s : Wrap) : List WEv → Nat
  | [] => 0
  | e :: es => (match e with | .worker i => if i < s.workers.length then 1 else 0 | _ => 0) + moves root (s.step root e) es

theorem countP_eraseIdx' {α : Type} (p : α → Bool) : ∀ (l : List α) (i : Nat) (x : α), l[i]? = some x → l.countP p = (l.eraseIdx i).countP p + if p x then 1 else 0
  | [], i, x, h => by simp at h
  | y :: l, 0, x, h => by
    simp only [List.getElem?_cons_zero, Option.some.injEq] at h
    subst h
    simp [List.countP_cons]
  | y :: l, i + 1, x, h => by
    have := countP_eraseIdx' p l i x (by simpa using h)
    simp only [List.eraseIdx_cons_succ, List.countP_cons, this]
    omega

theorem sum_eraseIdx (f : Worker → Nat) : ∀ (l : List Worker) (i : Nat) (x : Worker), l[i]? = some x → (l.map f).sum = ((l.eraseIdx i).map f).sum + f x
  | [], i, x, h => by simp at h
  | y :: l, 0, x, h => by
    simp only [List.getElem?_cons_zero, Option.some.injEq] at h
    subst h
    simp [Nat.add_comm]
  | y :: l, i + 1, x, h => by
    have := sum_eraseIdx f l i x (by simpa using h)
    simp only [List.eraseIdx_cons_succ, List.map_cons, List.sum_cons, this]
    omega

theorem sum_setIdx (f : Worker → Nat) (y : Worker) : ∀ (l : List Worker) (i : Nat) (x : Worker), l[i]? = some x → ((l.set i y).map f).sum + f x = (l.map f).sum + f y
  | [], i, x, h => by simp at h
  | z :: l, 0, x, h => by
    simp only [List.getElem?_cons_zero, Option.some.injEq] at h
    subst h
    simp only [List.set_cons_zero, List.map_cons, List.sum_cons]
    omega
  | z :: l, i + 1, x, h => by
    have := sum_setIdx f y l i x (by simpa using h)
    simp only [List.set_cons_succ, List.map_cons, List.sum_cons]
    omega

theorem map_eraseIdx' (f : Worker → JobKind) : ∀ (l : List Worker) (i : Nat), (l.map f).eraseIdx i = (l.eraseIdx i).map f
  | [], _ => rfl
  | _ :: _, 0 => rfl
  | x :: l, i + 1 => by simp only [List.map_cons, List.eraseIdx_cons_succ, map_eraseIdx' f l i]

theorem kinds_set {l : List Worker} {i : Nat} {x y : Worker} (h : l[i]? = some x) (hk : y.kind = x.kind) : (l.set i y).map (·.kind) = l.map (·.kind) := by
  apply List.ext_getElem?
  intro j
  rw [List.getElem?_map, List.getElem?_map, List.getElem?_set]
  split
  · next e =>
    subst e
    rw [h]
    have := (List.getElem?_eq_some_iff.mp h).1
    simp [this, hk]
  · rfl

theorem start_closers (s : Wrap) (k : JobKind) (hk : isCloser k = false) : closers (s.start k) = closers s := by
  unfold closers Wrap.start
  split
  · rfl
  · simp [List.countP_append, hk]

theorem start_left (s : Wrap) (k : JobKind) : allLeft (s.start k) ≤ allLeft s + stepsLeft ⟨k, 0⟩ := by
  unfold allLeft Wrap.start
  split
  · omega
  · simp

/-- One step of a thread: the kind stays, the window is closed just when a closing thread ends, the steps left get fewer. -/
theorem workerStep_ctl (root : Bool) (s : Wrap) (w : Worker) :
    closers (workerStep root s w).1 = closers s ∧
    (match (workerStep root s w).2 with
      | some w' => w'.kind = w.kind ∧ (workerStep root s w).1.box = s.box ∧ allLeft (workerStep root s w).1 + stepsLeft w' < allLeft s + stepsLeft w
      | none => (workerStep root s w).1.box = (if isCloser w.kind then none else s.box) ∧ allLeft (workerStep root s w).1 = allLeft s ∧ 0 < stepsLeft w) := by
  obtain ⟨k, pc⟩ := w
  cases k
  · simp only [workerStep]
    rcases pc with _ | _ | _ | pc <;> refine ⟨rfl, ?_⟩
    · exact ⟨rfl, rfl, by simp [stepsLeft, allLeft]⟩
    · exact ⟨rfl, rfl, by simp [stepsLeft, allLeft, Wrap.newList]⟩
    · exact ⟨rfl, rfl, by simp [stepsLeft, allLeft]⟩
    · exact ⟨rfl, rfl, by simp only [stepsLeft]; omega⟩
  · simp only [workerStep]
    rcases pc with _ | _ | _ | pc
    · exact ⟨rfl, rfl, rfl, by simp [stepsLeft, allLeft]⟩
    · exact ⟨rfl, rfl, rfl, by simp [stepsLeft, allLeft]⟩
    · cases root
      · exact ⟨rfl, rfl, rfl, by simp [stepsLeft]⟩
      · refine ⟨start_closers s .refresh rfl, rfl, (start_fields s .refresh).2.2.2.2.1, ?_⟩
        have h1 := start_left s .refresh
        have h2 : stepsLeft ⟨.refresh, 0⟩ = 4 := rfl
        have h3 : stepsLeft ⟨.sync, 2⟩ = 6 := rfl
        have h4 : stepsLeft ⟨.sync, 3⟩ = 1 := rfl
        simp only [if_true]
        show allLeft (s.start .refresh) + stepsLeft ⟨.sync, 3⟩ < allLeft s + stepsLeft ⟨.sync, 2⟩
        omega
    · exact ⟨rfl, rfl, rfl, by simp only [stepsLeft]; omega⟩
  · simp only [workerStep]
    rcases pc with _ | _ | _ | _ | _ | _ | _ | _ | pc <;> refine ⟨rfl, ?_⟩
    · cases root
      · exact ⟨rfl, rfl, by simp [stepsLeft, allLeft]⟩
      · exact ⟨rfl, rfl, by simp [stepsLeft, allLeft]⟩
    · exact ⟨rfl, rfl, by simp [stepsLeft, allLeft]⟩
    · exact ⟨rfl, rfl, by simp [stepsLeft, allLeft]⟩
    · exact ⟨rfl, rfl, by simp [stepsLeft, allLeft, Wrap.newList]⟩
    · exact ⟨rfl, rfl, by simp [stepsLeft, allLeft]⟩
    · exact ⟨rfl, rfl, by simp [stepsLeft, allLeft]⟩
    · exact ⟨rfl, rfl, by simp [stepsLeft, allLeft, Wrap.refreshJobs]⟩
    · exact ⟨rfl, rfl, by simp [stepsLeft, allLeft]⟩
    · exact ⟨rfl, rfl, by simp only [stepsLeft]; omega⟩
  · simp only [workerStep]
    rcases pc with _ | pc <;> refine ⟨rfl, ?_⟩
    · exact ⟨rfl, rfl, by simp [stepsLeft, allLeft]⟩
    · exact ⟨rfl, rfl, by simp only [stepsLeft]; omega⟩

/-- The step of thread `i` in the whole. -/
theorem step_worker_ctl (root : Bool) (s : Wrap) (i : Nat) (w : Worker) (hw : s.workers[i]? = some w) :
    allLeft (s.step root (.worker i)) < allLeft s ∧
    ((closers (s.step root (.worker i)) = closers s ∧ (s.step root (.worker i)).box = s.box) ∨
     (closers s = closers (s.step root (.worker i)) + 1 ∧ (s.step root (.worker i)).box = none)) := by
  have h1 := workerStep_workers root s w
  have hi : (workerStep root s w).1.workers[i]? = some w := by
    rcases h1 with h1 | h1
    · rw [h1]; exact hw
    · rw [h1]; exact start_mem hw
  have h2 := workerStep_ctl root s w
  simp only [Wrap.step, hw]
  revert hi h2
  generalize workerStep root s w = r
  obtain ⟨t, o⟩ := r
  intro hi h2
  cases o with
  | some w' =>
    obtain ⟨c1, k1, b1, l1⟩ := h2
    refine ⟨?_, Or.inl ⟨?_, b1⟩⟩
    · have := sum_setIdx stepsLeft w' t.workers i w hi
      simp only [allLeft] at *
      omega
    · rw [← c1]
      simp only [closers]
      rw [kinds_set hi k1]
  | none =>
    obtain ⟨c1, b1, l1, l2⟩ := h2
    refine ⟨?_, ?_⟩
    · have := sum_eraseIdx stepsLeft t.workers i w hi
      simp only [allLeft] at *
      omega
    · have he := countP_eraseIdx' isCloser (t.workers.map (·.kind)) i w.kind (by rw [List.getElem?_map, hi]; rfl)
      rw [map_eraseIdx'] at he
      have c1' : (t.workers.map (·.kind)).countP isCloser = closers s := c1
      rw [c1'] at he
      by_cases hc : isCloser w.kind = true
      · right
        rw [if_pos hc] at he b1
        exact ⟨he, b1⟩
      · left
        rw [if_neg hc] at he b1
        exact ⟨he.symm, b1⟩

theorem useRows_closers (s : Wrap) : closers s.useRows = closers s := rfl

/-- At most one closing thread, and the window is open while there is one. -/
theorem closers_inv (root : Bool) (s : Wrap) (e : WEv) (h : closers s ≤ 1 ∧ (1 ≤ closers s → s.box.isSome = true)) :
    closers (s.step root e) ≤ 1 ∧ (1 ≤ closers (s.step root e) → (s.step root e).box.isSome = true) := by
  cases e with
  | redraw => exact h
  | search =>
    simp only [Wrap.step]
    split
    · exact h
    · exact h
  | click take =>
    simp only [Wrap.step]
    split
    · exact h
    · rw [start_closers _ _ rfl, (start_fields _ _).2.2.2.2.1]
      cases take <;> exact h
  | press k =>
    simp only [Wrap.step]
    split
    · exact h
    · next hg =>
      have h0 : closers s = 0 := by
        rcases Nat.eq_zero_or_pos (closers s) with h0 | h0
        · exact h0
        · exact absurd (Or.inl (h.2 h0)) hg
      refine ⟨?_, fun _ => rfl⟩
      show closers (s.start k) ≤ 1
      unfold closers Wrap.start at *
      split
      · omega
      · simp only [List.map_append, List.countP_append, List.map_cons, List.map_nil, List.countP_cons, List.countP_nil]
        split <;> omega
  | worker i =>
    cases hw : s.workers[i]? with
    | none =>
      simp only [Wrap.step, hw]
      exact h
    | some w =>
      rcases (step_worker_ctl root s i w hw).2 with ⟨a, b⟩ | ⟨a, b⟩
      · rw [a, b]; exact h
      · constructor
        · omega
        · intro hh
          omega

theorem closers_run (root : Bool) (es : List WEv) : closers (wrapStart.run root es) ≤ 1 ∧ (1 ≤ closers (wrapStart.run root es) → (wrapStart.run root es).box.isSome = true) := by
  have : ∀ (es : List WEv) (s : Wrap), (closers s ≤ 1 ∧ (1 ≤ closers s → s.box.isSome = true)) → closers (s.run root es) ≤ 1 ∧ (1 ≤ closers (s.run root es) → (s.run root es).box.isSome = true) := by
    intro es
    induction es with
    | nil => exact fun s h => h
    | cons e es ih => exact fun s h => ih _ (closers_inv root s e h)
  exact this es wrapStart ⟨by decide, by decide⟩

/-- While the window is open, no event but the steps of threads changes anything of this. -/
theorem open_step (root : Bool) (s : Wrap) (e : WEv) (ho : s.box.isSome = true) (he : ∀ i, e ≠ .worker i) :
    (s.step root e).workers = s.workers ∧ (s.step root e).box = s.box := by
  cases e with
  | redraw => exact ⟨rfl, rfl⟩
  | search => simp only [Wrap.step, ho]; exact ⟨rfl, rfl⟩
  | click take => simp only [Wrap.step, ho]; exact ⟨rfl, rfl⟩
  | press k => simp only [Wrap.step, ho]; simp
  | worker i => exact absurd rfl (he i)

/-- "Sync" or "Go !" pressed while no thread is running: whatever happens then, as long as the progress window is open there is a thread that will close it, and the threads have only so
many steps left. When all threads have ended the window is closed. -/
theorem C112_closes_partial (root : Bool) (es : List WEv) (k : JobKind) (hk : k = .sync ∨ k = .doJob ∧ (wrapStart.run root es).jobsGen ≠ none)
    (hb : (wrapStart.run root es).box = none) (hr : (wrapStart.run root es).running = false) (fs : List WEv)
    (ho : ∀ gs, gs <+: fs → (((wrapStart.run root es).step root (.press k)).run root gs).box.isSome = true) :
    (∃ w ∈ (((wrapStart.run root es).step root (.press k)).run root fs).workers, w.kind = .sync ∨ w.kind = .doJob) ∧
    moves root ((wrapStart.run root es).step root (.press k)) fs ≤ allLeft ((wrapStart.run root es).step root (.press k)) := by
  have hstart : 1 ≤ closers ((wrapStart.run root es).step root (.press k)) := by
    simp only [Wrap.step, hb]
    rw [if_neg (by rcases hk with rfl | ⟨rfl, hj⟩ <;> simp_all)]
    show 1 ≤ closers ((wrapStart.run root es).start k)
    unfold closers Wrap.start
    rw [hr, if_neg (by decide)]
    simp only [List.map_append, List.countP_append, List.map_cons, List.map_nil, List.countP_cons, List.countP_nil]
    rcases hk with rfl | ⟨rfl, _⟩ <;> simp [isCloser]
  revert ho hstart
  generalize (wrapStart.run root es).step root (.press k) = s
  clear hb hr hk
  intro ho hstart
  have key : ∀ (fs : List WEv) (s : Wrap), (∀ gs, gs <+: fs → (s.run root gs).box.isSome = true) → 1 ≤ closers s →
      1 ≤ closers (s.run root fs) ∧ moves root s fs ≤ allLeft s := by
    intro fs
    induction fs with
    | nil => exact fun s _ h => ⟨h, Nat.zero_le _⟩
    | cons e fs ih =>
      intro s ho h
      have ho0 : s.box.isSome = true := ho [] (List.nil_prefix)
      have ho1 : (s.step root e).box.isSome = true := ho [e] ⟨fs, rfl⟩
      have hrec := ih (s.step root e) (fun gs hg => ho (e :: gs) (List.cons_prefix_cons.mpr ⟨rfl, hg⟩))
      by_cases he : ∃ i, e = .worker i
      · obtain ⟨i, rfl⟩ := he
        cases hw : s.workers[i]? with
        | none =>
          have e0 : s.step root (.worker i) = s := by simp only [Wrap.step, hw]
          rw [e0] at hrec
          have hm : moves root s (.worker i :: fs) = moves root s fs := by
            have hlt : ¬ i < s.workers.length := by
              intro hlt
              rw [List.getElem?_eq_getElem hlt] at hw
              exact absurd hw (by simp)
            simp only [moves, e0, if_neg hlt, Nat.zero_add]
          rw [hm]
          have e1 : s.run root (.worker i :: fs) = s.run root fs := by
            show (s.step root (.worker i)).run root fs = _
            rw [e0]
          rw [e1]
          exact hrec h
        | some w =>
          obtain ⟨hl, hc⟩ := step_worker_ctl root s i w hw
          have hc' : 1 ≤ closers (s.step root (.worker i)) := by
            rcases hc with ⟨a, _⟩ | ⟨_, b⟩
            · omega
            · rw [b] at ho1; exact absurd ho1 (by decide)
          obtain ⟨r1, r2⟩ := hrec hc'
          refine ⟨r1, ?_⟩
          simp only [moves]
          split <;> omega
      · obtain ⟨a, b⟩ := open_step root s e ho0 (fun i hi => he ⟨i, hi⟩)
        have hc' : 1 ≤ closers (s.step root e) := by unfold closers; rw [a]; exact h
        obtain ⟨r1, r2⟩ := hrec hc'
        refine ⟨r1, ?_⟩
        have : allLeft (s.step root e) = allLeft s := by unfold allLeft; rw [a]
        cases e <;> simp only [moves] <;> first | omega | exact absurd ⟨_, rfl⟩ he
  obtain ⟨h1, h2⟩ := key fs s ho hstart
  refine ⟨?_, h2⟩
  unfold closers at h1
  obtain ⟨k', hk', hc⟩ := List.countP_pos_iff.mp h1
  obtain ⟨w, hw, rfl⟩ := List.mem_map.mp hk'
  refine ⟨w, hw, ?_⟩
  simpa [isCloser] using hc

/-- "Sync" or "Go !" pressed while a thread is running (the list is being loaded, the information of a package is being fetched): nothing is started, and the progress window stays open
for ever, whatever happens. It is modal and cannot be closed. -/
theorem C112_stuck (root : Bool) (es : List WEv) (k : JobKind) (hk : k = .sync ∨ k = .doJob ∧ (wrapStart.run root es).jobsGen ≠ none)
    (hb : (wrapStart.run root es).box = none) (hr : (wrapStart.run root es).running = true) (fs : List WEv) :
    (((wrapStart.run root es).step root (.press k)).run root fs).box = some k := by
  have hst : (wrapStart.run root es).step root (.press k) = { (wrapStart.run root es) with box := some k } := by
    simp only [Wrap.step, hb]
    rw [if_neg (by rcases hk with rfl | ⟨rfl, hj⟩ <;> simp_all)]
    unfold Wrap.start
    rw [if_pos hr]
  rw [hst]
  have hc : closers ({ (wrapStart.run root es) with box := some k } : Wrap) = 0 := by
    have := (closers_run root es).2
    rcases Nat.eq_zero_or_pos (closers (wrapStart.run root es)) with h0 | h0
    · exact h0
    · have := this h0
      rw [hb] at this
      exact absurd this (by decide)
  have key : ∀ (fs : List WEv) (s : Wrap), closers s = 0 → s.box = some k → (s.run root fs).box = some k := by
    intro fs
    induction fs with
    | nil => exact fun s _ h => h
    | cons e fs ih =>
      intro s h1 h2
      show ((s.step root e).run root fs).box = some k
      by_cases he : ∃ i, e = .worker i
      · obtain ⟨i, rfl⟩ := he
        cases hw : s.workers[i]? with
        | none =>
          have e0 : s.step root (.worker i) = s := by simp only [Wrap.step, hw]
          rw [e0]
          exact ih s h1 h2
        | some w =>
          rcases (step_worker_ctl root s i w hw).2 with ⟨a, b⟩ | ⟨a, _⟩
          · exact ih _ (a.trans h1) (b.trans h2)
          · omega
      · obtain ⟨a, b⟩ := open_step root s e (by rw [h2]; rfl) (fun i hi => he ⟨i, hi⟩)
        exact ih _ (by unfold closers; rw [a]; exact h1) (b.trans h2)
  exact key fs _ hc rfl

/-! ## Examples -/

/-- "Sync" pressed while the list is loaded at the start of the program. -/
example : (wrapStart.run true [.worker 0]).box = none ∧ (wrapStart.run true [.worker 0]).running = true := by decide

/-- The hypotheses of `C112_closes_partial`: the list is loaded, a package is marked, its information was shown; then "Go !". -/
example : (wrapStart.run true (syncThenGo.take 7)).box = none ∧ (wrapStart.run true (syncThenGo.take 7)).running = false ∧
    (wrapStart.run true (syncThenGo.take 7)).jobsGen ≠ none ∧
    (((wrapStart.run true (syncThenGo.take 7)).step true (.press .doJob)).run true [.worker 0, .worker 0, .redraw, .worker 0]).box.isSome = true ∧
    (((wrapStart.run true (syncThenGo.take 7)).step true (.press .doJob)).run true (List.replicate 9 (.worker 0))).box = none ∧
    allLeft ((wrapStart.run true (syncThenGo.take 7)).step true (.press .doJob)) = 9 := by decide

example : ¬ Loading (wrapStart.run true (syncThenGo.take 16)) ∧ (wrapStart.run true (syncThenGo.take 16)).gen = 2 := by
  unfold Loading
  decide

/-- **C111, after "Go !".** When the thread of "Go !" runs alone to its end, from whatever state: no thread is left and the program is ready, the progress window is closed, the rows belong to the list in memory, and the job list is
empty or belongs to it too; as root it is empty, for the list was loaded anew. -/
theorem C111_after_go (root : Bool) (s : Wrap) (hw : s.workers = [⟨.doJob, 0⟩]) :
    let t := s.run root (List.replicate 9 (.worker 0))
    t.workers = [] ∧ t.running = false ∧ t.box = none ∧ t.rowsGen = t.gen ∧ (t.jobsGen = none ∨ t.jobsGen = some t.gen) ∧ (root = true → t.jobsGen = none ∧ t.gen = s.gen + 1) := by
  obtain ⟨r, g, rg, jg, m, ws, b, bad⟩ := s
  simp only at hw
  subst hw
  cases root <;> cases m <;> simp [Wrap.run, List.replicate, Wrap.step, workerStep, Wrap.refreshJobs, Wrap.newList]

end Cards.Props
