import Mathlib.Tactic.Common
import Verif.Model.BuildLog
/-!
# C102, C103: the log of a build is what the build printed
-/
namespace Cards.Props
open Cards

/-- What holds at every moment. -/
structure LogInv (s : LogRun) : Prop where
  order : s.written = s.log ++ s.pipe
  open_alive : s.childOpen = true → s.alive = true
  ask : s.pc = .waiting → s.log = [] ∨ (s.pipe = [] ∧ s.childOpen = false ∧ s.helpers = 0)
  fin : s.pc = .done → s.log = [] ∨ (s.pipe = [] ∧ s.childOpen = false ∧ s.helpers = 0)
  screen : '\x00' ∉ s.written → s.shown = s.log

theorem asCString_all {s : Str} (h : '\x00' ∉ s) : asCString s = s := by
  unfold asCString
  induction s with
  | nil => rfl
  | cons c s ih =>
    have hc : c ≠ '\x00' := by rintro rfl; exact h (List.mem_cons_self ..)
    rw [List.takeWhile_cons, if_pos (by simp [hc]), ih fun hm => h (List.mem_cons_of_mem _ hm)]

theorem parent_inv {s s' : LogRun} (h : LogInv s) (e : parentStep s = some s') : LogInv s' := by
  unfold parentStep at e
  split at e
  · rename_i hp
    cases e
    split
    · exact ⟨h.order, h.open_alive, by simp, by simp, h.screen⟩
    · exact ⟨h.order, h.open_alive, by simp, fun _ => h.ask hp, h.screen⟩
  · rename_i hp
    split at e
    · cases e
      refine ⟨?_, h.open_alive, fun x => ?_, fun x => ?_, fun hz => ?_⟩
      · simp only
        rw [h.order, List.append_assoc, List.take_append_drop]
      · simp only [hp] at x; cases x
      · simp only [hp] at x; cases x
      · simp only at hz ⊢
        rw [h.screen hz, asCString_all]
        intro hm
        apply hz
        rw [h.order]
        exact List.mem_append_right _ (List.mem_of_mem_take hm)
    · rename_i hne
      split at e
      · rename_i hc
        cases e
        exact ⟨h.order, h.open_alive, fun _ => Or.inr ⟨not_not.mp hne, hc⟩, by simp, h.screen⟩
      · cases e
  · cases e

theorem child_inv {cap : Nat} {a : ChildAct} {s s' : LogRun} (h : LogInv s) (e : childStep cap a s = some s') : LogInv s' := by
  have noMem : ∀ w, '\x00' ∉ s.written ++ w → '\x00' ∉ s.written := fun w hz hm => hz (List.mem_append_left _ hm)
  cases a with
  | write w =>
    simp only [childStep] at e
    split at e
    · rename_i hc
      cases e
      have no : ¬ (s.pipe = [] ∧ s.childOpen = false ∧ s.helpers = 0) := by rintro ⟨_, h2, _⟩; rw [hc.2.1] at h2; cases h2
      exact ⟨by simp only; rw [h.order, List.append_assoc], h.open_alive, fun hp => Or.inl ((h.ask hp).resolve_right no), fun hp => Or.inl ((h.fin hp).resolve_right no),
        fun hz => h.screen (noMem w hz)⟩
    · cases e
  | start =>
    simp only [childStep] at e
    split at e
    · rename_i hc
      cases e
      have no : ¬ (s.pipe = [] ∧ s.childOpen = false ∧ s.helpers = 0) := by rintro ⟨_, h2, _⟩; rw [hc.2] at h2; cases h2
      exact ⟨h.order, h.open_alive, fun hp => Or.inl ((h.ask hp).resolve_right no), fun hp => Or.inl ((h.fin hp).resolve_right no), h.screen⟩
    · cases e
  | close =>
    simp only [childStep] at e
    split at e
    · cases e
      exact ⟨h.order, by simp, fun hp => (h.ask hp).imp id fun x => ⟨x.1, rfl, x.2.2⟩, fun hp => (h.fin hp).imp id fun x => ⟨x.1, rfl, x.2.2⟩, h.screen⟩
    · cases e
  | exit =>
    simp only [childStep] at e
    split at e
    · cases e
      exact ⟨h.order, by simp, fun hp => (h.ask hp).imp id fun x => ⟨x.1, rfl, x.2.2⟩, fun hp => (h.fin hp).imp id fun x => ⟨x.1, rfl, x.2.2⟩, h.screen⟩
    · cases e
  | helperWrite w =>
    simp only [childStep] at e
    split at e
    · rename_i hc
      cases e
      have no : ¬ (s.pipe = [] ∧ s.childOpen = false ∧ s.helpers = 0) := by rintro ⟨_, _, h3⟩; omega
      exact ⟨by simp only; rw [h.order, List.append_assoc], h.open_alive, fun hp => Or.inl ((h.ask hp).resolve_right no), fun hp => Or.inl ((h.fin hp).resolve_right no),
        fun hz => h.screen (noMem w hz)⟩
    · cases e
  | helperEnd =>
    simp only [childStep] at e
    split at e
    · rename_i hc
      cases e
      have no : ¬ (s.pipe = [] ∧ s.childOpen = false ∧ s.helpers = 0) := by rintro ⟨_, _, h3⟩; omega
      exact ⟨h.order, h.open_alive, fun hp => Or.inl ((h.ask hp).resolve_right no), fun hp => Or.inl ((h.fin hp).resolve_right no), h.screen⟩
    · cases e

theorem exec_inv {cap : Nat} : ∀ {es : List LogEv} {s s' : LogRun}, LogInv s → logExec cap es s = some s' → LogInv s' := by
  intro es
  induction es with
  | nil => intro s s' h e; cases e; exact h
  | cons a es ih =>
    intro s s' h e
    rw [logExec, Option.bind_eq_some_iff] at e
    obtain ⟨m, h1, h2⟩ := e
    refine ih ?_ h2
    cases a with
    | parent => exact parent_inv h h1
    | child a => exact child_inv h h1

theorem start_inv : LogInv logStart := ⟨rfl, by simp [logStart], by simp [logStart], by simp [logStart], by simp [logStart]⟩

/-- **C102**: under every schedule, at every moment the log is a beginning of what the build has printed: nothing is lost in between, doubled or out of order. -/
theorem C102_in_order (cap : Nat) (es : List LogEv) (s : LogRun) (h : logExec cap es logStart = some s) : s.log <+: s.written :=
  ⟨s.pipe, (exec_inv start_inv h).order.symm⟩

/-- **C103**: without the character NUL, the screen shows what is in the log. -/
theorem C103_screen_partial (cap : Nat) (es : List LogEv) (s : LogRun) (h : logExec cap es logStart = some s) (hz : '\x00' ∉ s.written) : s.shown = s.log :=
  (exec_inv start_inv h).screen hz

/-- **C102**: in the end the log is complete, or it is empty: there is nothing in between. -/
theorem C102_all_or_nothing (cap : Nat) (es : List LogEv) (s : LogRun) (h : logExec cap es logStart = some s) (hd : s.pc = .done) : s.log = s.written ∨ s.log = [] := by
  have inv := exec_inv start_inv h
  rcases inv.fin hd with e | ⟨e, _⟩
  · exact Or.inr e
  · left
    have := inv.order
    rw [e, List.append_nil] at this
    exact this.symm

/-- What holds once the parent has seen the child alive. -/
structure SeenInv (s : LogRun) : Prop where
  order : s.written = s.log ++ s.pipe
  rest : s.pc ≠ .reading → s.pipe = [] ∧ s.childOpen = false ∧ s.helpers = 0

theorem seen_step {cap : Nat} {a : LogEv} {s s' : LogRun} (h : SeenInv s) (e : logStep cap a s = some s') : SeenInv s' := by
  cases a with
  | parent =>
    simp only [logStep, parentStep] at e
    split at e
    · rename_i hp
      have hr := h.rest (by rw [hp]; simp)
      cases e
      split <;> exact ⟨h.order, fun _ => hr⟩
    · rename_i hp
      split at e
      · cases e
        refine ⟨?_, fun x => absurd hp x⟩
        simp only
        rw [h.order, List.append_assoc, List.take_append_drop]
      · rename_i hne
        split at e
        · rename_i hc
          cases e
          exact ⟨h.order, fun _ => ⟨not_not.mp hne, hc⟩⟩
        · cases e
    · cases e
  | child a =>
    cases a with
    | write w =>
      simp only [logStep, childStep] at e
      split at e
      · rename_i hc
        cases e
        refine ⟨by simp only; rw [h.order, List.append_assoc], fun hp => ?_⟩
        have := (h.rest hp).2.1
        rw [hc.2.1] at this; cases this
      · cases e
    | start =>
      simp only [logStep, childStep] at e
      split at e
      · rename_i hc
        cases e
        refine ⟨h.order, fun hp => ?_⟩
        have := (h.rest hp).2.1
        rw [hc.2] at this; cases this
      · cases e
    | close =>
      simp only [logStep, childStep] at e
      split at e
      · cases e; exact ⟨h.order, fun hp => ⟨(h.rest hp).1, rfl, (h.rest hp).2.2⟩⟩
      · cases e
    | exit =>
      simp only [logStep, childStep] at e
      split at e
      · cases e; exact ⟨h.order, fun hp => ⟨(h.rest hp).1, rfl, (h.rest hp).2.2⟩⟩
      · cases e
    | helperWrite w =>
      simp only [logStep, childStep] at e
      split at e
      · rename_i hc
        cases e
        refine ⟨by simp only; rw [h.order, List.append_assoc], fun hp => ?_⟩
        have := (h.rest hp).2.2
        omega
      · cases e
    | helperEnd =>
      simp only [logStep, childStep] at e
      split at e
      · rename_i hc
        cases e
        refine ⟨h.order, fun hp => ?_⟩
        have := (h.rest hp).2.2
        omega
      · cases e

theorem seen_exec {cap : Nat} : ∀ {es : List LogEv} {s s' : LogRun}, SeenInv s → logExec cap es s = some s' → SeenInv s' := by
  intro es
  induction es with
  | nil => intro s s' h e; cases e; exact h
  | cons a es ih =>
    intro s s' h e
    rw [logExec, Option.bind_eq_some_iff] at e
    obtain ⟨m, h1, h2⟩ := e
    exact ih (seen_step h h1) h2

theorem exec_append {cap : Nat} : ∀ (xs ys : List LogEv) (s : LogRun), logExec cap (xs ++ ys) s = (logExec cap xs s).bind (logExec cap ys) := by
  intro xs
  induction xs with
  | nil => intro ys s; rfl
  | cons a xs ih =>
    intro ys s
    rw [List.cons_append, logExec, logExec]
    cases logStep cap a s with
    | none => rfl
    | some m => exact ih ys m

/-- Only the child and its helpers go, so nothing is read and nothing asked. -/
theorem child_only {cap : Nat} : ∀ (es : List LogEv), LogEv.parent ∉ es → ∀ s s', logExec cap es s = some s' → s'.pc = s.pc ∧ s'.log = s.log := by
  intro es
  induction es with
  | nil => intro _ s s' e; cases e; exact ⟨rfl, rfl⟩
  | cons a es ih =>
    intro hn s s' e
    rw [logExec, Option.bind_eq_some_iff] at e
    obtain ⟨m, h1, h2⟩ := e
    obtain ⟨i1, i2⟩ := ih (fun hm => hn (List.mem_cons_of_mem _ hm)) m s' h2
    rw [i1, i2]
    cases a with
    | parent => exact absurd (List.mem_cons_self ..) hn
    | child a => cases a <;> (simp only [logStep, childStep] at h1; split at h1 <;> cases h1; exact ⟨rfl, rfl⟩)

/-- **C102**: if the build still runs when `cards` asks for it for the first time, the log is complete in the end, with all that the processes it has left behind have
printed. -/
theorem C102_complete (cap : Nat) (es es' : List LogEv) (m s : LogRun) (hn : LogEv.parent ∉ es) (hm : logExec cap es logStart = some m) (ha : m.alive = true)
    (h : logExec cap (es ++ LogEv.parent :: es') logStart = some s) (hd : s.pc = .done) : s.log = s.written := by
  rw [exec_append, hm] at h
  simp only [Option.bind_some] at h
  obtain ⟨h1, h2⟩ := child_only es hn _ _ hm
  rw [logExec, logStep, parentStep, h1] at h
  simp only [logStart] at h
  rw [if_pos ha, Option.bind_some] at h
  have inv : SeenInv { m with pc := .reading } := ⟨(exec_inv start_inv hm).order, fun x => absurd rfl x⟩
  have fin := seen_exec inv h
  rw [fin.order, (fin.rest (by rw [hd]; simp)).1, List.append_nil]

/-- **C102**: `cards` never waits without need: it can go on, or some process can still print. -/
theorem C102_waits_for_someone (cap : Nat) (es : List LogEv) (s : LogRun) (_ : logExec cap es logStart = some s) (hd : s.pc ≠ .done) :
    (parentStep s).isSome ∨ (s.pc = .reading ∧ s.pipe = [] ∧ (s.childOpen = true ∨ 0 < s.helpers)) := by
  unfold parentStep
  cases hp : s.pc with
  | waiting => left; simp
  | done => exact absurd hp hd
  | reading =>
    simp only
    by_cases h1 : s.pipe = []
    · rw [if_neg (by simp [h1])]
      by_cases h2 : s.childOpen = false ∧ s.helpers = 0
      · rw [if_pos h2]; left; rfl
      · right
        refine ⟨by simp, h1, ?_⟩
        cases h3 : s.childOpen with
        | true => exact Or.inl rfl
        | false =>
          right
          rcases Nat.eq_zero_or_pos s.helpers with h4 | h4
          · exact absurd ⟨h3, h4⟩ h2
          · exact h4
    · rw [if_pos h1]; left; rfl

/-! ## Examples -/

/-- The build prints, starts a helper and ends; the helper prints the rest. -/
def goodLogRun : List LogEv := [.child (.write "cc".toList), .parent, .parent, .child .start, .child .exit, .child (.helperWrite "ok".toList), .child .helperEnd, .parent, .parent, .parent]

example : (logExec 65536 goodLogRun logStart).map (fun s => (s.pc, s.log, s.shown)) = some (.done, "ccok".toList, "ccok".toList) := by decide +kernel

example : LogEv.parent ∉ goodLogRun.take 1 ∧ (logExec 65536 (goodLogRun.take 1) logStart).map (·.alive) = some true := by decide +kernel

/-! ## Where it fails -/

/-- **C103, counterexample**: a build that ends before `cards` asks for it the first time (an error at once) leaves nothing in the log and on the screen. -/
theorem C103_counterexample_fast : (logExec 65536 [.child (.write "Pkgfile: bad name".toList), .child .exit, .parent] logStart).map (fun s => (s.pc, s.log, s.shown, s.written)) =
    some (.done, [], [], "Pkgfile: bad name".toList) := by decide +kernel

/-- **C103, counterexample**: what follows a NUL is in the log and not on the screen. -/
theorem C103_counterexample_nul : (logExec 65536 [.parent, .child (.write ['a', '\x00', 'b']), .child .exit, .parent, .parent, .parent] logStart).map (fun s => (s.pc, s.log, s.shown)) =
    some (.done, ['a', '\x00', 'b'], ['a']) := by decide +kernel

/-- **C103, counterexample**: the build has ended, but `cards` waits for a process it has left behind. -/
theorem C103_counterexample_left_behind : ∃ s, logExec 65536 [.parent, .child .start, .child .exit] logStart = some s ∧ s.alive = false ∧ parentStep s = none := ⟨_, rfl, rfl, rfl⟩

/-- **C103**: exactly the first ports of a collection get a log: as many as there are descriptors left. -/
theorem C103_logs_exact : ∀ (ports : List Str) (limit used : Nat), logsOpened limit used ports = ports.take (limit - used) := by
  intro ports
  induction ports with
  | nil => intro l u; simp [logsOpened]
  | cons p ps ih =>
    intro l u
    rw [logsOpened]
    split
    · rename_i h
      obtain ⟨k, hk⟩ : ∃ k, l - u = k + 1 := ⟨l - u - 1, by omega⟩
      rw [hk, List.take_succ_cons, ih]
      congr 2
      omega
    · rename_i h
      rw [show l - u = 0 by omega, List.take_zero]

/-- **C103, counterexample**: whatever the limit, in a collection of more ports the log of one cannot be opened, and `cards create` ends there. -/
theorem C103_counterexample_descriptors (limit used : Nat) (ports : List Str) (h : limit - used < ports.length) : ∃ p, logsOpened limit used ports ++ [p] <+: ports := by
  rw [C103_logs_exact]
  refine ⟨ports[limit - used], ports.drop (limit - used + 1), ?_⟩
  rw [List.append_assoc, List.singleton_append, List.getElem_cons_drop, List.take_append_drop]

example : logsOpened 5 3 ["a".toList, "b".toList, "c".toList] = ["a".toList, "b".toList] := by decide

end Cards.Props
