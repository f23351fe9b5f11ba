import Verif.Lemmas.Jobs
/-!
# `cards install` and `cards upgrade` as sequences of packages handled
-/
namespace Cards
open Spec

theorem seqSteps_cons {α : Type} {f : α → InstSt → InstSt × Option InstErr} {x : α} {xs : List α} {s r : InstSt} :
    seqSteps f (x :: xs) s = (r, none) ↔ (f x s).2 = none ∧ seqSteps f xs (f x s).1 = (r, none) := by
  simp only [seqSteps]
  cases h : f x s with
  | mk st' e => cases e <;> simp

/-- Steps that only resolve leave the process alone. -/
def Quiet {α : Type} (f : α → InstSt → InstSt × Option InstErr) : Prop := ∀ x s, (f x s).1.st = s.st ∧ (f x s).1.count = s.count

theorem quiet_seq {α : Type} {f : α → InstSt → InstSt × Option InstErr} (h : Quiet f) (xs : List α) (s : InstSt) :
    (seqSteps f xs s).1.st = s.st ∧ (seqSteps f xs s).1.count = s.count := by
  induction xs generalizing s with
  | nil => exact ⟨rfl, rfl⟩
  | cons x xs ih =>
    have hx := h x s
    simp only [seqSteps]
    cases hf : f x s with
    | mk s' e =>
      rw [hf] at hx
      cases e with
      | some e => exact hx
      | none => simp only; rw [(ih s').1, (ih s').2]; exact hx

theorem quiet_resolveArg (E : InstEnv) : Quiet (resolveArg E) := by
  intro n s; unfold resolveArg; split <;> exact ⟨rfl, rfl⟩

theorem quiet_prefetch (E : InstEnv) : Quiet (prefetch E) := by
  intro n s; unfold prefetch
  split
  · exact ⟨rfl, rfl⟩
  · split
    · exact ⟨rfl, rfl⟩
    · split <;> exact ⟨rfl, rfl⟩

theorem quiet_members (E : InstEnv) : Quiet (fun i s => if s.st.nameExists i then (s, none) else resolveArg E i s) := by
  intro n s; simp only; split
  · exact ⟨rfl, rfl⟩
  · exact quiet_resolveArg E n s

theorem quiet_addGroupPackages (E : InstEnv) (s : InstSt) :
    (addGroupPackages E s).1.st = s.st ∧ (addGroupPackages E s).1.count = s.count := by
  unfold addGroupPackages
  have h1 := quiet_seq (quiet_prefetch E) (groupNames E s.sess.list) s
  simp only
  cases h : seqSteps (prefetch E) (groupNames E s.sess.list) s with
  | mk s' e =>
    rw [h] at h1
    try rw [h]
    cases e with
    | some e => exact h1
    | none =>
      have h2 := quiet_seq (quiet_resolveArg E) (groupNames E s.sess.list) s'
      simp only; rw [h2.1, h2.2]; exact h1

/-- The jobs a command has done, in order, with what it needs to say about them. -/
def Did (E : InstEnv) (opts : Opts) (s s' : InstSt) (todo : List (Option Archive × Bool)) : Prop :=
  ∃ js, runJobs E.rules opts js s.st = (s'.st, none) ∧ js.map (fun j => (some j.a, j.dep)) = todo ∧ ∀ j ∈ js, ∃ k, j.env = E.env k

theorem did_nil (E : InstEnv) (opts : Opts) {s s' : InstSt} (h : s'.st = s.st) : Did E opts s s' [] :=
  ⟨[], by simp [runJobs, h], rfl, by simp⟩

theorem did_append {E : InstEnv} {opts : Opts} {s s' s'' : InstSt} {t t' : List (Option Archive × Bool)} (h : Did E opts s s' t)
    (h' : Did E opts s' s'' t') : Did E opts s s'' (t ++ t') := by
  obtain ⟨js, a1, a2, a3⟩ := h
  obtain ⟨ks, b1, b2, b3⟩ := h'
  refine ⟨js ++ ks, ?_, by simp [a2, b2], ?_⟩
  · rw [runJobs_append _ _ a1]; exact b1
  · intro j hj; rcases List.mem_append.mp hj with h | h
    · exact a3 j h
    · exact b3 j h

theorem did_runFile {E : InstEnv} {opts : Opts} {a : Option Archive} {dep : Bool} {m : Option Str} {s : InstSt}
    (h : (runFile E opts a dep m s).2 = none) :
    Did E opts s (runFile E opts a dep m s).1 [(a, dep)] ∧ (runFile E opts a dep m s).1.sess = s.sess := by
  unfold runFile at *
  cases a with
  | none => simp at h
  | some a =>
    simp only [Option.map_eq_none_iff] at h
    refine ⟨⟨[{ env := E.env s.count, a := a, dep := dep, modeName := m.getD a.name }], ?_, rfl, ?_⟩, rfl⟩
    · rw [runJobs_cons_ok]; exact ⟨h, rfl⟩
    · intro j hj; simp only [List.mem_singleton] at hj; subst hj; exact ⟨_, rfl⟩

theorem did_args {E : InstEnv} {opts : Opts} {args : List Str} {s r : InstSt} (h : seqSteps (installArg E opts) args s = (r, none)) :
    Did E opts s r (LocalFiles E args) := by
  induction args generalizing s with
  | nil => simp only [seqSteps, Prod.mk.injEq, and_true] at h; subst h; exact did_nil E opts rfl
  | cons x xs ih =>
    obtain ⟨h1, h2⟩ := seqSteps_cons.mp h
    have h3 := ih h2
    have step : Did E opts s (installArg E opts x s).1 (LocalFiles E [x]) := by
      unfold installArg at h1 ⊢
      unfold LocalFiles
      have hm : (memberPackages E.net.repo x).isEmpty = true ↔ packagesOfSet E.net.repo x = [] ∧ packagesOfCollection E.net.repo x = [] := by
        unfold memberPackages
        split
        · rename_i h; simp only [List.isEmpty_iff] at h ⊢; simp [h]
        · rename_i h; simp only [List.isEmpty_iff] at h ⊢; simp [h]
      by_cases hc : (memberPackages E.net.repo x).isEmpty = true
      · rw [if_neg (by simp [hc])] at h1 ⊢
        have hc' := hm.mp hc
        cases hl : E.localFile x with
        | some a =>
          rw [hl] at h1
          simp only [hl, hc', and_self, if_true, Option.map_some, List.filterMap_cons, List.filterMap_nil]
          exact (did_runFile h1).1
        | none =>
          simp only [hl, hc', and_self, if_true, Option.map_none, List.filterMap_cons, List.filterMap_nil]
          exact did_nil E opts (quiet_resolveArg E x s).1
      · rw [if_pos (by simpa using hc)]
        have hc' : ¬ (packagesOfSet E.net.repo x = [] ∧ packagesOfCollection E.net.repo x = []) := fun h => hc (hm.mpr h)
        simp only [hc', if_false, List.filterMap_cons, List.filterMap_nil]
        exact did_nil E opts (quiet_seq (quiet_members E) _ s).1
    have : LocalFiles E (x :: xs) = LocalFiles E [x] ++ LocalFiles E xs := by
      unfold LocalFiles
      rw [← List.filterMap_append]; rfl
    rw [this]
    exact did_append step h3

theorem listedFile_eq {E : InstEnv} {s : InstSt} {n : Str} : listedFile E s n = FileOf E s.sess.files n := by
  unfold listedFile FileOf
  cases mget E.net.repo n <;> rfl

theorem did_listed {E : InstEnv} {opts : Opts} {f : (Str × Nat) → InstSt → InstSt × Option InstErr} {flag : Nat → Bool}
    {m : Str → Option Str} (hf : ∀ i s, f i s = runFile E opts (listedFile E s i.1) (flag i.2) (m i.1) s)
    {l : List (Str × Nat)} {s r : InstSt} (h : seqSteps f l s = (r, none)) :
    Did E opts s r (l.map (fun i => (FileOf E s.sess.files i.1, flag i.2))) ∧ r.sess = s.sess := by
  induction l generalizing s with
  | nil => simp only [seqSteps, Prod.mk.injEq, and_true] at h; subst h; exact ⟨did_nil E opts rfl, rfl⟩
  | cons x xs ih =>
    obtain ⟨h1, h2⟩ := seqSteps_cons.mp h
    rw [hf] at h1 h2
    obtain ⟨d1, e1⟩ := did_runFile h1
    obtain ⟨d2, e2⟩ := ih h2
    rw [e1] at d2 e2
    rw [listedFile_eq] at d1 d2
    exact ⟨did_append d1 d2, e2⟩

/-- A successful `cards install` has handled the files named on the command line, then the resolved list. -/
theorem did_install {E : InstEnv} {opts : Opts} {args : List Str} {s : Sys} {sess : RepoSess} {r : InstSt}
    (h : cardsInstall E opts args s sess = (r, none)) :
    Did E opts { st := load s false, sess := sess, count := 0 } r (LocalFiles E args ++ ListedFiles E r.sess) := by
  unfold cardsInstall at h
  simp only at h
  split at h
  · simp at h
  · cases h1 : seqSteps (installArg E opts) args { st := load s false, sess := sess, count := 0 } with
    | mk s1 e1 =>
      rw [h1] at h
      cases e1 with
      | some e => simp at h
      | none =>
        simp only at h
        have hq := quiet_addGroupPackages E s1
        cases h2 : addGroupPackages E s1 with
        | mk s2 e2 =>
          rw [h2] at h hq
          cases e2 with
          | some e => simp at h
          | none =>
            simp only at h hq
            obtain ⟨d2, e2⟩ := did_listed (flag := fun t => decide (0 < t)) (m := fun _ => none) (fun i s => rfl) h
            have d1 := did_args h1
            have dq : Did E opts s1 s2 [] := did_nil E opts hq.1
            have := did_append (did_append d1 dq) d2
            rw [List.append_nil] at this
            unfold ListedFiles
            rw [e2]
            exact this

/-! ### When a command fails -/

/-- Whatever happens, the state is one some packages handled lead to (the last one possibly with an error). -/
def Reached (E : InstEnv) (opts : Opts) (s s' : InstSt) (e : Option InstErr) : Prop :=
  ∃ js x, runJobs E.rules opts js s.st = (s'.st, x) ∧ (e = none → x = none)

theorem reached_same {E : InstEnv} {opts : Opts} {s s' : InstSt} {e : Option InstErr} (h : s'.st = s.st) : Reached E opts s s' e :=
  ⟨[], none, by simp [runJobs, h], fun _ => rfl⟩

theorem reached_trans {E : InstEnv} {opts : Opts} {s s' s'' : InstSt} {e : Option InstErr} (h : Reached E opts s s' none)
    (h' : Reached E opts s' s'' e) : Reached E opts s s'' e := by
  obtain ⟨js, x, a1, a2⟩ := h
  obtain ⟨ks, y, b1, b2⟩ := h'
  rw [a2 rfl] at a1
  exact ⟨js ++ ks, y, by rw [runJobs_append _ _ a1, b1], b2⟩

theorem reached_seq {α : Type} {E : InstEnv} {opts : Opts} {f : α → InstSt → InstSt × Option InstErr}
    (h : ∀ x s, Reached E opts s (f x s).1 (f x s).2) (xs : List α) (s : InstSt) :
    Reached E opts s (seqSteps f xs s).1 (seqSteps f xs s).2 := by
  induction xs generalizing s with
  | nil => exact reached_same rfl
  | cons x xs ih =>
    have hx := h x s
    simp only [seqSteps]
    cases hf : f x s with
    | mk s' e =>
      rw [hf] at hx
      cases e with
      | some e => exact hx
      | none => exact reached_trans hx (ih s')

theorem reached_quiet {α : Type} {E : InstEnv} {opts : Opts} {f : α → InstSt → InstSt × Option InstErr} (h : Quiet f) (x : α) (s : InstSt) :
    Reached E opts s (f x s).1 (f x s).2 := reached_same (h x s).1

theorem reached_runFile (E : InstEnv) (opts : Opts) (a : Option Archive) (dep : Bool) (m : Option Str) (s : InstSt) :
    Reached E opts s (runFile E opts a dep m s).1 (runFile E opts a dep m s).2 := by
  unfold runFile
  cases a with
  | none => exact reached_same rfl
  | some a =>
    simp only
    refine ⟨[{ env := E.env s.count, a := a, dep := dep, modeName := m.getD a.name }],
      (runJob E.rules opts { env := E.env s.count, a := a, dep := dep, modeName := m.getD a.name } s.st).2, ?_, ?_⟩
    · simp only [runJobs]
      cases runJob E.rules opts { env := E.env s.count, a := a, dep := dep, modeName := m.getD a.name } s.st with
      | mk st e => cases e <;> rfl
    · simp

theorem reached_installArg (E : InstEnv) (opts : Opts) (x : Str) (s : InstSt) :
    Reached E opts s (installArg E opts x s).1 (installArg E opts x s).2 := by
  unfold installArg
  split
  · exact reached_same (quiet_seq (quiet_members E) _ s).1
  · split
    · exact reached_runFile ..
    · exact reached_quiet (quiet_resolveArg E) x s

theorem reached_install (E : InstEnv) (opts : Opts) (args : List Str) (s : Sys) (sess : RepoSess) :
    Reached E opts { st := load s false, sess := sess, count := 0 } (cardsInstall E opts args s sess).1 (cardsInstall E opts args s sess).2 := by
  unfold cardsInstall
  simp only
  split
  · exact reached_same rfl
  · have h1 := reached_seq (reached_installArg E opts) args { st := load s false, sess := sess, count := 0 }
    cases hs : seqSteps (installArg E opts) args { st := load s false, sess := sess, count := 0 } with
    | mk s1 e1 =>
      rw [hs] at h1
      cases e1 with
      | some e => exact h1
      | none =>
        simp only
        have hq := quiet_addGroupPackages E s1
        cases h2 : addGroupPackages E s1 with
        | mk s2 e2 =>
          rw [h2] at hq
          cases e2 with
          | some e => exact reached_trans h1 (reached_same hq.1)
          | none =>
            have h3 := reached_seq (E := E) (opts := opts) (f := installListed E opts) (fun i s => reached_runFile E opts _ _ _ s) s2.sess.list s2
            exact reached_trans (reached_trans h1 (reached_same hq.1)) h3

end Cards
