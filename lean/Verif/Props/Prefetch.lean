import Mathlib.Tactic.Common
import Verif.Props.InstallAll
import Verif.Props.CreateBase
import Verif.Props.Elf
/-!
# C50, C63: sub-packages of the configured groups that cannot be had; C58: a name at the end of the string table
-/
namespace Cards.Props
open Cards Cards.Spec

theorem seqSteps_stop {α : Type} {f : α → InstSt → InstSt × Option InstErr} {pre post : List α} {x : α} {s s1 s2 : InstSt} {e : InstErr}
    (h1 : seqSteps f pre s = (s1, none)) (h2 : f x s1 = (s2, some e)) : seqSteps f (pre ++ x :: post) s = (s2, some e) := by
  induction pre generalizing s with
  | nil =>
    simp only [seqSteps, Prod.mk.injEq, and_true] at h1
    subst h1
    simp only [List.nil_append, seqSteps, h2]
  | cons y pre ih =>
    obtain ⟨s', hy, hr⟩ := seqSteps_split.mp h1
    rw [List.cons_append]
    simp only [seqSteps, hy]
    exact ih hr

/-- **C50.** A download of a sub-package that fails ends the command with an error; nothing has been installed by then. -/
theorem C50_download_failure (E : InstEnv) (s s1 : InstSt) (pre post : List Str) (n : Str) (p : RepoPkg)
    (hn : groupNames E s.sess.list = pre ++ n :: post) (hpre : seqSteps (prefetch E) pre s = (s1, none)) (hp : mget E.net.repo n = some p)
    (hmiss : mget s1.sess.files p.path = none) (hfail : E.net.fetch s1.sess.clock n = .failed) :
    (addGroupPackages E s).2 = some (.resolve (.io n)) ∧ (addGroupPackages E s).1.st = s.st := by
  refine ⟨?_, (quiet_addGroupPackages E s).1⟩
  unfold addGroupPackages
  simp only
  have hx : prefetch E n s1 = (s1, some (.resolve (.io n))) := by
    unfold prefetch
    rw [hp]
    simp only
    rw [hmiss]
    simp only [Option.isSome_none, Bool.false_eq_true, if_false]
    rw [hfail]
  rw [hn, seqSteps_stop hpre hx]

/-- The repository lists `mutt.man`, its file is missing and the download fails. -/
def xManDeps : List (Str × List (Str × Nat)) := [("mutt".toList, []), ("mutt.man".toList, [])]
def xManEnv : InstEnv := { yInst with net := xNet xManDeps xManDeps, groups := ["man".toList] }
def xManSt : InstSt := { st := load xSys false, sess := { list := [("mutt".toList, 0)], cached := [], files := [("/r/mutt".toList, "mutt".toList)], clock := 0 }, count := 0 }

example : groupNames xManEnv xManSt.sess.list = [] ++ "mutt.man".toList :: [] ∧
    mget xManEnv.net.repo "mutt.man".toList = some (xPkg "mutt.man".toList []) ∧
    mget xManSt.sess.files (xPkg "mutt.man".toList []).path = none ∧ xManEnv.net.fetch 0 "mutt.man".toList = .failed := by
  refine ⟨by decide +kernel, rfl, by decide +kernel, rfl⟩

/-- **C63.** Before it builds, cards create checks that the file of every sub-package of the configured groups is there; when one is missing the
command ends with an error, and nothing has been installed by then. -/
theorem C63_group_files (C : CreEnv) (s : InstSt) :
    (∀ s', createGroups C s = (s', none) → ∀ n ∈ groupNames C.E s.sess.list, ∀ p, mget C.E.net.repo n = some p →
      (mget s.sess.files p.path).isSome) ∧
    (∀ n ∈ groupNames C.E s.sess.list, ∀ p, mget C.E.net.repo n = some p → mget s.sess.files p.path = none →
      (∃ n' ∈ groupNames C.E s.sess.list, ∃ q, mget C.E.net.repo n' = some q ∧ mget s.sess.files q.path = none ∧
        (createGroups C s).2 = some (.notFound q.path)) ∧ (createGroups C s).1.st = s.st) := by
  have key : ∀ l, (∀ s', seqSteps (createPrefetch C) l s = (s', none) → s' = s ∧ ∀ n ∈ l, ∀ p, mget C.E.net.repo n = some p → (mget s.sess.files p.path).isSome) ∧
      (∀ s' e, seqSteps (createPrefetch C) l s = (s', some e) → ∃ n' ∈ l, ∃ q, mget C.E.net.repo n' = some q ∧ mget s.sess.files q.path = none ∧ e = .notFound q.path) := by
    intro l
    induction l with
    | nil =>
      refine ⟨?_, ?_⟩
      · intro s' h
        simp only [seqSteps, Prod.mk.injEq, and_true] at h
        exact ⟨h.symm, by simp⟩
      · intro s' e h
        simp [seqSteps] at h
    | cons n l ih =>
      simp only [seqSteps]
      unfold createPrefetch
      cases hp : mget C.E.net.repo n with
      | none =>
        simp only
        refine ⟨?_, ?_⟩
        · intro s' h
          obtain ⟨h1, h2⟩ := ih.1 s' h
          refine ⟨h1, ?_⟩
          intro m hm p hq
          rcases List.mem_cons.mp hm with rfl | hm
          · rw [hp] at hq; simp at hq
          · exact h2 m hm p hq
        · intro s' e h
          obtain ⟨n', hn', h'⟩ := ih.2 s' e h
          exact ⟨n', List.mem_cons_of_mem _ hn', h'⟩
      | some p =>
        simp only
        cases hf : mget s.sess.files p.path with
        | none =>
          simp only [Option.isSome_none, Bool.false_eq_true, if_false]
          refine ⟨?_, ?_⟩
          · intro s' h; simp at h
          · intro s' e h
            simp only [Prod.mk.injEq, Option.some.injEq] at h
            exact ⟨n, List.mem_cons_self, p, hp, hf, h.2.symm⟩
        | some c =>
          simp only [Option.isSome_some, if_true]
          refine ⟨?_, ?_⟩
          · intro s' h
            obtain ⟨h1, h2⟩ := ih.1 s' h
            refine ⟨h1, ?_⟩
            intro m hm q hq
            rcases List.mem_cons.mp hm with rfl | hm
            · rw [hp] at hq
              rw [← Option.some.inj hq, hf]; rfl
            · exact h2 m hm q hq
          · intro s' e h
            obtain ⟨n', hn', h'⟩ := ih.2 s' e h
            exact ⟨n', List.mem_cons_of_mem _ hn', h'⟩
  have hk := key (groupNames C.E s.sess.list)
  cases hseq : seqSteps (createPrefetch C) (groupNames C.E s.sess.list) s with
  | mk s1 e1 =>
    cases e1 with
    | none =>
      have h1 := (hk.1 s1 hseq).2
      refine ⟨fun _ _ => h1, ?_⟩
      intro n hn p hp hm
      have := h1 n hn p hp
      rw [hm] at this
      simp at this
    | some e =>
      have hc : createGroups C s = (s1, some e) := by unfold createGroups; simp only; rw [hseq]
      refine ⟨?_, ?_⟩
      · intro s' h; rw [hc] at h; simp at h
      · intro n hn p hp hm
        obtain ⟨n', hn', q, hq, hqm, he⟩ := hk.2 s1 e hseq
        exact ⟨⟨n', hn', q, hq, hqm, by rw [hc, he]⟩, quiet_createGroups C s⟩

/-- **C58.** A name whose offset is the end of the string table is the empty name: it is collected unless the byte before it is a point. Beyond the
end the table is left. -/
theorem C58_name_at_end (strs : Bytes) (h : strs ≠ []) :
    elfName strs strs.length = some (if strs.num (strs.length - 1) 1 = 46 then none else some []) ∧ ∀ v, strs.length < v → elfName strs v = none := by
  constructor
  · unfold elfName
    rw [if_neg (Nat.lt_irrefl _)]
    have ht : strs.text strs.length = [] := by unfold Bytes.text; rw [List.drop_length]; rfl
    simp only [ht, List.getLast?_nil]
    cases hl : strs.length with
    | zero => exact absurd (List.length_eq_zero_iff.mp hl) h
    | succ k => rfl
  · intro v hv
    unfold elfName
    rw [if_pos hv]

example : elfName [65, 46] 2 = some none := by decide

end Cards.Props
