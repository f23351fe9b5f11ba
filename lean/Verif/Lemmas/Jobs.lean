import Verif.Lemmas.Process
import Verif.Spec.Install
import Mathlib.Tactic.Common
/-!
# Several packages in one process
-/
namespace Cards
open Spec

theorem runJobs_cons_ok {rules : List Rule} {opts : Opts} {j : Job} {js : List Job} {st r : St} :
    runJobs rules opts (j :: js) st = (r, none) ↔
      (runJob rules opts j st).2 = none ∧ runJobs rules opts js (runJob rules opts j st).1 = (r, none) := by
  simp only [runJobs]
  cases h : runJob rules opts j st with
  | mk st' e => cases e <;> simp

theorem runJobs_append {rules : List Rule} {opts : Opts} (js ks : List Job) {st st' : St} (h : runJobs rules opts js st = (st', none)) :
    runJobs rules opts (js ++ ks) st = runJobs rules opts ks st' := by
  induction js generalizing st with
  | nil => simp only [runJobs, Prod.mk.injEq, and_true] at h; subst h; rfl
  | cons j js ih =>
    obtain ⟨h1, h2⟩ := runJobs_cons_ok.mp h
    have := ih h2
    simp only [List.cons_append, runJobs]
    cases hj : runJob rules opts j st with
    | mk st1 e =>
      rw [hj] at h1 this
      simp only at h1; subst h1
      exact this

/-- The invariants hold along the way, and one owner per non-directory even when a run fails. -/
theorem runJobs_inv (rules : List Rule) (opts : Opts) (js : List Job) (st : St) (hs : Sane st) :
    WF (runJobs rules opts js st).1.disk ∧
    ((runJobs rules opts js st).2 = none → Sane (runJobs rules opts js st).1 ∧ (st.dep = false → (runJobs rules opts js st).1.dep = false)) ∧
    (UniqueOwner st.disk → UniqueOwner (runJobs rules opts js st).1.disk) := by
  induction js generalizing st with
  | nil => exact ⟨hs.disk, fun _ => ⟨hs, id⟩, id⟩
  | cons j js ih =>
    obtain ⟨h1, h2, _, h4⟩ := runJob_spec rules opts j st hs
    simp only [runJobs]
    cases hj : runJob rules opts j st with
    | mk st1 e =>
      rw [hj] at h1 h2 h4
      cases e with
      | some e => exact ⟨h1, by simp, h4⟩
      | none =>
        obtain ⟨a1, _, _, _, _, _, _, _, a9⟩ := h2 rfl
        obtain ⟨i1, i2, i3⟩ := ih st1 a1
        exact ⟨i1, fun h => ⟨(i2 h).1, fun _ => (i2 h).2 a9⟩, fun h => i3 (h4 h)⟩

/-- Names known at the end. -/
theorem runJobs_names (rules : List Rule) (opts : Opts) (js : List Job) (st r : St) (hs : Sane st)
    (h : runJobs rules opts js st = (r, none)) (n : Str) : r.nameExists n = (st.nameExists n && js.all (fun j => j.a.name ≠ n)) := by
  induction js generalizing st with
  | nil => simp only [runJobs, Prod.mk.injEq, and_true] at h; subst h; simp
  | cons j js ih =>
    obtain ⟨h1, h2⟩ := runJobs_cons_ok.mp h
    obtain ⟨_, a2, _⟩ := runJob_spec rules opts j st hs
    obtain ⟨a1, _, _, _, _, _, _, a8, _⟩ := a2 h1
    rw [ih _ a1 h2, a8 n]
    by_cases hn : n = j.a.name
    · subst hn; simp
    · simp [hn, Ne.symm hn]

/-- Packages no job is about: their record loses at most files, nothing else; without conflicts it is unchanged. -/
theorem runJobs_other (rules : List Rule) (opts : Opts) (js : List Job) (st r : St) (hs : Sane st)
    (h : runJobs rules opts js st = (r, none)) (n : Str) (hn : ∀ j ∈ js, j.a.name ≠ n) :
    ∃ gone, mget r.disk n = (mget st.disk n).map (dropInfo gone) ∧ mget r.mem n = (mget st.mem n).map (dropInfo gone) ∧
      (opts.force = false → gone = []) ∧
      (UniqueOwner st.disk → ∀ i, mget st.disk n = some i → ∀ f ∈ i.files,
        (f ∈ gone ↔ ¬ IsDirName f ∧ ∃ j ∈ js, Ships j.env.rx rules j.a f)) := by
  induction js generalizing st with
  | nil =>
    simp only [runJobs, Prod.mk.injEq, and_true] at h; subst h
    refine ⟨[], ?_, ?_, fun _ => rfl, ?_⟩
    · have hid : dropInfo [] = id := by funext i; rfl
      rw [hid]; simp
    · have hid : dropInfo [] = id := by funext i; rfl
      rw [hid]; simp
    · intros; simp
  | cons j js ih =>
    obtain ⟨h1, h2⟩ := runJobs_cons_ok.mp h
    obtain ⟨_, a2, _, a4⟩ := runJob_spec rules opts j st hs
    obtain ⟨b1, b2, _, b4, b5, _⟩ := a2 h1
    obtain ⟨g, g1, g1', g2, g3⟩ := ih _ b1 h2 (fun k hk => hn k (by simp [hk]))
    have hnj : n ≠ j.a.name := fun e => hn j (by simp) e.symm
    refine ⟨j.conf rules opts st ++ g, ?_, ?_, ?_, ?_⟩
    · rw [g1, b4 n hnj]
      cases mget st.disk n with
      | none => rfl
      | some i => simp [dropInfo, seraseAll, List.foldl_append]
    · rw [g1', b5 n hnj]
      cases mget st.mem n with
      | none => rfl
      | some i => simp [dropInfo, seraseAll, List.foldl_append]
    · intro hf
      rw [g2 hf]
      cases hc : j.conf rules opts st with
      | nil => rfl
      | cons c cs => rw [b2 (by simp [hc])] at hf; simp at hf
    · intro hu i hi f hfi
      have hconf : f ∈ j.conf rules opts st ↔ ¬ IsDirName f ∧ Ships j.env.rx rules j.a f := by
        unfold Job.conf
        rw [mem_conf (st := { st with dep := st.dep || j.dep }) ⟨hs.mem, hs.disk, hs.agree⟩]
        have ho : Owns st.disk n f := (owns_iff_mget hs.disk).mpr ⟨i, hi, hfi⟩
        unfold InTheWay
        constructor
        · rintro ⟨h1, h2, _⟩; exact ⟨h2, h1⟩
        · rintro ⟨h1, h2⟩
          refine ⟨h2, h1, Or.inl ⟨n, hnj, ho⟩, ?_⟩
          intro ho'
          exact hnj (hu n j.a.name f ho ho' h1)
      rw [List.mem_append, hconf]
      by_cases hc : f ∈ j.conf rules opts st
      · simp only [hconf] at hc
        constructor
        · intro _; exact ⟨hc.1, j, by simp, hc.2⟩
        · intro _; exact Or.inl hc
      · have := g3 (a4 hu) (dropInfo (j.conf rules opts st) i) (by rw [b4 n hnj, hi]; rfl) f (by
          show f ∈ seraseAll _ _; rw [mem_seraseAll]; exact ⟨hfi, hc⟩)
        rw [this]
        rw [hconf] at hc
        constructor
        · rintro (h | ⟨h1, k, hk, h2⟩)
          · exact absurd h hc
          · exact ⟨h1, k, by simp [hk], h2⟩
        · rintro ⟨q1, k, hk, q2⟩
          rcases List.mem_cons.mp hk with e | hk
          · rw [e] at q2; exact Or.inl ⟨q1, q2⟩
          · exact Or.inr ⟨q1, k, hk, q2⟩

/-- The record of a package after its last job. -/
theorem runJobs_last (rules : List Rule) (opts : Opts) (pre : List Job) (j : Job) (post : List Job) (st r : St) (hs : Sane st) (hd : st.dep = false)
    (h : runJobs rules opts (pre ++ j :: post) st = (r, none)) (hpost : ∀ k ∈ post, k.a.name ≠ j.a.name) :
    ∃ gone, mget r.disk j.a.name = some
        { md := newMd (j.dep || (pre.all (fun k => k.a.name ≠ j.a.name) && st.nameExists j.a.name && wasDep st.mem j.a.name)) j.a,
          files := seraseAll gone (shipped j.env rules j.a) } ∧
      (opts.force = false → gone = []) ∧
      (UniqueOwner st.disk → ∀ f ∈ shipped j.env rules j.a,
        (f ∈ gone ↔ ¬ IsDirName f ∧ ∃ k ∈ post, Ships k.env.rx rules k.a f)) := by
  -- the state before the job
  have hpre : ∃ st1, runJobs rules opts pre st = (st1, none) := by
    clear hd hs hpost
    induction pre generalizing st with
    | nil => exact ⟨st, rfl⟩
    | cons k pre ih =>
      obtain ⟨h1, h2⟩ := runJobs_cons_ok.mp h
      obtain ⟨st1, h3⟩ := ih _ h2
      exact ⟨st1, runJobs_cons_ok.mpr ⟨h1, h3⟩⟩
  obtain ⟨st1, hpre⟩ := hpre
  rw [runJobs_append _ _ hpre] at h
  obtain ⟨h1, h2⟩ := runJobs_cons_ok.mp h
  have inv := runJobs_inv rules opts pre st hs
  rw [hpre] at inv
  obtain ⟨s1, d1'⟩ := inv.2.1 rfl
  obtain ⟨_, a2, _, a4⟩ := runJob_spec rules opts j st1 s1
  obtain ⟨b1, b2, _, b4, b5, b6, b7, _⟩ := a2 h1
  obtain ⟨g, g1, _, g2, g3⟩ := runJobs_other rules opts post _ r b1 h2 j.a.name hpost
  refine ⟨g, ?_, g2, ?_⟩
  · rw [g1, b7]
    simp only [Option.map_some, dropInfo]
    congr 2
    rw [d1' hd, Bool.false_or, runJobs_names rules opts pre st st1 hs hpre]
    by_cases hp : ∀ k ∈ pre, k.a.name ≠ j.a.name
    · obtain ⟨g', _, m', _⟩ := runJobs_other rules opts pre st st1 hs hpre j.a.name hp
      have hw : wasDep st1.mem j.a.name = wasDep st.mem j.a.name := by
        unfold wasDep; rw [m']; cases mget st.mem j.a.name <;> rfl
      rw [hw]
      congr 2
      cases st.nameExists j.a.name <;> simp
    · have : pre.all (fun k => k.a.name ≠ j.a.name) = false := by
        rw [Bool.eq_false_iff]; intro h; apply hp; simpa using h
      simp only [this, Bool.and_false, Bool.false_and, Bool.or_false]
  · intro hu f hf
    exact g3 (a4 (inv.2.2 hu)) _ b7 f hf

end Cards
