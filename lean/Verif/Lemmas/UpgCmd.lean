import Verif.Lemmas.InstCmd
import Verif.Lemmas.Names
import Verif.Props.Remove
/-!
# The deletions of `cards upgrade`, one process
-/
namespace Cards
open Spec Props

theorem owns_mem_disk {st : St} (hs : Sane st) {n f : Str} : Owns st.mem n f ↔ Owns st.disk n f := by
  have hm := owns_iff_mget hs.mem (n := n) (f := f)
  have hd := owns_iff_mget hs.disk (n := n) (f := f)
  rw [hm, hd]
  have := hs.agree n
  constructor
  · rintro ⟨i, hi, hf⟩
    rw [hi, Option.map_some] at this
    obtain ⟨j, hj, e⟩ := Option.map_eq_some_iff.mp this.symm
    exact ⟨j, hj, e ▸ hf⟩
  · rintro ⟨i, hi, hf⟩
    rw [hi, Option.map_some] at this
    obtain ⟨j, hj, e⟩ := Option.map_eq_some_iff.mp this
    exact ⟨j, hj, e ▸ hf⟩

theorem mem_toDelete_sane {st : St} (hs : Sane st) {n f : Str} : f ∈ toDelete st.mem n [] ↔ OnlyOwner st.disk n f := by
  rw [mem_toDelete_iff hs.mem]
  unfold OnlyOwner
  simp only [owns_mem_disk hs]

theorem owns_merase {db : Db} {n m f : Str} : Owns (merase n db) m f ↔ Owns db m f ∧ m ≠ n := by
  unfold Owns
  constructor
  · rintro ⟨i, hi, hf⟩
    obtain ⟨a, b⟩ := mem_merase.mp hi
    exact ⟨⟨i, a, hf⟩, b⟩
  · rintro ⟨⟨i, hi, hf⟩, hn⟩
    exact ⟨i, mem_merase.mpr ⟨hi, hn⟩, hf⟩

/-- One deletion. -/
theorem deleteListed_spec (locked : Bool) (n : Str) (s : InstSt) (hs : Sane s.st) :
    let r := deleteListed locked n s
    (r.2 = none → Sane r.1.st ∧ locked = false ∧ Installed s.st.disk n ∧ r.1.st.disk = merase n s.st.disk ∧
      r.1.st.fs = s.st.fs.removeRev (toDelete s.st.mem n []) ∧ r.1.sess = s.sess) ∧
    (r.2 ≠ none → r.1.st.disk = s.st.disk ∧ r.1.st.fs = s.st.fs) := by
  simp only [deleteListed]
  cases locked with
  | true => simp
  | false =>
    simp only [Bool.false_eq_true, if_false]
    unfold removeRecord
    simp only
    cases hg : mget s.st.disk n with
    | none => simp
    | some i =>
      have ha := hs.agree n
      rw [hg, Option.map_some] at ha
      obtain ⟨j, hj, _⟩ := Option.map_eq_some_iff.mp ha
      simp only [hj, ne_eq, not_true_eq_false, IsEmpty.forall_iff, and_true, forall_const]
      refine ⟨⟨wf_merase hs.mem, wf_merase hs.disk, ?_⟩, ?_, ?_⟩
      · intro m
        show ((mget (merase n s.st.mem) m).map (·.files)) = ((mget (merase n s.st.disk) m).map (·.files))
        rw [mget_merase, mget_merase]
        split
        · rfl
        · exact hs.agree m
      · trivial
      · exact ⟨mget_isSome_installed.mp (by rw [hg]; rfl), rfl, rfl⟩

theorem removeRev_file_gone (fs : Fs) (names : List Str) (f : Str) (hm : f ∈ names) (hs : endsSlash f = false)
    (hf : ∀ m, fs.get (comps f) ≠ some (.dir m)) : (fs.removeRev names).get (comps f) = none := by
  obtain ⟨l, r, hn⟩ := List.append_of_mem hm
  rw [Fs.removeRev_eq, hn, show (l ++ f :: r).reverse = (r.reverse ++ [f]) ++ l.reverse by simp, List.foldl_append,
    List.foldl_append]
  apply rmFold_mono
  simp only [List.foldl_cons, List.foldl_nil]
  rcases Fs.rmFold_le r.reverse fs (comps f) with e | e
  · cases hg : fs.get (comps f) with
    | none =>
      rcases Fs.rmStep_le (List.foldl Fs.rmStep fs r.reverse) f (comps f) with e' | e'
      · rw [e', e, hg]
      · exact e'
    | some nd =>
      cases nd with
      | dir m => exact absurd hg (hf m)
      | file c m => exact Fs.rmStep_file _ f c m (e.trans hg) hs
  · rcases Fs.rmStep_le (List.foldl Fs.rmStep fs r.reverse) f (comps f) with e' | e'
    · rw [e', e]
    · exact e'

/-- All deletions, when they succeed. -/
theorem deleteAll_ok (locked : Str → Bool) (ns : List Str) (s r : InstSt) (hs : Sane s.st)
    (h : seqSteps (fun n => deleteListed (locked n) n) ns s = (r, none)) :
    Sane r.st ∧ r.sess = s.sess ∧ (∀ n ∈ ns, Installed s.st.disk n) ∧
    (∀ p, p ∈ r.st.disk ↔ p ∈ s.st.disk ∧ p.1 ∉ ns) ∧
    (∀ k, (∀ n ∈ ns, ∀ f, Owns s.st.disk n f → comps f = k → ∃ m, m ∉ ns ∧ Owns s.st.disk m f) → r.st.fs.get k = s.st.fs.get k) ∧
    (∀ f, ¬ IsDirName f → (∃ n ∈ ns, Owns s.st.disk n f) → (∀ n, Owns s.st.disk n f → n ∈ ns) →
      (∀ m, s.st.fs.get (comps f) ≠ some (.dir m)) → r.st.fs.get (comps f) = none) ∧
    (∀ k, s.st.fs.get k = none → r.st.fs.get k = none) := by
  induction ns generalizing s with
  | nil =>
    simp only [seqSteps, Prod.mk.injEq, and_true] at h
    subst h
    refine ⟨hs, rfl, by simp, by simp, fun _ _ => rfl, ?_, fun _ h => h⟩
    rintro f _ ⟨n, hn, _⟩; simp at hn
  | cons x xs ih =>
    obtain ⟨h1, h2⟩ := seqSteps_cons.mp h
    obtain ⟨a1, _, a3, a4, a5, a6⟩ := (deleteListed_spec (locked x) x s hs).1 h1
    generalize (deleteListed (locked x) x s).1 = s1 at *
    obtain ⟨b1, b2, b3, b4, b5, b6, b7⟩ := ih s1 a1 h2
    have hown : ∀ m f, Owns s1.st.disk m f ↔ Owns s.st.disk m f ∧ m ≠ x := by intro m f; rw [a4]; exact owns_merase
    have hle : ∀ k, s1.st.fs.get k = s.st.fs.get k ∨ s1.st.fs.get k = none := by intro k; rw [a5]; exact Fs.removeRev_le _ _ _
    refine ⟨b1, b2.trans a6, ?_, ?_, ?_, ?_, ?_⟩
    · intro n hn
      rcases List.mem_cons.mp hn with rfl | hn
      · exact a3
      · obtain ⟨i, hi⟩ := b3 n hn
        rw [a4] at hi
        exact ⟨i, (mem_merase.mp hi).1⟩
    · intro p
      rw [b4, a4, mem_merase]
      simp only [List.mem_cons, not_or]
      tauto
    · intro k hk
      rw [b5 k ?_, a5]
      · apply Fs.removeRev_ne
        intro p hp he
        obtain ⟨o1, o2⟩ := (mem_toDelete_sane hs).mp hp
        obtain ⟨m, hm, hmo⟩ := hk x (by simp) p o1 he
        exact hm (by rw [o2 m hmo]; simp)
      · intro n hn f hf he
        obtain ⟨h3, h4⟩ := (hown n f).mp hf
        obtain ⟨m, hm, hmo⟩ := hk n (by simp [hn]) f h3 he
        simp only [List.mem_cons, not_or] at hm
        exact ⟨m, hm.2, (hown m f).mpr ⟨hmo, hm.1⟩⟩
    · intro f hd hex hall hfs
      have hes : endsSlash f = false := by rw [Bool.eq_false_iff]; intro h; exact hd (endsSlash_iff.mp h)
      by_cases hmore : ∃ m, Owns s.st.disk m f ∧ m ≠ x
      · obtain ⟨m, hm, hmx⟩ := hmore
        apply b6 f hd
        · have := hall m hm
          rcases List.mem_cons.mp this with h | h
          · exact absurd h hmx
          · exact ⟨m, h, (hown m f).mpr ⟨hm, hmx⟩⟩
        · intro n hn
          obtain ⟨h3, h4⟩ := (hown n f).mp hn
          rcases List.mem_cons.mp (hall n h3) with h | h
          · exact absurd h h4
          · exact h
        · intro m' hm'
          rcases hle (comps f) with e | e
          · rw [e] at hm'; exact hfs m' hm'
          · rw [e] at hm'; simp at hm'
      · push Not at hmore
        apply b7
        rw [a5]
        apply removeRev_file_gone _ _ _ _ hes hfs
        rw [mem_toDelete_sane hs]
        obtain ⟨n, hn, hno⟩ := hex
        have := hmore n hno
        subst this
        exact ⟨hno, hmore⟩
    · intro k hk
      apply b7
      rcases hle k with e | e
      · rw [e, hk]
      · exact e

/-- The database after any deletions, successful or not. -/
theorem deleteAll_any (locked : Str → Bool) (ns : List Str) (s : InstSt) (hs : Sane s.st) :
    let r := seqSteps (fun n => deleteListed (locked n) n) ns s
    WF r.1.st.disk ∧ (∀ p ∈ r.1.st.disk, p ∈ s.st.disk) := by
  induction ns generalizing s with
  | nil => exact ⟨hs.disk, fun p hp => hp⟩
  | cons x xs ih =>
    simp only [seqSteps]
    obtain ⟨d1, d2⟩ := deleteListed_spec (locked x) x s hs
    cases hd : deleteListed (locked x) x s with
    | mk s1 e1 =>
      rw [hd] at d1 d2
      cases e1 with
      | some e =>
        have := d2 (by simp)
        simp only at this ⊢
        rw [this.1]
        exact ⟨hs.disk, fun p hp => hp⟩
      | none =>
        obtain ⟨a1, _, _, a4, _⟩ := d1 rfl
        obtain ⟨b1, b2⟩ := ih s1 a1
        refine ⟨b1, fun p hp => ?_⟩
        have := b2 p hp
        simp only at a4
        rw [a4] at this
        exact (mem_merase.mp this).1

theorem unique_sub {db db' : Db} (h : ∀ p ∈ db', p ∈ db) (hu : UniqueOwner db) : UniqueOwner db' := by
  rintro n n' f ⟨i, hi, hf⟩ ⟨j, hj, hg⟩ hd
  exact hu n n' f ⟨i, h _ hi, hf⟩ ⟨j, h _ hj, hg⟩ hd

theorem resolveAll_ok {E : InstEnv} {update : List (Str × Nat)} {s r : InstSt} (h : seqSteps (fun x => resolveArg E x.1) update s = (r, none)) :
    upgradeList E.net E.fuel update s.sess = .ok r.sess ∧ r.st = s.st := by
  induction update generalizing s with
  | nil => simp only [seqSteps, Prod.mk.injEq, and_true] at h; subst h; exact ⟨rfl, rfl⟩
  | cons x xs ih =>
    obtain ⟨h1, h2⟩ := seqSteps_cons.mp h
    unfold resolveArg at h1 h2
    cases hg : generateDeps E.net E.fuel x.1 s.sess with
    | error e => simp only [hg] at h1; simp at h1
    | ok sess =>
      simp only [hg] at h2
      obtain ⟨a, b⟩ := ih h2
      refine ⟨?_, b⟩
      unfold upgradeList at a ⊢
      rw [List.foldlM_cons, hg]
      exact a

/-- A successful upgrade: the packages resolved, the packages handled, the deletions. -/
theorem performUpgrade_ok {E : InstEnv} {opts : Opts} {locked : Str → Bool} {update : List (Str × Nat)} {delete : List Str} {s r : InstSt}
    (h : performUpgrade E opts locked update delete s = (r, none)) :
    ∃ s1 s2, upgradeList E.net E.fuel update s.sess = .ok s1.sess ∧ s1.st = s.st ∧ s2.sess = s1.sess ∧
      Did E { opts with force := true } s1 s2 (s1.sess.list.map (fun i => (FileOf E s1.sess.files i.1, false))) ∧
      seqSteps (fun n => deleteListed (locked n) n) delete s2 = (r, none) := by
  unfold performUpgrade at h
  cases h1 : seqSteps (fun x => resolveArg E x.1) update s with
  | mk s1 e1 =>
    rw [h1] at h
    cases e1 with
    | some e => simp at h
    | none =>
      simp only at h
      cases h2 : seqSteps (upgradeListed E opts) s1.sess.list s1 with
      | mk s2 e2 =>
        rw [h2] at h
        cases e2 with
        | some e => simp at h
        | none =>
          simp only at h
          obtain ⟨a, b⟩ := resolveAll_ok h1
          obtain ⟨c, d⟩ := did_listed (E := E) (opts := { opts with force := true }) (f := upgradeListed E opts) (flag := fun _ => false)
            (m := fun n => some n) (fun i s => rfl) h2
          exact ⟨s1, s2, a, b, d, c, h⟩

/-- Any upgrade keeps the database well-formed and a non-directory with one owner. -/
theorem performUpgrade_inv (E : InstEnv) (opts : Opts) (locked : Str → Bool) (update : List (Str × Nat)) (delete : List Str) (s : InstSt)
    (hs : Sane s.st) :
    let r := performUpgrade E opts locked update delete s
    WF r.1.st.disk ∧ (UniqueOwner s.st.disk → UniqueOwner r.1.st.disk) := by
  unfold performUpgrade
  have hq : (seqSteps (fun x => resolveArg E x.1) update s).1.st = s.st :=
    (quiet_seq (f := fun (x : Str × Nat) => resolveArg E x.1) (fun x s => quiet_resolveArg E x.1 s) update s).1
  cases h1 : seqSteps (fun (x : Str × Nat) => resolveArg E x.1) update s with
  | mk s1 e1 =>
    rw [h1] at hq
    simp only at hq
    cases e1 with
    | some e => simp only; rw [hq]; exact ⟨hs.disk, id⟩
    | none =>
      simp only
      have hr := reached_seq (E := E) (opts := { opts with force := true }) (f := upgradeListed E opts)
        (fun x s => reached_runFile E _ _ _ _ s) s1.sess.list s1
      cases h2 : seqSteps (upgradeListed E opts) s1.sess.list s1 with
      | mk s2 e2 =>
        rw [h2] at hr
        obtain ⟨js, x, j1, j2⟩ := hr
        have hinv := runJobs_inv E.rules { opts with force := true } js s1.st (by rw [hq]; exact hs)
        rw [j1, hq] at hinv
        cases e2 with
        | some e => exact ⟨hinv.1, hinv.2.2⟩
        | none =>
          simp only
          have hx := j2 rfl
          obtain ⟨b1, b2⟩ := deleteAll_any locked delete s2 (hinv.2.1 hx).1
          exact ⟨b1, fun hu => unique_sub b2 (hinv.2.2 hu)⟩

end Cards
