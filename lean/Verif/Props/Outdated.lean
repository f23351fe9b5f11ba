import Verif.Model.Outdated
import Verif.Props.Numbers
import Verif.Props.Footprint
import Mathlib.Tactic.Common
/-!
# C122: outdated lists the ports with an older version
-/
namespace Cards.Props
open Cards

/-- The text of a version: numbers with points between them. -/
def dotted : List Nat → Str
  | [] => []
  | [x] => dec x
  | x :: xs => dec x ++ '.' :: dotted xs

/-- The numbers after the first. -/
def dotTail (xs : List Nat) : Str := xs.flatMap (fun x => '.' :: dec x)

theorem dotted_cons (x : Nat) (xs : List Nat) : dotted (x :: xs) = dec x ++ dotTail xs := by
  induction xs generalizing x with
  | nil => simp [dotted, dotTail]
  | cons y ys ih =>
    have e : dotted (x :: y :: ys) = dec x ++ '.' :: dotted (y :: ys) := rfl
    rw [e, ih y]
    simp [dotTail]

theorem dig_dec (n : Nat) : ∀ c ∈ dec n, isDig c = true := by
  have h : ∀ c ∈ "0123456789".toList, isDig c = true := by decide
  exact fun c hc => h c (dec_chars n c hc)

theorem dec_ne (n : Nat) : dec n ≠ [] := by
  obtain ⟨d, r, e, _⟩ := dec_cons n
  rw [e]; simp

/-- The value of digits read after a number. -/
def dval (acc : Nat) (a : Str) : Nat := List.foldl (fun n c => 10 * n + (Char.toNat c - 48)) acc a

theorem dval_nil (acc : Nat) : dval acc [] = acc := List.foldl_nil

theorem dval_cons (acc : Nat) (c : Char) (a : Str) : dval acc (c :: a) = dval (10 * acc + (c.toNat - 48)) a := List.foldl_cons ..

theorem dval_append (acc : Nat) (a b : Str) : dval acc (a ++ b) = dval (dval acc a) b := by
  exact List.foldl_append

theorem dig_range {c : Char} (h : isDig c = true) : 48 ≤ c.toNat ∧ c.toNat - 48 < 10 := by
  unfold isDig at h
  simp only [Bool.and_eq_true, decide_eq_true_eq] at h
  have h1 : 48 ≤ c.toNat := by
    have := UInt32.le_iff_toNat_le.mp (Char.le_def.mp h.1)
    exact this
  have h2 : c.toNat ≤ 57 := by
    have := UInt32.le_iff_toNat_le.mp (Char.le_def.mp h.2)
    exact this
  exact ⟨h1, by omega⟩

theorem dval_dec (n : Nat) : dval 0 (dec n) = n := by
  induction n using Nat.strongRecOn with
  | _ n ih =>
    have hd : ∀ k < 10, (digitC k).toNat - 48 = k := by decide
    rw [dec.eq_def]
    split
    · next h => rw [dval_cons, dval_nil, hd n h]; omega
    · rw [dval_append, ih (n / 10) (by omega)]
      rw [dval_cons, dval_nil, hd _ (Nat.mod_lt _ (by omega))]
      omega

theorem cmp_digit (x y p q : Nat) (hp : p < 10) (hq : q < 10) : (compare x y).then (compare p q) = compare (10 * x + p) (10 * y + q) := by
  rcases Nat.lt_trichotomy x y with h | h | h
  · rw [Nat.compare_eq_lt.mpr h, Nat.compare_eq_lt.mpr (show 10 * x + p < 10 * y + q by omega)]; rfl
  · subst h
    rw [Nat.compare_eq_eq.mpr rfl]
    show compare p q = _
    rcases Nat.lt_trichotomy p q with h | h | h
    · rw [Nat.compare_eq_lt.mpr h, Nat.compare_eq_lt.mpr (by omega)]
    · rw [Nat.compare_eq_eq.mpr h, Nat.compare_eq_eq.mpr (by omega)]
    · rw [Nat.compare_eq_gt.mpr h, Nat.compare_eq_gt.mpr (by omega)]
  · rw [Nat.compare_eq_gt.mpr h, Nat.compare_eq_gt.mpr (show 10 * y + q < 10 * x + p by omega)]; rfl

/-- The text does not begin with a digit. -/
def NoDig (r : Str) : Prop := ∀ c, r.head? = some c → isDig c = false

/-- The digits of both. -/
theorem verRun_spec (a b r s : Str) (ha : ∀ c ∈ a, isDig c = true) (hb : ∀ c ∈ b, isDig c = true) (hr : NoDig r) (hs : NoDig s) (x y : Nat) :
    verRun (compare x y) (a ++ r) (b ++ s) =
      if a.length = b.length then (if compare (dval x a) (dval y b) = .eq then .inr (r, s) else .inl (compare (dval x a) (dval y b))) else .inl (compare a.length b.length) := by
  induction a generalizing b x y with
  | nil =>
    cases b with
    | nil =>
      rw [List.nil_append, List.nil_append, if_pos rfl, dval_nil, dval_nil]
      cases r with
      | nil =>
        cases s with
        | nil => rfl
        | cons d s =>
          have hd := hs d rfl
          simp only [verRun, hd, Bool.false_eq_true, if_false]
      | cons c r =>
        cases s with
        | nil =>
          have hc := hr c rfl
          simp only [verRun, hc, Bool.false_eq_true, if_false]
        | cons d s =>
          have hc := hr c rfl
          have hd := hs d rfl
          simp only [verRun, hc, hd, Bool.and_self, Bool.false_eq_true, if_false]
    | cons d b =>
      have hd := hb d (by simp)
      rw [if_neg (by simp)]
      simp only [List.nil_append, List.cons_append, List.length_nil, List.length_cons]
      rw [Nat.compare_eq_lt.mpr (Nat.succ_pos _)]
      cases r with
      | nil => simp only [verRun, hd, if_true]
      | cons c r =>
        have hc := hr c rfl
        simp only [verRun, hc, hd, Bool.false_and, Bool.false_eq_true, if_false, if_true]
  | cons c a ih =>
    have hc := ha c (by simp)
    cases b with
    | nil =>
      rw [if_neg (by simp)]
      simp only [List.nil_append, List.cons_append, List.length_nil, List.length_cons]
      rw [Nat.compare_eq_gt.mpr (Nat.succ_pos _)]
      cases s with
      | nil => simp only [verRun, hc, if_true]
      | cons d s =>
        have hd := hs d rfl
        simp only [verRun, hc, hd, Bool.and_false, Bool.false_eq_true, if_false, if_true]
    | cons d b =>
      have hd := hb d (by simp)
      rw [List.cons_append, List.cons_append, verRun, hc, hd]
      simp only [Bool.and_self, if_true]
      obtain ⟨c1, c2⟩ := dig_range hc
      obtain ⟨d1, d2⟩ := dig_range hd
      have e : compare c.toNat d.toNat = compare (c.toNat - 48) (d.toNat - 48) := by
        rcases Nat.lt_trichotomy c.toNat d.toNat with h | h | h
        · rw [Nat.compare_eq_lt.mpr h, Nat.compare_eq_lt.mpr (by omega)]
        · rw [h, Nat.compare_eq_eq.mpr rfl, Nat.compare_eq_eq.mpr rfl]
        · rw [Nat.compare_eq_gt.mpr h, Nat.compare_eq_gt.mpr (by omega)]
      rw [e, cmp_digit _ _ _ _ c2 d2, ih b (fun c hc => ha c (by simp [hc])) (fun c hc => hb c (by simp [hc]))]
      have hl : ((c :: a).length = (d :: b).length) ↔ (a.length = b.length) := by simp
      have : compare (a.length + 1) (b.length + 1) = compare a.length b.length := by
        rcases Nat.lt_trichotomy a.length b.length with h | h | h
        · rw [Nat.compare_eq_lt.mpr h, Nat.compare_eq_lt.mpr (by omega)]
        · rw [h, Nat.compare_eq_eq.mpr rfl, Nat.compare_eq_eq.mpr rfl]
        · rw [Nat.compare_eq_gt.mpr h, Nat.compare_eq_gt.mpr (by omega)]
      have h2 : compare (c :: a).length (d :: b).length = compare a.length b.length := this
      rw [h2]
      rw [dval_cons, dval_cons]
      by_cases he : a.length = b.length
      · rw [if_pos he]
        symm
        exact if_pos (hl.mpr he)
      · rw [if_neg he]
        symm
        exact if_neg (fun h => he (hl.mp h))

/-- A number without its zeros. -/
def sig (n : Nat) : Str := if n = 0 then [] else dec n

theorem sig_dig (n : Nat) : ∀ c ∈ sig n, isDig c = true := by
  unfold sig
  split
  · simp
  · exact dig_dec n

theorem sig_val (n : Nat) : dval 0 (sig n) = n := by
  unfold sig
  split
  · next h => rw [h]; rfl
  · exact dval_dec n

theorem pow_between {n : Nat} (h : 0 < n) : ∃ k, 10 ^ k ≤ n ∧ n < 10 ^ (k + 1) := by
  induction n using Nat.strongRecOn with
  | _ n ih =>
    by_cases h10 : n < 10
    · exact ⟨0, by rw [Nat.pow_zero]; omega, by rw [Nat.zero_add, Nat.pow_one]; omega⟩
    · obtain ⟨k, h1, h2⟩ := ih (n / 10) (by omega) (by omega)
      refine ⟨k + 1, ?_, ?_⟩
      · rw [Nat.pow_succ]; omega
      · rw [Nat.pow_succ]; omega

theorem sig_len {m n : Nat} (h : (sig m).length < (sig n).length) : m < n := by
  unfold sig at h
  have hlen : ∀ k, 0 < k → 10 ^ ((dec k).length - 1) ≤ k ∧ k < 10 ^ (dec k).length := by
    intro k hk
    obtain ⟨j, h1, h2⟩ := pow_between hk
    rw [dec_length k j h2 (Or.inl h1)]
    exact ⟨h1, h2⟩
  split at h
  · split at h
    · exact absurd h (by simp)
    · omega
  · split at h
    · exact absurd h (by simp)
    · next hm hn =>
      have a := hlen m (by omega)
      have b := hlen n (by omega)
      have : 10 ^ (dec m).length ≤ 10 ^ ((dec n).length - 1) := Nat.pow_le_pow_right (by omega) (by omega)
      omega

theorem drop_zeros (n : Nat) (r : Str) (hr : NoDig r) : (dec n ++ r).dropWhile (· = '0') = sig n ++ r := by
  unfold sig
  split
  · next h =>
    subst h
    have : dec 0 = ['0'] := by rw [dec.eq_def]; rfl
    rw [this, List.nil_append, List.singleton_append, List.dropWhile_cons_of_pos (by decide)]
    cases r with
    | nil => rfl
    | cons c r =>
      refine List.dropWhile_cons_of_neg ?_
      intro hc
      have : c = '0' := of_decide_eq_true hc
      have h := hr c rfl
      rw [this] at h
      exact absurd h (by decide)
  · next h =>
    obtain ⟨d, t, e, h1, h2⟩ := dec_head n (by omega)
    rw [e, List.cons_append]
    refine List.dropWhile_cons_of_neg ?_
    have : ∀ k < 10, 0 < k → digitC k ≠ '0' := by decide
    simpa using this d h2 h1

/-- One number of both versions. -/
theorem run_numbers (m n : Nat) (r s : Str) (hr : NoDig r) (hs : NoDig s) :
    verRun .eq ((dec m ++ r).dropWhile (· = '0')) ((dec n ++ s).dropWhile (· = '0')) = if compare m n = .eq then .inr (r, s) else .inl (compare m n) := by
  rw [drop_zeros m r hr, drop_zeros n s hs]
  have := verRun_spec (sig m) (sig n) r s (sig_dig m) (sig_dig n) hr hs 0 0
  rw [Nat.compare_eq_eq.mpr rfl] at this
  rw [this, sig_val, sig_val]
  split
  · rfl
  · next h =>
    rcases Nat.lt_trichotomy (sig m).length (sig n).length with hl | hl | hl
    · have := sig_len hl
      rw [Nat.compare_eq_lt.mpr hl, Nat.compare_eq_lt.mpr this, if_neg (by decide)]
    · exact absurd hl h
    · have := sig_len hl
      rw [Nat.compare_eq_gt.mpr hl, Nat.compare_eq_gt.mpr this, if_neg (by decide)]

theorem noDig_tail (xs : List Nat) : NoDig (dotTail xs) := by
  cases xs with
  | nil => intro c hc; exact absurd hc (by simp [dotTail])
  | cons x xs =>
    intro c hc
    have : c = '.' := by simpa [dotTail] using hc.symm
    rw [this]; decide

/-- The order of versions: number by number, and a version before those that go on after it. -/
def verOrd (xs ys : List Nat) : Ordering := if xs < ys then .lt else if xs = ys then .eq else .gt

theorem verOrd_cons (x y : Nat) (xs ys : List Nat) : verOrd (x :: xs) (y :: ys) = if compare x y = .eq then verOrd xs ys else compare x y := by
  unfold verOrd
  rcases Nat.lt_trichotomy x y with h | h | h
  · rw [Nat.compare_eq_lt.mpr h, if_pos (List.cons_lt_cons_iff.mpr (Or.inl h))]
    rfl
  · subst h
    rw [Nat.compare_eq_eq.mpr rfl, if_pos rfl]
    simp
  · rw [Nat.compare_eq_gt.mpr h, if_neg, if_neg]
    · rfl
    · intro e; cases e; omega
    · rw [List.cons_lt_cons_iff]; rintro (h' | ⟨h', _⟩) <;> omega

theorem skip_numbers (m n : Nat) (r s : Str) : verSkip (dec m ++ r) (dec n ++ s) = .inr (dec m ++ r, dec n ++ s) := by
  obtain ⟨c, a, e1, _⟩ := dec_cons m
  obtain ⟨d, b, e2, _⟩ := dec_cons n
  have h1 := dig_dec m c (by rw [e1]; simp)
  have h2 := dig_dec n d (by rw [e2]; simp)
  rw [e1, e2]
  simp only [List.cons_append, verSkip, h1, h2, Bool.and_self, if_true]

theorem verCmp_tail (n : Nat) (xs ys : List Nat) (hn : xs.length < n) : verCmp n (dotTail xs) (dotTail ys) = verOrd xs ys := by
  induction xs generalizing n ys with
  | nil =>
    cases n with
    | zero => exact absurd hn (by simp)
    | succ n =>
      cases ys with
      | nil => rfl
      | cons y ys =>
        have e : dotTail (y :: ys) = '.' :: (dec y ++ dotTail ys) := by simp [dotTail]
        rw [e, verCmp, if_neg (by simp)]
        rw [show dotTail [] = [] from rfl]
        simp only [verSkip, show isDig '.' = false from rfl, Bool.false_eq_true, if_false]
        unfold verOrd
        rw [if_pos (by simp)]
  | cons x xs ih =>
    cases n with
    | zero => exact absurd hn (by simp)
    | succ n =>
      have e : dotTail (x :: xs) = '.' :: (dec x ++ dotTail xs) := by simp [dotTail]
      cases ys with
      | nil =>
        rw [e, verCmp, if_neg (by simp)]
        rw [show dotTail [] = [] from rfl]
        simp only [verSkip, show isDig '.' = false from rfl, Bool.false_eq_true, if_false]
        unfold verOrd
        rw [if_neg (by simp), if_neg (by simp)]
      | cons y ys =>
        have e' : dotTail (y :: ys) = '.' :: (dec y ++ dotTail ys) := by simp [dotTail]
        rw [e, e', verCmp, if_neg (by simp)]
        have hsk : verSkip ('.' :: (dec x ++ dotTail xs)) ('.' :: (dec y ++ dotTail ys)) = .inr (dec x ++ dotTail xs, dec y ++ dotTail ys) := by
          rw [verSkip]
          simp only [show isDig '.' = false from rfl, Bool.and_self, Bool.false_eq_true, if_false]
          exact skip_numbers _ _ _ _
        rw [hsk]
        simp only
        rw [run_numbers x y _ _ (noDig_tail xs) (noDig_tail ys), verOrd_cons]
        by_cases hc : compare x y = .eq
        · rw [if_pos hc, if_pos hc]
          exact ih n ys (by simpa using hn)
        · rw [if_neg hc, if_neg hc]

theorem verCmp_dotted (n x y : Nat) (xs ys : List Nat) (hn : xs.length + 1 < n) : verCmp n (dotted (x :: xs)) (dotted (y :: ys)) = verOrd (x :: xs) (y :: ys) := by
  cases n with
  | zero => exact absurd hn (by simp)
  | succ n =>
    rw [dotted_cons, dotted_cons, verCmp, if_neg (by simp [dec_ne]), skip_numbers]
    simp only
    rw [run_numbers x y _ _ (noDig_tail xs) (noDig_tail ys), verOrd_cons]
    by_cases hc : compare x y = .eq
    · rw [if_pos hc, if_pos hc]
      exact verCmp_tail n xs ys (by omega)
    · rw [if_neg hc, if_neg hc]

theorem dotted_length (x : Nat) (xs : List Nat) : xs.length + 1 ≤ (dotted (x :: xs)).length := by
  rw [dotted_cons, List.length_append]
  have h1 : 1 ≤ (dec x).length := List.length_pos_iff.mpr (dec_ne x)
  have h2 : xs.length ≤ (dotTail xs).length := by
    unfold dotTail
    induction xs with
    | nil => simp
    | cons y ys ih => simp only [List.flatMap_cons, List.length_append, List.length_cons]; omega
  omega

theorem verlt_dotted (xs ys : List Nat) (hx : xs ≠ []) (hy : ys ≠ []) : verlt (dotted xs) (dotted ys) = true ↔ xs < ys := by
  obtain ⟨x, xs, rfl⟩ := List.exists_cons_of_ne_nil hx
  obtain ⟨y, ys, rfl⟩ := List.exists_cons_of_ne_nil hy
  have hl := dotted_length x xs
  have c1 := verCmp_dotted ((dotted (x :: xs)).length + (dotted (y :: ys)).length + 1) x y xs ys (by omega)
  have hself : verOrd (x :: xs) (x :: xs) = .eq := by
    unfold verOrd
    rw [if_neg (List.lt_irrefl _), if_pos rfl]
  unfold verlt verlte
  rw [Bool.and_eq_true, decide_eq_true_iff, c1]
  constructor
  · rintro ⟨hne, h⟩
    by_contra hlt
    unfold verOrd at h
    rw [if_neg hlt] at h
    split at h
    · next e =>
      by_cases e' : (x :: xs) = (y :: ys)
      · exact hne (by rw [e'])
      · rw [if_neg e'] at e; exact absurd e (by decide)
    · exact absurd h (by decide)
    · next e =>
      by_cases e' : (x :: xs) = (y :: ys)
      · exact hne (by rw [e'])
      · rw [if_neg e'] at e; exact absurd e (by decide)
  · intro hlt
    have e : verOrd (x :: xs) (y :: ys) = .lt := by unfold verOrd; rw [if_pos hlt]
    refine ⟨fun heq => ?_, by rw [e]⟩
    have c2 := verCmp_dotted ((dotted (x :: xs)).length + (dotted (y :: ys)).length + 1) x x xs xs (by omega)
    rw [← heq] at c1
    rw [hself] at c2
    have c3 := verCmp_dotted ((dotted (x :: xs)).length + (dotted (x :: xs)).length + 1) x x xs xs (by omega)
    rw [← heq] at c2
    rw [c2] at c1
    rw [e] at c1
    exact absurd c1 (by decide)

theorem digits_dotted (xs : List Nat) : digitsAndPoints (dotted xs) = dotted xs := by
  have h : ∀ c ∈ dotted xs, (isDig c || c = '.') = true := by
    cases xs with
    | nil => simp [dotted]
    | cons x xs =>
      rw [dotted_cons]
      intro c hc
      rcases List.mem_append.mp hc with hc | hc
      · rw [dig_dec x c hc]; rfl
      · obtain ⟨y, _, hy⟩ := List.mem_flatMap.mp hc
        rcases List.mem_cons.mp hy with rfl | hy
        · rfl
        · rw [dig_dec y c hy]; rfl
  exact List.filter_eq_self.mpr h

theorem dotted_ne {xs : List Nat} (h : xs ≠ []) : dotted xs ≠ [] := by
  obtain ⟨x, xs, rfl⟩ := List.exists_cons_of_ne_nil h
  rw [dotted_cons]
  simp [dec_ne]

/-- **C122, older.** For versions that are numbers with points between them, the comparison of the script is that of the versions, number by number. -/
theorem C122_older (xs ys : List Nat) (hx : xs ≠ []) (hy : ys ≠ []) : olderVersion (dotted xs) (dotted ys) = true ↔ xs < ys := by
  have e : olderVersion (dotted xs) (dotted ys) = verlt (dotted xs) (dotted ys) := by
    unfold olderVersion
    rw [digits_dotted, digits_dotted]
    simp [dotted_ne hx, dotted_ne hy]
  rw [e]
  exact verlt_dotted xs ys hx hy


/-- What one port adds, when its name and its version are its own. -/
def outOf (names : Str → ArchName) (arch : List (Str × Str)) (q : Str × Option Str) : List (Str × Str × Str) :=
  match names q.1, q.2 with
  | .name n, some v =>
    match mget arch n with
    | some w => if n ≠ [] ∧ w ≠ [] ∧ w.takeWhile (· ≠ '+') ≠ v ∧ olderVersion v w = true then [(q.1, w, v)] else []
    | none => []
  | _, _ => []

/-- What one port adds to the names that were not found. -/
def lostOf (names : Str → ArchName) (arch : List (Str × Str)) (q : Str × Option Str) : List Str :=
  match names q.1 with
  | .name n => if n ≠ [] ∧ (mget arch n).getD [] = [] then [q.1] else []
  | _ => []

/-- Every port has a version in its Pkgfile, and none takes the name of the port before it. -/
def OwnVers (names : Str → ArchName) (ports : List (Str × Option Str)) : Prop :=
  ∀ q ∈ ports, names q.1 ≠ .same ∧ ∃ v, q.2 = some v

theorem outStep_own (names : Str → ArchName) (arch : List (Str × Str)) (st : OutState) (q : Str × Option Str)
    (h : names q.1 ≠ .same) (hv : ∃ v, q.2 = some v) (hp : st.pkgver = []) :
    (outStep names arch st q).pkgver = [] ∧ (outStep names arch st q).outdated = st.outdated ++ outOf names arch q ∧
      (outStep names arch st q).notFound = st.notFound ++ lostOf names arch q := by
  obtain ⟨v, hv⟩ := hv
  unfold outStep outOf lostOf
  rw [hv, hp]
  cases e : names q.1 with
  | same => exact absurd e h
  | skip => simp
  | name n =>
    by_cases hn : n = []
    · subst hn
      simp only [if_true, ne_eq, not_true_eq_false, false_and, if_false, List.append_nil]
      refine ⟨trivial, ?_, trivial⟩
      cases mget arch [] <;> simp
    · cases hm : mget arch n with
      | none => simp [hn, hm]
      | some w =>
        by_cases hw : w = []
        · simp [hn, hm, hw]
        · simp [hn, hm, hw]

theorem outdated_own (names : Str → ArchName) (arch : List (Str × Str)) (ports : List (Str × Option Str)) (h : OwnVers names ports) (st : OutState) (hp : st.pkgver = []) :
    (ports.foldl (outStep names arch) st).outdated = st.outdated ++ ports.flatMap (outOf names arch) ∧
      (ports.foldl (outStep names arch) st).notFound = st.notFound ++ ports.flatMap (lostOf names arch) := by
  induction ports generalizing st with
  | nil => simp
  | cons q ports ih =>
    obtain ⟨h1, h2, h3⟩ := outStep_own names arch st q (h q (by simp)).1 (h q (by simp)).2 hp
    obtain ⟨a, b⟩ := ih (fun x hx => h x (by simp [hx])) (outStep names arch st q) h1
    simp only [List.foldl_cons, List.flatMap_cons]
    rw [a, b, h2, h3, List.append_assoc, List.append_assoc]
    exact ⟨rfl, rfl⟩

theorem takeWhile_dotted (xs : List Nat) : (dotted xs).takeWhile (· ≠ '+') = dotted xs := by
  have h : ∀ c ∈ dotted xs, c ≠ '+' := by
    intro c hc e
    rw [← digits_dotted] at hc
    have := (List.mem_filter.mp hc).2
    rw [e] at this
    exact absurd this (by decide)
  generalize dotted xs = l at h
  induction l with
  | nil => rfl
  | cons c l ih =>
    rw [List.takeWhile_cons_of_pos (by simpa using h c (by simp)), ih (fun d hd => h d (by simp [hd]))]

/-- **C122, the list.** When every port sets its own name and version, a port with version `xs` is listed beside version `ys` of the other distribution exactly when its Arch name has the
version `ys` there and `xs` is before `ys`. -/
theorem C122_report_partial (names : Str → ArchName) (arch : List (Str × Str)) (ports : List (Str × Option Str)) (h : OwnVers names ports)
    (p : Str) (xs ys : List Nat) (hx : xs ≠ []) (hy : ys ≠ []) :
    (p, dotted ys, dotted xs) ∈ (outdated names arch ports).outdated ↔
      (p, some (dotted xs)) ∈ ports ∧ (∃ n, n ≠ [] ∧ names p = .name n ∧ mget arch n = some (dotted ys)) ∧ xs < ys := by
  have hne : xs < ys → dotted ys ≠ dotted xs := by
    intro hlt e
    have := (C122_older xs ys hx hy).mpr hlt
    rw [e] at this
    exact absurd ((C122_older xs xs hx hx).mp this) (List.lt_irrefl _)
  unfold outdated
  rw [(outdated_own names arch ports h _ rfl).1, List.nil_append, List.mem_flatMap]
  constructor
  · rintro ⟨q, hq, hm⟩
    obtain ⟨_, v, hv⟩ := h q hq
    unfold outOf at hm
    rw [hv] at hm
    cases e : names q.1 with
    | same => rw [e] at hm; exact absurd hm (by simp)
    | skip => rw [e] at hm; exact absurd hm (by simp)
    | name n =>
      rw [e] at hm
      cases e2 : mget arch n with
      | none => simp only [e2] at hm; exact absurd hm (by simp)
      | some w =>
        simp only [e2] at hm
        split at hm
        · next hc =>
          have heq := List.mem_singleton.mp hm
          simp only [Prod.mk.injEq] at heq
          obtain ⟨rfl, rfl, rfl⟩ := heq
          refine ⟨?_, ⟨n, hc.1, e, e2⟩, (C122_older xs ys hx hy).mp hc.2.2.2⟩
          rw [← hv]
          exact hq
        · exact absurd hm (by simp)
  · rintro ⟨hp, ⟨n, hn, hnm, hm⟩, hlt⟩
    refine ⟨_, hp, ?_⟩
    unfold outOf
    simp only [hnm, hm]
    rw [if_pos ⟨hn, dotted_ne hy, by rw [takeWhile_dotted]; exact hne hlt, (C122_older xs ys hx hy).mpr hlt⟩]
    simp

/-- **C122, not found.** The ports said not to be found are those whose Arch name has no version there. -/
theorem C122_lost_partial (names : Str → ArchName) (arch : List (Str × Str)) (ports : List (Str × Option Str)) (h : OwnVers names ports) (p : Str) :
    p ∈ (outdated names arch ports).notFound ↔ (∃ v, (p, v) ∈ ports) ∧ ∃ n, n ≠ [] ∧ names p = .name n ∧ (mget arch n).getD [] = [] := by
  unfold outdated
  rw [(outdated_own names arch ports h _ rfl).2, List.nil_append, List.mem_flatMap]
  constructor
  · rintro ⟨q, hq, hm⟩
    unfold lostOf at hm
    cases e : names q.1 with
    | same => rw [e] at hm; exact absurd hm (by simp)
    | skip => rw [e] at hm; exact absurd hm (by simp)
    | name n =>
      rw [e] at hm
      simp only at hm
      split at hm
      · next hc =>
        have heq := List.mem_singleton.mp hm
        subst heq
        exact ⟨⟨q.2, hq⟩, n, hc.1, e, hc.2⟩
      · exact absurd hm (by simp)
  · rintro ⟨⟨v, hp⟩, n, hn, hnm, hm⟩
    refine ⟨_, hp, ?_⟩
    unfold lostOf
    simp only [hnm]
    rw [if_pos ⟨hn, hm⟩]
    simp

/-- The names of the examples. -/
def oNames (p : Str) : ArchName :=
  if p = "aspell-dict".toList then .same else if p = "nutyx".toList then .skip else .name p

/-- The packages of the other distribution in the examples. -/
def oArch : List (Str × Str) :=
  [("bash".toList, "5.2.37".toList), ("vim".toList, "9.1".toList), ("xz".toList, "5.10.1".toList), ("git".toList, "1.2+40+gabc123".toList), ("rc".toList, "1.0".toList), ("z".toList, "1.2".toList)]

/-- The ports of the examples. -/
def oPorts : List (Str × Option Str) :=
  [("bash".toList, some "5.2.21".toList), ("nutyx".toList, some "1".toList), ("vim".toList, some "9.1".toList), ("xz".toList, some "5.9.3".toList), ("ours".toList, some "3".toList)]

-- The hypothesis holds, and the list is the one expected: `5.9.3` is before `5.10.1`.
example : (outdated oNames oArch oPorts).outdated = [("bash".toList, "5.2.37".toList, "5.2.21".toList), ("xz".toList, "5.10.1".toList, "5.9.3".toList)] := by decide +kernel
example : (outdated oNames oArch oPorts).notFound = ["ours".toList] := by decide +kernel
example : ∀ q ∈ oPorts, q.2.isSome = true := by decide +kernel
example : dotted [5, 10, 1] = "5.10.1".toList := by decide +kernel
example : ([5, 9, 3] : List Nat) < [5, 10, 1] := by decide

/-- The hypothesis of the theorems holds of the ports of the example. -/
theorem oPorts_own : OwnVers oNames oPorts := by
  intro q hq
  simp only [oPorts, List.mem_cons, List.not_mem_nil, or_false] at hq
  rcases hq with rfl | rfl | rfl | rfl | rfl
  all_goals
    refine ⟨?_, _, rfl⟩
    unfold oNames
    rw [if_neg (by decide)]
    split <;> simp

/-- A version with letters is not the version without them: the port of `1.0rc1` is not listed beside `1.0`, which is later. -/
theorem C122_letters_counterexample :
    (outdated oNames oArch [("rc".toList, some "1.0rc1".toList)]).outdated = [] := by decide +kernel

/-- What follows a `+` in the version of the other distribution is part of the comparison: a port of `1.5` is listed beside `1.2+40+gabc123`, which is before it. -/
theorem C122_plus_counterexample :
    (outdated oNames oArch [("git".toList, some "1.5".toList)]).outdated = [("git".toList, "1.2+40+gabc123".toList, "1.5".toList)] := by decide +kernel

/-- The same version with another number of zeros is listed. -/
theorem C122_zeros_counterexample :
    (outdated oNames oArch [("z".toList, some "1.02".toList)]).outdated = [("z".toList, "1.2".toList, "1.02".toList)] := by decide +kernel

/-- `aspell-dict` is compared with the package of the port before it. -/
theorem C122_previous_counterexample :
    (outdated oNames oArch [("vim".toList, some "9.1".toList), ("aspell-dict".toList, some "0.6".toList)]).outdated = [("aspell-dict".toList, "9.1".toList, "0.6".toList)] := by decide +kernel

end Cards.Props
