import Verif.Model.Ports
import Verif.Lemmas.Base
import Mathlib.Tactic.Common
/-!
# One round of the level computation in closed form
-/
namespace Cards

/-- What the ports `ks` add to `decrement` of `j` in a round. -/
def hitsOf (T : Ports) (ks : List Str) (j : Port) : Nat :=
  (ks.map (fun k => match mget T k with | some i => if i.decount = 0 then hits i j else 0 | none => 0)).sum

/-- The tree in the middle of a round, after the ports `ks`. -/
def midRound (lvl : Nat) (T : Ports) (ks : List Str) : Ports :=
  T.map (fun p => (p.1,
    if p.2.decount = 0 then (if p.1 ∈ ks then { p.2 with decount := -1, level := lvl } else p.2)
    else { p.2 with decrement := p.2.decrement + hitsOf T ks p.2 }))

theorem mget_map {α β : Type} (T : List (Str × α)) (f : Str → α → β) (k : Str) :
    mget (T.map (fun p => (p.1, f p.1 p.2))) k = (mget T k).map (f k) := by
  induction T with
  | nil => rfl
  | cons p T ih =>
    obtain ⟨n, v⟩ := p
    simp only [List.map_cons, mget]
    by_cases h : n = k
    · simp [h]
    · simp [h, ih]

theorem hits_index (i i' j j' : Port) (h : i.index = i'.index) (h1 : j.index = j'.index) (h2 : j.decount = j'.decount)
    (h3 : j.indexes = j'.indexes) : hits i j = hits i' j' := by
  unfold hits; rw [h, h1, h2, h3]

theorem hits_nonpos (i j : Port) (h : ¬ j.decount > 0) : hits i j = 0 := by
  unfold hits; simp [h]

theorem hitsOf_nonpos (T : Ports) (ks : List Str) (j : Port) (h : ¬ j.decount > 0) : hitsOf T ks j = 0 := by
  unfold hitsOf
  induction ks with
  | nil => rfl
  | cons k ks ih =>
    simp only [List.map_cons, List.sum_cons, ih, Nat.add_zero]
    cases mget T k with
    | none => rfl
    | some i => simp [hits_nonpos i j h]

theorem hitsOf_snoc (T : Ports) (ks : List Str) (k : Str) (j : Port) :
    hitsOf T (ks ++ [k]) j = hitsOf T ks j + (match mget T k with | some i => if i.decount = 0 then hits i j else 0 | none => 0) := by
  simp [hitsOf]

theorem midRound_nil (lvl : Nat) (T : Ports) : midRound lvl T [] = T := by
  unfold midRound
  conv => rhs; rw [← List.map_id T]
  apply List.map_congr_left
  intro p _
  by_cases h : p.2.decount = 0 <;> simp [h, hitsOf]

theorem visitPort_mid (lvl : Nat) (T : Ports) (ks : List Str) (k : Str) (b : Bool) (hs : MSorted T) (hk : k ∉ ks) :
    visitPort lvl (midRound lvl T ks, b) k =
      (midRound lvl T (ks ++ [k]), b || (match mget T k with | some i => i.decount = 0 | none => false)) := by
  unfold visitPort
  have hm : mget (midRound lvl T ks) k = (mget T k).map (fun i =>
      if i.decount = 0 then (if k ∈ ks then { i with decount := -1, level := lvl } else i)
      else { i with decrement := i.decrement + hitsOf T ks i }) := by
    unfold midRound
    exact mget_map T (fun n i => if i.decount = 0 then (if n ∈ ks then { i with decount := -1, level := lvl } else i)
      else { i with decrement := i.decrement + hitsOf T ks i }) k
  simp only [hm]
  cases hg : mget T k with
  | none =>
    simp only [Option.map_none]
    refine Prod.ext ?_ (by simp)
    show midRound lvl T ks = midRound lvl T (ks ++ [k])
    unfold midRound
    apply List.map_congr_left
    intro p hp
    have hne : p.1 ≠ k := by
      rintro rfl
      exact mget_none_iff.1 hg (List.mem_map.2 ⟨p, hp, rfl⟩)
    rw [hitsOf_snoc, hg]
    simp [hne]
  | some i =>
    simp only [Option.map_some]
    by_cases hi : i.decount = 0
    · have hif : (if i.decount = 0 then (if k ∈ ks then { i with decount := -1, level := lvl } else i)
          else { i with decrement := i.decrement + hitsOf T ks i }) = i := by simp [hi, hk]
      rw [hif, if_pos hi]
      refine Prod.ext ?_ (by simp [hi])
      show List.map _ (List.map _ (midRound lvl T ks)) = midRound lvl T (ks ++ [k])
      unfold midRound
      rw [List.map_map, List.map_map]
      apply List.map_congr_left
      intro p hp
      simp only [Function.comp]
      rw [hitsOf_snoc, hg]
      simp only [hi, if_true]
      by_cases hpk : p.1 = k
      · subst hpk
        simp only [if_true]
        have hpi : p.2 = i := by
          have := mem_mget_of_sorted hs hp
          rw [hg] at this
          exact (Option.some.inj this).symm
        have hz : hits { i with decount := -1, level := lvl } { i with decount := -1, level := lvl } = 0 := by simp [hits]
        rw [hz, hpi]
        simp [hi]
      · simp only [hpk, if_false]
        by_cases hp0 : p.2.decount = 0
        · simp only [hp0, if_true]
          have hmem : (p.1 ∈ ks ++ [k]) ↔ p.1 ∈ ks := by simp [hpk]
          by_cases hpks : p.1 ∈ ks
          · simp [hpks, hits]
          · rw [if_neg hpks, if_neg (by rw [hmem]; exact hpks), hits_nonpos _ p.2 (by omega)]
            rfl
        · simp only [hp0, if_false]
          congr 2
          rw [Nat.add_assoc]
          congr 2
    · have hif : (if i.decount = 0 then (if k ∈ ks then { i with decount := -1, level := lvl } else i)
          else { i with decrement := i.decrement + hitsOf T ks i }) = { i with decrement := i.decrement + hitsOf T ks i } := by simp [hi]
      rw [hif, if_neg (by exact hi)]
      refine Prod.ext ?_ (by simp [hi])
      show midRound lvl T ks = midRound lvl T (ks ++ [k])
      unfold midRound
      apply List.map_congr_left
      intro p hp
      rw [hitsOf_snoc, hg]
      simp only [hi, if_false, Nat.add_zero]
      by_cases hpk : p.1 = k
      · have hpi : p.2 = i := by
          have := mem_mget_of_sorted hs (show (k, p.2) ∈ T by rw [← hpk]; exact hp)
          rw [hg] at this
          exact (Option.some.inj this).symm
        simp [hpi, hi]
      · simp [hpk]

theorem fold_mid (lvl : Nat) (T : Ports) (hs : MSorted T) (rest ks : List Str) (b : Bool) (hn : (ks ++ rest).Nodup) :
    rest.foldl (visitPort lvl) (midRound lvl T ks, b) =
      (midRound lvl T (ks ++ rest), b || rest.any (fun k => match mget T k with | some i => i.decount = 0 | none => false)) := by
  induction rest generalizing ks b with
  | nil => simp
  | cons k rest ih =>
    have hk : k ∉ ks := by
      intro h
      rw [List.nodup_append] at hn
      exact hn.2.2 k h k (by simp) rfl
    rw [List.foldl_cons, visitPort_mid lvl T ks k b hs hk, ih (ks ++ [k]) _ (by simpa using hn)]
    simp [Bool.or_assoc]

theorem MSorted.nodup {α : Type} {T : List (Str × α)} (h : MSorted T) : (keys T).Nodup := by
  unfold MSorted Sorted at h
  exact h.imp (fun {a b} hab => by rintro rfl; exact str_lt_irrefl a hab)

/-- How often the indexes of `j` name a port with counter 0. -/
def zeroDeps (T : Ports) (idx : List Nat) : Nat :=
  idx.countP (fun k => T.any (fun q => q.2.index = k && q.2.decount = 0))

/-- Different ports have different indexes. -/
def DistinctIndex (T : Ports) : Prop := T.Pairwise (fun p q => p.2.index ≠ q.2.index)

theorem countP_disj {α : Type} (l : List α) (a b c : α → Bool) (h : ∀ x ∈ l, c x = (a x || b x)) (hd : ∀ x ∈ l, ¬ (a x ∧ b x)) :
    l.countP c = l.countP a + l.countP b := by
  induction l with
  | nil => rfl
  | cons x l ih =>
    have := ih (fun y hy => h y (by simp [hy])) (fun y hy => hd y (by simp [hy]))
    have h1 := h x (by simp)
    have h2 := hd x (by simp)
    simp only [List.countP_cons, this, h1]
    cases ha : a x <;> cases hb : b x <;> simp [ha, hb] at h2 ⊢ <;> omega

theorem hitsOf_eq (T : Ports) (hs : MSorted T) (hd : DistinctIndex T) (j : Port) (hj : j.decount > 0) (hown : j.index ∉ j.indexes) :
    hitsOf T (keys T) j = zeroDeps T j.indexes := by
  have step : hitsOf T (keys T) j = (T.map (fun q => if q.2.decount = 0 then hits q.2 j else 0)).sum := by
    unfold hitsOf keys
    rw [List.map_map]
    congr 1
    apply List.map_congr_left
    intro q hq
    simp only [Function.comp]
    rw [mem_mget_of_sorted hs (show (q.1, q.2) ∈ T from hq)]
  rw [step]
  clear step hs
  unfold zeroDeps
  induction T with
  | nil =>
    simp only [List.map_nil, List.sum_nil, List.any_nil]
    symm
    rw [List.countP_eq_zero]; simp
  | cons q T ih =>
    unfold DistinctIndex at hd
    rw [List.pairwise_cons] at hd
    rw [List.map_cons, List.sum_cons, ih hd.2]
    symm
    have hhits : (if q.2.decount = 0 then hits q.2 j else 0) = j.indexes.countP (fun k => q.2.index = k && q.2.decount = 0) := by
      by_cases h0 : q.2.decount = 0
      · rw [if_pos h0]
        unfold hits
        by_cases he : j.index = q.2.index
        · rw [if_pos he]
          symm
          rw [List.countP_eq_zero]
          intro k hk
          simp only [h0, decide_true, Bool.and_true, decide_eq_true_eq]
          rintro rfl
          exact hown (he ▸ hk)
        · rw [if_neg he, if_pos hj, ← List.countP_eq_length_filter]
          apply List.countP_congr
          intro k hk
          simp only [h0, decide_true, Bool.and_true, decide_eq_true_eq]
          constructor
          · rintro ⟨_, rfl⟩; rfl
          · rintro rfl; exact ⟨fun e => he e.symm, rfl⟩
      · rw [if_neg h0]
        symm
        rw [List.countP_eq_zero]
        simp [h0]
    rw [hhits]
    apply countP_disj
    · intro k _; simp [List.any_cons]
    · intro k _ ⟨ha, hb⟩
      simp only [Bool.and_eq_true, decide_eq_true_eq] at ha
      rw [List.any_eq_true] at hb
      obtain ⟨r, hr, hb⟩ := hb
      simp only [Bool.and_eq_true, decide_eq_true_eq] at hb
      exact hd.1 r hr (by rw [ha.1, hb.1])

/-- One round: the ports with counter 0 get the level; the counters of the others drop by the dependencies just levelled. -/
theorem levelRound_eq (lvl : Nat) (T : Ports) (hs : MSorted T) (hd : DistinctIndex T) (hdec : ∀ p ∈ T, p.2.decrement = 0)
    (hown : ∀ p ∈ T, p.2.index ∉ p.2.indexes) :
    levelRound lvl T = (T.map (fun p => (p.1,
        if p.2.decount = 0 then { p.2 with decount := -1, level := lvl }
        else if p.2.decount > 0 then { p.2 with decount := p.2.decount - zeroDeps T p.2.indexes } else p.2)),
      T.any (fun p => p.2.decount = 0)) := by
  unfold levelRound
  have hf := fold_mid lvl T hs (keys T) [] false (by simpa using hs.nodup)
  rw [midRound_nil] at hf
  rw [hf]
  simp only [List.nil_append, Bool.false_or]
  refine Prod.ext ?_ ?_
  · show settle (midRound lvl T (keys T)) = _
    unfold settle midRound
    rw [List.map_map]
    apply List.map_congr_left
    intro p hp
    have hk : p.1 ∈ keys T := List.mem_map.2 ⟨p, hp, rfl⟩
    have h0 := hdec p hp
    simp only [Function.comp, hk, if_true]
    by_cases hz : p.2.decount = 0
    · simp [hz, h0]
    · simp only [hz, if_false]
      by_cases hpos : p.2.decount > 0
      · rw [if_pos hpos, hitsOf_eq T hs hd p.2 hpos (hown p hp)]
        simp only [h0, Nat.zero_add]
        by_cases hzd : zeroDeps T p.2.indexes > 0
        · rw [if_pos hzd, ← h0]
        · rw [if_neg hzd]
          have : zeroDeps T p.2.indexes = 0 := by omega
          rw [this, ← h0]
          simp [h0]
      · rw [if_neg hpos, hitsOf_nonpos T _ p.2 hpos]
        rw [if_neg (by show ¬ _ > 0; rw [h0]; omega)]
        rfl
  · show (keys T).any _ = _
    unfold keys
    rw [List.any_map]
    rw [Bool.eq_iff_iff, List.any_eq_true, List.any_eq_true]
    constructor
    · rintro ⟨p, hp, h⟩
      refine ⟨p, hp, ?_⟩
      simp only [Function.comp] at h
      rw [mem_mget_of_sorted hs (show (p.1, p.2) ∈ T from hp)] at h
      exact h
    · rintro ⟨p, hp, h⟩
      refine ⟨p, hp, ?_⟩
      simp only [Function.comp]
      rw [mem_mget_of_sorted hs (show (p.1, p.2) ∈ T from hp)]
      exact h

/-- What `parse` and `confirmDependencies` guarantee and no round changes. -/
structure LWf (T : Ports) : Prop where
  sorted : MSorted T
  distinct : DistinctIndex T
  dec : ∀ p ∈ T, p.2.decrement = 0
  own : ∀ p ∈ T, p.2.index ∉ p.2.indexes

theorem DistinctIndex.inj {T : Ports} (h : DistinctIndex T) {p q : Str × Port} (hp : p ∈ T) (hq : q ∈ T) (e : p.2.index = q.2.index) :
    p = q := by
  induction T with
  | nil => simp at hp
  | cons r T ih =>
    unfold DistinctIndex at h
    rw [List.pairwise_cons] at h
    rcases List.mem_cons.1 hp with ep | hp' <;> rcases List.mem_cons.1 hq with eq | hq'
    · rw [ep, eq]
    · exact absurd (ep ▸ e) (h.1 q hq')
    · exact absurd (eq ▸ e.symm) (h.1 p hp')
    · exact ih h.2 hp' hq'

/-- The port after a round. -/
def nextPort (lvl : Nat) (T : Ports) (p : Port) : Port :=
  if p.decount = 0 then { p with decount := -1, level := lvl }
  else if p.decount > 0 then { p with decount := p.decount - zeroDeps T p.indexes } else p

theorem nextPort_index (lvl : Nat) (T : Ports) (p : Port) : (nextPort lvl T p).index = p.index := by
  unfold nextPort; split <;> [rfl; (split <;> rfl)]
theorem nextPort_indexes (lvl : Nat) (T : Ports) (p : Port) : (nextPort lvl T p).indexes = p.indexes := by
  unfold nextPort; split <;> [rfl; (split <;> rfl)]
theorem nextPort_decrement (lvl : Nat) (T : Ports) (p : Port) : (nextPort lvl T p).decrement = p.decrement := by
  unfold nextPort; split <;> [rfl; (split <;> rfl)]

/-- The part of a port the level computation leaves alone. -/
def Port.core (p : Port) : Port := { p with decount := 0, level := 0 }

theorem nextPort_core (lvl : Nat) (T : Ports) (p : Port) : (nextPort lvl T p).core = p.core := by
  unfold nextPort; split <;> [rfl; (split <;> rfl)]

theorem nextPort_done {lvl : Nat} {T : Ports} {p : Port} (h : p.decount = -1) : nextPort lvl T p = p := by
  unfold nextPort; rw [if_neg (by omega), if_neg (by omega)]

/-- The number of indexes of ports without level. -/
def openDeps (T : Ports) (idx : List Nat) : Nat :=
  idx.countP (fun k => T.any (fun q => q.2.index = k && q.2.decount ≠ -1))

theorem openDeps_pos {T : Ports} {idx : List Nat} (h : 0 < openDeps T idx) : ∃ q ∈ T, q.2.index ∈ idx ∧ q.2.decount ≠ -1 := by
  unfold openDeps at h
  rw [List.countP_pos_iff] at h
  obtain ⟨k, hk, h⟩ := h
  rw [List.any_eq_true] at h
  obtain ⟨q, hq, h⟩ := h
  simp only [ne_eq, Bool.and_eq_true, decide_eq_true_eq] at h
  exact ⟨q, hq, by rw [h.1]; exact hk, h.2⟩

theorem openDeps_zero {T : Ports} {idx : List Nat} (h : openDeps T idx = 0) {q : Str × Port} (hq : q ∈ T) (hi : q.2.index ∈ idx) :
    q.2.decount = -1 := by
  unfold openDeps at h
  rw [List.countP_eq_zero] at h
  have := h _ hi
  rw [List.any_eq_true] at this
  by_contra hne
  exact this ⟨q, hq, by simp [hne]⟩

/-- The invariant at the start of the round `lvl`. -/
structure LInv (T : Ports) (lvl : Nat) : Prop where
  wf : LWf T
  done : ∀ p ∈ T, p.2.decount = -1 → p.2.level < lvl ∧ (∀ q ∈ T, q.2.index ∈ p.2.indexes → q.2.decount = -1 ∧ q.2.level < p.2.level) ∧
    (p.2.level = 0 ∨ ∃ q ∈ T, q.2.index ∈ p.2.indexes ∧ q.2.level + 1 = p.2.level)
  todo : ∀ p ∈ T, p.2.decount ≠ -1 → p.2.decount = openDeps T p.2.indexes ∧ p.2.level = 0 ∧
    (lvl = 0 ∨ ∃ q ∈ T, q.2.index ∈ p.2.indexes ∧ (q.2.decount ≠ -1 ∨ q.2.level + 1 = lvl))

/-- The tree after a round. -/
def nextTree (lvl : Nat) (T : Ports) : Ports := T.map (fun p => (p.1, nextPort lvl T p.2))

theorem mem_nextTree {lvl : Nat} {T : Ports} {p : Str × Port} (h : p ∈ nextTree lvl T) :
    ∃ q ∈ T, p = (q.1, nextPort lvl T q.2) := by
  unfold nextTree at h
  obtain ⟨q, hq, rfl⟩ := List.mem_map.1 h
  exact ⟨q, hq, rfl⟩

theorem nextTree_mem (lvl : Nat) {T : Ports} {p : Str × Port} (h : p ∈ T) : (p.1, nextPort lvl T p.2) ∈ nextTree lvl T :=
  List.mem_map.2 ⟨p, h, rfl⟩

theorem LWf.next {T : Ports} (h : LWf T) (lvl : Nat) : LWf (nextTree lvl T) := by
  refine ⟨?_, ?_, ?_, ?_⟩
  · have : keys (nextTree lvl T) = keys T := by simp [keys, nextTree]
    unfold MSorted; rw [this]; exact h.sorted
  · unfold DistinctIndex nextTree
    rw [List.pairwise_map]
    simp only [nextPort_index]
    exact h.distinct
  · intro p hp
    obtain ⟨q, hq, rfl⟩ := mem_nextTree hp
    simpa only [nextPort_decrement] using h.dec q hq
  · intro p hp
    obtain ⟨q, hq, rfl⟩ := mem_nextTree hp
    simpa only [nextPort_index, nextPort_indexes] using h.own q hq

/-- The dependencies without level before the round: those levelled in it and those still without level. -/
theorem openDeps_split {T : Ports} {lvl : Nat} (h : LInv T lvl) (idx : List Nat) (hg : ∀ q ∈ T, q.2.decount > 0 →
    (nextPort lvl T q.2).decount ≠ -1) :
    openDeps T idx = openDeps (nextTree lvl T) idx + zeroDeps T idx := by
  unfold openDeps zeroDeps
  apply countP_disj
  · intro k _
    rw [Bool.eq_iff_iff, Bool.or_eq_true, List.any_eq_true, List.any_eq_true, List.any_eq_true]
    constructor
    · rintro ⟨q, hq, hk⟩
      simp only [ne_eq, Bool.and_eq_true, decide_eq_true_eq] at hk
      obtain ⟨h1, _, _⟩ := h.todo q hq hk.2
      by_cases h0 : q.2.decount = 0
      · exact Or.inr ⟨q, hq, by simp [hk.1, h0]⟩
      · left
        refine ⟨_, nextTree_mem lvl hq, ?_⟩
        have := hg q hq (by omega)
        simp [nextPort_index, hk.1, this]
    · rintro (⟨q, hq, hk⟩ | ⟨q, hq, hk⟩)
      · obtain ⟨r, hr, rfl⟩ := mem_nextTree hq
        simp only [ne_eq, Bool.and_eq_true, decide_eq_true_eq, nextPort_index] at hk
        refine ⟨r, hr, ?_⟩
        have : r.2.decount ≠ -1 := by
          intro e
          rw [nextPort_done e] at hk
          exact hk.2 e
        simp [hk.1, this]
      · simp only [Bool.and_eq_true, decide_eq_true_eq] at hk
        exact ⟨q, hq, by simp [hk.1, hk.2]⟩
  · rintro k _ ⟨h1, h2⟩
    rw [List.any_eq_true] at h1 h2
    obtain ⟨p, hp, h1⟩ := h1
    obtain ⟨q, hq, h2⟩ := h2
    obtain ⟨r, hr, rfl⟩ := mem_nextTree hp
    simp only [ne_eq, Bool.and_eq_true, decide_eq_true_eq, nextPort_index] at h1 h2
    have : r = q := h.wf.distinct.inj hr hq (by rw [h1.1, h2.1])
    subst this
    apply h1.2
    unfold nextPort
    rw [if_pos h2.2]

theorem LInv.pos_next {T : Ports} {lvl : Nat} (h : LInv T lvl) {q : Str × Port} (hq : q ∈ T) (hpos : q.2.decount > 0) :
    (nextPort lvl T q.2).decount ≠ -1 := by
  obtain ⟨h1, _, _⟩ := h.todo q hq (by omega)
  have hle : zeroDeps T q.2.indexes ≤ openDeps T q.2.indexes := by
    unfold zeroDeps openDeps
    apply List.countP_mono_left
    intro k _ hk
    rw [List.any_eq_true] at hk ⊢
    obtain ⟨r, hr, hk⟩ := hk
    refine ⟨r, hr, ?_⟩
    simp only [Bool.and_eq_true, decide_eq_true_eq] at hk
    simp [hk.1, hk.2]
  have : (nextPort lvl T q.2).decount = q.2.decount - zeroDeps T q.2.indexes := by
    unfold nextPort
    rw [if_neg (by omega), if_pos hpos]
  rw [this]
  omega

theorem LInv.next {T : Ports} {lvl : Nat} (h : LInv T lvl) : LInv (nextTree lvl T) (lvl + 1) := by
  have hg : ∀ q ∈ T, q.2.decount > 0 → (nextPort lvl T q.2).decount ≠ -1 := fun q hq hp => h.pos_next hq hp
  refine ⟨h.wf.next lvl, ?_, ?_⟩
  · intro p hp hd
    obtain ⟨r, hr, rfl⟩ := mem_nextTree hp
    simp only [nextPort_indexes] at *
    by_cases hdone : r.2.decount = -1
    · rw [nextPort_done hdone] at *
      obtain ⟨h1, h2, h3⟩ := h.done r hr hdone
      refine ⟨by omega, ?_, ?_⟩
      · intro q hq hi
        obtain ⟨s, hs, rfl⟩ := mem_nextTree hq
        simp only [nextPort_index] at hi
        have := h2 s hs hi
        rw [nextPort_done this.1]
        exact this
      · rcases h3 with h3 | ⟨q, hq, hi, hl⟩
        · exact Or.inl h3
        · refine Or.inr ⟨_, nextTree_mem lvl hq, ?_, ?_⟩
          · simpa only [nextPort_index] using hi
          · rw [nextPort_done (h2 q hq hi).1]; exact hl
    · obtain ⟨h1, h2, h3⟩ := h.todo r hr hdone
      have h0 : r.2.decount = 0 := by
        by_contra hne
        exact hg r hr (by omega) hd
      have hz : openDeps T r.2.indexes = 0 := by omega
      have hlev : (nextPort lvl T r.2).level = lvl := by unfold nextPort; rw [if_pos h0]
      rw [hlev]
      refine ⟨by omega, ?_, ?_⟩
      · intro q hq hi
        obtain ⟨s, hs, rfl⟩ := mem_nextTree hq
        simp only [nextPort_index] at hi
        have hsd := openDeps_zero hz hs hi
        rw [nextPort_done hsd]
        exact ⟨hsd, (h.done s hs hsd).1⟩
      · rcases h3 with h3 | ⟨q, hq, hi, hl⟩
        · exact Or.inl h3
        · right
          have hqd := openDeps_zero hz hq hi
          refine ⟨_, nextTree_mem lvl hq, by simpa only [nextPort_index] using hi, ?_⟩
          rw [nextPort_done hqd]
          rcases hl with hl | hl
          · exact absurd hqd hl
          · exact hl
  · intro p hp hd
    obtain ⟨r, hr, rfl⟩ := mem_nextTree hp
    simp only [nextPort_indexes] at *
    have hnd : r.2.decount ≠ -1 := by
      intro e; rw [nextPort_done e] at hd; exact hd e
    obtain ⟨h1, h2, h3⟩ := h.todo r hr hnd
    have hne : r.2.decount ≠ 0 := by
      intro e
      apply hd
      unfold nextPort
      rw [if_pos e]
    have hpos : r.2.decount > 0 := by omega
    have hval : nextPort lvl T r.2 = { r.2 with decount := r.2.decount - zeroDeps T r.2.indexes } := by
      unfold nextPort
      rw [if_neg hne, if_pos hpos]
    have hsplit := openDeps_split h r.2.indexes hg
    refine ⟨?_, ?_, ?_⟩
    · rw [hval]; show r.2.decount - _ = _; omega
    · rw [hval]; exact h2
    · right
      obtain ⟨q, hq, hi, hqd⟩ := openDeps_pos (T := T) (idx := r.2.indexes) (by omega)
      refine ⟨_, nextTree_mem lvl hq, by simpa only [nextPort_index] using hi, ?_⟩
      by_cases hq0 : q.2.decount = 0
      · right
        have : (nextPort lvl T q.2).level = lvl := by unfold nextPort; rw [if_pos hq0]
        rw [this]
      · left
        have := (h.todo q hq hqd).1
        exact hg q hq (by omega)

/-- What the level computation ends with. -/
structure Levelled (T T' : Ports) : Prop where
  same : T'.map (fun p => (p.1, p.2.core)) = T.map (fun p => (p.1, p.2.core))
  done : ∀ p ∈ T', p.2.decount = -1 → (∀ q ∈ T', q.2.index ∈ p.2.indexes → q.2.decount = -1 ∧ q.2.level < p.2.level) ∧
    (p.2.level = 0 ∨ ∃ q ∈ T', q.2.index ∈ p.2.indexes ∧ q.2.level + 1 = p.2.level)
  stuck : ∀ p ∈ T', p.2.decount ≠ -1 → p.2.level = 0 ∧ ∃ q ∈ T', q.2.index ∈ p.2.indexes ∧ q.2.decount ≠ -1

theorem nextTree_same (lvl : Nat) (T : Ports) :
    (nextTree lvl T).map (fun p => (p.1, p.2.core)) = T.map (fun p => (p.1, p.2.core)) := by
  unfold nextTree
  rw [List.map_map]
  apply List.map_congr_left
  intro p _
  simp only [Function.comp, nextPort_core]

/-- The ports without level. -/
def todoCount (T : Ports) : Nat := T.countP (fun p => p.2.decount ≠ -1)

theorem todoCount_next {T : Ports} {lvl : Nat} (hf : T.any (fun p => p.2.decount = 0) = true) :
    todoCount (nextTree lvl T) < todoCount T := by
  unfold todoCount nextTree
  rw [List.countP_map]
  have key : ∀ l : Ports, l.countP ((fun p : Str × Port => decide (p.2.decount ≠ -1)) ∘ fun p => (p.1, nextPort lvl T p.2)) ≤
      l.countP (fun p => p.2.decount ≠ -1) := by
    intro l
    apply List.countP_mono_left
    intro p _ hp
    simp only [Function.comp, ne_eq, decide_eq_true_eq] at hp ⊢
    intro e
    rw [nextPort_done e] at hp
    exact hp e
  rw [List.any_eq_true] at hf
  obtain ⟨p, hp, h0⟩ := hf
  simp only [decide_eq_true_eq] at h0
  obtain ⟨a, b, hab⟩ := List.append_of_mem hp
  have ha := key a
  have hb := key b
  have hl : ∀ f : Str × Port → Bool, T.countP f = a.countP f + ((if f p then 1 else 0) + b.countP f) := by
    intro f
    rw [hab, List.countP_append, List.countP_cons]
    omega
  rw [hl, hl]
  have h1 : (((fun p : Str × Port => decide (p.2.decount ≠ -1)) ∘ fun p => (p.1, nextPort lvl T p.2)) p) = false := by
    simp [nextPort, h0]
  have h2 : (decide (p.2.decount ≠ -1)) = true := by simp [h0]
  rw [h1, h2]
  simp only [Bool.false_eq_true, if_false, if_true]
  omega

theorem generateLevel_spec (fuel : Nat) (T : Ports) (lvl : Nat) (h : LInv T lvl) (hf : todoCount T < fuel) :
    ∃ T', generateLevel fuel lvl T = some T' ∧ Levelled T T' := by
  induction fuel generalizing T lvl with
  | zero => omega
  | succ f ih =>
    have hr : levelRound lvl T = (nextTree lvl T, T.any (fun p => p.2.decount = 0)) :=
      levelRound_eq lvl T h.wf.sorted h.wf.distinct h.wf.dec h.wf.own
    simp only [generateLevel, hr]
    by_cases hfound : T.any (fun p => p.2.decount = 0) = true
    · rw [if_pos hfound]
      have := todoCount_next (lvl := lvl) hfound
      obtain ⟨T', e, l⟩ := ih (nextTree lvl T) (lvl + 1) h.next (by omega)
      exact ⟨T', e, by rw [← nextTree_same lvl T]; exact l.same, l.done, l.stuck⟩
    · rw [if_neg hfound]
      refine ⟨_, rfl, nextTree_same lvl T, ?_, ?_⟩
      · intro p hp hd
        exact ((h.next).done p hp hd).2
      · intro p hp hd
        obtain ⟨h1, h2, h3⟩ := (h.next).todo p hp hd
        refine ⟨h2, ?_⟩
        obtain ⟨r, hr, rfl⟩ := mem_nextTree hp
        have hnd : r.2.decount ≠ -1 := by
          intro e; rw [nextPort_done e] at hd; exact hd e
        have hall : ∀ q ∈ T, q.2.decount ≠ 0 := by
          intro q hq e
          apply hfound
          rw [List.any_eq_true]
          exact ⟨q, hq, by simp [e]⟩
        have hpos : r.2.decount > 0 := by
          have := (h.todo r hr hnd).1
          have := hall r hr
          omega
        have := (h.todo r hr hnd).1
        obtain ⟨q, hq, hi, hqd⟩ := openDeps_pos (T := T) (idx := r.2.indexes) (by omega)
        refine ⟨_, nextTree_mem lvl hq, ?_, ?_⟩
        · simpa only [nextPort_index, nextPort_indexes] using hi
        · have := (h.todo q hq hqd).1
          have := hall q hq
          exact h.pos_next hq (by omega)

end Cards
