import Verif.Model.Upgrade
import Mathlib.Tactic.Linarith
import Mathlib.Tactic.Ring
/-!
# Single precision division and multiplication, as `diff::ratio` uses them
-/
namespace Cards.Props
open Cards

theorem roundDiv_near (n d : Nat) (hd : 0 < d) : 2 * n ≤ 2 * (roundDiv n d * d) + d ∧ 2 * (roundDiv n d * d) ≤ 2 * n + d := by
  have h1 := Nat.div_add_mod n d
  have h2 := Nat.mod_lt n hd
  unfold roundDiv
  simp only
  generalize n / d = q at *
  generalize n % d = r at *
  have e : (q + 1) * d = d * q + d := by ring
  have e' : q * d = d * q := Nat.mul_comm _ _
  split
  · rw [e']; omega
  · split
    · split
      · rw [e']; omega
      · rw [e]; omega
    · rw [e]; omega

theorem scaleFrom_spec (n d : Nat) : ∀ fuel k, (∃ j, k ≤ j ∧ j ≤ k + fuel ∧ 2 ^ 23 * d ≤ n * 2 ^ j) →
    2 ^ 23 * d ≤ n * 2 ^ (scaleFrom n d fuel k) ∧ ∀ i, k ≤ i → i < scaleFrom n d fuel k → n * 2 ^ i < 2 ^ 23 * d := by
  intro fuel
  induction fuel with
  | zero =>
    rintro k ⟨j, h1, h2, h3⟩
    have : j = k := by omega
    subst this
    exact ⟨h3, fun i h4 h5 => by simp [scaleFrom] at h5; omega⟩
  | succ fuel ih =>
    rintro k ⟨j, h1, h2, h3⟩
    rw [scaleFrom]
    by_cases hp : 2 ^ 23 * d ≤ n * 2 ^ k
    · rw [if_pos hp]; exact ⟨hp, fun i h4 h5 => by omega⟩
    · rw [if_neg hp]
      have hj : k ≠ j := by rintro rfl; exact hp h3
      obtain ⟨a, b⟩ := ih (k + 1) ⟨j, by omega, by omega, h3⟩
      refine ⟨a, fun i h4 h5 => ?_⟩
      by_cases hi : i = k
      · subst hi; exact Nat.lt_of_not_le hp
      · exact b i (by omega) h5

theorem single_spec {n d : Nat} (hn : 0 < n) (hd : 0 < d) (j : Nat) (hj : j ≤ 100) (hs : 2 ^ 23 * d ≤ n * 2 ^ j) :
    2 ^ 23 * d ≤ n * 2 ^ (single n d).2 ∧ (∀ i, i < (single n d).2 → n * 2 ^ i < 2 ^ 23 * d) ∧ (single n d).2 ≤ j ∧
    2 * (n * 2 ^ (single n d).2) ≤ 2 * ((single n d).1 * d) + d ∧ 2 * ((single n d).1 * d) ≤ 2 * (n * 2 ^ (single n d).2) + d := by
  unfold single
  rw [if_neg (by omega)]
  simp only
  obtain ⟨a, b⟩ := scaleFrom_spec n d 100 0 ⟨j, by omega, by omega, hs⟩
  obtain ⟨c, e⟩ := roundDiv_near (n * 2 ^ scaleFrom n d 100 0) d hd
  refine ⟨a, fun i hi => b i (by omega) hi, ?_, c, e⟩
  apply Nat.le_of_not_lt
  intro h
  exact absurd (b j (by omega) h) (by omega)

theorem two_pow_lt {a b : Nat} (h : 2 ^ a < 2 ^ b) : a + 1 ≤ b := (Nat.pow_lt_pow_iff_right (by omega)).mp h
theorem two_pow_le {a b : Nat} (h : 2 ^ a ≤ 2 ^ b) : a ≤ b := (Nat.pow_le_pow_iff_right (by omega)).mp h

set_option maxHeartbeats 1000000 in
theorem ratio_limit (junk ok total : Nat) (h0 : 0 < total) (ht : total ≤ 2 ^ 21) (hok : ok ≤ total) :
    20 < ratio junk ok total ↔ 5 * ok < 4 * total := by
  unfold ratio
  rw [if_neg (by omega)]
  simp only
  by_cases hz : ok = 0
  · subst hz; simp [single]; omega
  have hpos : 0 < ok := by omega
  obtain ⟨a1, a2, a3, a4, a5⟩ := single_spec hpos h0 44 (by omega) (by
    have : 2 ^ 44 = 2 ^ 23 * 2 ^ 21 := by norm_num
    rw [this]
    calc 2 ^ 23 * total ≤ 2 ^ 23 * 2 ^ 21 := Nat.mul_le_mul_left _ ht
      _ ≤ ok * (2 ^ 23 * 2 ^ 21) := Nat.le_mul_of_pos_left _ hpos)
  generalize hm : (single ok total).1 = m at *
  generalize hk : (single ok total).2 = k at *
  have hKpos : 0 < 2 ^ k := Nat.two_pow_pos k
  have hK : 2 ^ 23 ≤ 2 ^ k := by
    have : 2 ^ 23 * total ≤ 2 ^ k * total := by nlinarith
    exact Nat.le_of_mul_le_mul_right this h0
  have hK' : ok < total → 2 ^ 24 ≤ 2 ^ k := by
    intro hlt
    have : 2 ^ 23 * total < 2 ^ k * total := by nlinarith
    exact Nat.pow_le_pow_right (by omega) (two_pow_lt (Nat.lt_of_mul_lt_mul_right this))
  -- the product
  have hmK : m ≤ 2 ^ k := by
    apply Nat.le_of_not_lt
    intro h
    have : 2 * ((2 ^ k + 1) * total) ≤ 2 * (m * total) := by nlinarith
    nlinarith
  have hmpos : 0 < m := by
    apply Nat.pos_of_ne_zero
    rintro rfl
    nlinarith
  obtain ⟨b1, b2, b3, b4, b5⟩ := single_spec (n := m * 100) (d := 2 ^ k) (by omega) hKpos 67 (by omega) (by
    have h44 : 2 ^ k ≤ 2 ^ 44 := Nat.pow_le_pow_right (by omega) a3
    have : (2 : Nat) ^ 67 = 2 ^ 23 * 2 ^ 44 := by norm_num
    rw [this]
    nlinarith)
  generalize hr : (single (m * 100) (2 ^ k)).1 = r at *
  generalize hj : (single (m * 100) (2 ^ k)).2 = j at *
  have hJpos : 0 < 2 ^ j := Nat.two_pow_pos j
  have hJ : 2 ^ 17 ≤ 2 ^ j := by
    have : 2 ^ 16 * 2 ^ k < 2 ^ j * 2 ^ k := by nlinarith
    exact Nat.pow_le_pow_right (by omega) (two_pow_lt (Nat.lt_of_mul_lt_mul_right this))
  have goal : r < 80 * 2 ^ j ↔ 5 * ok < 4 * total := by
    generalize hKK : 2 ^ k = K at *
    generalize hJJ : 2 ^ j = J at *
    constructor
    · intro hlt
      apply Nat.lt_of_not_le
      intro hge
      -- j = 17
      have hJ17 : J = 2 ^ 17 := by
        have h1 : j ≤ 17 := by
          apply Nat.le_of_not_lt
          intro h
          have hb := b2 17 h
          -- m ≥ 0.8 K - .5
          have h2 : 2 * (4 * total) * K ≤ 2 * (5 * ok) * K := by nlinarith
          have h3 : 8 * K * total ≤ (10 * m + 5) * total := by nlinarith
          have h4 := Nat.le_of_mul_le_mul_right h3 h0
          nlinarith
        have h2 : 17 ≤ j := two_pow_le (by rw [hJJ]; exact hJ)
        have : j = 17 := by omega
        rw [← hJJ, this]
      rw [hJ17] at b4 hlt
      have h1 : 200 * m * 2 ^ 17 + K ≤ 160 * 2 ^ 17 * K := by nlinarith
      have h3 : 8 * K * total ≤ (10 * m + 5) * total := by nlinarith
      have h4 := Nat.le_of_mul_le_mul_right h3 h0
      by_cases heq : ok < total
      · have := hK' heq
        omega
      · have : ok = total := by omega
        subst this
        have h5 : 2 * K * ok ≤ (2 * m + 1) * ok := by nlinarith
        have h6 := Nat.le_of_mul_le_mul_right h5 h0
        omega
    · intro hlt
      apply Nat.lt_of_not_le
      intro hge
      have hK24 := hK' (by omega)
      have h1 : 160 * J * K ≤ 200 * m * J + K := by linarith [Nat.mul_le_mul_right K hge]
      have h2 : 160 * J * K * total ≤ 200 * J * (m * total) + K * total := by linarith [Nat.mul_le_mul_right total h1]
      have h3 : 200 * J * (m * total) ≤ 200 * J * (ok * K) + 100 * J * total := by linarith [Nat.mul_le_mul_right (100 * J) a5]
      have h4 : 200 * (ok * K) * J + 40 * K * J ≤ 160 * total * K * J := by
        have : 200 * ok + 40 ≤ 160 * total := by omega
        linarith [Nat.mul_le_mul_right (K * J) this]
      have h5 : 40 * K * J ≤ 100 * J * total + K * total := by linarith
      have h6 : 100 * J * total ≤ 13 * K * J := by linarith [Nat.mul_le_mul_right (100 * J) ht, Nat.mul_le_mul_right (13 * J) hK24]
      have h7 : K * total ≤ 16 * K * J := by linarith [Nat.mul_le_mul_right K ht, Nat.mul_le_mul_right (16 * K) hJ]
      have h8 : 0 < K * J := Nat.mul_pos hKpos hJpos
      linarith
  have : r / 2 ^ j < 80 ↔ r < 80 * 2 ^ j := Nat.div_lt_iff_lt_mul hJpos
  omega
end Cards.Props
