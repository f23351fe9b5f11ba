import Mathlib.Tactic.Common
import Verif.Props.Repo
/-!
# C24, C46: numbers with white space and a sign, as hand-written metadata may have them
-/
namespace Cards.Props
open Cards

/-- The white space of C. -/
def Blank (ws : Str) : Prop := ∀ c ∈ ws, c ∈ [' ', '\t', '\n', '\x0b', '\x0c', '\r']

theorem isSpaceC_iff_code (c : Char) : isSpaceC c = true ↔ c ∈ [' ', '\t', '\n', '\x0b', '\x0c', '\r'] := by
  simp [isSpaceC, or_assoc]

theorem dropBlank {ws : Str} (h : Blank ws) (s : Str) : (ws ++ s).dropWhile isSpaceC = s.dropWhile isSpaceC := by
  induction ws with
  | nil => rfl
  | cons c ws ih =>
    rw [List.cons_append, List.dropWhile_cons_of_pos ((isSpaceC_iff_code c).2 (h c (by simp)))]
    exact ih (fun d hd => h d (List.mem_cons_of_mem _ hd))

theorem numText_blank {ws : Str} (h : Blank ws) (b : Nat) (s : Str) : numText b (ws ++ s) = numText b s := by
  unfold numText; rw [dropBlank h]

theorem dec_body (n : Nat) : numBody 10 (dec n) = some n := by
  unfold numBody hexPrefix
  simp [digits_dec]

theorem dec_body0 (n : Nat) (h : 0 < n) : numBody 0 (dec n) = some n := by
  obtain ⟨d, r, e, h1, h2⟩ := dec_head n h
  have hd : digits 10 (digitC d :: r) none = some n := by rw [← e]; exact digits_dec n
  have : d = 1 ∨ d = 2 ∨ d = 3 ∨ d = 4 ∨ d = 5 ∨ d = 6 ∨ d = 7 ∨ d = 8 ∨ d = 9 := by omega
  have h0 : digitC d ≠ '0' := by
    rcases this with rfl | rfl | rfl | rfl | rfl | rfl | rfl | rfl | rfl <;> decide
  rw [e]
  simp [numBody, hexPrefix, h0, hd]

/-- **C46.** A release written with white space before it and a sign is the number with that sign. -/
theorem C46_release_sign (ws : Str) (h : Blank ws) (n : Nat) :
    atoi (ws ++ dec n) = n ∧ atoi (ws ++ '+' :: dec n) = n ∧ atoi (ws ++ '-' :: dec n) = - (n : Int) := by
  unfold atoi
  rw [numText_blank h, numText_blank h, numText_blank h]
  refine ⟨by rw [numText10_dec]; rfl, ?_, ?_⟩
  · show (match (numBody 10 (dec n)).map ((false, ·) : Nat → Bool × Nat) with | none => 0 | some (neg, n) => if neg then - (n : Int) else n) = _
    rw [dec_body]; rfl
  · show (match (numBody 10 (dec n)).map ((true, ·) : Nat → Bool × Nat) with | none => 0 | some (neg, n) => if neg then - (n : Int) else n) = _
    rw [dec_body]; rfl

/-- **C46.** A date or size: the same, modulo 2^64 after a minus sign. -/
theorem C46_date_sign (ws : Str) (h : Blank ws) (n : Nat) (h0 : 0 < n) (h1 : n < 2 ^ 64) :
    strtoul0 (ws ++ dec n) = n ∧ strtoul0 (ws ++ '+' :: dec n) = n ∧ strtoul0 (ws ++ '-' :: dec n) = 2 ^ 64 - n := by
  unfold strtoul0
  rw [numText_blank h, numText_blank h, numText_blank h]
  refine ⟨strtoul0_dec n h0 h1, ?_, ?_⟩
  · have e : numText 0 ('+' :: dec n) = (numBody 0 (dec n)).map (false, ·) := rfl
    rw [e, dec_body0 n h0]
    simp only [Option.map_some, Bool.false_eq_true, if_false]
    rw [if_neg (by omega)]
  · have e : numText 0 ('-' :: dec n) = (numBody 0 (dec n)).map (true, ·) := rfl
    rw [e, dec_body0 n h0]
    simp only [Option.map_some, if_true]
    rw [if_neg (by omega)]
    omega

example : atoi " -7".toList = -7 ∧ strtoul0 "\t+1700000000".toList = 1700000000 := by decide +kernel

/-- **C24.** The decoding accepts texts that are not hexadecimal: a sign or a space may stand for the first digit of a byte. A minus sign negates the byte. -/
theorem C24_sign_counterexample : ∀ d : Fin 16, hexDecode ['-', digitC d.val] = .ok [(256 - d.val) % 256] ∧ hexDecode ['+', digitC d.val] = .ok [d.val] ∧
    hexDecode [' ', digitC d.val] = .ok [d.val] := by
  decide +kernel

/-- **C26.** A release of a repository line with white space and a sign: the number with that sign if it is a 32 bit number, an error otherwise. -/
theorem C26_release_sign (ws : Str) (h : Blank ws) (n : Nat) :
    stoi10 (ws ++ dec n) = (if n < 2 ^ 31 then some (n : Int) else none) ∧
    stoi10 (ws ++ '+' :: dec n) = (if n < 2 ^ 31 then some (n : Int) else none) ∧
    stoi10 (ws ++ '-' :: dec n) = (if n ≤ 2 ^ 31 then some (- (n : Int)) else none) := by
  have e : numText 10 ('+' :: dec n) = (numBody 10 (dec n)).map (false, ·) := rfl
  have e' : numText 10 ('-' :: dec n) = (numBody 10 (dec n)).map (true, ·) := rfl
  unfold stoi10
  rw [numText_blank h, numText_blank h, numText_blank h, numText10_dec, e, e', dec_body]
  simp only [Option.map_some, Bool.false_eq_true, if_false, if_true]
  refine ⟨?_, ?_, ?_⟩
  · by_cases hn : n < 2 ^ 31
    · rw [if_pos hn, if_pos (by omega)]
    · rw [if_neg hn, if_neg (by omega)]
  · by_cases hn : n < 2 ^ 31
    · rw [if_pos hn, if_pos (by omega)]
    · rw [if_neg hn, if_neg (by omega)]
  · by_cases hn : n ≤ 2 ^ 31
    · rw [if_pos hn, if_pos (by omega)]
    · rw [if_neg hn, if_neg (by omega)]

/-- **C26.** A size of a repository line: a 31 bit number is read with its sign; a number beyond 64 bits is read as -1, and as 0 after a minus sign. -/
theorem C26_size_sign (ws : Str) (h : Blank ws) (n : Nat) :
    (n < 2 ^ 31 → atoi32 (ws ++ dec n) = n ∧ atoi32 (ws ++ '+' :: dec n) = n ∧ atoi32 (ws ++ '-' :: dec n) = - (n : Int)) ∧
    (2 ^ 63 ≤ n → atoi32 (ws ++ dec n) = -1 ∧ atoi32 (ws ++ '+' :: dec n) = -1 ∧ atoi32 (ws ++ '-' :: dec n) = 0) := by
  have e : numText 10 ('+' :: dec n) = (numBody 10 (dec n)).map (false, ·) := rfl
  have e' : numText 10 ('-' :: dec n) = (numBody 10 (dec n)).map (true, ·) := rfl
  unfold atoi32
  rw [numText_blank h, numText_blank h, numText_blank h, numText10_dec, e, e', dec_body]
  simp only [Option.map_some, Bool.false_eq_true, if_false, if_true, wrap32]
  constructor
  · intro hn
    rw [Int.min_eq_left (by omega), Int.max_eq_left (by omega)]
    refine ⟨?_, ?_, ?_⟩ <;> split <;> omega
  · intro hn
    rw [Int.min_eq_right (by omega), Int.max_eq_right (by omega)]
    refine ⟨?_, ?_, ?_⟩ <;> split <;> omega

end Cards.Props
