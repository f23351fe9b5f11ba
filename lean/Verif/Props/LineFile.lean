import Verif.Model.LineFile
import Verif.Lemmas.Base
import Verif.Lemmas.Lists
import Mathlib.Tactic.Common
/-!
# C34: line files are read completely
-/
namespace Cards.Props
open Cards

theorem fgetsTake_line (n : Nat) (l rest : Str) (h : '\n' ∉ l) (hn : l.length < n) :
    fgetsTake n (l ++ '\n' :: rest) = (l ++ ['\n'], rest) := by
  induction l generalizing n with
  | nil =>
    obtain ⟨m, rfl⟩ : ∃ m, n = m + 1 := ⟨n - 1, by simp at hn; omega⟩
    simp [fgetsTake]
  | cons c cs ih =>
    obtain ⟨m, rfl⟩ : ∃ m, n = m + 1 := ⟨n - 1, by simp at hn; omega⟩
    simp only [List.mem_cons, not_or] at h
    have hc : c ≠ '\n' := fun e => h.1 e.symm
    have := ih m h.2 (by simp at hn; omega)
    simp [fgetsTake, hc, this]

theorem fgetsTake_long (n : Nat) (l rest : Str) (h : '\n' ∉ l) (hn : n ≤ l.length) :
    fgetsTake n (l ++ rest) = (l.take n, l.drop n ++ rest) := by
  induction l generalizing n with
  | nil => simp at hn; subst hn; simp [fgetsTake]
  | cons c cs ih =>
    cases n with
    | zero => simp [fgetsTake]
    | succ m =>
      simp only [List.mem_cons, not_or] at h
      have hc : c ≠ '\n' := fun e => h.1 e.symm
      have := ih m h.2 (by simp at hn; omega)
      simp [fgetsTake, hc, this]

theorem fgetsAll_nil (n fuel : Nat) : fgetsAll n fuel [] = [] := by cases fuel <;> simp [fgetsAll]

theorem chopLine_line (l : Str) (h : '\x00' ∉ l) : chopLine (l ++ ['\n']) = some l := by
  have h1 : (l ++ ['\n']).takeWhile (fun c => decide (c ≠ '\x00')) = l ++ ['\n'] := by
    apply takeWhile_all
    intro x hx
    simp only [List.mem_append, List.mem_singleton] at hx
    rcases hx with hx | rfl
    · simp; rintro rfl; exact h hx
    · decide
  unfold chopLine
  simp only [h1]
  simp

theorem chopLine_length {buf l : Str} (h : chopLine buf = some l) : l.length < buf.length := by
  unfold chopLine at h
  simp only at h
  split at h
  · simp at h
  · rename_i hne
    simp only [Option.some.injEq] at h
    subst h
    have h1 : (buf.takeWhile (fun c => decide (c ≠ '\x00'))).length ≤ buf.length := length_takeWhile_le' _ _
    have h2 : 0 < (buf.takeWhile (fun c => decide (c ≠ '\x00'))).length := List.length_pos_iff.mpr hne
    simp only [List.length_dropLast]
    omega

theorem chopLine_no_nul {buf l : Str} (h : chopLine buf = some l) : '\x00' ∉ l := by
  unfold chopLine at h
  simp only at h
  split at h
  · simp at h
  · simp only [Option.some.injEq] at h
    subst h
    intro hm
    have := mem_takeWhile_imp (List.dropLast_subset _ hm)
    simp at this

theorem fgetsAll_writeList (ls : List Str) (fuel : Nat) (hf : (writeList ls).length ≤ fuel)
    (h : ∀ l ∈ ls, '\n' ∉ l ∧ l.length ≤ 8190) :
    fgetsAll (bufsiz - 1) fuel (writeList ls) = ls.map (· ++ ['\n']) := by
  induction ls generalizing fuel with
  | nil => simp [writeList, fgetsAll_nil]
  | cons l ls ih =>
    simp only [writeList] at hf ⊢
    obtain ⟨f, rfl⟩ : ∃ m, fuel = m + 1 := ⟨fuel - 1, by simp at hf; omega⟩
    have hl := h l (by simp)
    have := fgetsTake_line (bufsiz - 1) l (writeList ls) hl.1 (by simp only [bufsiz]; omega)
    simp only [fgetsAll, this]
    rw [ih f (by simp at hf; omega) (fun x hx => h x (by simp [hx]))]
    simp

/-- **C34** (part: see the note): a file made of complete lines without NUL, each of at most 8190 characters, is read as exactly its
lines, in order. -/
theorem C34_reads_exactly_partial (ls : List Str) (h : ∀ l ∈ ls, '\n' ∉ l ∧ '\x00' ∉ l ∧ l.length ≤ 8190) :
    parseFile (writeList ls) = some ls := by
  unfold parseFile
  rw [fgetsAll_writeList ls _ (Nat.le_refl _) (fun l hl => ⟨(h l hl).1, (h l hl).2.2⟩)]
  induction ls with
  | nil => simp
  | cons l ls ih =>
    simp only [List.map_cons, List.mapM_cons]
    rw [chopLine_line l (h l (by simp)).2.1, ih (fun x hx => h x (by simp [hx]))]
    rfl

example : parseFile (writeList ["Nxorg".toList, "V1.2".toList, "Da  text # with all".toList, "".toList]) =
    some ["Nxorg".toList, "V1.2".toList, "Da  text # with all".toList, "".toList] :=
  C34_reads_exactly_partial _ (by decide)

/-- **C34**, the exact bounds: a file made of complete lines is read as its lines if and only if no line has more than 8190 characters and none contains
NUL. In every other case the reader returns something else (or writes outside its buffer). -/
theorem C34_exact_bounds (ls : List Str) (hn : ∀ l ∈ ls, '\n' ∉ l) :
    parseFile (writeList ls) = some ls ↔ ∀ l ∈ ls, '\x00' ∉ l ∧ l.length ≤ 8190 := by
  constructor
  · intro h
    unfold parseFile at h
    suffices H : ∀ (ls : List Str) (fuel : Nat), (writeList ls).length ≤ fuel → (∀ l ∈ ls, '\n' ∉ l) →
        (fgetsAll (bufsiz - 1) fuel (writeList ls)).mapM chopLine = some ls →
        ∀ l ∈ ls, '\x00' ∉ l ∧ l.length ≤ 8190 from H ls _ (Nat.le_refl _) hn h
    intro ls
    induction ls with
    | nil => simp
    | cons l ls ih =>
      intro fuel hf hn h
      simp only [writeList] at hf h
      obtain ⟨f, rfl⟩ : ∃ m, fuel = m + 1 := ⟨fuel - 1, by simp at hf; omega⟩
      have hl := hn l (by simp)
      by_cases hlen : l.length ≤ 8190
      · have ht := fgetsTake_line (bufsiz - 1) l (writeList ls) hl (by simp only [bufsiz]; omega)
        simp only [fgetsAll, ht] at h
        simp only [List.append_eq_nil_iff, List.cons_ne_nil, and_false, if_false, List.mapM_cons] at h
        cases hc : chopLine (l ++ ['\n']) with
        | none => rw [hc] at h; simp at h
        | some x =>
          rw [hc] at h
          cases hr : (fgetsAll (bufsiz - 1) f (writeList ls)).mapM chopLine with
          | none => rw [hr] at h; simp at h
          | some xs =>
            rw [hr] at h
            simp at h
            obtain ⟨rfl, rfl⟩ := h
            have hi := ih f (by simp at hf; omega) (fun y hy => hn y (by simp [hy])) hr
            intro y hy
            rcases List.mem_cons.mp hy with rfl | hy
            · exact ⟨chopLine_no_nul hc, hlen⟩
            · exact hi y hy
      · exfalso
        have ht := fgetsTake_long (bufsiz - 1) l ('\n' :: writeList ls) hl (by simp only [bufsiz]; omega)
        simp only [fgetsAll, ht] at h
        simp only [List.append_eq_nil_iff, List.cons_ne_nil, and_false, if_false, List.mapM_cons] at h
        cases hc : chopLine (l.take (bufsiz - 1)) with
        | none => rw [hc] at h; simp at h
        | some x =>
          rw [hc] at h
          have hx := chopLine_length hc
          cases hr : (fgetsAll (bufsiz - 1) f (l.drop (bufsiz - 1) ++ '\n' :: writeList ls)).mapM chopLine with
          | none => rw [hr] at h; simp at h
          | some xs =>
            rw [hr] at h
            simp at h
            obtain ⟨rfl, _⟩ := h
            simp only [List.length_take] at hx
            omega
  · intro h
    exact C34_reads_exactly_partial ls (fun l hl => ⟨hn l hl, (h l hl).1, (h l hl).2⟩)

/-- **C34** is false for a file whose last line is not ended by a newline: whatever that line is, its last character is lost. -/
theorem C34_unterminated_counterexample (ls : List Str) (l : Str) (c : Char)
    (h : ∀ x ∈ ls, '\n' ∉ x ∧ '\x00' ∉ x ∧ x.length ≤ 8190) (hl : '\n' ∉ l ++ [c] ∧ '\x00' ∉ l ++ [c] ∧ l.length ≤ 8190) :
    parseFile (writeList ls ++ (l ++ [c])) = some (ls ++ [l]) := by
  have key : ∀ (n : Nat) (s : Str), '\n' ∉ s → s.length ≤ n → fgetsTake n s = (s, []) := by
    intro n s
    induction s generalizing n with
    | nil => intro _ _; cases n <;> simp [fgetsTake]
    | cons a s ih =>
      intro hn hle
      obtain ⟨m, rfl⟩ : ∃ m, n = m + 1 := ⟨n - 1, by simp at hle; omega⟩
      simp only [List.mem_cons, not_or] at hn
      have ha : a ≠ '\n' := fun e => hn.1 e.symm
      simp [fgetsTake, ha, ih m hn.2 (by simp at hle; omega)]
  unfold parseFile
  generalize hfu : (writeList ls ++ (l ++ [c])).length = fuel
  replace hfu : (writeList ls ++ (l ++ [c])).length ≤ fuel := Nat.le_of_eq hfu
  induction ls generalizing fuel with
  | nil =>
    obtain ⟨f, rfl⟩ : ∃ m, fuel = m + 1 := ⟨fuel - 1, by simp [writeList] at hfu; omega⟩
    have hk := key (bufsiz - 1) (l ++ [c]) hl.1 (by simp only [List.length_append, List.length_singleton, bufsiz]; omega)
    simp only [writeList, List.nil_append, fgetsAll, hk, fgetsAll_nil]
    have htw : (l ++ [c]).takeWhile (fun x => decide (x ≠ '\x00')) = l ++ [c] := by
      apply takeWhile_all
      intro x hx
      simp only [decide_eq_true_eq]
      rintro rfl; exact hl.2.1 hx
    have hch : chopLine (l ++ [c]) = some l := by
      unfold chopLine
      simp only [htw]
      simp
    simp [hch]
  | cons x ls ih =>
    simp only [writeList] at hfu ⊢
    obtain ⟨f, rfl⟩ : ∃ m, fuel = m + 1 := ⟨fuel - 1, by simp at hfu; omega⟩
    have hx := h x (by simp)
    have ht := fgetsTake_line (bufsiz - 1) x (writeList ls ++ (l ++ [c])) hx.1 (by simp only [bufsiz]; omega)
    have he : x ++ '\n' :: writeList ls ++ (l ++ [c]) = x ++ '\n' :: (writeList ls ++ (l ++ [c])) := by simp
    rw [he] at hfu ⊢
    simp only [fgetsAll, ht]
    have := ih (fun y hy => h y (by simp [hy])) f (by simp at hfu ⊢; omega)
    simp only [List.append_eq_nil_iff, List.cons_ne_nil, and_false, if_false, List.mapM_cons, chopLine_line x hx.2.1, this]
    rfl

example : parseFile "Nxorg\nV1.2".toList = some ["Nxorg".toList, "V1.".toList] :=
  C34_unterminated_counterexample ["Nxorg".toList] "V1.".toList '2' (by decide) (by decide)

/-- **C34**: a line that begins with NUL makes the reader write outside its buffer. -/
theorem C34_nul_counterexample : parseFile "N\n\x00\n".toList = none := by decide

/-- A reader into a set (META files) returns the set of the lines, under the same bounds. -/
theorem C34_set_partial (ls : List Str) (h : ∀ l ∈ ls, '\n' ∉ l ∧ '\x00' ∉ l ∧ l.length ≤ 8190) :
    ∃ r, parseFileSet (writeList ls) = some r ∧ Sorted r ∧ ∀ x, x ∈ r ↔ x ∈ ls :=
  ⟨sofList ls, by simp [parseFileSet, C34_reads_exactly_partial ls h], sorted_sofList ls, fun _ => mem_sofList⟩

end Cards.Props
