import Verif.Model.Containers
import Mathlib.Tactic.Common
/-!
# C38: the dynamic containers behave as sequences
-/
namespace Cards.Props
open Cards

/-- The elements pushed, in order. -/
def pushed : List VecOp → List Str
  | [] => []
  | .push e :: os => e :: pushed os
  | .reserve _ :: os => pushed os

/-- The cells hold exactly the items, and the capacity is what is allocated. -/
structure VInv (v : CVec) (items : List Str) : Prop where
  alloc : v.cells.length = v.cap
  size : v.size = items.length
  fits : items.length ≤ v.cap
  pos : 0 < v.cap
  cells : v.cells.take items.length = items.map some

theorem resize_length {α : Type} (l : List (Option α)) (n : Nat) : (resize l n).length = n := by
  simp [resize]; omega

theorem resize_take {α : Type} (l : List (Option α)) (n k : Nat) (h : l.length ≤ n) (hk : k ≤ l.length) :
    (resize l n).take k = l.take k := by
  unfold resize
  rw [List.take_of_length_le h, List.take_append_of_le_length hk]

theorem VInv.reserve {v : CVec} {items : List Str} (h : VInv v items) (n : Nat) : VInv (v.reserve n) items := by
  unfold CVec.reserve
  split
  · exact h
  · rename_i hn
    have h1 := h.alloc
    have h3 := h.fits
    refine ⟨resize_length _ _, h.size, by show _ ≤ n; omega, by show 0 < n; omega, ?_⟩
    show List.take _ (resize v.cells n) = _
    rw [resize_take _ _ _ (by omega) (by omega)]
    exact h.cells

theorem VInv.push {v : CVec} {items : List Str} (h : VInv v items) (e : Str) (hl : items.length + 1 ≤ 2 ^ 31) :
    ∃ v', v.push e = some v' ∧ VInv v' (items ++ [e]) := by
  have key : ∀ w : CVec, VInv w items → items.length < w.cap →
      ∃ v', (if w.size < w.cells.length then
        some { w with cells := w.cells.set w.size (some e), size := (w.size + 1) % u32 } else none) = some v' ∧
        VInv v' (items ++ [e]) := by
    intro w hw hlt
    have h1 := hw.alloc
    have h2 := hw.size
    rw [if_pos (by omega)]
    refine ⟨_, rfl, ⟨?_, ?_, ?_, hw.pos, ?_⟩⟩
    · simpa using h1
    · simp only [List.length_append, List.length_cons, List.length_nil, h2]
      apply Nat.mod_eq_of_lt
      unfold u32; omega
    · simp only [List.length_append, List.length_cons, List.length_nil]; omega
    · rw [h2]
      simp only [List.length_append, List.length_cons, List.length_nil, List.map_append, List.map_cons, List.map_nil]
      rw [List.take_add_one, List.take_set, List.set_eq_of_length_le (by rw [List.length_take]; omega), hw.cells]
      simp [List.getElem?_set_self (show items.length < w.cells.length by omega)]
  unfold CVec.push
  simp only
  have h2 := h.size
  have h3 := h.fits
  split
  · rename_i hc
    have hw := h.reserve (v.size * 2 % u32)
    apply key _ hw
    have hpos := h.pos
    rw [Nat.mod_eq_of_lt (by unfold u32; omega)]
    unfold CVec.reserve
    rw [if_neg (by omega)]
    show _ < v.size * 2
    omega
  · exact key v h (by omega)

theorem VInv.run {v : CVec} {items : List Str} (h : VInv v items) (ops : List VecOp)
    (hl : items.length + (pushed ops).length ≤ 2 ^ 31) :
    ∃ v', v.run ops = some v' ∧ VInv v' (items ++ pushed ops) := by
  induction ops generalizing v items with
  | nil => exact ⟨v, rfl, by simpa [pushed] using h⟩
  | cons o ops ih =>
    cases o with
    | push e =>
      simp only [pushed, List.length_cons] at hl
      obtain ⟨v1, e1, h1⟩ := h.push e (by omega)
      obtain ⟨v2, e2, h2⟩ := ih h1 (by simp; omega)
      refine ⟨v2, ?_, by simpa [pushed] using h2⟩
      simp only [CVec.run, CVec.op, e1, Option.bind_some, e2]
    | reserve n =>
      obtain ⟨v2, e2, h2⟩ := ih (h.reserve n) (by simpa [pushed] using hl)
      exact ⟨v2, by simpa only [CVec.run, CVec.op, Option.bind_some] using e2, by simpa [pushed] using h2⟩

/-- The ways to make a vector that may be pushed to, with its first elements. -/
inductive Fresh : CVec → List Str → Prop
  | default : Fresh CVec.new []
  | capacity (n : Nat) (h : 0 < n) : Fresh (CVec.newCap n) []
  | element (e : Str) : Fresh (CVec.newElem e) [e]

theorem Fresh.inv {v : CVec} {items : List Str} (h : Fresh v items) : VInv v items := by
  cases h with
  | default => exact ⟨rfl, rfl, by decide, by decide, rfl⟩
  | capacity n h => exact ⟨by simp [CVec.newCap], rfl, by simp, h, rfl⟩
  | element e => exact ⟨rfl, rfl, by show 1 ≤ 15; decide, by show 0 < 15; decide, rfl⟩

theorem VInv.at {v : CVec} {items : List Str} (h : VInv v items) (i : Nat) (hi : i < items.length) : v.at i = items[i]? := by
  unfold CVec.at
  have : (v.cells.take items.length)[i]? = (items.map some)[i]? := by rw [h.cells]
  rw [List.getElem?_take_of_lt hi, List.getElem?_map] at this
  rw [this]
  cases items[i]? <;> rfl

/-- **C38 (vector).** Every sequence of `push_back` and `reserve` on a vector made in any way but with capacity 0, with at most
2^31 elements, is free of accesses outside the memory the vector owns, and the vector then holds the elements pushed, in order: by
size, by index, by `value` (which gives the last one beyond the end), and by iteration. -/
theorem C38_vector_partial (v : CVec) (first : List Str) (h : Fresh v first) (ops : List VecOp)
    (hl : (first ++ pushed ops).length ≤ 2 ^ 31) :
    ∃ v', v.run ops = some v' ∧ v'.size = (first ++ pushed ops).length ∧
      (∀ i, i < (first ++ pushed ops).length → v'.at i = (first ++ pushed ops)[i]?) ∧
      v'.iterate = (first ++ pushed ops).map some ∧
      (first ++ pushed ops ≠ [] → ∀ i, v'.value i = (first ++ pushed ops)[min i ((first ++ pushed ops).length - 1)]?) := by
  obtain ⟨v', e, hi⟩ := h.inv.run ops (by simpa using hl)
  generalize first ++ pushed ops = items at *
  refine ⟨v', e, hi.size, hi.at, ?_, ?_⟩
  · unfold CVec.iterate
    rw [hi.size]
    apply List.ext_getElem?
    intro i
    by_cases hlt : i < items.length
    · rw [List.getElem?_map, List.getElem?_range hlt, List.getElem?_map]
      simp only [Option.map_some]
      rw [hi.at i hlt, List.getElem?_eq_getElem hlt]
      rfl
    · rw [List.getElem?_eq_none (by simpa using hlt), List.getElem?_eq_none (by simpa using hlt)]
  · intro hne i
    have hpos : 0 < items.length := List.length_pos_iff.mpr hne
    unfold CVec.value
    have hlast : (v'.size + u32 - 1) % u32 = items.length - 1 := by
      rw [hi.size]
      have : items.length + u32 - 1 = (items.length - 1) + u32 := by unfold u32; omega
      rw [this, Nat.add_mod_right]
      apply Nat.mod_eq_of_lt
      unfold u32; omega
    rw [hlast]
    simp only
    split
    · rw [hi.at _ (by omega), Nat.min_eq_right (by omega)]
    · rw [hi.at _ (by omega), Nat.min_eq_left (by omega)]

/-- A vector made with capacity 0 stores its first element outside its memory. -/
theorem C38_capacity_zero_counterexample (e : Str) : (CVec.newCap 0).run [.push e] = none := by
  simp [CVec.run, CVec.op, CVec.push, CVec.newCap, CVec.reserve]

/-- `value` of an empty vector reads outside its memory. -/
theorem C38_empty_value_counterexample : CVec.new.value 0 = none ∧ ∀ i, CVec.new.value i = none := by
  have : ∀ i, CVec.new.at i = none := by
    intro i
    unfold CVec.at CVec.new
    simp only [List.getElem?_replicate]
    split <;> rfl
  refine ⟨?_, ?_⟩ <;> simp [CVec.value, this]

/-- The bound on the number of elements is needed: doubling 2^31 wraps to 0, and the next element is stored outside the memory. -/
theorem C38_wrap_counterexample (e : Str) :
    (CVec.newCap (2 ^ 31)).run (List.replicate (2 ^ 31) (.push e) ++ [.push e]) = none := by
  have runApp : ∀ (a b : List VecOp) (v : CVec), v.run (a ++ b) = (v.run a).bind (fun v => v.run b) := by
    intro a
    induction a with
    | nil => intro b v; rfl
    | cons o a ih =>
      intro b v
      simp only [List.cons_append, CVec.run]
      cases v.op o with
      | none => rfl
      | some w => exact ih b w
  have capKeep : ∀ (n : Nat) (v : CVec), v.cells.length = v.cap → v.cap < u32 → v.size + n ≤ v.cap →
      ∃ v', v.run (List.replicate n (.push e)) = some v' ∧ v'.cap = v.cap ∧ v'.cells.length = v.cap ∧ v'.size = v.size + n := by
    intro n
    induction n with
    | zero => intro v h1 h2 h3; exact ⟨v, rfl, rfl, h1, rfl⟩
    | succ n ih =>
      intro v h1 h2 h3
      have hp : v.push e = some { v with cells := v.cells.set v.size (some e), size := v.size + 1 } := by
        have hne : ¬ v.cap = v.size := by omega
        have hlt : v.size < v.cells.length := by omega
        unfold CVec.push
        simp only [if_neg hne]
        rw [if_pos hlt, Nat.mod_eq_of_lt (by omega)]
      obtain ⟨v', e1, e2, e3, e4⟩ := ih { v with cells := v.cells.set v.size (some e), size := v.size + 1 }
        (by simpa using h1) h2 (by show v.size + 1 + n ≤ v.cap; omega)
      refine ⟨v', ?_, e2, e3, by rw [e4]; show v.size + 1 + n = _; omega⟩
      rw [List.replicate_succ]
      simp only [CVec.run, CVec.op, hp, Option.bind_some, e1]
  rw [runApp]
  generalize hN : (2 : Nat) ^ 31 = N
  obtain ⟨v', e1, e2, e3, e4⟩ := capKeep N (CVec.newCap N) (by simp [CVec.newCap])
    (by show N < _; rw [← hN]; decide) (by simp [CVec.newCap])
  rw [e1]
  simp only [Option.bind_some, CVec.run, CVec.op, CVec.push]
  have hs : v'.size = N := by rw [e4]; simp [CVec.newCap]
  have hz : v'.size * 2 % u32 = 0 := by rw [hs, ← hN]; decide
  rw [hz]
  have hr : v'.reserve 0 = v' := by simp [CVec.reserve]
  rw [hr, ite_self, if_neg (by rw [e3, hs]; simp [CVec.newCap])]
  rfl

/-- Non-trivial instance: three pushes through a reallocation. -/
example : ∃ v', (CVec.newCap 1).run [.push "a".toList, .push "b".toList, .reserve 7, .push "c".toList] = some v' ∧
    v'.iterate = [some "a".toList, some "b".toList, some "c".toList] := ⟨_, rfl, by decide⟩

/-! ### Strings -/

theorem readCStr_text (t : Str) (r : List (Option Char)) (h : '\x00' ∉ t) :
    readCStr (t.map some ++ some '\x00' :: r) = some t := by
  induction t with
  | nil => simp [readCStr]
  | cons c t ih =>
    simp only [List.mem_cons, not_or] at h
    simp [readCStr, ih h.2, Ne.symm h.1]

/-- Assigning a text that is not empty, to a string in any state, never stores outside the string's memory, and the string then
reads back as that text. -/
theorem C38_string_assign_partial (s : CString) (t : Str) (hne : t ≠ []) (hnul : '\x00' ∉ t) (hlen : t.length < 2 ^ 32) :
    ∃ s', s.assign t = some s' ∧ s'.size = t.length ∧ s'.cstr = (s', some t) := by
  have hpos : 0 < t.length := List.length_pos_iff.mpr hne
  unfold CString.assign
  rw [if_pos hne, Nat.mod_eq_of_lt (by simpa [u32] using hlen), List.take_length]
  unfold CString.assignN
  rw [if_pos hpos]
  simp only
  have hm : (s.reserve t.length).mem = some (resize (s.mem.getD []) (8 * t.length)) := by
    unfold CString.reserve
    simp only
    rw [if_neg (by omega)]
  rw [hm, Option.getD_some, resize_length, if_pos (by omega)]
  refine ⟨_, rfl, rfl, ?_⟩
  unfold CString.cstr
  simp only [reduceCtorEq, if_false, Option.getD_some]
  rw [readCStr_text t _ hnul]

/-- The last text assigned. -/
def lastText : List Str → Option Str := List.getLast?

/-- **C38 (string).** A sequence of assignments of texts that are not empty: no access outside the memory, and the string reads
back as the last text. Missing for the full property: the empty text, `reserve`, and reading a string never assigned (see the
counterexamples). -/
theorem C38_string_partial (s : CString) (ts : List Str) (t : Str) (hl : ts.getLast? = some t)
    (h : ∀ t ∈ ts, t ≠ [] ∧ '\x00' ∉ t ∧ t.length < 2 ^ 32) :
    ∃ s', s.run (ts.map StrOp.assign) = some s' ∧ s'.size = t.length ∧ s'.cstr = (s', some t) := by
  induction ts generalizing s with
  | nil => simp at hl
  | cons x ts ih =>
    obtain ⟨h1, h2, h3⟩ := h x (by simp)
    obtain ⟨s1, e1, e2, e3⟩ := C38_string_assign_partial s x h1 h2 h3
    cases ts with
    | nil =>
      simp at hl
      subst hl
      exact ⟨s1, by simp [CString.run, CString.op, e1], e2, e3⟩
    | cons y ts =>
      obtain ⟨s', e', r⟩ := ih s1 (by simpa using hl) (fun t ht => h t (by simp [ht]))
      exact ⟨s', by simpa [CString.run, CString.op, e1] using e', r⟩

/-- Assigning the empty text is ignored: the string keeps its old text. -/
theorem C38_empty_assign_counterexample :
    ∃ s', CString.new.run [.assign "abc".toList, .assign []] = some s' ∧ s'.size = 3 ∧ s'.cstr.2 = some "abc".toList :=
  ⟨_, rfl, rfl, by decide⟩

/-- Reading a string that was never assigned reads memory that was never written. -/
theorem C38_fresh_read_counterexample : CString.new.cstr.2 = none := by decide

/-- The null pointer is never handed out: `c_str()` allocates first. -/
theorem C38_cstr_allocates (s : CString) : s.cstr.1.mem ≠ none ∧ (s.mem ≠ none → s.cstr.1 = s) := by
  unfold CString.cstr
  by_cases h : s.mem = none
  · simp only [if_pos h]
    refine ⟨?_, fun h' => absurd h h'⟩
    unfold CString.reserve
    simp
  · simp only [if_neg h]
    exact ⟨h, fun _ => trivial⟩

/-- `reserve` of less than the text shrinks the memory: reading back runs outside it. -/
theorem C38_reserve_counterexample :
    ∃ s', CString.new.run [.assign "0123456789".toList, .reserve 1] = some s' ∧ s'.size = 10 ∧ s'.cstr.2 = none :=
  ⟨_, rfl, rfl, by decide⟩

/-- Non-trivial instance. -/
example : ∃ s', CString.new.run ([["a".toList, "longer".toList, "xy".toList]].flatten.map StrOp.assign) = some s' ∧
    s'.cstr = (s', some "xy".toList) := ⟨_, rfl, by decide⟩

end Cards.Props
