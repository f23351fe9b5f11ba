import Verif.Model.Base
/-!
# String helpers (/repo/src/string_utils.cxx, file_utils.cxx:41-50)
-/
namespace Cards

/-- `s.find(pat)`: the text before and after the first occurrence. -/
def cutFirst (pat : Str) : Str → Option (Str × Str)
  | [] => if pat = [] then some ([], []) else none
  | c :: cs =>
    if pat.isPrefixOf (c :: cs) then some ([], (c :: cs).drop pat.length)
    else match cutFirst pat cs with
      | some (b, a) => some (c :: b, a)
      | none => none

/-- One iteration of `while ((pos = in.find(old)) != npos) in.replace(pos, old.length(), new)`:
`none` when the loop condition is false. /repo/src/string_utils.cxx:307-309. -/
def replaceStep (old new s : Str) : Option Str :=
  match cutFirst old s with
  | some (b, a) => some (b ++ new ++ a)
  | none => none

/-- `replaceAll` /repo/src/string_utils.cxx:305-312, run for at most `n` iterations: `some r` when the loop has ended with `r`,
`none` when it is still running. (The loop need not end, so there is no total function.) -/
def replaceAllN (old new : Str) : Nat → Str → Option Str
  | 0, s => match replaceStep old new s with | none => some s | some _ => none
  | n + 1, s => match replaceStep old new s with | none => some s | some s' => replaceAllN old new n s'

theorem cutFirst_eq {pat s b a : Str} (h : cutFirst pat s = some (b, a)) : s = b ++ pat ++ a := by
  induction s generalizing b a with
  | nil =>
    simp only [cutFirst] at h
    split at h
    · rename_i hp; simp at h; obtain ⟨rfl, rfl⟩ := h; simp [hp]
    · simp at h
  | cons c cs ih =>
    simp only [cutFirst] at h
    split at h
    · rename_i hp
      simp only [Option.some.injEq, Prod.mk.injEq] at h
      obtain ⟨rfl, rfl⟩ := h
      obtain ⟨t, ht⟩ := List.isPrefixOf_iff_prefix.mp hp
      rw [← ht]; simp
    · split at h
      · rename_i b' a' he
        simp only [Option.some.injEq, Prod.mk.injEq] at h
        obtain ⟨rfl, rfl⟩ := h
        have := ih he
        simp [this]
      · simp at h

theorem replaceStep_length {old new s s' : Str} (h : replaceStep old new s = some s') :
    s'.length + old.length = s.length + new.length := by
  unfold replaceStep at h
  split at h
  · rename_i b a he
    simp only [Option.some.injEq] at h
    have := cutFirst_eq he
    subst h; subst this
    simp; omega
  · simp at h

/-- `trimFileName` /repo/src/file_utils.cxx:41-50: replace the first `//` by `/` until there is none. -/
def trimFileName (s : Str) : Str :=
  match h : replaceStep "//".toList "/".toList s with
  | none => s
  | some s' => trimFileName s'
termination_by s.length
decreasing_by
  have := replaceStep_length h
  simp at this; omega

/-- `isspace` in the C locale. -/
def isSpaceC (c : Char) : Bool := c = ' ' || c = '\t' || c = '\n' || c = '\x0b' || c = '\x0c' || c = '\r'

/-- `parseDelimitedVectorList(s, char)` and `parseDelimitedListList` /repo/src/string_utils.cxx:213-250: the loop with the buffer
`b`, written for a predicate instead of one delimiter. -/
def splitLoop (p : Char → Bool) : Str → Str → List Str → List Str
  | [], b, v => if b ≠ [] then v ++ [b] else v
  | n :: s, b, v =>
    if !p n then splitLoop p s (b ++ [n]) v
    else if b ≠ [] then splitLoop p s [] (v ++ [b])
    else splitLoop p s b v

/-- `parseDelimitedVectorList(s, c)` for one character. -/
def splitChar (c : Char) (s : Str) : List Str := splitLoop (fun x => x = c) s [] []

/-- `std::strtok` repeatedly with a set of delimiters: skip delimiters, take the token, continue after the delimiter that ended it.
`parseDelimitedVectorList(s, const char*)` /repo/src/string_utils.cxx:175-193. Embedded NUL characters
are not modelled. `n` bounds the number of calls; `s.length + 1` is always enough. -/
def strtokLoop (p : Char → Bool) : Nat → Str → List Str
  | 0, _ => []
  | n + 1, s =>
    let s := s.dropWhile p
    if s = [] then [] else s.takeWhile (fun x => !p x) :: strtokLoop p n ((s.dropWhile (fun x => !p x)).drop 1)

/-- `parseDelimitedVectorList(s, delimiters)` with `strtok`. -/
def strtokAll (delims : List Char) (s : Str) : List Str := strtokLoop (fun x => delims.contains x) (s.length + 1) s

/-- `stripWhiteSpace` /repo/src/string_utils.cxx:251-271: erase the leading white space, then search from the end for the last
non-space and erase what follows. -/
def stripWhiteSpace (s : Str) : Str :=
  let line := s.dropWhile isSpaceC
  (line.reverse.dropWhile isSpaceC).reverse

/-- `getValueBefore` /repo/src/string_utils.cxx:91-98. -/
def getValueBefore (s : Str) (c : Char) : Str := s.takeWhile (fun x => x ≠ c)

/-- `getValue` /repo/src/string_utils.cxx:83-90 (and `getFirstValueOfKeyAfterDelim`, 168-174): what follows the first delimiter, empty when there
is none. -/
def getValue (s : Str) (c : Char) : Str := (s.dropWhile (fun x => x ≠ c)).drop 1

/-- `getValueBeforeLast` /repo/src/string_utils.cxx:99-105. -/
def getValueBeforeLast (s : Str) (c : Char) : Str :=
  if c ∈ s then ((s.reverse.dropWhile (fun x => x ≠ c)).drop 1).reverse else s

/-- `splitKeyValue` /repo/src/string_utils.cxx:7-27: (parameter, value). -/
def splitKeyValue (s : Str) (c : Char) : Str × Str :=
  if c ∈ s then (stripWhiteSpace (getValueBefore s c), stripWhiteSpace (getValue s c)) else (s, [])

/-- `toupper` in the C locale. -/
def upperC (c : Char) : Char := if 'a' ≤ c ∧ c ≤ 'z' then Char.ofNat (c.toNat - 32) else c
/-- `tolower` in the C locale. -/
def lowerC (c : Char) : Char := if 'A' ≤ c ∧ c ≤ 'Z' then Char.ofNat (c.toNat + 32) else c
/-- `convertToLowerCase` /repo/src/string_utils.cxx:289-296. -/
def convertToLowerCase (s : Str) : Str := s.map lowerC
/-- `convertToUpperCase` /repo/src/string_utils.cxx:297-304. -/
def convertToUpperCase (s : Str) : Str := s.map upperC

/-- `startsWithNoCase(s1, s2)` /repo/src/string_utils.cxx:272-288. -/
def startsWithNoCase : Str → Str → Bool
  | a :: s1, b :: s2 => if upperC a ≠ upperC b then false else startsWithNoCase s1 s2
  | [], _ :: _ => false
  | _, [] => true

end Cards
