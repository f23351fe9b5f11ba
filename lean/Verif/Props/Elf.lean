import Verif.Spec.Elf
import Verif.Props.Query
import Verif.Props.Search
import Verif.Lemmas.Levels
import Mathlib.Tactic.Common
/-!
# C58: the libraries of an ELF file; C59: the packages which own them
-/
namespace Cards.Props
open Cards Cards.Spec

theorem num_sub (f : Bytes) (o n a k : Nat) (h : a + k ≤ n) : Bytes.num ((f.drop o).take n) a k = f.num (o + a) k := by
  unfold Bytes.num
  rw [List.drop_take, List.take_take, List.drop_drop, Nat.min_eq_left (by omega)]

theorem peek_sub (f : Bytes) (o n a k : Nat) (h : a + k ≤ n) (hl : o + n ≤ f.length) :
    peek ((f.drop o).take n) a k = some (f.num (o + a) k) := by
  unfold peek
  rw [if_pos (by simp; omega), num_sub f o n a k h]

theorem findStrTab_first (f : Bytes) (o n t : Nat) (hl : o + 64 * n ≤ f.length) (ht : t < n) (h3 : f.num (o + 64 * t + 4) 4 = 3)
    (hno : ∀ j < t, f.num (o + 64 * j + 4) 4 ≠ 3) :
    ∀ k i, i + k = n → i ≤ t → findStrTab ((f.drop o).take (64 * n)) i k = .found t (f.num (o + 64 * t + 24) 8) := by
  intro k
  induction k with
  | zero => intro i h1 h2; omega
  | succ k ih =>
    intro i h1 h2
    unfold findStrTab
    rw [peek_sub f o (64 * n) (64 * i + 4) 4 (by omega) hl]
    simp only
    by_cases e : i = t
    · subst e
      rw [show o + (64 * i + 4) = o + 64 * i + 4 by omega, if_pos h3, peek_sub f o (64 * n) (64 * i + 24) 8 (by omega) hl]
      simp [Nat.add_assoc]
    · rw [show o + (64 * i + 4) = o + 64 * i + 4 by omega, if_neg (hno i (by omega))]
      exact ih (i + 1) (by omega) (by omega)

theorem findDynamic_only (f : Bytes) (o n s : Nat) (hl : o + 56 * n ≤ f.length) (hs : s < n) (h2 : f.num (o + 56 * s) 4 = 2)
    (hno : ∀ j < n, f.num (o + 56 * j) 4 = 2 → j = s) :
    ∀ k i acc, i + k = n → (s < i → acc = (f.num (o + 56 * s + 8) 8, f.num (o + 56 * s + 32) 8)) →
      findDynamic ((f.drop o).take (56 * n)) i k acc = some (f.num (o + 56 * s + 8) 8, f.num (o + 56 * s + 32) 8) := by
  intro k
  induction k with
  | zero => intro i acc h1 h; unfold findDynamic; rw [h (by omega)]
  | succ k ih =>
    intro i acc h1 h
    unfold findDynamic
    rw [peek_sub f o (56 * n) (56 * i) 4 (by omega) hl]
    simp only
    by_cases e : f.num (o + 56 * i) 4 = 2
    · have := hno i (by omega) e
      subst this
      rw [if_pos e, peek_sub f o (56 * n) (56 * i + 8) 8 (by omega) hl, peek_sub f o (56 * n) (56 * i + 32) 8 (by omega) hl]
      simp only
      exact ih (i + 1) _ (by omega) (fun _ => by simp [Nat.add_assoc])
    · rw [if_neg e]
      refine ih (i + 1) acc (by omega) (fun hi => h ?_)
      have : s ≠ i := by intro x; subst x; exact e h2
      omega

theorem dynLoop_names (dyn : Bytes) (b : Bytes) (n : Nat) (f : Bytes) (o z : Nat) (hl : o + z ≤ f.length) (hd : dyn = (f.drop o).take z)
    (hn : 16 * (n + 1) ≤ z) (h0 : f.num (o + 16 * n) 8 = 0) (hnn : ∀ j < n, f.num (o + 16 * j) 8 ≠ 0)
    (hv : ∀ j < n, f.num (o + 16 * j) 8 = 1 ∨ f.num (o + 16 * j) 8 = 14 →
      elfName b (f.num (o + 16 * j + 8) 8) = some (some (b.text (f.num (o + 16 * j + 8) 8)))) :
    ∀ k i, i ≤ n → n < i + k → ∃ l, dynLoop dyn (some b) i k = some l ∧ ∀ x, x ∈ l ↔
      ∃ j, i ≤ j ∧ j < n ∧ (f.num (o + 16 * j) 8 = 1 ∨ f.num (o + 16 * j) 8 = 14) ∧ x = b.text (f.num (o + 16 * j + 8) 8) := by
  intro k
  induction k with
  | zero => intro i h1 h2; omega
  | succ k ih =>
    intro i h1 h2
    unfold dynLoop
    rw [hd, peek_sub f o z (16 * i) 8 (by omega) hl]
    simp only
    by_cases e : i = n
    · subst e
      rw [if_pos h0]
      refine ⟨[], rfl, fun x => ?_⟩
      simp
      intro j a b; omega
    · have hi : i < n := by omega
      rw [if_neg (hnn i hi)]
      obtain ⟨l, hl', hm⟩ := ih (i + 1) (by omega) (by omega)
      by_cases ht : f.num (o + 16 * i) 8 = 1 ∨ f.num (o + 16 * i) 8 = 14
      · rw [if_pos ht, peek_sub f o z (16 * i + 8) 8 (by omega) hl]
        simp only
        have := hv i hi ht
        rw [show o + (16 * i + 8) = o + 16 * i + 8 by omega, this, ← hd, hl']
        refine ⟨_, rfl, fun x => ?_⟩
        simp only [Option.toList, List.cons_append, List.nil_append, List.mem_cons, hm]
        constructor
        · rintro (rfl | ⟨j, a, b, c, d⟩)
          · exact ⟨i, Nat.le_refl _, hi, ht, rfl⟩
          · exact ⟨j, by omega, b, c, d⟩
        · rintro ⟨j, a, b, c, d⟩
          by_cases hj : j = i
          · subst hj; exact Or.inl d
          · exact Or.inr ⟨j, by omega, b, c, d⟩
      · rw [if_neg ht, ← hd]
        refine ⟨l, hl', fun x => ?_⟩
        rw [hm]
        constructor
        · rintro ⟨j, a, b, c, d⟩; exact ⟨j, by omega, b, c, d⟩
        · rintro ⟨j, a, b, c, d⟩
          by_cases hj : j = i
          · subst hj; exact absurd c ht
          · exact ⟨j, by omega, b, c, d⟩

theorem readable_libs (f : Bytes) (s d t n : Nat) (hr : Readable f s d t n) :
    ∃ l, elfLibs f = some l ∧ ∀ x, x ∈ l ↔ ∃ j, NamesLib f s t n j x := by
  obtain ⟨he, hd, first, notLast, odd, half, names⟩ := hr
  have hh := he.header
  have hs := he.short
  have h4 : f.take 4 = [127, 69, 76, 70] := by
    have := congrArg (List.take 4) he.ident
    rwa [List.take_take] at this
  have h5 : f.num 4 1 = 2 := by
    have := congrArg (List.drop 4) he.ident
    rw [List.drop_take] at this
    unfold Bytes.num
    rw [show (5 - 4) = 1 from rfl] at this
    rw [this]; rfl
  have hsh := he.shinside
  have hph := he.phinside
  have hsn := he.sections
  have hpn := he.segments
  obtain ⟨hin1, hin2⟩ := hd.inside
  obtain ⟨hz, hn0, hnn⟩ := hd.null
  have e0 : elfLibs f = elfSections f true (phoff f) (shoff f) 48 := by
    unfold elfLibs
    rw [if_neg (by omega), if_neg (by simp [h4]), if_neg (by omega), if_neg (by omega), if_neg (by omega)]
    rfl
  have e1 : getDatas f (shoff f) 64 (shnum f) = some ((f.drop (shoff f)).take (64 * shnum f)) := by
    unfold getDatas
    rw [if_neg (by omega)]
  have e2 : getDatas f (phoff f) 56 (phnum f) = some ((f.drop (phoff f)).take (56 * phnum f)) := by
    unfold getDatas
    rw [if_neg (by omega)]
  have e3 : findStrTab ((f.drop (shoff f)).take (64 * shnum f)) 0 (shnum f) = .found t (sectOffset f t) :=
    findStrTab_first f (shoff f) (shnum f) t hsh hd.link.2.1 hd.link.2.2 first _ 0 (by omega) (by omega)
  have e4 : findDynamic ((f.drop (phoff f)).take (56 * phnum f)) 0 (phnum f) (0, 0) = some (segOffset f s, segSize f s) :=
    findDynamic_only f (phoff f) (phnum f) s hph hd.seg.1 hd.seg.2 hd.only _ 0 (0, 0) (by omega) (fun h => by omega)
  have e5 : elfLibs f = elfDynamic f (sectOffset f t) (segOffset f s, segSize f s) := by
    rw [e0]
    unfold elfSections
    simp only [show f.num (48 + 6) 2 = 56 from he.phentsize, show f.num (48 + 8) 2 = phnum f from rfl,
      show f.num (48 + 10) 2 = 64 from he.shentsize, show f.num (48 + 12) 2 = shnum f from rfl]
    rw [if_neg (by omega), e1]
    simp only
    rw [e3]
    simp only
    rw [if_neg notLast, if_neg (by simp [odd])]
    unfold elfProgram
    rw [e2]; simp only; rw [e4]
  have e6 : getDatas f (segOffset f s) 1 (segSize f s) = some ((f.drop (segOffset f s)).take (segSize f s)) := by
    unfold getDatas
    rw [if_neg (by omega), Nat.one_mul]
  have e7 : getDatas f (sectOffset f t) 1 (f.length - sectOffset f t) = some (f.drop (sectOffset f t)) := by
    unfold getDatas
    rw [if_neg (by omega), Nat.one_mul, List.take_of_length_le (by simp)]
  have htext : ∀ v, Bytes.text (f.drop (sectOffset f t)) v = f.text (sectOffset f t + v) := by
    intro v; unfold Bytes.text; rw [List.drop_drop]
  rw [e5]
  unfold elfDynamic
  simp only
  rw [e6]
  simp only
  rw [if_neg (by omega), if_pos half, e7]
  obtain ⟨l, hl, hm⟩ := dynLoop_names ((f.drop (segOffset f s)).take (segSize f s)) (f.drop (sectOffset f t)) n f (segOffset f s) (segSize f s) hin1 rfl hz hn0 hnn
    (by
      intro j hj ht
      have hv := hd.values j hj ht
      obtain ⟨ne, nd⟩ := names j _ ⟨hj, ht, rfl⟩
      unfold elfName
      unfold dynVal at hv ne nd
      rw [if_neg (by simp; omega)]
      simp only [htext]
      cases hx : (f.text (sectOffset f t + f.num (segOffset f s + 16 * j + 8) 8)).getLast? with
      | none => rw [List.getLast?_eq_none_iff] at hx; exact absurd hx ne
      | some c =>
        rw [hx] at nd
        simp only
        rw [if_neg (by intro h; exact nd (by rw [h]))])
    (segSize f s) 0 (by omega) (by omega)
  refine ⟨l, hl, fun x => ?_⟩
  rw [hm]
  constructor
  · rintro ⟨j, _, b, c, e⟩; exact ⟨j, b, c, by rw [e, htext]; rfl⟩
  · rintro ⟨j, b, c, e⟩; exact ⟨j, Nat.zero_le _, b, c, by rw [e, htext]; rfl⟩

/-- The parts of a file are determined by it. -/
theorem dynamic_unique (f : Bytes) (s d t n s' d' t' n' : Nat) (h : Dynamic f s d t n) (h' : Dynamic f s' d' t' n') :
    s' = s ∧ d' = d ∧ t' = t ∧ n' = n := by
  have e1 := h.only s' h'.seg.1 h'.seg.2
  have e2 := h.onlySect d' h'.sect.1 h'.sect.2.1
  subst e1 e2
  refine ⟨rfl, rfl, by rw [← h.link.1, ← h'.link.1], ?_⟩
  rcases Nat.lt_trichotomy n' n with a | a | a
  · exact absurd h'.null.2.1 (h.null.2.2 n' a)
  · exact a
  · exact absurd h.null.2.1 (h'.null.2.2 n a)

/-- **C58** The names collected from a 64 bit ELF file are exactly the needed libraries and the file's own library name. What is missing: files of which the string
table is not the first one, is the last section, or lies in the second half of the file (the counterexamples below). -/
theorem C58_libraries_partial (f : Bytes) (s d t n : Nat) (hr : Readable f s d t n) :
    ∃ l, elfLibs f = some l ∧ ∀ x, x ∈ l ↔ UsesLib f x := by
  obtain ⟨l, hl, hm⟩ := readable_libs f s d t n hr
  refine ⟨l, hl, fun x => ?_⟩
  rw [hm]
  constructor
  · rintro ⟨j, h⟩; exact ⟨s, d, t, n, j, hr.elf, hr.dyn, h⟩
  · rintro ⟨s', d', t', n', j, _, h2, h⟩
    obtain ⟨rfl, rfl, rfl, rfl⟩ := dynamic_unique f s d t n s' d' t' n' hr.dyn h2
    exact ⟨j, h⟩

/-- **C58** Scripts, texts, pictures: nothing is collected from files of other formats. -/
theorem C58_other_files (f : Bytes) (h : NotElf f) : elfLibs f = some [] := by
  unfold elfLibs
  by_cases h1 : f.length < 24
  · rw [if_pos h1]
  · unfold NotElf at h
    rw [if_neg h1, if_pos h]

/-- **C58 fails** for an ELF header cut short: the stream is closed by the error message and read again. -/
theorem C58_truncated_counterexample (f : Bytes) (h : f.take 5 = [127, 69, 76, 70, 2]) (h1 : 24 ≤ f.length) (h2 : f.length < 48) : elfLibs f = none := by
  have h4 : f.take 4 = [127, 69, 76, 70] := by
    have := congrArg (List.take 4) h
    rwa [List.take_take] at this
  have h5 : f.num 4 1 = 2 := by
    have := congrArg (List.drop 4) h
    rw [List.drop_take] at this
    unfold Bytes.num
    rw [show (5 - 4) = 1 from rfl] at this
    rw [this]; rfl
  unfold elfLibs
  rw [if_neg (by omega), if_neg (by simp [h4]), if_neg (by omega), if_pos h2]

/-! ## Files -/

/-- `k` bytes of a number. -/
def leb : Nat → Nat → Bytes
  | _, 0 => []
  | n, k + 1 => UInt8.ofNat n :: leb (n / 256) k

def zs (n : Nat) : Bytes := List.replicate n 0
def ehdr (phoff shoff phnum shnum : Nat) : Bytes :=
  [127, 69, 76, 70, 2] ++ zs 27 ++ leb phoff 8 ++ leb shoff 8 ++ zs 6 ++ leb 56 2 ++ leb phnum 2 ++ leb 64 2 ++ leb shnum 2 ++ zs 2
def shdr (type off size link : Nat) : Bytes := zs 4 ++ leb type 4 ++ zs 16 ++ leb off 8 ++ leb size 8 ++ leb link 4 ++ zs 20
def phdr (type off size : Nat) : Bytes := leb type 4 ++ zs 4 ++ leb off 8 ++ zs 16 ++ leb size 8 ++ zs 16
def dynent (tag val : Nat) : Bytes := leb tag 8 ++ leb val 8
def bytesOf (s : String) : Bytes := s.toList.map (fun c => UInt8.ofNat c.toNat)
def elfStrs : Bytes := [0] ++ bytesOf "libc.so.6" ++ [0] ++ bytesOf "liba.so" ++ [0]
def elfDyns : Bytes := dynent 1 1 ++ dynent 12 4096 ++ dynent 14 11 ++ dynent 0 0

/-- A shared library: headers, `.dynstr`, `.dynamic`, two segments, four sections. -/
def goodElf : Bytes := ehdr 147 259 2 4 ++ elfStrs ++ elfDyns ++ phdr 1 0 147 ++ phdr 2 83 64 ++
  shdr 0 0 0 0 ++ shdr 3 64 19 0 ++ shdr 6 83 64 1 ++ shdr 3 64 1 0

/-- The same with `.dynstr` at the end of the file. -/
def lateElf : Bytes := ehdr 128 240 2 4 ++ elfDyns ++ phdr 1 0 147 ++ phdr 2 64 64 ++
  shdr 0 0 0 0 ++ shdr 3 496 19 0 ++ shdr 6 64 64 1 ++ shdr 3 64 1 0 ++ elfStrs

/-- The same with another string table in front of it. -/
def otherElf : Bytes := ehdr 156 268 2 4 ++ elfStrs ++ bytesOf ".text.bss" ++ elfDyns ++ phdr 1 0 147 ++ phdr 2 92 64 ++
  shdr 0 0 0 0 ++ shdr 3 83 9 0 ++ shdr 6 92 64 3 ++ shdr 3 64 19 0 ++ zs 40

/-- The same with `.dynstr` as last section. -/
def lastElf : Bytes := ehdr 147 259 2 3 ++ elfStrs ++ elfDyns ++ phdr 1 0 147 ++ phdr 2 83 64 ++
  shdr 0 0 0 0 ++ shdr 6 83 64 2 ++ shdr 3 64 19 0

/-- A 32 bit library with the same parts. -/
def elf32 : Bytes :=
  [127, 69, 76, 70, 1] ++ zs 23 ++ leb 103 4 ++ leb 135 4 ++ zs 6 ++ leb 32 2 ++ leb 1 2 ++ leb 40 2 ++ leb 4 2 ++ zs 2 ++ elfStrs ++
  (leb 1 4 ++ leb 1 4 ++ leb 14 4 ++ leb 11 4 ++ zs 16) ++ (leb 2 4 ++ leb 71 4 ++ zs 8 ++ leb 32 4 ++ zs 12) ++ zs 40 ++
  (zs 4 ++ leb 3 4 ++ zs 8 ++ leb 52 4 ++ leb 19 4 ++ zs 16) ++ (zs 4 ++ leb 6 4 ++ zs 8 ++ leb 71 4 ++ leb 32 4 ++ leb 1 4 ++ zs 12) ++
  (zs 4 ++ leb 3 4 ++ zs 8 ++ leb 52 4 ++ leb 1 4 ++ zs 16)

/-- Files given by a small number of segments, sections and entries: decide all of it. -/
def DynamicB (f : Bytes) (s d t n : Nat) : Bool :=
  decide ((s < phnum f ∧ segType f s = 2) ∧ (∀ s', s' < phnum f → segType f s' = 2 → s' = s) ∧
    (d < shnum f ∧ sectType f d = 6 ∧ sectOffset f d = segOffset f s) ∧ (∀ d', d' < shnum f → sectType f d' = 6 → d' = d) ∧
    (sectLink f d = t ∧ t < shnum f ∧ sectType f t = 3) ∧
    (segOffset f s + segSize f s ≤ f.length ∧ sectOffset f t + sectSize f t ≤ f.length) ∧
    (16 * (n + 1) ≤ segSize f s ∧ dynTag f (segOffset f s) n = 0 ∧ ∀ j < n, dynTag f (segOffset f s) j ≠ 0) ∧
    (∀ j < n, dynTag f (segOffset f s) j = 1 ∨ dynTag f (segOffset f s) j = 14 → dynVal f (segOffset f s) j < sectSize f t))

theorem dynamicB {f : Bytes} {s d t n : Nat} (h : DynamicB f s d t n = true) : Dynamic f s d t n := by
  obtain ⟨a, b, c, d, e, g, i, j⟩ := of_decide_eq_true h
  exact ⟨a, b, c, d, e, g, i, j⟩

theorem goodElf_elf : Elf64 goodElf := by constructor <;> decide +kernel
theorem lateElf_elf : Elf64 lateElf := by constructor <;> decide +kernel
theorem otherElf_elf : Elf64 otherElf := by constructor <;> decide +kernel
theorem lastElf_elf : Elf64 lastElf := by constructor <;> decide +kernel

theorem goodElf_dyn : Dynamic goodElf 1 2 1 3 := dynamicB (by decide +kernel)

theorem goodElf_readable : Readable goodElf 1 2 1 3 where
  elf := goodElf_elf
  dyn := goodElf_dyn
  first := by decide +kernel
  notLast := by decide +kernel
  odd := by decide +kernel
  half := by decide +kernel
  names := by
    have : ∀ j < 3, goodElf.text (sectOffset goodElf 1 + dynVal goodElf (segOffset goodElf 1) j) ≠ [] ∧
      (goodElf.text (sectOffset goodElf 1 + dynVal goodElf (segOffset goodElf 1) j)).getLast? ≠ some '.' ∨
        ¬(dynTag goodElf (segOffset goodElf 1) j = 1 ∨ dynTag goodElf (segOffset goodElf 1) j = 14) := by decide +kernel
    rintro j x ⟨hj, ht, rfl⟩
    rcases this j hj with h | h
    · exact h
    · exact absurd ht h

example : elfLibs goodElf = some ["libc.so.6".toList, "liba.so".toList] := by decide +kernel
example : elfLibs (bytesOf "#!/bin/sh" ++ zs 40) = some [] := by decide +kernel

/-- **C58 fails** for files of which the string table lies in the second half: nothing is collected. -/
theorem C58_late_counterexample : UsesLib lateElf "libc.so.6".toList ∧ elfLibs lateElf = some [] :=
  ⟨⟨1, 2, 1, 3, 0, lateElf_elf, dynamicB (by decide +kernel), by unfold NamesLib; decide +kernel⟩, by decide +kernel⟩

/-- **C58 fails** when another string table comes first (as after `patchelf`, or in any file of which `.dynstr` was moved): names that no entry gives. -/
theorem C58_other_table_counterexample : UsesLib otherElf "libc.so.6".toList ∧ ∃ l, elfLibs otherElf = some l ∧ "libc.so.6".toList ∉ l ∧ [] ∈ l :=
  ⟨⟨1, 2, 3, 3, 0, otherElf_elf, dynamicB (by decide +kernel), by unfold NamesLib; decide +kernel⟩,
    ["text.bss\x01".toList, []], by decide +kernel, by decide +kernel, by decide +kernel⟩

/-- **C58 fails** when `.dynstr` is the last section. -/
theorem C58_last_counterexample : UsesLib lastElf "libc.so.6".toList ∧ elfLibs lastElf = some [] :=
  ⟨⟨1, 1, 2, 3, 0, lastElf_elf, dynamicB (by decide +kernel), by unfold NamesLib; decide +kernel⟩, by decide +kernel⟩

/-- **C58 fails** for 32 bit files on a 64 bit machine: the structures are those of 64 bit files, and the loop over the sections leaves its buffer. -/
theorem C58_32bit_counterexample : elfLibs elf32 = none := by decide +kernel

/-- A file with sections, none of which is a string table. -/
def noTabElf : Bytes := ehdr 147 259 2 4 ++ elfStrs ++ elfDyns ++ phdr 1 0 147 ++ phdr 2 83 64 ++
  shdr 0 0 0 0 ++ shdr 1 64 19 0 ++ shdr 6 83 64 1 ++ shdr 1 0 1 0

/-- **C58 fails** for a file without a string table: the names are taken from the beginning of the file, so the file "uses" a library named like its own
identification; with a single section nothing is collected. -/
theorem C58_no_table_counterexample : (∀ x, ¬ UsesLib noTabElf x) ∧ elfLibs noTabElf = some ["ELF\x02".toList, []] ∧
    elfLibs (ehdr 147 259 2 1 ++ noTabElf.drop 64) = some [] := by
  refine ⟨?_, by decide +kernel, by decide +kernel⟩
  rintro x ⟨s, d, t, n, j, he, hd, hn⟩
  have h3 : ∀ i < 4, sectType noTabElf i ≠ 3 := by decide +kernel
  have hs : shnum noTabElf = 4 := by decide +kernel
  exact h3 t (hs ▸ hd.link.2.1) hd.link.2.2

/-! ## C59 -/

theorem mem_librariesList : ∀ (files : List (Option Bytes)), (∀ f, some f ∈ files → NotElf f ∨ ∃ s d t n, Readable f s d t n) →
    ∃ libs, librariesList files = some libs ∧ ∀ x, x ∈ libs ↔ ∃ f, some f ∈ files ∧ UsesLib f x := by
  intro files
  induction files with
  | nil => intro _; exact ⟨[], rfl, by simp⟩
  | cons o fs ih =>
    intro h
    obtain ⟨b, hb, hm⟩ := ih (fun f hf => h f (List.mem_cons_of_mem _ hf))
    cases o with
    | none =>
      refine ⟨b, by unfold librariesList; exact hb, fun x => ?_⟩
      rw [hm]
      simp
    | some f =>
      have : ∃ a, elfLibs f = some a ∧ ∀ x, x ∈ a ↔ UsesLib f x := by
        rcases h f (List.mem_cons_self ..) with h1 | ⟨s, d, t, n, h1⟩
        · refine ⟨[], C58_other_files f h1, fun x => ?_⟩
          simp only [List.not_mem_nil, false_iff]
          rintro ⟨s, d, t, n, j, he, _⟩
          apply h1
          have := congrArg (List.take 4) he.ident
          rwa [List.take_take] at this
        · exact C58_libraries_partial f s d t n h1
      obtain ⟨a, ha, hma⟩ := this
      refine ⟨a ++ b, by unfold librariesList; rw [ha, hb], fun x => ?_⟩
      simp [hm, hma]

theorem mem_libOwners (db : Db) (hw : WF db) (libs : List Str) (n : Str) :
    n ∈ libOwners db libs ↔ ∃ i, (n, i) ∈ db ∧ ∃ l ∈ libs, ∃ f ∈ i.files, ('/' :: l) <:+: f := by
  unfold libOwners
  rw [List.mem_filter, mem_keys_iff]
  constructor
  · rintro ⟨_, h⟩
    cases hg : mget db n with
    | none => rw [hg] at h; simp at h
    | some i =>
      rw [hg] at h
      simp only [List.any_eq_true] at h
      obtain ⟨l, hl, f, hf, hh⟩ := h
      exact ⟨i, mget_some_mem hg, l, hl, f, hf, has_iff.mp hh⟩
  · rintro ⟨i, hi, l, hl, f, hf, hh⟩
    have hg := (mget_iff_mem (wf_msorted hw)).mpr hi
    refine ⟨⟨i, hg⟩, ?_⟩
    rw [hg]
    simp only [List.any_eq_true]
    exact ⟨l, hl, f, hf, has_iff.mpr hh⟩

theorem needs_iff (db : Db) (hw : WF db) (files : List (Option Bytes)) (libs : List Str) (hx : NoLonger db files)
    (hm : ∀ x, x ∈ libs ↔ ∃ f, some f ∈ files ∧ UsesLib f x) (n : Str) : n ∈ libOwners db libs ↔ NeedsPkg db files n := by
  rw [mem_libOwners db hw]
  constructor
  · rintro ⟨i, hi, l, hl, g, hg, hh⟩
    obtain ⟨f, hf, hu⟩ := (hm l).mp hl
    obtain ⟨dir, hd⟩ := hx n i g f l hi hg hf hu hh
    exact ⟨f, l, hf, hu, i, hi, g, hg, dir, hd.symm⟩
  · rintro ⟨f, x, hf, hu, i, hi, g, hg, dir, hd⟩
    exact ⟨i, hi, x, (hm x).mpr ⟨f, hf, hu⟩, g, hg, dir, [], by simp [hd]⟩

/-- **C59** `pkginfo -R` prints each package that has one of the libraries used by the files of the named package, and no other. What is missing: files C58 does not
cover, file names longer than that of the library, names that are aliases. -/
theorem C59_packages_partial (db : Db) (hw : WF db) (content : Str → Option Bytes) (n : Str) (i : Info) (hi : (n, i) ∈ db)
    (hf : ∀ f ∈ i.files, ∀ c, content ('/' :: f) = some c → NotElf c ∨ ∃ s d t k, Readable c s d t k)
    (hx : NoLonger db (i.files.map (fun f => content ('/' :: f)))) :
    ∃ out, runtimeDeps db content n = some out ∧ out.Nodup ∧
      ∀ m, m ∈ out ↔ NeedsPkg db (i.files.map (fun f => content ('/' :: f))) m := by
  have hg := (mget_iff_mem (wf_msorted hw)).mpr hi
  have hal : ∃ p, mget (loadAlias db) n = some p := by
    cases h : mget (loadAlias db) n with
    | none => exact absurd ⟨i, hi, Or.inl rfl⟩ ((mget_loadAlias_none db n).mp h n)
    | some p => exact ⟨p, rfl⟩
  obtain ⟨p, hp⟩ := hal
  obtain ⟨libs, hl, hm⟩ := mem_librariesList (i.files.map (fun f => content ('/' :: f))) (by
    intro c hc
    obtain ⟨f, h1, h2⟩ := List.mem_map.mp hc
    exact hf f h1 c h2)
  refine ⟨libOwners db libs, ?_, ?_, fun m => needs_iff db hw _ libs hx hm m⟩
  · unfold runtimeDeps
    rw [hp, hg]
    simp only [Option.map_some, Option.getD_some]
    rw [hl]; rfl
  · unfold libOwners
    exact (wf_msorted hw).nodup.filter _

/-- **C59** The lines `pkginfo --runtimedepfiles` prints for pkgmk: read back as run time dependencies they are exactly the packages that have one of the libraries used
by the files, each with the build date of its installed version. -/
theorem C59_lines_partial (junk : Nat × Nat) (db : Db) (hw : WF db) (files : List (Option Bytes))
    (hb : ∀ p ∈ db, OneField p.2 'B' ∧ ∃ t, 10 ^ 9 ≤ t ∧ t < 10 ^ 10 ∧ 'B' :: dec t ∈ p.2.md)
    (hf : ∀ f, some f ∈ files → NotElf f ∨ ∃ s d t k, Readable f s d t k) (hx : NoLonger db files) :
    ∃ out, runtimeDepFiles junk db files = some out ∧ out.Nodup ∧
      (∀ x ∈ out, ∃ m i t, (m, i) ∈ db ∧ 'B' :: dec t ∈ i.md ∧ NeedsPkg db files m ∧ parseDep ('R' :: x) = some (m, t)) ∧
      (∀ m, NeedsPkg db files m → ∃ x ∈ out, ∃ t, parseDep ('R' :: x) = some (m, t)) := by
  obtain ⟨libs, hl, hm⟩ := mem_librariesList files hf
  have line : ∀ m i, (m, i) ∈ db → ∃ t, 10 ^ 9 ≤ t ∧ t < 10 ^ 10 ∧ 'B' :: dec t ∈ i.md ∧ depLine junk db m = some (m ++ dec t) := by
    intro m i hi
    obtain ⟨h1, t, ht1, ht2, hbt⟩ := hb (m, i) hi
    refine ⟨t, ht1, ht2, hbt, ?_⟩
    unfold depLine
    rw [(mget_iff_mem (wf_msorted hw)).mpr hi]
    have e : (i.inst junk).build = t := by
      unfold Info.inst
      simp only [fields_last h1 hbt, strtoul0_dec t (by omega) (by omega)]
    have hlen : (dec t).length = 10 := dec_length t 9 ht2 (.inl ht1)
    simp only [e]
    unfold ultos
    rw [if_pos (by omega)]
  have own : ∀ m, m ∈ libOwners db libs → ∃ i, (m, i) ∈ db := by
    intro m h
    obtain ⟨i, hi, _⟩ := (mem_libOwners db hw libs m).mp h
    exact ⟨i, hi⟩
  refine ⟨sofList ((libOwners db libs).filterMap (depLine junk db)), ?_, sorted_nodup (sorted_sofList _), ?_, ?_⟩
  · unfold runtimeDepFiles
    rw [hl]
    simp only
    rw [if_pos]
    rw [List.all_eq_true]
    intro m h
    obtain ⟨i, hi⟩ := own m h
    obtain ⟨t, _, _, _, e⟩ := line m i hi
    rw [e]; rfl
  · intro x h
    rw [mem_sofList, List.mem_filterMap] at h
    obtain ⟨m, h1, h2⟩ := h
    obtain ⟨i, hi⟩ := own m h1
    obtain ⟨t, a, b, c, e⟩ := line m i hi
    rw [e] at h2
    injection h2 with h2
    subst h2
    exact ⟨m, i, t, hi, c, (needs_iff db hw files libs hx hm m).mp h1, C13_roundtrip m t a b⟩
  · intro m h
    have h1 := (needs_iff db hw files libs hx hm m).mpr h
    obtain ⟨i, hi⟩ := own m h1
    obtain ⟨t, a, b, c, e⟩ := line m i hi
    exact ⟨m ++ dec t, by rw [mem_sofList, List.mem_filterMap]; exact ⟨m, h1, e⟩, t, C13_roundtrip m t a b⟩

/-- A library and the C library, with and without the next but one version of it. -/
def eDb : Db :=
  [("a".toList, { md := ["Aaa".toList, "B1700000000".toList], files := ["usr/lib/liba.so".toList] }),
   ("glibc".toList, { md := ["B1700000001".toList], files := ["usr/lib/libc.so.6".toList] })]
def eDb2 : Db := eDb ++ [("new".toList, { md := ["B1700000002".toList], files := ["opt/libc.so.60".toList] })]
def eContent (f : Str) : Option Bytes := if f = "/usr/lib/liba.so".toList then some goodElf else none

theorem eDb_wf : WF eDb := by
  refine ⟨by decide, ?_⟩
  intro p hp
  simp only [eDb, List.mem_cons, List.not_mem_nil, or_false] at hp
  rcases hp with rfl | rfl <;> decide

theorem eDb2_wf : WF eDb2 := by
  refine ⟨by decide, ?_⟩
  intro p hp
  simp only [eDb2, eDb, List.mem_cons, List.not_mem_nil, or_false, List.cons_append, List.nil_append] at hp
  rcases hp with rfl | rfl | rfl <;> decide

theorem goodElf_uses (x : Str) : UsesLib goodElf x ↔ x = "libc.so.6".toList ∨ x = "liba.so".toList := by
  obtain ⟨l, hl, hm⟩ := C58_libraries_partial goodElf 1 2 1 3 goodElf_readable
  have : elfLibs goodElf = some ["libc.so.6".toList, "liba.so".toList] := by decide +kernel
  rw [this, Option.some.injEq] at hl
  rw [← hm, ← hl]
  simp

theorem eDb_noLonger : NoLonger eDb [some goodElf] := by
  intro n i g f x hi hg hf hu hh
  have : f = goodElf := by simpa using hf
  subst this
  rw [goodElf_uses] at hu
  simp only [eDb, List.mem_cons, List.not_mem_nil, or_false, Prod.mk.injEq] at hi
  rcases hi with ⟨rfl, rfl⟩ | ⟨rfl, rfl⟩ <;> simp only [List.mem_cons, List.not_mem_nil, or_false] at hg <;> subst hg <;>
    rcases hu with rfl | rfl <;> revert hh <;> decide

/-- Both theorems apply to this database: the library needs itself and the C library. -/
example : ∃ out, runtimeDeps eDb eContent "a".toList = some out ∧ out.Nodup ∧ ∀ m, m ∈ out ↔ NeedsPkg eDb [some goodElf] m :=
  C59_packages_partial eDb eDb_wf eContent "a".toList _ (List.mem_cons_self ..)
    (by
      intro f hf c hc
      have hf' : f = "usr/lib/liba.so".toList := by simpa using hf
      subst hf'
      have : c = goodElf := by
        have e : eContent ('/' :: "usr/lib/liba.so".toList) = some goodElf := rfl
        rw [e] at hc; exact (Option.some.inj hc).symm
      subst this
      exact Or.inr ⟨1, 2, 1, 3, goodElf_readable⟩)
    eDb_noLonger

example : runtimeDeps eDb eContent "a".toList = some ["a".toList, "glibc".toList] ∧
    runtimeDepFiles (0, 0) eDb [some goodElf, none, some (bytesOf "#!/bin/sh")] = some ["a1700000000".toList, "glibc1700000001".toList] := by decide +kernel

example : ∀ p ∈ eDb, OneField p.2 'B' ∧ ∃ t, 10 ^ 9 ≤ t ∧ t < 10 ^ 10 ∧ 'B' :: dec t ∈ p.2.md := by
  intro p hp
  simp only [eDb, List.mem_cons, List.not_mem_nil, or_false] at hp
  rcases hp with rfl | rfl
  · refine ⟨?_, 1700000000, by decide, by decide, by decide +kernel⟩
    intro x y h1 h2
    simp at h1 h2
    rw [h1, h2]
  · refine ⟨?_, 1700000001, by decide, by decide, by decide +kernel⟩
    intro x y h1 h2
    simp at h1 h2
    rw [h1, h2]

/-- **C59 fails** for libraries of which the name starts with that of the one needed: package `new` has no `libc.so.6`, only `libc.so.60`. -/
theorem C59_longer_counterexample : WF eDb2 ∧ ¬ NeedsPkg eDb2 [some goodElf] "new".toList ∧
    runtimeDeps eDb2 eContent "a".toList = some ["a".toList, "glibc".toList, "new".toList] ∧
    runtimeDepFiles (0, 0) eDb2 [some goodElf] = some ["a1700000000".toList, "glibc1700000001".toList, "new1700000002".toList] := by
  refine ⟨eDb2_wf, ?_, by decide +kernel, by decide +kernel⟩
  rintro ⟨f, x, hf, hu, i, hi, g, hg, dir, hd⟩
  have : f = goodElf := by simpa using hf
  subst this
  rw [goodElf_uses] at hu
  simp only [eDb2, eDb, List.mem_cons, List.not_mem_nil, or_false, Prod.mk.injEq, List.cons_append, List.nil_append] at hi
  rcases hi with ⟨h, -⟩ | ⟨h, -⟩ | ⟨-, rfl⟩
  · exact absurd h (by decide)
  · exact absurd h (by decide)
  · simp only [List.mem_cons, List.not_mem_nil, or_false] at hg
    subst hg
    have hs : '/' :: x <:+ "opt/libc.so.60".toList := ⟨dir, hd.symm⟩
    rcases hu with rfl | rfl <;> revert hs <;> decide

/-- **C59 fails** for an alias: `pkginfo -R aa` finds the package but prints nothing. -/
theorem C59_alias_counterexample : Called eDb "a".toList "aa".toList ∧ runtimeDeps eDb eContent "aa".toList = some [] ∧
    runtimeDeps eDb eContent "a".toList = some ["a".toList, "glibc".toList] := by
  refine ⟨⟨_, List.mem_cons_self .., Or.inr ?_⟩, by decide +kernel, by decide +kernel⟩
  unfold HasAlias
  decide

end Cards.Props
