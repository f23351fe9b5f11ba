import Verif.Model.Elf
/-!
# The ELF format (64 bit, little endian), as far as shared libraries are concerned

Offsets and numbers are those of the System V ABI (`elf.h` of the C library), not those of the structures in the code.
-/
namespace Cards.Spec
open Cards

/-- Number of sections, offset of the section headers, number of segments, offset of the program headers. -/
def shnum (f : Bytes) : Nat := f.num 60 2
def shoff (f : Bytes) : Nat := f.num 40 8
def phnum (f : Bytes) : Nat := f.num 56 2
def phoff (f : Bytes) : Nat := f.num 32 8

/-- Type, file offset, size and link of section `i`. -/
def sectType (f : Bytes) (i : Nat) : Nat := f.num (shoff f + 64 * i + 4) 4
def sectOffset (f : Bytes) (i : Nat) : Nat := f.num (shoff f + 64 * i + 24) 8
def sectSize (f : Bytes) (i : Nat) : Nat := f.num (shoff f + 64 * i + 32) 8
def sectLink (f : Bytes) (i : Nat) : Nat := f.num (shoff f + 64 * i + 40) 4

/-- Type, file offset and size in the file of segment `i`. -/
def segType (f : Bytes) (i : Nat) : Nat := f.num (phoff f + 56 * i) 4
def segOffset (f : Bytes) (i : Nat) : Nat := f.num (phoff f + 56 * i + 8) 8
def segSize (f : Bytes) (i : Nat) : Nat := f.num (phoff f + 56 * i + 32) 8

/-- Tag and value of entry `j` of the dynamic segment at `o`. -/
def dynTag (f : Bytes) (o j : Nat) : Nat := f.num (o + 16 * j) 8
def dynVal (f : Bytes) (o j : Nat) : Nat := f.num (o + 16 * j + 8) 8

/-- A 64 bit ELF file with complete headers. -/
structure Elf64 (f : Bytes) : Prop where
  ident : f.take 5 = [127, 69, 76, 70, 2]
  header : 64 ≤ f.length
  short : f.length < 2 ^ 63
  shentsize : f.num 58 2 = 64
  sections : 0 < shnum f
  shinside : shoff f + 64 * shnum f ≤ f.length
  phentsize : f.num 54 2 = 56
  segments : 0 < phnum f
  phinside : phoff f + 56 * phnum f ≤ f.length

/-- Segment `s` is the dynamic segment (PT_DYNAMIC); section `d` (SHT_DYNAMIC) is the same part of the file, and names the string table `t`; entry `n`
(DT_NULL) ends it. -/
structure Dynamic (f : Bytes) (s d t n : Nat) : Prop where
  seg : s < phnum f ∧ segType f s = 2
  only : ∀ s', s' < phnum f → segType f s' = 2 → s' = s
  sect : d < shnum f ∧ sectType f d = 6 ∧ sectOffset f d = segOffset f s
  onlySect : ∀ d', d' < shnum f → sectType f d' = 6 → d' = d
  link : sectLink f d = t ∧ t < shnum f ∧ sectType f t = 3
  inside : segOffset f s + segSize f s ≤ f.length ∧ sectOffset f t + sectSize f t ≤ f.length
  null : 16 * (n + 1) ≤ segSize f s ∧ dynTag f (segOffset f s) n = 0 ∧ ∀ j < n, dynTag f (segOffset f s) j ≠ 0
  values : ∀ j < n, dynTag f (segOffset f s) j = 1 ∨ dynTag f (segOffset f s) j = 14 → dynVal f (segOffset f s) j < sectSize f t

/-- Entry `j` of the dynamic segment names a library: one needed (DT_NEEDED) or the file's own name (DT_SONAME). -/
def NamesLib (f : Bytes) (s t n j : Nat) (name : Str) : Prop :=
  j < n ∧ (dynTag f (segOffset f s) j = 1 ∨ dynTag f (segOffset f s) j = 14) ∧
    name = f.text (sectOffset f t + dynVal f (segOffset f s) j)

/-- An ELF file whose libraries are found, see C58: the string table is the first one, not the last section, in the first half of the file; the names are not
empty and do not end with a point. -/
structure Readable (f : Bytes) (s d t n : Nat) : Prop where
  elf : Elf64 f
  dyn : Dynamic f s d t n
  first : ∀ j < t, sectType f j ≠ 3
  notLast : t ≠ shnum f - 1
  odd : sectOffset f t ≠ shnum f - 1
  half : sectOffset f t < f.length - sectOffset f t
  names : ∀ j x, NamesLib f s t n j x → x ≠ [] ∧ x.getLast? ≠ some '.'

/-- The file does not start with the magic number of ELF. -/
def NotElf (f : Bytes) : Prop := f.take 4 ≠ [127, 69, 76, 70]

/-- The file is an ELF file that names the library `x`. -/
def UsesLib (f : Bytes) (x : Str) : Prop := ∃ s d t n j, Elf64 f ∧ Dynamic f s d t n ∧ NamesLib f s t n j x

/-- Package `n` has a file of that name, in some directory. -/
def HasLib (db : Db) (n x : Str) : Prop := ∃ i, (n, i) ∈ db ∧ ∃ f ∈ i.files, ∃ dir, f = dir ++ '/' :: x

/-- The files whose libraries matter, and the packages that have one of them. -/
def NeedsPkg (db : Db) (files : List (Option Bytes)) (m : Str) : Prop :=
  ∃ f x, some f ∈ files ∧ UsesLib f x ∧ HasLib db m x

/-- No installed file name goes on behind the name of one of the libraries. -/
def NoLonger (db : Db) (files : List (Option Bytes)) : Prop :=
  ∀ n i g f x, (n, i) ∈ db → g ∈ i.files → some f ∈ files → UsesLib f x → ('/' :: x) <:+: g → ('/' :: x) <:+ g

end Cards.Spec
