import Verif.Model.Elf
/-!
# What looking at a file for its libraries leaves open or allocated (/repo/src/runtime_dependencies_utils.cxx, /repo/src/file_utils.cxx:9-39)

The same paths as in `Model/Elf`, with the buffers and the stream. The stream and the buffers but one are global variables, freed by `dependencies_utils_end`.
-/
namespace Cards

/-- The pointers: the parts of the header, the section and program headers, the dynamic section (each for 32 and 64 bits), /repo/src/runtime_dependencies_utils.cxx:9-24, and the
local `dynamic_strings`. -/
inductive ElfPtr
  | begin | part (six4 : Bool) | tail | sections (six4 : Bool) | program (six4 : Bool) | dynamic (six4 : Bool) | strings
deriving DecidableEq, Repr

/-- Stream and buffers: `file` is not NULL; the pointers that are not NULL; how many buffers and streams nothing points to any more. -/
structure ElfHeap where
  file : Bool
  ptrs : List ElfPtr
  lostBufs : Nat
  lostFiles : Nat
deriving DecidableEq, Repr

/-- `p = …`: what `p` pointed to is lost; `some`: the new value is not NULL. -/
def ElfHeap.assign (h : ElfHeap) (p : ElfPtr) (new : Bool) : ElfHeap :=
  { h with
    ptrs := if new then p :: h.ptrs.filter (· ≠ p) else h.ptrs.filter (· ≠ p)
    lostBufs := h.lostBufs + (if p ∈ h.ptrs then 1 else 0) }

/-- `free(p); p = NULL`, for a pointer that is not NULL. -/
def ElfHeap.free (h : ElfHeap) (p : ElfPtr) : ElfHeap := { h with ptrs := h.ptrs.filter (· ≠ p) }

/-- `file = fopen(…)`, /repo/src/runtime_dependencies_utils.cxx:67-69. -/
def ElfHeap.fopen (h : ElfHeap) (ok : Bool) : ElfHeap := { h with file := ok, lostFiles := h.lostFiles + (if h.file then 1 else 0) }

/-- `dependencies_utils_end`, /repo/src/runtime_dependencies_utils.cxx:381-440: all but `dynamic_strings`, which is a local variable and lost if it was not freed. -/
def ElfHeap.finish (h : ElfHeap) : ElfHeap :=
  { file := false, ptrs := [], lostBufs := h.lostBufs + (if .strings ∈ h.ptrs then 1 else 0), lostFiles := h.lostFiles }

/-- `p = getDatas(NULL, file, off, size, nmemb)`: on a short read the buffer just allocated is not freed, /repo/src/file_utils.cxx:32-36. -/
def ElfHeap.datas (h : ElfHeap) (f : Bytes) (off size nmemb : Nat) (p : ElfPtr) : ElfHeap :=
  let h := h.assign p (getDatas f off size nmemb).isSome
  if size = 0 ∨ nmemb = 0 ∨ 2 ^ 63 ≤ off then h
  else if f.length < off + size * nmemb then { h with lostBufs := h.lostBufs + 1 }
  else h

/-- /repo/src/runtime_dependencies_utils.cxx:190-246 and 316-371. -/
def elfDynamicH (f : Bytes) (six4 : Bool) (off : Nat) (d : Nat × Nat) (h : ElfHeap) : Option (List Str × ElfHeap) :=
  let h := h.datas f d.1 1 d.2 (.dynamic six4)
  match getDatas f d.1 1 d.2 with
  | none => some ([], h.finish)
  | some dyn =>
    if off < 2 ^ 63 ∧ f.length ≤ off then some ([], h.finish)
    else
      let strs := getDatas f off 1 (f.length - off)
      let h := h.datas f off 1 (f.length - off) .strings
      match dynLoop dyn (if off < f.length - off then strs else none) 0 d.2 with
      | none => none
      | some l => some (l, ((h.free (.dynamic six4)).free .strings).finish)

/-- /repo/src/runtime_dependencies_utils.cxx:164-189 and 290-315. -/
def elfProgramH (f : Bytes) (six4 : Bool) (phoff phentsize phnum off : Nat) (h : ElfHeap) : Option (List Str × ElfHeap) :=
  let h := h.datas f phoff phentsize phnum (.program six4)
  match getDatas f phoff phentsize phnum with
  | none => some ([], h.finish)
  | some ph =>
    match findDynamic ph 0 phnum (0, 0) with
    | none => none
    | some d => elfDynamicH f six4 off d h

/-- /repo/src/runtime_dependencies_utils.cxx:101-163 and 249-289. -/
def elfSectionsH (f : Bytes) (six4 : Bool) (phoff shoff endOff : Nat) (h : ElfHeap) : Option (List Str × ElfHeap) :=
  let phentsize := f.num (endOff + 6) 2
  let phnum := f.num (endOff + 8) 2
  let shentsize := f.num (endOff + 10) 2
  let shnum := f.num (endOff + 12) 2
  if shnum = 0 then some ([], h.finish)
  else
    let h := h.datas f shoff shentsize shnum (.sections six4)
    match getDatas f shoff shentsize shnum with
    | none => some ([], h.finish)
    | some sh =>
      match findStrTab sh 0 shnum with
      | .outside => none
      | .absent => if six4 ∧ shnum = 1 then some ([], h.finish) else elfProgramH f six4 phoff phentsize phnum 0 h
      | .found i off =>
        if i = shnum - 1 then some ([], h.finish)
        else if six4 ∧ off = shnum - 1 then some ([], h.finish)
        else elfProgramH f six4 phoff phentsize phnum off h

/-- `getRuntimeLibrariesList`, /repo/src/runtime_dependencies_utils.cxx:49-379, on a file (`none`: it is not there, is empty or cannot be opened), with the stream and the buffers before
and after. `none`: undefined behaviour, as in `elfLibs`. -/
def elfRun (file : Option Bytes) (h : ElfHeap) : Option (List Str × ElfHeap) :=
  match file with
  | none => some ([], h.finish)
  | some f =>
    let h := (h.fopen true).assign .begin true
    if f.length < 24 then some ([], h.finish)
    else if f.take 4 ≠ [127, 69, 76, 70] then some ([], h.finish)
    else if f.num 4 1 = 1 then
      let h := h.assign (.part false) true
      if f.length < 36 then none
      else
        let h := h.assign .tail true
        if f.length < 52 then some ([], h.finish)
        else elfSectionsH f false (f.num 28 4) (f.num 32 4) 36 h
    else
      let h := h.assign (.part true) true
      if f.length < 48 then none
      else
        let h := h.assign .tail true
        if f.length < 64 then some ([], h.finish)
        else elfSectionsH f true (f.num 32 8) (f.num 40 8) 48 h

/-- The files one after the other, /repo/src/pkginfo.cxx:260-262, 277-279, 316-320. -/
def elfRunAll : List (Option Bytes) → ElfHeap → Option (List Str × ElfHeap)
  | [], h => some ([], h)
  | f :: fs, h => match elfRun f h with
    | none => none
    | some (a, h') => match elfRunAll fs h' with
      | none => none
      | some (b, h'') => some (a ++ b, h'')

end Cards
