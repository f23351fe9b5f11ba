import Verif.Model.Base
/-!
# `cards::vector` and `cards::string`

Memory is modelled as the list of cells the object owns; a cell is `none` while it was never written. Every access outside the
cells, or of a cell never written, is `none` (undefined behaviour) at the level of the operation. `malloc`/`realloc` never fail
here, and `unsigned int` has 32 bits.
-/
namespace Cards

/-- 2^32. -/
def u32 : Nat := 4294967296

/-- `cards::vector` /repo/src/vector.h:9-67: `m_items` as the cells allocated (a text, i.e. a duplicated C string, per cell), `m_size`, `m_capacity`. -/
structure CVec where
  cells : List (Option Str)
  size : Nat
  cap : Nat
deriving DecidableEq, Repr

/-- `realloc`: the first cells keep their content, new ones are not written. -/
def resize {α : Type} (l : List (Option α)) (n : Nat) : List (Option α) := l.take n ++ List.replicate (n - l.length) none

/-- `vector::vector()` /repo/src/vector.cxx:11-15. -/
def CVec.new : CVec := ⟨List.replicate 15 none, 0, 15⟩

/-- `vector::vector(capacity)` /repo/src/vector.cxx:16-20. -/
def CVec.newCap (n : Nat) : CVec := ⟨List.replicate n none, 0, n⟩

/-- `vector::vector(element)` /repo/src/vector.cxx:21-26. -/
def CVec.newElem (e : Str) : CVec := ⟨some e :: List.replicate 14 none, 1, 15⟩

/-- `vector::reserve` /repo/src/vector.cxx:34-43; `sizeof m_items` is the size of a pointer, the size of a cell. -/
def CVec.reserve (v : CVec) (n : Nat) : CVec := if v.cap ≥ n then v else { v with cap := n, cells := resize v.cells n }

/-- `vector::push_back` /repo/src/vector.cxx:27-33. `none`: the store hits memory the vector does not own. -/
def CVec.push (v : CVec) (e : Str) : Option CVec :=
  let v := if v.cap = v.size then v.reserve (v.size * 2 % u32) else v
  if v.size < v.cells.length then some { v with cells := v.cells.set v.size (some e), size := (v.size + 1) % u32 } else none

/-- `operator[]` /repo/src/vector.cxx:55-60: no check. `none`: undefined. -/
def CVec.at (v : CVec) (i : Nat) : Option Str := (v.cells[i]?).bind id

/-- `vector::value` /repo/src/vector.cxx:44-48; `m_size - 1` wraps when the vector is empty. -/
def CVec.value (v : CVec) (i : Nat) : Option Str :=
  let last := (v.size + u32 - 1) % u32
  if i > last then v.at last else v.at i

/-- Iteration from `begin()` to `end()` /repo/src/vector.cxx:73-78. -/
def CVec.iterate (v : CVec) : List (Option Str) := (List.range v.size).map v.at

/-- The operations that change a vector. -/
inductive VecOp where
  | push (e : Str)
  | reserve (n : Nat)

/-- One operation. -/
def CVec.op (v : CVec) : VecOp → Option CVec
  | .push e => v.push e
  | .reserve n => some (v.reserve n)

/-- A sequence of operations; `none` as soon as one is undefined. -/
def CVec.run (v : CVec) : List VecOp → Option CVec
  | [] => some v
  | o :: os => (v.op o).bind (fun v => v.run os)

/-- `cards::string` /repo/src/string.h:11-40: `m_value` (`none` = nullptr) as the bytes allocated, `m_size`, `m_capacity`. -/
structure CString where
  mem : Option (List (Option Char))
  size : Nat
  cap : Nat
deriving DecidableEq, Repr

/-- `string::string()` /repo/src/string.cxx:6-8, 66-70. -/
def CString.new : CString := ⟨none, 0, 0⟩

/-- `string::reserve` /repo/src/string.cxx:71-87. The condition of the first `if` is the assignment `m_capacity = 0`: it is always false and
has reset the capacity. `sizeof m_value` is 8, so eight times the capacity is allocated. -/
def CString.reserve (s : CString) (n : Nat) : CString :=
  let s := { s with cap := 0 }
  if s.cap ≥ n then s else { s with cap := n, mem := some (resize (s.mem.getD []) (8 * n)) }

/-- `string::assign(str, size)` /repo/src/string.cxx:55-65 with `size` characters at `str`. `none`: a store outside the memory. -/
def CString.assignN (s : CString) (str : Str) : Option CString :=
  if str.length > 0 then
    let s := s.reserve str.length
    let m := s.mem.getD []
    if str.length + 1 ≤ m.length then
      some { s with mem := some (str.map some ++ some '\x00' :: m.drop (str.length + 1)), size := str.length }
    else none
  else some (s.reserve 0)

/-- `string::assign(const char*)` /repo/src/string.cxx:41-49; also the constructor (13-16) and `operator=` (88-90). `str` is a C text: no NUL in it. `strlen` is cut to 32 bits. -/
def CString.assign (s : CString) (str : Str) : Option CString :=
  if str ≠ [] then s.assignN (str.take (str.length % u32)) else some (s.reserve 0)

/-- The characters up to the NUL; `none` when memory never written, or not owned, is read first. -/
def readCStr : List (Option Char) → Option Str
  | [] => none
  | none :: _ => none
  | some c :: r => if c = '\x00' then some [] else (readCStr r).map (c :: ·)

/-- What a caller reads through `c_str()` / `data()` /repo/src/string.cxx:31-40, with the state afterwards. -/
def CString.cstr (s : CString) : CString × Option Str :=
  let s := if s.mem = none then s.reserve 1 else s
  (s, readCStr (s.mem.getD []))

/-- The operations that change a string. -/
inductive StrOp where
  | assign (t : Str)
  | reserve (n : Nat)

/-- One operation. -/
def CString.op (s : CString) : StrOp → Option CString
  | .assign t => s.assign t
  | .reserve n => some (s.reserve n)

/-- A sequence of operations; `none` as soon as one is undefined. -/
def CString.run (s : CString) : List StrOp → Option CString
  | [] => some s
  | o :: os => (s.op o).bind (fun s => s.run os)

end Cards
