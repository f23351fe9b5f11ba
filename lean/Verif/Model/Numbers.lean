import Verif.Model.Strings
/-!
# Numbers as text, hexadecimal, mode strings, wait status
-/
namespace Cards

/-- The decimal or hexadecimal digit of a number below 16. -/
def digitC (n : Nat) : Char :=
  match n with
  | 0 => '0' | 1 => '1' | 2 => '2' | 3 => '3' | 4 => '4' | 5 => '5' | 6 => '6' | 7 => '7' | 8 => '8' | 9 => '9'
  | 10 => 'a' | 11 => 'b' | 12 => 'c' | 13 => 'd' | 14 => 'e' | _ => 'f'

/-- `sprintf("%lu", n)`: the decimal digits, most significant first. /repo/src/string_utils.cxx:107-119 (`itos`, `ultos`). -/
def dec (n : Nat) : Str := if n < 10 then [digitC n] else dec (n / 10) ++ [digitC (n % 10)]

/-- The outcome of `ultos` /repo/src/string_utils.cxx:114-119: the buffer has 20 bytes, one of them for the final NUL; a longer number
is written past its end. -/
inductive BufResult where
  | ok (s : Str)
  | overflow
deriving DecidableEq, Repr

/-- `ultos` with its buffer of 20 bytes. -/
def ultos (n : Nat) : BufResult := if (dec n).length + 1 ≤ 20 then .ok (dec n) else .overflow

/-- `itos` /repo/src/string_utils.cxx:107-112: the argument is converted to `unsigned int` first. -/
def itos (n : Nat) : Str := dec (n % 2 ^ 32)

/-- The value of a digit character in a base up to 16. -/
def digitVal (base : Nat) (c : Char) : Option Nat :=
  let v := if '0' ≤ c ∧ c ≤ '9' then some (c.toNat - 48)
    else if 'a' ≤ c ∧ c ≤ 'f' then some (c.toNat - 87)
    else if 'A' ≤ c ∧ c ≤ 'F' then some (c.toNat - 55)
    else none
  match v with
  | some n => if n < base then some n else none
  | none => none

/-- The digits at the front of the text, as number: `some` only when there is at least one. -/
def digits (base : Nat) : Str → Option Nat → Option Nat
  | [], acc => acc
  | c :: s, acc => match digitVal base c with
    | some d => digits base s (some (acc.getD 0 * base + d))
    | none => acc

/-- Whether an optional `0x` prefix is there: only in base 0 and 16, and only when a hexadecimal digit follows. -/
def hexPrefix (base : Nat) (s : Str) : Bool :=
  (base = 0 ∨ base = 16) ∧ s.head? = some '0' ∧ ((s.drop 1).head? = some 'x' ∨ (s.drop 1).head? = some 'X') ∧
    ∃ h ∈ (s.drop 2).head?, (digitVal 16 h).isSome

/-- What `strtoul`/`strtol` with base 0, 10 or 16 do after white space and sign: skip a `0x` prefix; in base 0 a leading `0` means octal. -/
def numBody (base : Nat) (s : Str) : Option Nat :=
  if hexPrefix base s then digits 16 (s.drop 2) none
  else if base = 0 ∧ s.head? = some '0' then digits 8 s none
  else digits (if base = 0 then 10 else base) s none

/-- White space and sign, then the number; the Boolean tells whether there was a minus sign. -/
def numText (base : Nat) (s : Str) : Option (Bool × Nat) :=
  let r := s.dropWhile isSpaceC
  if r.head? = some '-' then (numBody base (r.drop 1)).map (true, ·)
  else if r.head? = some '+' then (numBody base (r.drop 1)).map (false, ·)
  else (numBody base r).map (false, ·)

/-- `strtoul(s, nullptr, 0)` with a 64 bit `unsigned long` (/repo/src/pkgdbh.cxx:502, 568, archive.cxx:113, pkgrepo.cxx): clamped on overflow, negated modulo
2^64 after a minus sign, 0 when there is no number. -/
def strtoul0 (s : Str) : Nat :=
  match numText 0 s with
  | none => 0
  | some (neg, n) => if 2 ^ 64 ≤ n then 2 ^ 64 - 1 else if neg then (2 ^ 64 - n) % 2 ^ 64 else n

/-- `atoi` on text without overflow (/repo/src/pkgdbh.cxx:534, 555). -/
def atoi (s : Str) : Int :=
  match numText 10 s with
  | none => 0
  | some (neg, n) => if neg then - (n : Int) else n

/-- A runtime dependency line `R<name><epoch>` as read by `buildDatabase` /repo/src/pkgdbh.cxx:564-569 and
`archive::getRunTimeDependenciesEpoch` /repo/src/archive.cxx:107-117: name `s.substr(1, size-11)`, epoch from `s.substr(size-10)`. For
`size < 10` the start position wraps around and `substr` throws (`none`); for size 10 the count `size-11` wraps and the name is all of the rest. -/
def parseDep (s : Str) : Option (Str × Nat) :=
  if s.length < 10 then none
  else if s.length = 10 then some (s.drop 1, strtoul0 s)
  else some ((s.drop 1).take (s.length - 11), strtoul0 (s.drop (s.length - 10)))

/-! ## Hexadecimal -/

/-- `oss << std::hex << setw(2) << setfill('0') << int(b)` for a byte, /repo/src/pkgrepo.cxx:829-836, 919-925. -/
def hexByte (b : Nat) : Str := [digitC (b / 16), digitC (b % 16)]

/-- The text of a digest or a signature. -/
def hexEncode (bs : List Nat) : Str := bs.flatMap hexByte

/-- The ways the decoding loop fails: `std::stoi` throws, or the write is outside the vector. -/
inductive HexErr where
  | notANumber
  | outOfBounds
deriving DecidableEq, Repr

/-- `static_cast<unsigned char>(std::stoi(t, nullptr, 16))`. -/
def stoi16 (t : Str) : Option Nat :=
  match numText 16 t with
  | none => none
  | some (neg, n) => some (if neg then (256 - n % 256) % 256 else n % 256)

/-- The loop `for (i = 0; i < len; i += 2) bytes[i/2] = stoi(hash.substr(i,2), nullptr, 16)` on a vector of `len/2` bytes,
/repo/src/pkgrepo.cxx:869-871, 950-952, 975-978. A text of odd length makes the last write go to index `len/2`. -/
def hexDecode : Str → Except HexErr (List Nat)
  | [] => .ok []
  | [c] => match stoi16 [c] with
    | none => .error .notANumber
    | some _ => .error .outOfBounds
  | c :: d :: s => match stoi16 [c, d] with
    | none => .error .notANumber
    | some b => match hexDecode s with
      | .ok bs => .ok (b :: bs)
      | .error e => .error e

/-- `checkHash` /repo/src/pkgrepo.cxx:848-853 on the two texts. -/
def hashEq (a b : Str) : Bool := convertToLowerCase a = convertToLowerCase b

/-! ## Mode strings -/

/-- The type character, /repo/src/string_utils.cxx:125-134. -/
def modeType (m : Nat) : Char :=
  let t := m &&& 0o170000
  if t = 0o100000 then '-' else if t = 0o040000 then 'd' else if t = 0o120000 then 'l' else if t = 0o020000 then 'c'
  else if t = 0o060000 then 'b' else if t = 0o140000 then 's' else if t = 0o010000 then 'p' else '?'

/-- A permission bit, `(mode & bit) ? c : '-'`. -/
def modeBit (m bit : Nat) (c : Char) : Char := if m &&& bit ≠ 0 then c else '-'

/-- The switch over an execute bit and a special bit, /repo/src/string_utils.cxx:139-144, 149-154, 159-164. -/
def modeExec (m x special : Nat) (both only : Char) : Char :=
  let t := m &&& (x ||| special)
  if t = x then 'x' else if t = special then only else if t = x ||| special then both else '-'

/-- `mtos` /repo/src/string_utils.cxx:120-167. -/
def mtos (m : Nat) : Str :=
  [modeType m, modeBit m 0o400 'r', modeBit m 0o200 'w', modeExec m 0o100 0o4000 's' 'S',
   modeBit m 0o040 'r', modeBit m 0o020 'w', modeExec m 0o010 0o2000 's' 'S',
   modeBit m 0o004 'r', modeBit m 0o002 'w', modeExec m 0o001 0o1000 't' 'T']

/-! ## Wait status -/

/-- How a child process ends (POSIX), or why there is none. -/
inductive ChildEnd where
  | exited (code : Nat)
  | signaled (sig : Nat) (core : Bool)
  | forkFailed
  | waitFailed
deriving DecidableEq, Repr

/-- The `status` variable of `process::exec` /repo/src/process.cxx:116-137, 196-217 (`execLog`, `execShellLog` do the same): as encoded by the
kernel, or -1. -/
def ChildEnd.status : ChildEnd → Int
  | .exited code => (code % 256) * 256
  | .signaled sig core => (sig % 128 : Nat) + (if core then 128 else 0)
  | .forkFailed => -1
  | .waitFailed => -1

/-- What the functions return: `status / 256` with the division of C++, which rounds towards zero. -/
def ChildEnd.result (e : ChildEnd) : Int := e.status.tdiv 256

end Cards
