import Verif.Model.Crash
/-!
# Reading line files with `fgets`

In this file a character stands for one byte of the file.
-/
namespace Cards

/-- One `fgets` with room for `n` characters: up to and including the next newline, or `n` characters, or the end of the file.
Returns what was read and what is left. -/
def fgetsTake : Nat → Str → Str × Str
  | 0, s => ([], s)
  | _ + 1, [] => ([], [])
  | n + 1, c :: cs => if c = '\n' then ([c], cs) else ((c :: (fgetsTake n cs).1), (fgetsTake n cs).2)

/-- `while (fgets(input, BUFSIZ, fp))`: the successive buffers, at most `fuel` of them (`fgets` returns at least one character per call, so the
length of the file is enough). -/
def fgetsAll (n : Nat) : Nat → Str → List Str
  | 0, _ => []
  | fuel + 1, s => if s = [] then [] else (fgetsTake n s).1 :: fgetsAll n fuel (fgetsTake n s).2

/-- BUFSIZ of glibc. -/
def bufsiz : Nat := 8192

/-- `input[strlen(input)-1] = '\0'` and the conversion to `std::string`, /repo/src/file_utils.cxx:355-356, 372-373: the buffer is a C string, its
last character is cut off. For a buffer that begins with NUL the write is at `input[-1]`, outside the array (`none`). -/
def chopLine (buf : Str) : Option Str :=
  let t := buf.takeWhile (fun c => c ≠ '\x00')
  if t = [] then none else some t.dropLast

/-- `parseFile(std::vector<std::string>&, fileName)` /repo/src/file_utils.cxx:361-377 on the content of the file; `none` when the program writes outside
its buffer. -/
def parseFile (content : Str) : Option (List Str) := (fgetsAll (bufsiz - 1) content.length content).mapM chopLine

/-- `parseFile(std::set<std::string>&, fileName)` /repo/src/file_utils.cxx:345-360. -/
def parseFileSet (content : Str) : Option (List Str) := (parseFile content).map sofList

end Cards
