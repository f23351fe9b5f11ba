import Verif.Model.Mybld
import Verif.Model.Fs
/-!
# resolve-libs: programs and libraries with a broken linkage (/repo/scripts/resolve-libs.in)

The files found are given with what `file`, `ldd` and `objdump` say of them, the database as the lines of the `files` of each package. Names without white space and without the characters
`* [ ] ^ $ \` (grep gives them a meaning); the point is modelled.
-/
namespace Cards

/-- A file of the search directories: its path without the first slash, whether `file` calls it a program or a library, the names `ldd` cannot find, and its NEEDED entries. -/
structure LinkFile where
  path : Str
  elf : Bool
  missing : List Str
  needed : List Str
deriving DecidableEq

/-- `grep -x p` on a line: the point stands for any character. -/
def grepWhole (p l : Str) : Bool := sedHere p l == some []

/-- The lines `grep -Rx` prints: the package and the line, /repo/scripts/resolve-libs.in:34. -/
def grepOwners (db : List (Str × List Str)) (path : Str) : List (Str × Str) :=
  db.flatMap (fun p => (p.2.filter (grepWhole path)).map (fun l => (p.1, l)))

/-- `basename $(dirname $PKG_NAME)`, /repo/scripts/resolve-libs.in:36, of the texts before the colon: the second one is taken for a suffix, with three `basename` fails and the name is empty. -/
def baseOfDir : List Str → Str
  | [p] => p
  | [p, _] => p
  | _ => []

/-- The name of the directory of a line: `basename $(dirname l)`. -/
def dirOfLine (l : Str) : Str := (((splitSlash l).dropLast).getLast?).getD ".".toList

/-- The package of a file, /repo/scripts/resolve-libs.in:34-36. With only one package installed grep does not print the name of the file, and the line itself is taken for it. -/
def ownerOf (db : List (Str × List Str)) (path : Str) : Option Str :=
  match grepOwners db path with
  | [] => none
  | owners => some (if db.length = 1 then baseOfDir (owners.map (fun o => dirOfLine o.2)) else baseOfDir (owners.map (·.1)))

/-- The state of the loop: NEW_LIB_NAME and the lines printed (package, file, library). -/
structure LinkState where
  new : List Str
  out : List (Str × Str × Str)

/-- One turn of the loop, /repo/scripts/resolve-libs.in:20-53, without PRINTALL: `continue` skips `unset NEW_LIB_NAME`. -/
def linkStep (db : List (Str × List Str)) (st : LinkState) (f : LinkFile) : LinkState :=
  if f.elf && !f.missing.isEmpty then
    let libs := st.new ++ f.missing
    match ownerOf db f.path with
    | none => { st with new := libs }
    | some pkg => ⟨[], st.out ++ (libs.filter (fun i => f.needed.any (grepWhole i))).map (fun i => (pkg, f.path, i))⟩
  else { st with new := [] }

/-- The script: the lines it prints. -/
def resolveLibs (db : List (Str × List Str)) (files : List LinkFile) : List (Str × Str × Str) := (files.foldl (linkStep db) ⟨[], []⟩).out

end Cards
