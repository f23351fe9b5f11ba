import Verif.Model.Fs
/-!
# Helpers for files (/repo/src/file_utils.cxx)

`createRecursiveDirs`, `checkFilesEqual` and `copyFile`. Simplifications: the process may write everywhere, the disk is not full.
-/
namespace Cards

/-- Is there a directory? -/
def Fs.isDir (fs : Fs) (k : List Str) : Bool :=
  match fs.get k with
  | some (.dir _) => true
  | _ => false

/-- `access(path, 0)` in /repo/src/file_utils.cxx:273, 279: the way there consists of directories, and something is there. -/
def Fs.access (fs : Fs) (p : Str) : Bool := p ≠ [] && (comps p = [] || ((parents (comps p)).all fs.isDir && (fs.lstat p).isSome))

/-- `S_CARDS_MODE`, /repo/src/file_utils.h:17. -/
def cardsMode : Nat := 0o755

/-- `mkdir(path, S_CARDS_MODE)` in /repo/src/file_utils.cxx:274, 280; its result is not looked at. -/
def Fs.mkdir1 (fs : Fs) (p : Str) : Fs :=
  if p ≠ [] ∧ comps p ≠ [] ∧ fs.get (comps p) = none ∧ (parents (comps p)).all fs.isDir then fs.set (comps p) (.dir cardsMode) else fs

/-- `if (access(opath, 0)) mkdir(opath, ...)`, /repo/src/file_utils.cxx:273-274, 279-280. -/
def Fs.mkStep (fs : Fs) (p : Str) : Fs := if fs.access p then fs else fs.mkdir1 p

/-- The loop over the characters and the last step, /repo/src/file_utils.cxx:268-280: `d` is what has been passed. -/
def Fs.mkLoop (fs : Fs) (d : Str) : Str → Fs
  | [] => fs.mkStep d
  | c :: cs => if c = '/' then Fs.mkLoop (fs.mkStep d) (d ++ [c]) cs else Fs.mkLoop fs (d ++ [c]) cs

/-- `MAXPATHLEN`. -/
def maxPathLen : Nat := 4096

/-- `createRecursiveDirs` /repo/src/file_utils.cxx:257-284. `none`: the copy of the name does not fit into its buffer. -/
def createRecursiveDirs (fs : Fs) (path : Str) : Option (Fs × Bool) :=
  if maxPathLen ≤ path.length then none
  else if 1 < path.length then some (fs.mkLoop [] (if endsSlash path then path.dropLast else path), true)
  else some (fs, false)

/-- `BUFSIZ`. -/
def bufSiz : Nat := 8192

/-- The loop over two regular files, /repo/src/file_utils.cxx:120-129: both are read block by block (`n + 1` characters); a block that is not full sets `eof`. -/
def sameLoop (n : Nat) (a b : Str) : Bool :=
  if (a.take (n + 1)).length ≠ (b.take (n + 1)).length ∨ a.take (n + 1) ≠ b.take (n + 1) ∨ (decide (a.length < n + 1) ≠ decide (b.length < n + 1)) then false
  else if a.length < n + 1 then true
  else sameLoop n (a.drop (n + 1)) (b.drop (n + 1))
termination_by a.length
decreasing_by simp only [List.length_drop]; omega

/-- What `lstat` and reading tell of a file. `dev`: the file system it is on (`st_dev`); `rdev`: the device it stands for. -/
inductive FileKind
  | reg (data : Str)
  | link (target : Str)
  | chr (dev rdev : Nat)
  | blk (dev rdev : Nat)
  | dir
  | special (what : Str)
deriving DecidableEq, Repr

/-- `strncmp` of the targets in buffers of `MAXPATHLEN` filled with NUL, /repo/src/file_utils.cxx:134-147. -/
def linkText (t : Str) : Str := (t.take (maxPathLen - 1)).takeWhile (· ≠ '\x00')

/-- `checkFilesEqual` /repo/src/file_utils.cxx:101-160. `none`: there is no such file. -/
def checkFilesEqual : Option FileKind → Option FileKind → Bool
  | some (.reg a), some (.reg b) => sameLoop (bufSiz - 1) a b
  | some (.link a), some (.link b) => linkText a = linkText b
  | some (.chr d _), some (.chr d' _) => d = d'
  | some (.blk d _), some (.blk d' _) => d = d'
  | _, _ => false

/-- The loop of `copyFile` /repo/src/file_utils.cxx:229-232: what is written, for blocks of `n + 1` characters. -/
def copyLoop (n : Nat) (a : Str) : Str :=
  if a.length < n + 1 then a.take (n + 1) else a.take (n + 1) ++ copyLoop n (a.drop (n + 1))
termination_by a.length
decreasing_by simp only [List.length_drop]; omega

/-- `copyFile` /repo/src/file_utils.cxx:222-239: the contents and the result. `none`: the file does not exist, `feof(NULL)` is undefined. -/
def copyFile (orig : Option Str) : Option (Str × Int) := orig.map (fun a => (copyLoop (bufSiz - 1) a, 0))

end Cards
