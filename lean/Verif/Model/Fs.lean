import Verif.Model.Base
/-!
# The file tree

The part of the file system the package tools act on: a finite tree of regular files and
directories.  Simplifications: symbolic links, devices and hard links are leaves like regular
files (their "content" is whatever identifies them), ownership is folded into `perm`, and path
components `.` and `..` are ordinary names.
-/
namespace Cards

/-- Split at every `'/'`, keeping empty pieces. -/
def splitSlash : Str → List Str
  | [] => [[]]
  | c :: cs =>
    if c = '/' then [] :: splitSlash cs
    else match splitSlash cs with
      | [] => [[c]]
      | h :: t => (c :: h) :: t

/-- The components the kernel resolves for a path name: empty components do not count.
Models the path name resolution behind `lstat`, `remove` and extraction with the path
`m_root + name` (/repo/src/pkgdbh.cxx:965, 1082, 1262). Paths are relative to the root. -/
def comps (p : Str) : List Str := (splitSlash p).filter (fun c => c ≠ [])

/-- A node of the tree. -/
inductive Node where
  | file (content : Str) (perm : Nat)
  | dir (perm : Nat)
deriving DecidableEq, Repr

/-- A finite tree: nodes by component list. -/
abbrev Fs := List (List Str × Node)

/-- The node at a component list. -/
def Fs.get : Fs → List Str → Option Node
  | [], _ => none
  | (k, v) :: m, x => if k = x then some v else Fs.get m x

/-- Delete the node at a component list. -/
def Fs.del (fs : Fs) (x : List Str) : Fs := fs.filter (fun e => e.1 ≠ x)

/-- Write the node at a component list. -/
def Fs.set (fs : Fs) (x : List Str) (v : Node) : Fs := (x, v) :: fs.del x

/-- Whether the path name ends with a slash. -/
def endsSlash (p : Str) : Bool := p.getLast? = some '/'

/-- `lstat(2)`: a trailing slash on something that is not a directory is an error (ENOTDIR). -/
def Fs.lstat (fs : Fs) (p : Str) : Option Node :=
  match fs.get (comps p) with
  | some (.file c m) => if endsSlash p then none else some (.file c m)
  | r => r

/-- `checkFileExist` /repo/src/file_utils.cxx:77-81. -/
def Fs.exist (fs : Fs) (p : Str) : Bool := (fs.lstat p).isSome

/-- Some node lies strictly below the component list. -/
def Fs.hasChild (fs : Fs) (k : List Str) : Bool := fs.any (fun e => k.isPrefixOf e.1 && e.1 ≠ k)

/-- `remove(3)`: deletes a file, or an empty directory. Returns whether it succeeded. -/
def Fs.remove (fs : Fs) (p : Str) : Fs × Bool :=
  match fs.lstat p with
  | none => (fs, false)
  | some (.file _ _) => (fs.del (comps p), true)
  | some (.dir _) => if fs.hasChild (comps p) then (fs, false) else (fs.del (comps p), true)

/-- The order in which the deletion loops visit the names of the (ordered) set: `for (i = files.rbegin(); i != files.rend(); ++i)`
/repo/src/pkgdbh.cxx:962, 1006, 1049. -/
def removalOrder (names : List Str) : List Str := names.reverse

/-- The deletion loops /repo/src/pkgdbh.cxx:962-970, 1006-1017, 1049-1058: for each name of the set in
reverse order, `if (checkFileExist(f) && remove(f) == -1)` only prints a message. -/
def Fs.removeRev (fs : Fs) (names : List Str) : Fs :=
  (removalOrder names).foldl (fun fs f => if fs.exist f then (fs.remove f).1 else fs) fs

/-- The proper non-empty prefixes of a component list, shortest first. -/
def parents : List Str → List (List Str)
  | [] => []
  | [_] => []
  | c :: cs => [c] :: (parents cs).map (c :: ·)

/-- libarchive creates missing parent directories (and replaces a non-directory in the way). -/
def Fs.mkParents (fs : Fs) (k : List Str) : Fs :=
  (parents k).foldl (fun fs d => match fs.get d with
    | some (.dir _) => fs
    | _ => fs.set d (.dir 0o755)) fs

/-- `archive_read_extract` with ARCHIVE_EXTRACT_UNLINK as used in /repo/src/pkgdbh.cxx:1290-1297: fails when a
regular file would replace a non-empty directory; other failures come from the environment
(see `Env.extractFails`). -/
def Fs.extract (fs : Fs) (k : List Str) (n : Node) : Option Fs :=
  match n, fs.get k with
  | .file _ _, some (.dir _) => if fs.hasChild k then none else some ((fs.mkParents k).set k n)
  | _, _ => some ((fs.mkParents k).set k n)

/-- `removeFile(basedir, filename)` /repo/src/file_utils.cxx:214-221, for a `filename` below `basedir`:
remove it and, as long as removing succeeds, its parents up to but excluding `base`.
Component lists instead of strings; `rest` is the part below `base` in reverse order.
Simplification: when the walk passes an ancestor of `base` that never happens here because `base` is a
textual prefix at all call sites modelled. -/
def Fs.removeUp (fs : Fs) (base : List Str) : List Str → Fs
  | [] => fs
  | c :: rest =>
    let k := base ++ (c :: rest).reverse
    match fs.get k with
    | none => fs
    | some (.file _ _) => Fs.removeUp (fs.del k) base rest
    | some (.dir _) => if fs.hasChild k then fs else Fs.removeUp (fs.del k) base rest

end Cards
