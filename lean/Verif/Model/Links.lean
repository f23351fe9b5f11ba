import Verif.Model.Fs
/-!
# Symbolic links: the names of a package on a tree with links (/repo/src/pkgdbh.cxx:935-971, 1060-1116, 1228-1340)

The tree of `Model/Fs.lean` has no links. Here the kernel's walk along a path name is modelled with links, and the three things pkgadd and pkgrm do with the
names of a package on the disk: looking whether a file is there (`lstat`), extracting an entry (libarchive, with the flags the code gives), and `remove`. Rules, scripts, permissions and the other
checks of pkgadd are those of the other modules and are left out here.
-/
namespace Cards

/-- A node of a tree with links. -/
inductive LNode where
  | file (content : Str)
  | dir
  | link (target : Str)
deriving DecidableEq, Repr

/-- A finite tree with links. -/
abbrev LFs := List (List Str × LNode)

/-- The node noted for a place. -/
def LFs.find : LFs → List Str → Option LNode
  | [], _ => none
  | (k, v) :: m, x => if k = x then some v else LFs.find m x

/-- The node at a place (a list of components from the root of the machine); the root is a directory. -/
def LFs.get (fs : LFs) (k : List Str) : Option LNode := if k = [] then some .dir else fs.find k

/-- Delete a node. -/
def LFs.del (fs : LFs) (x : List Str) : LFs := fs.filter (fun e => e.1 ≠ x)

/-- Write a node. -/
def LFs.set (fs : LFs) (x : List Str) (v : LNode) : LFs := (x, v) :: fs.del x

/-- Some node lies strictly below the place. -/
def LFs.hasChild (fs : LFs) (k : List Str) : Bool := fs.any (fun e => k.isPrefixOf e.1 && e.1 ≠ k)

/-- `.` and `..`. -/
def dotName : Str := ['.']
/-- `..` -/
def dotdotName : Str := ['.', '.']

/-- How a walk goes on until the next link: it arrives, it meets a link (with the directory it lies in and what is left of the path), or there is no way. -/
inductive Hop where
  | at (place : List Str)
  | jump (cur : List Str) (target : Str) (rest : List Str)
  | lost
deriving DecidableEq, Repr

/-- The kernel's walk from the directory `cur` (`lstat`, `unlink`, `mkdir` and `open` with `O_EXCL`, behind /repo/src/file_utils.cxx:78-82, /repo/src/pkgdbh.cxx:966, 1288): a component that is not the last
must be a directory or a link; the last is not followed. -/
def hop (fs : LFs) : List Str → List Str → Hop
  | cur, [] => .at cur
  | cur, c :: rest =>
    if c = dotName then hop fs cur rest
    else if c = dotdotName then hop fs cur.dropLast rest
    else if rest = [] then .at (cur ++ [c])
    else
      match fs.get (cur ++ [c]) with
      | some .dir => hop fs (cur ++ [c]) rest
      | some (.link t) => .jump cur t rest
      | _ => .lost

/-- The walk with at most so many links. -/
def LFs.walk (fs : LFs) : Nat → List Str → List Str → Option (List Str)
  | 0, cur, cs =>
    match hop fs cur cs with
    | .at q => some q
    | _ => none
  | n + 1, cur, cs =>
    match hop fs cur cs with
    | .at q => some q
    | .jump cur t rest => LFs.walk fs n (if t.head? = some '/' then [] else cur) (comps t ++ rest)
    | .lost => none

/-- The place a path name leads to; the last component is not followed. Linux follows at most 40 links. -/
def LFs.place (fs : LFs) (cs : List Str) : Option (List Str) := fs.walk 40 [] cs

/-- The directory a path name leads to, links followed to the end (`name/`). -/
def LFs.dirPlace (fs : LFs) (cs : List Str) : Option (List Str) := fs.walk 40 [] (cs ++ [dotName])

/-- `stat`: the last component is followed too (the links of the last component are counted anew). -/
def LFs.statFrom (fs : LFs) : Nat → List Str → List Str → Option LNode
  | 0, cur, cs => (fs.walk 40 cur cs).bind (fun q => match fs.get q with | some (.link _) => none | r => r)
  | n + 1, cur, cs => (fs.walk 40 cur cs).bind (fun q => match fs.get q with
      | some (.link t) => LFs.statFrom fs n (if t.head? = some '/' then [] else q.dropLast) (comps t)
      | r => r)

/-- `checkFileExist`, /repo/src/file_utils.cxx:78-82: `lstat`; a name that ends with a slash must lead to a directory. -/
def LFs.exist (fs : LFs) (root : List Str) (p : Str) : Bool :=
  if endsSlash p then (fs.dirPlace (root ++ comps p)).isSome
  else ((fs.place (root ++ comps p)).bind fs.get).isSome

/-- `remove(3)` of a name, /repo/src/pkgdbh.cxx:966: a file or a link (not with a slash at the end), or an empty directory. -/
def LFs.remove (fs : LFs) (root : List Str) (p : Str) : LFs :=
  match fs.place (root ++ comps p) with
  | none => fs
  | some q =>
    match fs.get q with
    | some .dir => if q = [] || fs.hasChild q then fs else fs.del q
    | some _ => if endsSlash p then fs else fs.del q
    | none => fs

/-- A parent directory of an entry (`create_dir` of libarchive): there already, links followed; made; or made in the place of something that is no directory. A link that leads nowhere stays. -/
def LFs.mkParent (fs : LFs) (cs : List Str) : LFs :=
  match fs.dirPlace cs with
  | some _ => fs
  | none =>
    match fs.place cs with
    | none => fs
    | some q =>
      match fs.get q with
      | some (.link _) => if (fs.statFrom 40 [] cs).isSome then fs.set q .dir else fs
      | _ => fs.set q .dir

/-- `archive_read_extract` of an entry at `root/name` with `ARCHIVE_EXTRACT_UNLINK` and without `ARCHIVE_EXTRACT_SECURE_SYMLINKS`, /repo/src/pkgdbh.cxx:1284-1288: the parents; a directory is kept (links
followed) or made in the place of what is there; a file or link takes the place of what is there, unless that is a directory that is not empty. -/
def LFs.extract (root : List Str) (fs : LFs) (e : Str × LNode) : LFs :=
  let cs := root ++ comps e.1
  let fs := (parents cs).foldl LFs.mkParent fs
  match e.2 with
  | .dir =>
    match fs.dirPlace cs with
    | some _ => fs
    | none =>
      match fs.place cs with
      | none => fs
      | some q => fs.set q .dir
  | n =>
    match fs.place cs with
    | none => fs
    | some q =>
      match fs.get q with
      | some .dir => if q = [] || fs.hasChild q then fs else fs.set q n
      | _ => fs.set q n

/-- The database (names and their files) and the tree. -/
structure LSys where
  db : List (Str × List Str)
  fs : LFs
deriving DecidableEq, Repr

/-- `getConflictsFilesList`, /repo/src/pkgdbh.cxx:1060-1116, for a package that is not installed: the names another package has, or that are there, without those that end with a slash. -/
def linkConflicts (root : List Str) (s : LSys) (files : List Str) : List Str :=
  files.filter (fun f => (s.db.any (fun p => p.2.contains f) || s.fs.exist root f) && !endsSlash f)

/-- pkgadd of a new package without `--force`, /repo/src/pkgadd.cxx:82-160: refused when it is recorded or a file is in conflict; else its files are recorded and its entries extracted one after the other
(/repo/src/pkgdbh.cxx:1253-1325). -/
def linkAdd (root : List Str) (name : Str) (entries : List (Str × LNode)) (s : LSys) : Option LSys :=
  if (s.db.map (·.1)).contains name then none
  else if linkConflicts root s (entries.map (·.1)) ≠ [] then none
  else some ⟨(name, entries.map (·.1)) :: s.db, entries.foldl (LFs.extract root) s.fs⟩

/-- pkgrm, /repo/src/pkgdbh.cxx:935-971: the names of the package that no other package has, from the last to the first (the set of the code is a list here, in any order). -/
def linkRm (root : List Str) (name : Str) (s : LSys) : LSys :=
  let own := (s.db.filter (fun p => p.1 = name)).flatMap (·.2)
  let others := s.db.filter (fun p => p.1 ≠ name)
  let files := own.filter (fun f => !others.any (fun p => p.2.contains f))
  ⟨others, files.reverse.foldl (fun fs f => if fs.exist root f then fs.remove root f else fs) s.fs⟩

/-- pkgadd -u without `--force` and without rules, /repo/src/pkgadd.cxx:70-133: refused when it is not recorded or a file is in conflict that is not one of its own names (`getConflictsFilesList`, /repo/src/pkgdbh.cxx:1060-1116); else its
old files are removed (/repo/src/pkgdbh.cxx:974-1019) and the new entries extracted. -/
def linkUpgrade (root : List Str) (name : Str) (entries : List (Str × LNode)) (s : LSys) : Option LSys :=
  if !(s.db.map (·.1)).contains name then none
  else
    let own := (s.db.filter (fun p => p.1 = name)).flatMap (·.2)
    let others := s.db.filter (fun p => p.1 ≠ name)
    if (entries.map (·.1)).filter (fun f => (others.any (fun p => p.2.contains f) || s.fs.exist root f) && !endsSlash f && !own.contains f) ≠ [] then none
    else some ⟨(name, entries.map (·.1)) :: others, entries.foldl (LFs.extract root) (linkRm root name s).fs⟩

end Cards
