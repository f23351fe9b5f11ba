import Verif.Model.Conf
import Verif.Model.RemoveFile
import Verif.Model.RepoCmds
import Verif.Model.Upgrade
/-!
# The depot: `cards sync`, `cards repo`, `cards purge`

The files are those of `Fs`. Simplification: the directories exist (`createRecursiveDirs`), a file is written with mode 644.
-/
namespace Cards

/-- `PUBLICKEY` /repo/src/define.h:35. -/
def publicKey : Str := "/.PKEY".toList
/-- `DEFAULT_PKG_REPO` /repo/src/sync.cxx:6. -/
def pkgRepoFile : Str := ".REPO".toList
/-- `DEFAULT_PKG_FILES` /repo/src/sync.cxx:7. -/
def pkgFilesFile : Str := ".FILES".toList

/-- `fileToDownload` /repo/src/dwl.h: address and directory without the file name. -/
structure SyncFile where
  url : Str
  dir : Str
  name : Str
deriving DecidableEq, Repr

/-- The address of a collection, /repo/src/sync.cxx:31-38. -/
def collUrl (arch version : Str) (d : DirUrl) : Str :=
  d.url ++ "/".toList ++ arch ++ "/".toList ++ version ++ "/".toList ++ d.collection ++ "/".toList

/-- The directory of a collection, /repo/src/sync.cxx:39-42. -/
def collDir (d : DirUrl) : Str := d.depot ++ "/".toList ++ d.collection ++ "/".toList

/-- The files of one collection, /repo/src/sync.cxx:28-51. -/
def syncFilesOf (arch version : Str) (d : DirUrl) : List SyncFile :=
  if d.url = [] then []
  else [publicKey, pkgRepoFile, pkgFilesFile].map (fun n => ⟨collUrl arch version d, collDir d, n⟩)

/-- All files, /repo/src/sync.cxx:26-52. -/
def syncFiles (arch version : Str) (dirs : List DirUrl) : List SyncFile := dirs.flatMap (syncFilesOf arch version)

/-- The name on the server and in the depot, /repo/src/dwl.cxx:31-34. -/
def SyncFile.remote (f : SyncFile) : Str := if f.name = publicKey then f.name else f.name ++ ".zst".toList

/-- What a transfer gives, `curl_easy_perform` with FAILONERROR: complete, or broken off after some bytes (none: it did not begin). -/
inductive Transfer where
  | complete (content : Str)
  | broken (received : Str)
deriving DecidableEq, Repr

/-- A file that is opened with truncation and then written: where, and what is written. -/
abbrev Write := List Str × Str

/-- A write that comes to its end. -/
def applyWrite (fs : Fs) (w : Write) : Fs := fs.set w.1 (.file w.2 0o644)

/-- Nothing is opened before the first byte arrives, `writeToStream` /repo/src/dwl.cxx:117-130. -/
def receive (k : List Str) (c : Str) : List Write := if c = [] then [] else [(k, c)]

/-- The downloads, `dwl::dwl` /repo/src/dwl.cxx:17-46 and `get`, 69-105: the first one that fails throws. `net i a`: what the `i`th transfer, from address `a`,
gives. The result: what is written, and whether all went well. -/
def downloadWrites (net : Nat → Str → Transfer) : Nat → List SyncFile → List Write × Bool
  | _, [] => ([], true)
  | i, f :: fs =>
    match net i (f.url ++ f.remote) with
    | .broken r => (receive (comps (f.dir ++ f.remote)) r, false)
    | .complete c => (receive (comps (f.dir ++ f.remote)) c ++ (downloadWrites net (i + 1) fs).1, (downloadWrites net (i + 1) fs).2)

/-- `uncompress` /repo/src/sync.cxx:64-112: what is written. `unz`: `ZSTD_decompress` of a text, `none` when it is refused; only messages are printed then. -/
def uncompressWrite (unz : Str → Option Str) (fs : Fs) (p : Str) : List Write :=
  match fs.get (comps (p ++ ".zst".toList)) with
  | some (.file z _) => (match unz z with | some c => [(comps p, c)] | none => [])
  | _ => []

/-- The loop of /repo/src/sync.cxx:56-61. -/
def uncompressWrites (unz : Str → Option Str) : Fs → List SyncFile → List Write
  | _, [] => []
  | fs, f :: l =>
    if f.name = publicKey then uncompressWrites unz fs l
    else
      let w := uncompressWrite unz fs (f.dir ++ f.name)
      w ++ uncompressWrites unz (w.foldl applyWrite fs) l

/-- `sync::run` /repo/src/sync.cxx:23-63: all that is written, in order, and whether it ends without an exception. -/
def syncWrites (net : Nat → Str → Transfer) (unz : Str → Option Str) (l : List SyncFile) (fs : Fs) : List Write × Bool :=
  let d := downloadWrites net 0 l
  if d.2 then (d.1 ++ uncompressWrites unz (d.1.foldl applyWrite fs) l, true) else (d.1, false)

/-- `cards sync` /repo/src/cards.cxx:173-180, sync.cxx:9-22; the flag: success. -/
def cardsSync (root : Bool) (net : Nat → Str → Transfer) (unz : Str → Option Str) (arch version : Str) (dirs : List DirUrl) (fs : Fs) : Fs × Bool :=
  if !root then (fs, false)
  else
    let w := syncWrites net unz (syncFiles arch version dirs) fs
    (w.1.foldl applyWrite fs, w.2)

/-- `cards sync` stopped (crash, kill, full disk) after `n` complete writes; `m`: what of the next one has reached the file, `none` when it has not been opened. -/
def syncStopped (net : Nat → Str → Transfer) (unz : Str → Option Str) (arch version : Str) (dirs : List DirUrl) (fs : Fs) (n : Nat) (m : Option Nat) : Fs :=
  let w := (syncWrites net unz (syncFiles arch version dirs) fs).1
  let fs := (w.take n).foldl applyWrite fs
  match m, w[n]? with
  | some m, some x => applyWrite fs (x.1, x.2.take m)
  | _, _ => fs

/-! ### cards repo -/

/-- A package file of a collection: its name, its content, the lines of its META and the names of its files. -/
structure PkgFile where
  file : Str
  content : Str
  md : List Str
  files : List Str
deriving DecidableEq, Repr

/-- What `cards repo` writes about it to `.REPO`, /repo/src/repo.cxx:75-117; `hash` is SHA-512 in hexadecimal, `sign` the signature of such a text with the private
key, in hexadecimal. -/
def PkgFile.asRec (hash sign : Str → Str) (p : PkgFile) : Rec :=
  { file := p.file, md := p.md, hash := hash p.content, sign := sign (hash p.content), size := p.content.length }

/-- What `cards repo` writes about it to `.FILES`. -/
def PkgFile.asFRec (p : PkgFile) : FRec := { file := p.file, files := p.files }

/-- The content of `.REPO` for the package files, in the order of the set of paths, /repo/src/repo.cxx:73-120. -/
def repoText (hash sign : Str → Str) (ps : List PkgFile) : Str := writeList (writeRepo (ps.map (PkgFile.asRec hash sign)))

/-- The content of `.FILES`. -/
def filesText (ps : List PkgFile) : Str := writeList (writeFiles (ps.map PkgFile.asFRec))

/-- The check `cards repo` makes without a private key, /repo/src/repo.cxx:18-34: the package reported (the loop stops there), and the number in the line
"All ... packages checked". `checkSign` throws for `none`. -/
def repoCheck (checkSign : Str → Option Bool) (names : List Str) : List Str → Option (Option Str × Nat)
  | [] => some (none, names.length)
  | n :: ns =>
    match checkSign n with
    | none => none
    | some false => some (some n, names.length)
    | some true => repoCheck checkSign names ns

/-! ### The depot as the other commands see it -/

/-- The content of a regular file. -/
def Fs.content (fs : Fs) (p : Str) : Option Str :=
  match fs.get (comps p) with
  | some (.file c _) => some c
  | _ => none

/-- The collections as `pkgrepo::parse` finds them, /repo/src/pkgrepo.cxx:396-420: `path + PKG_REPO_META` is read with `parseFile`; a file it would read outside
of its buffer counts as unreadable here. -/
def collOf (arch version : Str) (fs : Fs) (d : DirUrl) : Coll :=
  { dir := d.depot, name := d.collection,
    origin := d.url ++ "/".toList ++ arch ++ "/".toList ++ version ++ "/".toList ++ d.collection,
    repo := (fs.content (d.depot ++ "/".toList ++ d.collection ++ "/.REPO".toList)).bind parseFile }

/-- The verification of `checkSign` with the key in the directory, /repo/src/pkgrepo.cxx:950-994; `vf` is ED25519. -/
def depotVerify (vf : (key sig hash : Str) → Option Bool) (fs : Fs) (dir sig hash : Str) : Option Bool :=
  match fs.content (dir ++ publicKey) with
  | none => none
  | some k => vf k sig hash

/-! ### cards purge -/

/-- The entries of a directory, in some order. -/
def Fs.entries (fs : Fs) (k : List Str) : List Str :=
  (fs.filterMap (fun e => if e.1.dropLast = k then e.1.getLast? else none)).eraseDups

/-- `findRecursiveFile` with `WS_DEFAULT` /repo/src/file_utils.cxx:290-344: names beginning with a point are passed over, directories are gone through and not
listed. The first argument bounds the depth. Simplifications: symbolic links (passed over) are not distinguished from files, names are not too long. -/
def findFiles (fs : Fs) : Nat → List Str → List (List Str)
  | 0, _ => []
  | fuel + 1, k =>
    (fs.entries k).flatMap (fun n =>
      if n.head? = some '.' then []
      else match fs.get (k ++ [n]) with
        | some (.dir _) => findFiles fs fuel (k ++ [n])
        | some (.file _ _) => [k ++ [n]]
        | none => [])

/-- The depth of the tree. -/
def Fs.depth (fs : Fs) : Nat := (fs.map (fun e => e.1.length)).foldl max 0

/-- `opendir` of a path: "/" is a directory, too. -/
def Fs.isDirAt (fs : Fs) (k : List Str) : Bool :=
  match k, fs.get k with
  | [], _ => true
  | _, some (.dir _) => true
  | _, _ => false

/-- One collection, /repo/src/conf.cxx:175-187; the list of the files of the collections before is gone through again. -/
def purgeOne (s : Fs × List (List Str)) (d : DirUrl) : Fs × List (List Str) :=
  if d.url = [] then s
  else
    let k := comps (d.depot ++ "/".toList ++ d.collection)
    let l := s.2 ++ (if s.1.isDirAt k then findFiles s.1 (s.1.depth + 1) k else [])
    (l.foldl Fs.del s.1, l)

/-- `cards purge`, `conf::purge` /repo/src/conf.cxx:172-188, by root (cards.cxx:225-233). -/
def cardsPurge (root : Bool) (dirs : List DirUrl) (fs : Fs) : Fs :=
  if !root then fs else (dirs.foldl purgeOne (fs, [])).1

end Cards
