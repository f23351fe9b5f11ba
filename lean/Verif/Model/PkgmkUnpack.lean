import Verif.Model.PkgmkTar
import Verif.Model.PkgmkSrc
import Verif.Model.Sync
/-!
# `pkgmk`: the sources are unpacked (/repo/scripts/pkgmk.in:306-349)

The tree and the current directory. Parameters: how archives are read and written, and what `git switch`, `git pull` and `git checkout` do in the directory they are called in. Simplifications:
the words are taken as they are (no globbing); `bsdtar` refuses no member and unpacks a damaged archive not at all; no disk error; the current directory is a path, it does not follow when a directory above it is renamed.
-/
namespace Cards

/-- What is fixed while the sources are unpacked. -/
structure UnpackCfg where
  name : Str
  version : Str
  sources : List Str
  work : List Str
  ignoreUnpack : Bool
  keepWork : Bool
  /-- what is in an archive file -/
  dec : Str → Option Tar
  /-- the archive of a path of the tree -/
  enc : Fs → List Str → Str
  /-- the three `git` commands in a directory -/
  git : List Str → Fs → Fs

/-- `$SRC`, /repo/scripts/pkgmk.in:487. -/
def UnpackCfg.src (c : UnpackCfg) : List Str := c.work ++ ["src".toList]

/-- `$PKGMK_GIT_EXT`, /repo/scripts/pkgmk.in:1622. -/
def gitExt : Str := ".git.tar.xz".toList

/-- The endings of /repo/scripts/pkgmk.in:312. -/
def archiveExts : List Str :=
  [".tar", ".tar.gz", ".tar.Z", ".tgz", ".tar.bz2", ".tbz2", ".tar.xz", ".txz", ".tar.lzma", ".zip", ".tar.zst", ".rpm", ".tar.lz", ".7z", ".deb"].map String.toList

/-- `get_filename`, as a path: below the directory of the sources, or as the word says from the current directory, /repo/scripts/pkgmk.in:77-85. -/
def UnpackCfg.local (c : UnpackCfg) (cwd : List Str) (s : Str) : List Str :=
  match srcName (c.name ++ gitExt) s with
  | some f => c.sources ++ [f]
  | none => cwd ++ comps s

/-- The text the endings are compared with. -/
def UnpackCfg.localText (c : UnpackCfg) (s : Str) : Str :=
  match srcName (c.name ++ gitExt) s with
  | some f => f
  | none => s

/-- `bsdtar -C $SRC -xf`. -/
def UnpackCfg.extract (c : UnpackCfg) (fs : Fs) (file : List Str) : Fs × Bool :=
  match fs.get file with
  | some (.file d _) =>
    match c.dec d with
    | some t => (untar fs ((t.filter (fun m => m.1 ≠ [])).map (fun m => (c.src ++ m.1, m.2))), true)
    | none => (fs, false)
  | _ => (fs, false)

/-- `cp file $SRC`: a file is not copied onto itself. -/
def UnpackCfg.copy (c : UnpackCfg) (fs : Fs) (file : List Str) : Fs × Bool :=
  match fs.get file, file.getLast? with
  | some (.file d m), some b => if file = c.src ++ [b] then (fs, false) else (fs.set (c.src ++ [b]) (.file d m), true)
  | _, _ => (fs, false)

/-- A subtree gets another place. -/
def Fs.moveTree (fs : Fs) (a b : List Str) : Fs := fs.map (fun e => if a.isPrefixOf e.1 then (b ++ e.1.drop a.length, e.2) else e)

/-- `mv a b` in a directory: into `b` if that is a directory. -/
def Fs.mv (fs : Fs) (cwd : List Str) (a b : Str) : Fs × Bool :=
  if (fs.get (cwd ++ [a])).isSome then (fs.moveTree (cwd ++ [a]) (if fs.isDirAt (cwd ++ [b]) then cwd ++ [b, a] else cwd ++ [b]), true) else (fs, false)

/-- The case of an archive made by `git`, /repo/scripts/pkgmk.in:320-328: of all the statuses only that of `mv` is looked at. -/
def UnpackCfg.gitStep (c : UnpackCfg) (st : Fs × List Str) (file : List Str) : (Fs × List Str) × Bool :=
  let fs := (c.extract st.1 file).1
  let cwd := if fs.isDirAt (c.src ++ [c.name]) then c.src ++ [c.name] else st.2
  let fs := c.git cwd fs
  let cwd := cwd.dropLast
  let fs := fs.set (c.sources ++ [c.name ++ gitExt]) (.file (c.enc fs (cwd ++ [c.name])) 0o644)
  let r := fs.mv cwd c.name (c.name ++ '-' :: c.version)
  ((r.1, cwd), r.2)

/-- One source, /repo/scripts/pkgmk.in:309-340. -/
def UnpackCfg.one (c : UnpackCfg) (st : Fs × List Str) (s : Str) : (Fs × List Str) × Bool :=
  let file := c.local st.2 s
  if archiveExts.any (fun e => endsIn e (c.localText s)) && !c.ignoreUnpack then
    if endsIn gitExt (c.localText s) then c.gitStep st file
    else let r := c.extract st.1 file; ((r.1, st.2), r.2)
  else let r := c.copy st.1 file; ((r.1, st.2), r.2)

/-- `rm -rf`. -/
def Fs.rmTree (fs : Fs) (d : List Str) : Fs := fs.filter (fun e => !d.isPrefixOf e.1)

/-- `unpack_source`, /repo/scripts/pkgmk.in:306-349: the tree, the current directory and the status (5: `E_UNPACK`). -/
def UnpackCfg.all (c : UnpackCfg) : List Str → Fs × List Str → (Fs × List Str) × Nat
  | [], st => (st, 0)
  | s :: ss, st =>
    match c.one st s with
    | (st', true) => UnpackCfg.all c ss st'
    | (st', false) => (((if c.keepWork then st'.1 else st'.1.rmTree c.work), st'.2), 5)

end Cards
