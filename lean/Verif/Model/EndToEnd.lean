import Verif.Model.Archive
import Verif.Model.PkgmkTar
import Verif.Model.PkgmkSplit
/-!
# From the build to the installation

What `pkgmk` packs, /repo/scripts/pkgmk.in:984-1098, is what `pkgadd` opens, /repo/src/pkgdbh.cxx:1121-1177: the models of the two sides put together.
-/
namespace Cards

/-- The path name of a member as libarchive gives it (`archive_entry_pathname`, /repo/src/archive.cxx:86, /repo/src/pkgdbh.cxx:1247): that of a directory ends with
a slash. -/
def memberName (m : List Str × Node) : Str :=
  match m.2 with
  | .dir _ => pathText m.1 ++ ['/']
  | .file _ _ => pathText m.1

/-- The bytes of a member. -/
def memberData (m : List Str × Node) : Str :=
  match m.2 with
  | .dir _ => []
  | .file d _ => d

/-- The members as the constructor of `archive` sees them, /repo/src/archive.cxx:5-26, 74-106. -/
def tarTexts (t : Tar) : List (Str × Str) := t.map (fun m => (memberName m, memberData m))

/-- The members that are unpacked: all but the description, the list and the scripts, /repo/src/pkgdbh.cxx:1240-1260. -/
def tarEntries (t : Tar) : List Entry := (t.filter (fun m => !hiddenNames.contains (memberName m))).map (fun m => ⟨memberName m, m.2⟩)

/-- `openArchivePackage` /repo/src/pkgdbh.cxx:1121-1177 on a package file. `pre`, `post`: what its scripts do. -/
def openTar (machine root : Str) (pre : Fs → Fs × Bool) (post : Fs → Fs) (t : Tar) : Except OpenErr Archive :=
  match openPack (tarTexts t) with
  | .ok p => .ok (p.archive machine root (tarEntries t) pre post)
  | .error e => .error e

/-- Is it a directory? -/
def Node.isDir : Node → Bool
  | .dir _ => true
  | .file _ _ => false

/-- What the build made, as the loops of `pkgmk` see it, /repo/scripts/pkgmk.in:984-1056. -/
def treeOf (pkg : Fs) : List PEnt := pkg.map (fun e => ⟨e.1, e.2.isDir⟩)

/-- The members of an archive: `bsdtar -r` takes what is in `$PKG` at that path. -/
def tarOf (pkg : Fs) (es : List PEnt) : Tar := es.map (fun e => (e.path, (pkg.get e.path).getD (.dir 0o755)))

/-- The package files of a port, /repo/scripts/pkgmk.in:984-1098: `$PKG` is split and every archive is finished. `file`: the name of the archive of the main package
(`[]`), of a group or of a language, lines 1000, 1037, 1056. Simplification: the archives are finished in the order of the model's map, and `$PKG` has all
files of the build while the scripts are put in, also those `remove_…` took away: only `.PRE`, `.POST`, `.PRER` and `.POSTR` at its top matter there. -/
def buildPort (port : Str → Option Str) (md file : Str → Str) (groups locales : List Str) (keepLa : Bool) (pkg : Fs) : Option (List (Str × Tar)) :=
  match splitPackages groups locales keepLa (treeOf pkg) with
  | none => none
  | some archs => some (finishAll port md pkg [] (archs.map (fun a => (file a.1, tarOf pkg a.2))))

end Cards
