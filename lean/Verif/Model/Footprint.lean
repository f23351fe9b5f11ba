import Verif.Model.Numbers
/-!
# `pkginfo -f`: the footprint of a package

/repo/src/pkgdbh.cxx:1535-1675 (`getFootprintPackage`), called at /repo/src/pkginfo.cxx:196.
-/
namespace Cards

/-- What libarchive tells about an entry: the mode with the type (a hard link of a tar archive has no type bits), the name, the target of a hard
link, the target of a symbolic link, the owner, the device numbers, the size, and whether `archive_read_data_skip` fails on its data. -/
structure FEntry where
  mode : Nat
  path : Str
  hard : Option Str
  sym : Str
  uid : Nat
  gid : Nat
  rdev : Nat × Nat
  size : Nat
  bad : Bool
deriving DecidableEq, Repr

/-- An archive: the entries before the first header that is not `ARCHIVE_OK`, and whether that is the end of the archive. -/
structure FArchive where
  entries : List FEntry
  endOk : Bool
deriving DecidableEq, Repr

/-- `S_ISREG`, `S_ISLNK`, `S_ISCHR` and `S_ISBLK` of `<sys/stat.h>`. -/
def FEntry.isReg (e : FEntry) : Bool := e.mode &&& 0o170000 = 0o100000
def FEntry.isLnk (e : FEntry) : Bool := e.mode &&& 0o170000 = 0o120000
def FEntry.isDev (e : FEntry) : Bool := e.mode &&& 0o170000 = 0o020000 || e.mode &&& 0o170000 = 0o060000

/-- One round of the first loop: `if (!archive_entry_hardlink(entry)) hardlink_target_modes[s] = mode`, /repo/src/pkgdbh.cxx:1562-1571. -/
def modeStep (m : List (Str × Nat)) (e : FEntry) : List (Str × Nat) :=
  match e.hard with
  | none => mset e.path e.mode m
  | some _ => m

/-- The map `hardlink_target_modes` after the first loop. -/
def hardModes (l : List FEntry) : List (Str × Nat) := l.foldl modeStep []

/-- The permissions, /repo/src/pkgdbh.cxx:1597-1608. `operator[]` gives 0 for a target that is not in the archive. -/
def permText (m : List (Str × Nat)) (e : FEntry) : Str :=
  if e.isLnk then "lrwxrwxrwx".toList
  else match e.hard with
    | some h => mtos ((mget m h).getD 0)
    | none => mtos e.mode

/-- The user and the group, /repo/src/pkgdbh.cxx:1612-1627: the name, or the number when the system has no name for it. -/
def idText (names : Nat → Option Str) (i : Nat) : Str :=
  match names i with
  | some n => n
  | none => dec i

/-- The special cases, /repo/src/pkgdbh.cxx:1633-1646. -/
def extraText (e : FEntry) : Str :=
  if e.isLnk then " -> ".toList ++ e.sym
  else if e.isDev then " (".toList ++ dec e.rdev.1 ++ ", ".toList ++ dec e.rdev.2 ++ ")".toList
  else if e.isReg && e.size = 0 then " (EMPTY)".toList
  else []

/-- The line of an entry, without the newline, /repo/src/pkgdbh.cxx:1594-1646. -/
def footLine (users groups : Nat → Option Str) (m : List (Str × Nat)) (e : FEntry) : Str :=
  permText m e ++ '\t' :: (idText users e.uid ++ '/' :: (idText groups e.gid ++ '\t' :: (e.path ++ extraText e)))

/-- `ERROR_ENUM_CANNOT_READ_FILE` and `ERROR_ENUM_EMPTY_PACKAGE`. -/
inductive FootErr where
  | cannotRead
  | emptyPackage
deriving DecidableEq, Repr

/-- `getFootprintPackage` /repo/src/pkgdbh.cxx:1535-1675: what is printed, or the exception. A data error is met in the first loop, before anything is
printed. The file is assumed not to change between the two loops. -/
def footprint (users groups : Nat → Option Str) (a : FArchive) : Except FootErr Str :=
  if a.entries.any (fun e => e.isReg && e.bad) then .error .cannotRead
  else if a.entries = [] then .error (if a.endOk then .emptyPackage else .cannotRead)
  else .ok (a.entries.flatMap (fun e => footLine users groups (hardModes a.entries) e ++ ['\n']))

end Cards
