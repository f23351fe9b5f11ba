import Verif.Model.Fs
import Verif.Model.Strings
/-!
# Where a name of an archive ends up
-/
namespace Cards

/-- The place a component list denotes when the kernel follows `.` and `..` (no symbolic links): `..` goes up, and stays at the top. -/
def resolveLoop : List Str → List Str → List Str
  | acc, [] => acc
  | acc, c :: cs =>
    if c = ".".toList then resolveLoop acc cs
    else if c = "..".toList then resolveLoop acc.dropLast cs
    else resolveLoop (acc ++ [c]) cs

/-- The place a path name denotes, seen from the top of the file system. -/
def resolve (p : Str) : List Str := resolveLoop [] (comps p)

/-- The path `installArchivePackage` gives to libarchive for an entry, /repo/src/pkgdbh.cxx:1261-1263. The extraction flags (1290-1292) do not
include ARCHIVE_EXTRACT_SECURE_NODOTDOT, so libarchive accepts `..` in it. `root` is the absolute path of the root directory. -/
def extractPath (root name : Str) : Str := trimFileName (root ++ "/".toList ++ name)

/-- The path the deletion loops hand to `remove`, /repo/src/pkgdbh.cxx:964, 1008, 1050: `m_root + name`. -/
def removePath (root name : Str) : Str := root ++ name

/-- The directory of a package record, /repo/src/pkgdbh.cxx:654-655, 772-773, 913: `m_root + PKG_DB_DIR + name`, with the name found in the archive. -/
def recordPath (root name : Str) : Str := root ++ "var/lib/pkg/DB/".toList ++ name

end Cards
