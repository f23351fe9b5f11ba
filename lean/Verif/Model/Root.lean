import Verif.Model.Fs
/-!
# The option `--root`

Which directory a command works on. The components `.` and `..` are ordinary names here.
-/
namespace Cards

/-- A path in the working directory `cwd`. -/
def resolvePath (cwd : List Str) (p : Str) : List Str := if p.head? = some '/' then comps p else cwd ++ comps p

/-- `PKG_DB_DIR` /repo/src/define.h:50. -/
def pkgDbDir : Str := "var/lib/pkg/DB/".toList

/-- `m_root` of pkgadd, pkgrm and pkginfo for the values of the options `-r`, in their order: /repo/src/pkgadd.cxx:24-27, pkgdbh.cxx:15, 39-42,
pkginfo.cxx:46-49. -/
def toolRoot (values : List Str) : Str := values.foldl (fun r v => v ++ r) "/".toList

/-- `m_root` of `cards install` and `cards remove`, /repo/src/install.cxx:103-105, remove.cxx:12-14. -/
def cardsRoot : Option Str → Str
  | none => "/".toList
  | some v => v ++ "/".toList

/-- `m_root` of `cards upgrade`, /repo/src/upgrade.cxx:14-15. -/
def upgradeRoot : Option Str → Str
  | none => "/".toList
  | some v => v

/-- `m_root` of `cards create`: the option is accepted (/repo/src/cards_argument_parser.cxx:293) and not read (create.cxx:5-37). -/
def createRoot : Option Str → Str := fun _ => "/".toList

/-- The directory that is locked, /repo/src/lock.cxx:17. `trimFileName` changes no component (C37). -/
def lockPath (root : Str) : Str := root ++ "/".toList ++ pkgDbDir

/-- The database a process reads when it starts, /repo/src/pkgdbh.cxx:401, 484, 621. -/
def readDb (cwd : List Str) (root : Str) : List Str := resolvePath cwd (root ++ pkgDbDir)

/-- The working directory after the extraction, /repo/src/pkgdbh.cxx:1250: it is not restored. -/
def installCwd (cwd : List Str) (root : Str) : List Str := resolvePath cwd root

/-- The database a process writes to after the extraction, /repo/src/pkgdbh.cxx:654-655, 772-773. -/
def writeDb (cwd : List Str) (root : Str) : List Str := resolvePath (installCwd cwd root) (root ++ pkgDbDir)

/-- Where a file of a package is looked for and deleted, /repo/src/pkgdbh.cxx:965, 1011, 1051, 1083. -/
def filePath (cwd : List Str) (root f : Str) : List Str := resolvePath cwd (root ++ f)

/-- Where a file of a package is extracted, /repo/src/pkgdbh.cxx:1250-1262: below the absolute name of the working directory. -/
def extractTo (cwd : List Str) (root f : Str) : List Str := installCwd cwd root ++ comps f

end Cards
