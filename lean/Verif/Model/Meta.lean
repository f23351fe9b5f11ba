import Verif.Model.RemoveFile
import Verif.Model.LineFile
/-!
# The meta files of a package on their way through the root directory

`.META`, `.MTREE` and the scripts are extracted to the root directory like every other file of the package; the process reads them there and moves
them to the database. Here `Fs` is the whole file system and `root` the value of `m_root`: `/`, or the argument of `--root` followed by a slash.
-/
namespace Cards

/-- The names `cleanupMetaFiles` looks for, /repo/src/file_utils.cxx:175-213. -/
def cleanupNames : List Str :=
  [".INFO".toList, ".META".toList, ".PRE".toList, ".POST".toList, ".MTREE".toList, ".README".toList]

/-- One test of `cleanupMetaFiles`: looks in `basedir`, removes in `/`. -/
def cleanupOne (base : Str) (fs : Fs) (n : Str) : Fs :=
  if fs.exist (base ++ '/' :: n) then removeFile base fs ('/' :: n) else fs

/-- `cleanupMetaFiles` /repo/src/file_utils.cxx:175-213. Every command that reads the database begins with it: `buildDatabase`,
/repo/src/pkgdbh.cxx:471. -/
def cleanupMeta (base : Str) (fs : Fs) : Fs := cleanupNames.foldl (cleanupOne base) fs

/-- Extract a meta file to the root directory; a failure only prints a message, /repo/src/pkgdbh.cxx:1290-1297. Simplification: owner and mode are not
those of the archive. -/
def extractMeta (root : Str) (fs : Fs) (e : Str × Str) : Fs :=
  match fs.extract (comps (root ++ e.1)) (.file e.2 0o644) with
  | none => fs
  | some fs => fs

/-- The content of a regular file. -/
def Fs.text (fs : Fs) (p : Str) : Option Str :=
  match fs.lstat p with
  | some (.file c _) => some c
  | _ => none

/-- `rename(2)` of a file, the directory of the new name exists. -/
def Fs.rename (fs : Fs) (p q : Str) : Option Fs :=
  match fs.lstat p with
  | none => none
  | some n => some ((fs.del (comps p)).set (comps q) n)

/-- `m_root + PKG_DB_DIR + name`, /repo/src/pkgdbh.cxx:655, define.h:50. -/
def dbDir (root name : Str) : Str := root ++ "var/lib/pkg/DB/".toList ++ name

/-- The process that installs a package, as far as the meta files are concerned: the file system, the texts of the scripts it has run, the lines of
`.META` it has read, and whether it ended with an error. `dep` is `m_dependency`. -/
structure MetaSt where
  fs : Fs
  ran : List Str
  lines : List Str
  dep : Bool
  failed : Bool

/-- The names of the scripts, /repo/src/define.h:47-64. -/
def nPre : Str := ".PRE".toList
/-- /repo/src/define.h:62 -/
def nPost : Str := ".POST".toList
/-- /repo/src/define.h:63 -/
def nPrer : Str := ".PRER".toList
/-- /repo/src/define.h:64 -/
def nPostr : Str := ".POSTR".toList
/-- /repo/src/define.h:47 -/
def nMeta : Str := ".META".toList
/-- /repo/src/define.h:48 -/
def nMtree : Str := ".MTREE".toList

/-- The extraction of `.PRE`, `extractAndRunPREfromPackage` /repo/src/pkgdbh.cxx:1195-1216. `es` are the meta files of the archive. -/
def stepPreExtract (root : Str) (es : List (Str × Str)) (s : MetaSt) : MetaSt :=
  match mget es nPre with
  | none => s
  | some c => { s with fs := extractMeta root s.fs (nPre, c) }

/-- The run of `.PRE`, /repo/src/pkgdbh.cxx:1218-1227; the working directory is the root. `pre` tells whether a script succeeds. Simplification: the
script does not change the file system; the removal of the relative name goes no further (`remove(".")` fails). -/
def stepPreRun (root : Str) (pre : Str → Bool) (s : MetaSt) : MetaSt :=
  match s.fs.text (root ++ nPre) with
  | none => s
  | some c =>
    if pre c then { s with ran := s.ran ++ [c], fs := (s.fs.remove (root ++ nPre)).1 } else { s with ran := s.ran ++ [c], failed := true }

/-- The extraction of the package, `installArchivePackage` /repo/src/pkgdbh.cxx:1256-1315, for the meta files. -/
def stepExtract (root : Str) (es : List (Str × Str)) (s : MetaSt) : MetaSt := { s with fs := es.foldl (extractMeta root) s.fs }

/-- The beginning of `moveMetaFilesPackage` /repo/src/pkgdbh.cxx:666-677: `.MTREE` is removed, `.META` is read. -/
def stepRead (root : Str) (s : MetaSt) : MetaSt :=
  let fs := removeFile root s.fs ('/' :: nMtree)
  match fs.text (root ++ nMeta) with
  | none => { s with fs := fs, failed := true }
  | some c => { s with fs := fs, lines := ((parseFileSet c).getD []) }

/-- The files to move, in the order of the set: /repo/src/pkgdbh.cxx:667-672. Simplification: the tests are made here, after `.META` has been read. -/
def movedNames (root : Str) (fs : Fs) : List Str :=
  nMeta :: ((if fs.exist (root ++ nPostr) then [nPostr] else []) ++ (if fs.exist (root ++ nPrer) then [nPrer] else []))

/-- One `rename`, /repo/src/pkgdbh.cxx:681-689; the destination is the name without its first character. -/
def moveOne (root name : Str) (s : MetaSt) (n : Str) : MetaSt :=
  if s.failed then s
  else match s.fs.rename (root ++ n) (dbDir root name ++ '/' :: n.drop 1) with
    | none => { s with failed := true }
    | some fs => { s with fs := fs }

/-- The text of the lines, one per line, /repo/src/pkgdbh.cxx:698-699. -/
def textOf (ls : List Str) : Str := ls.flatMap (fun l => l ++ ['\n'])

/-- The rest of `moveMetaFilesPackage` /repo/src/pkgdbh.cxx:679-703: the directory, the renames, the mark of a dependency. -/
def stepMove (root name : Str) (s : MetaSt) : MetaSt :=
  let fs := s.fs.mkParents (comps (dbDir root name) ++ [[]])
  let s := (movedNames root fs).foldl (moveOne root name) { s with fs := fs }
  if s.failed then s
  else if s.dep then
    { s with fs := s.fs.set (comps (dbDir root name) ++ ["META".toList]) (.file (textOf (sinsert "d1".toList s.lines)) 0o644), dep := false }
  else s

/-- `postRun` /repo/src/pkgadd.cxx:138-155; `runPost` is `m_runPrePost`. The result of the script is ignored. -/
def stepPost (root : Str) (runPost : Bool) (s : MetaSt) : MetaSt :=
  let s := if s.fs.exist (root ++ nPre) then { s with fs := (s.fs.remove (root ++ nPre)).1 } else s
  match s.fs.text (root ++ nPost) with
  | none => s
  | some c => { s with ran := if runPost then s.ran ++ [c] else s.ran, fs := (s.fs.remove (root ++ nPost)).1 }

/-- The steps of an installation, `pkgadd::run` /repo/src/pkgadd.cxx:67-137; the pre-install script only when `m_runPrePost`. -/
def metaSteps (root name : Str) (es : List (Str × Str)) (pre : Str → Bool) (scripts : Bool) : List (MetaSt → MetaSt) :=
  [if scripts then stepPreExtract root es else id, if scripts then stepPreRun root pre else id, stepExtract root es, stepRead root,
    stepMove root name, stepPost root scripts]

/-- One step of the process: nothing once it has ended with an error (`treatErrors` throws, `exit`). -/
def liveStep (s : MetaSt) (f : MetaSt → MetaSt) : MetaSt := if s.failed then s else f s

/-- What happens on the machine: the installing process does its next step, or another command starts (its `buildDatabase` cleans up). -/
inductive MetaEv where
  | step
  | other
deriving DecidableEq, Repr

/-- A schedule: the steps left, the state. -/
def metaRun (root : Str) : List MetaEv → List (MetaSt → MetaSt) → MetaSt → MetaSt
  | [], _, s => s
  | .other :: evs, fs, s => metaRun root evs fs { s with fs := cleanupMeta root s.fs }
  | .step :: evs, [], s => metaRun root evs [] s
  | .step :: evs, f :: fs, s => metaRun root evs fs (liveStep s f)

/-- The process starts with the clean-up of `buildDatabase`. -/
def metaStart (root : Str) (fs : Fs) (dep : Bool) : MetaSt := { fs := cleanupMeta root fs, ran := [], lines := [], dep := dep, failed := false }

/-- An installation alone. -/
def metaInstall (root name : Str) (es : List (Str × Str)) (pre : Str → Bool) (scripts dep : Bool) (fs : Fs) : MetaSt :=
  (metaSteps root name es pre scripts).foldl liveStep (metaStart root fs dep)

end Cards
