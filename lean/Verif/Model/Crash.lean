import Verif.Model.RuleFile
/-!
# The database on disk at system call level

The `files` list of a package as bytes, the system calls that replace it, and databases with incomplete package directories.
-/
namespace Cards

/-! ## Writing and reading a file list -/

/-- The bytes written by `copy(files.begin(), files.end(), ostream_iterator(out, "\n"))` /repo/src/pkgdbh.cxx:784-787. -/
def writeList : List Str → Str
  | [] => []
  | f :: fs => f ++ '\n' :: writeList fs

/-- The inner `for (;;)` of the reader, /repo/src/pkgdbh.cxx:630-637: take lines until an empty one. `getline` on a stream at its
end yields the empty string. Returns the set and the lines not yet read. -/
def readRecord : List Str → List Str → List Str × List Str
  | [], acc => (acc, [])
  | l :: ls, acc => if l = [] then (acc, ls) else readRecord ls (sinsert l acc)

theorem readRecord_length (ls acc : List Str) : (readRecord ls acc).2.length ≤ ls.length := by
  induction ls generalizing acc with
  | nil => simp [readRecord]
  | cons l ls ih => simp only [readRecord]; split <;> simp; exact Nat.le_succ_of_le (ih _)

/-- The outer `while (!in.eof())` of the reader, /repo/src/pkgdbh.cxx:628-638 and 426-437: read records until the last line has been
taken. The stream is at its end when no line is left (`lines` always has at least one). -/
def readLoop (ls acc : List Str) : List Str :=
  match ls with
  | [] => acc
  | l :: ls' => if l = [] then readLoop ls' acc else
      let r := readRecord ls' (sinsert l acc)
      readLoop r.2 r.1
termination_by ls.length
decreasing_by
  · simp
  · have := readRecord_length ls' (sinsert l acc); simp; omega

/-- Reading a `files` file into `std::set`, /repo/src/pkgdbh.cxx:617-639 (`buildDatabase`) and 407-439 (`getSetOfFiles`). -/
def readList (content : Str) : List Str := readLoop (lines content) []

/-! ## The system calls of `addPackageFilesRefsToDB` -/

/-- The package directory and the inodes its two names can point to. `data` is what a reader sees now, `synced` whether that
data is guaranteed to survive a power loss. -/
structure World where
  dir : Bool
  files : Option Nat
  tmp : Option Nat
  data : Nat → Str
  synced : Nat → Bool

/-- The system calls, on `files` (PKG_FILES) and `files.imcomplete_transaction` (`tmp`). -/
inductive SysCall where
  | mkdir
  | creat (fresh : Nat)
  | write (chunk : Str)
  | fsync
  | rename
  | rmdir
deriving Repr

/-- Effect of a successful system call. `creat` truncates an existing temporary file or makes a new inode `fresh`; `rmdir` fails on a
non-empty directory. /repo/src/pkgdbh.cxx:774-810. -/
def World.step (w : World) : SysCall → World
  | .mkdir => { w with dir := true }
  | .creat fresh =>
    let i := w.tmp.getD fresh
    { w with tmp := some i, data := fun n => if n = i then [] else w.data n, synced := fun n => if n = i then false else w.synced n }
  | .write c =>
    match w.tmp with
    | some i => { w with data := fun n => if n = i then w.data n ++ c else w.data n, synced := fun n => if n = i then false else w.synced n }
    | none => w
  | .fsync =>
    match w.tmp with
    | some i => { w with synced := fun n => if n = i then true else w.synced n }
    | none => w
  | .rename =>
    match w.tmp with
    | some i => { w with files := some i, tmp := none }
    | none => w
  | .rmdir => if w.files = none ∧ w.tmp = none then { w with dir := false } else w

/-- The world after a sequence of system calls. -/
def World.run (w : World) (t : List SysCall) : World := t.foldl World.step w

/-- The system call sequences `addPackageFilesRefsToDB` can make for the text `content`, /repo/src/pkgdbh.cxx:774-810. The stream
buffer is written out in chunks of any sizes. Any call may fail; the function then (after trying `rmdir`, lines 790-809) ends. -/
inductive Calls (content : Str) (fresh : Nat) : List SysCall → Prop
  | ok (chunks : List Str) : chunks.flatten = content →
      Calls content fresh (.mkdir :: .creat fresh :: chunks.map .write ++ [.fsync, .rename])
  | creatFails : Calls content fresh [.mkdir]
  | writeFails (chunks : List Str) : chunks.flatten <+: content →
      Calls content fresh (.mkdir :: .creat fresh :: chunks.map .write ++ [.rmdir])
  | syncFails (chunks : List Str) : chunks.flatten = content →
      Calls content fresh (.mkdir :: .creat fresh :: chunks.map .write ++ [.rmdir])
  | renameFails (chunks : List Str) : chunks.flatten = content →
      Calls content fresh (.mkdir :: .creat fresh :: chunks.map .write ++ [.fsync, .rmdir])

/-- What a reader of `files` finds (nothing: the file does not exist). -/
def World.reads (w : World) : Option Str := w.files.map w.data

/-- After a power loss the directory is that of an earlier moment `w0` (its updates are persisted in order), and the data of every
inode not synced by the time of the loss (`w1`) is arbitrary. -/
def PowerLoss (w0 w1 w : World) : Prop :=
  w.dir = w0.dir ∧ w.files = w0.files ∧ w.tmp = w0.tmp ∧ ∀ n, w1.synced n = true → w.data n = w1.data n

/-! ## Incomplete package directories -/

/-- A package directory: the META lines and the file list, either of which may be missing. -/
structure PkgDir where
  md : Option (List Str)
  files : Option (List Str)
deriving DecidableEq, Repr

/-- The database directory. -/
abbrev RawDb := List (Str × PkgDir)

/-- `buildDatabase(true)` on any database directory: a missing META is tolerated (`parseFile` fails, its result is not looked at,
/repo/src/pkgdbh.cxx:495), a missing `files` is an error that ends the program (619-623). -/
def loadRaw : RawDb → Option Db
  | [] => some []
  | (n, d) :: r =>
    match d.files, loadRaw r with
    | some f, some db => some ((n, { md := d.md.getD [], files := f }) :: db)
    | _, _ => none

/-- The database directory of a database. -/
def unloadDb (db : Db) : RawDb := db.map (fun p => (p.1, { md := some p.2.md, files := some p.2.files }))

/-- The state outside the processes with a raw database. -/
structure RawSys where
  fs : Fs
  raw : RawDb

/-- A command on a raw database: pkgadd and pkgrm load the database first (/repo/src/pkgadd.cxx:54, pkgrm.cxx, tools.cxx) and end when that
fails. Simplification: after a successful load a missing META counts as an empty one. -/
def Cmd.execRaw (c : Cmd) (s : RawSys) : RawSys × Option Err :=
  match loadRaw s.raw with
  | none => (s, some .cannotRead)
  | some db => let r := c.exec { fs := s.fs, disk := db }; ({ fs := r.1.fs, raw := unloadDb r.1.disk }, r.2)

/-- The successive database directories while `removePackageFilesRefsFromDB(name)` works, /repo/src/pkgdbh.cxx:914-931: the directory
entries are unlinked in sorted order (`META` before `files`; the script files in between do not matter here), then the directory. -/
def removeRecordSteps (raw : RawDb) (name : Str) (d : PkgDir) : List RawDb :=
  [raw, mset name { d with md := none } raw, mset name { md := none, files := none } raw, merase name raw]

/-- The successive database directories while a package is recorded: `moveMetaFilesPackage` makes the directory and moves META into it
(/repo/src/pkgdbh.cxx:677-687), then `addPackageFilesRefsToDB` puts `files` in place (774-810). `raw` has no directory `name`. The rewriting of META
with the dependency mark (694-702) is one step here. -/
def addRecordSteps (raw : RawDb) (name : Str) (info : Info) : List RawDb :=
  [raw, mset name { md := none, files := none } raw, mset name { md := some info.md, files := none } raw,
   mset name { md := some info.md, files := some info.files } raw]

/-- The successive database directories of an upgrade, /repo/src/pkgadd.cxx:112-136: the old record is removed, then the new one added. -/
def upgradeSteps (raw : RawDb) (name : Str) (d : PkgDir) (info : Info) : List RawDb :=
  removeRecordSteps raw name d ++ addRecordSteps (merase name raw) name info

end Cards
