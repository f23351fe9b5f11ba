import Verif.Model.Sync
/-!
# `cards repo` with a private key: the run as a whole

`repo::repo` /repo/src/repo.cxx:35-191 as it goes through the collections: which ones are taken, the two lists that are opened with truncation before the directory
is read, the package files one after the other, and the compressed lists at the end. A run can end in three ways; it can also be stopped at any moment. Not
modelled: the reading of the old lists in the constructor of `pkgrepo` (see Model/Repo), the progress on the terminal, a directory that changes during the run
(so the `stat` of line 74 does not fail), a full disk (its effect is one of the moments).
-/
namespace Cards

/-- What the run needs: the archive reader (`archive a(file)`, archive.cxx:5-27: the lines of META and the names of the files; `none`: it throws), the hash in
hexadecimal, the signature with the private key (`none`: the key cannot be used, pkgrepo.cxx:873-908), and the compression (repo.cxx:160-191). -/
structure RepoTools where
  opened : Str → Option (List Str × List Str)
  hash : Str → Str
  sign : Str → Option Str
  zst : Str → Str

/-- The components of a path put together. -/
def joinSlash : List Str → Str
  | [] => []
  | [a] => a
  | a :: b :: l => a ++ '/' :: joinSlash (b :: l)

/-- `findRecursiveFile(listOfFiles, path, WS_DEFAULT)` /repo/src/repo.cxx:71: a set of path names, in the order of the names. All begin with `path`, so the part
below it decides the order. -/
def repoListing (fs : Fs) (k : List Str) : List (Str × List Str) :=
  (if fs.isDirAt k then findFiles fs (fs.depth + 1) k else []).foldl (fun m q => mset (joinSlash (q.drop k.length)) q m) []

/-- `archive a(file)`, /repo/src/repo.cxx:73; the name the file gets in the lists is what follows the last slash, lines 80-83. -/
def readPkgFile (T : RepoTools) (fs : Fs) (q : List Str) : Option PkgFile :=
  match fs.get q with
  | some (.file c _) => (T.opened c).map (fun o => { file := q.getLast?.getD [], content := c, md := o.1, files := o.2 })
  | _ => none

/-- The loop /repo/src/repo.cxx:72-124: the packages written to the lists, and what ended it: `none`, the end of the set; `some none`, a file that is not a
package; `some (some p)`, the signature of `p` could not be made - a part of its description is in the list by then. -/
def repoEntries (T : RepoTools) (fs : Fs) : List (List Str) → List PkgFile × Option (Option PkgFile)
  | [] => ([], none)
  | q :: qs =>
    match readPkgFile T fs q with
    | none => ([], some none)
    | some p =>
      match T.sign (T.hash p.content) with
      | none => ([], some (some p))
      | some _ => (p :: (repoEntries T fs qs).1, (repoEntries T fs qs).2)

/-- The text of `.REPO` when the loop has ended. -/
def repoWritten (T : RepoTools) (r : List PkgFile × Option (Option PkgFile)) : Str :=
  repoText T.hash (fun h => (T.sign h).getD []) r.1 ++
    (match r.2 with
     | some (some p) => writeList (('@' :: p.file) :: p.md)
     | _ => [])

/-- The text of `.FILES` when the loop has ended. -/
def filesWritten (r : List PkgFile × Option (Option PkgFile)) : Str :=
  filesText r.1 ++
    (match r.2 with
     | some (some p) => filesText [p]
     | _ => [])

/-- `fopen(..., "w")` and `std::ofstream` succeed: the directory is there and the name is not that of a directory. -/
def canWrite (fs : Fs) (k : List Str) : Bool := fs.isDirAt k.dropLast && !(match fs.get k with | some (.dir _) => true | _ => false)

/-- How a run ends: all done; a `return` after a message on the terminal (lines 57-70); an exception, which `main` turns into the exit status 1. -/
inductive RepoEnd where
  | done
  | gaveUp
  | threw
deriving DecidableEq, Repr

/-- The exit status: only an exception makes it 1 (/repo/src/cards.cxx). -/
def RepoEnd.status : RepoEnd → Nat
  | .threw => 1
  | _ => 0

/-- The directory of the collection. -/
def repoPlace (d : DirUrl) : List Str := comps (d.depot ++ "/".toList ++ d.collection)

/-- `compress` /repo/src/repo.cxx:160-191: a file that cannot be opened is only reported. -/
def compressTo (T : RepoTools) (fs : Fs) (k : List Str) (text : Str) : Fs :=
  if canWrite fs k then applyWrite fs (k, T.zst text) else fs

/-- The two lists opened, lines 55-70: truncated. -/
def repoOpened (d : DirUrl) (fs : Fs) : Fs := applyWrite (applyWrite fs (repoPlace d ++ [".REPO".toList], [])) (repoPlace d ++ [".FILES".toList], [])

/-- What the loop finds, after the lists have been opened. -/
def repoFound (T : RepoTools) (d : DirUrl) (fs : Fs) : List PkgFile × Option (Option PkgFile) :=
  repoEntries T (repoOpened d fs) ((repoListing (repoOpened d fs) (repoPlace d)).map (·.2))

/-- The two lists with some content. -/
def repoLists (d : DirUrl) (fs : Fs) (a b : Str) : Fs := applyWrite (applyWrite fs (repoPlace d ++ [".REPO".toList], a)) (repoPlace d ++ [".FILES".toList], b)

/-- One collection, /repo/src/repo.cxx:44-137. After an exception the two streams are written out at the end of the process. -/
def repoDir (T : RepoTools) (d : DirUrl) (fs : Fs) : Fs × RepoEnd :=
  if !canWrite fs (repoPlace d ++ [".REPO".toList]) then (fs, .gaveUp)
  else if !canWrite (applyWrite fs (repoPlace d ++ [".REPO".toList], [])) (repoPlace d ++ [".FILES".toList]) then
    (applyWrite fs (repoPlace d ++ [".REPO".toList], []), .gaveUp)
  else
    let r := repoFound T d fs
    let fs1 := repoLists d fs (repoWritten T r) (filesWritten r)
    match r.2 with
    | some _ => (fs1, .threw)
    | none =>
      (compressTo T (compressTo T fs1 (repoPlace d ++ [".FILES.zst".toList]) (filesWritten r)) (repoPlace d ++ [".REPO.zst".toList]) (repoWritten T r), .done)

/-- Whether the run takes the collection, lines 37-42. -/
def repoTakes (arg : Option Str) (d : DirUrl) : Bool := match arg with | none => true | some c => d.collection = c

/-- The loop over the collections, /repo/src/repo.cxx:36-140: with an argument it ends after the first one of that name. -/
def repoRun (T : RepoTools) (arg : Option Str) : List DirUrl → Fs → Fs × RepoEnd
  | [], fs => (fs, .done)
  | d :: ds, fs =>
    if repoTakes arg d then
      match repoDir T d fs with
      | (fs1, .done) => if arg.isSome then (fs1, .done) else repoRun T arg ds fs1
      | r => r
    else repoRun T arg ds fs

/-- A moment of the work on one collection. The two lists are written through buffers of their own, so any beginnings of the two can be on the disk. -/
inductive CollMoment (T : RepoTools) (d : DirUrl) (fs : Fs) : Fs → Prop
  | before : CollMoment T d fs fs
  | opened : canWrite fs (repoPlace d ++ [".REPO".toList]) = true → CollMoment T d fs (applyWrite fs (repoPlace d ++ [".REPO".toList], []))
  | lists (a b : Str) : canWrite fs (repoPlace d ++ [".REPO".toList]) = true →
      canWrite (applyWrite fs (repoPlace d ++ [".REPO".toList], [])) (repoPlace d ++ [".FILES".toList]) = true →
      a <+: repoWritten T (repoFound T d fs) → b <+: filesWritten (repoFound T d fs) → CollMoment T d fs (repoLists d fs a b)
  | filesZst (z : Str) : canWrite fs (repoPlace d ++ [".REPO".toList]) = true →
      canWrite (applyWrite fs (repoPlace d ++ [".REPO".toList], [])) (repoPlace d ++ [".FILES".toList]) = true → (repoFound T d fs).2 = none →
      z <+: T.zst (filesWritten (repoFound T d fs)) →
      CollMoment T d fs (applyWrite (repoLists d fs (repoWritten T (repoFound T d fs)) (filesWritten (repoFound T d fs))) (repoPlace d ++ [".FILES.zst".toList], z))
  | repoZst (z : Str) : canWrite fs (repoPlace d ++ [".REPO".toList]) = true →
      canWrite (applyWrite fs (repoPlace d ++ [".REPO".toList], [])) (repoPlace d ++ [".FILES".toList]) = true → (repoFound T d fs).2 = none →
      z <+: T.zst (repoWritten T (repoFound T d fs)) →
      CollMoment T d fs (applyWrite (compressTo T (repoLists d fs (repoWritten T (repoFound T d fs)) (filesWritten (repoFound T d fs)))
        (repoPlace d ++ [".FILES.zst".toList]) (filesWritten (repoFound T d fs))) (repoPlace d ++ [".REPO.zst".toList], z))

/-- A moment of a run: where it can be stopped, or where it ends. -/
inductive RunMoment (T : RepoTools) (arg : Option Str) : List DirUrl → Fs → Fs → Prop
  | start (ds : List DirUrl) (fs : Fs) : RunMoment T arg ds fs fs
  | skip (d : DirUrl) (ds : List DirUrl) (fs x : Fs) : repoTakes arg d = false → RunMoment T arg ds fs x → RunMoment T arg (d :: ds) fs x
  | inside (d : DirUrl) (ds : List DirUrl) (fs x : Fs) : repoTakes arg d = true → CollMoment T d fs x → RunMoment T arg (d :: ds) fs x
  | next (d : DirUrl) (ds : List DirUrl) (fs x : Fs) : arg = none → (repoDir T d fs).2 = .done → RunMoment T arg ds (repoDir T d fs).1 x →
      RunMoment T arg (d :: ds) fs x

end Cards
