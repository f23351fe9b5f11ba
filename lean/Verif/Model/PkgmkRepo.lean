import Verif.Model.Strings
/-!
# `pkgmk`: the update of `.REPO` and `.FILES` (/repo/scripts/pkgmk.in:1192-1212)

A file is the list of its lines. Simplification: the name of the port has no character that is special to `sed` or to the shell; the directory is
given in the order in which the shell expands `*`, and what matches is a package `pkginfo` can read.
-/
namespace Cards

/-- A package in `$PKGMK_PACKAGE_DIR`: its file name, what `pkginfo -m` and `pkginfo -l` print, and what `stat -c%s` and `sha512sum` say. -/
structure BuiltPkg where
  file : Str
  info : List Str
  files : List Str
  size : Str
  sha : Str
deriving DecidableEq, Repr

/-- `sed "/A/,/^$/d"` where `A` is decided by `p`; the first argument: inside of a range. The end of a range is looked for from the next line on. -/
def sedDelete (p : Str → Bool) : Bool → List Str → List Str
  | _, [] => []
  | false, l :: ls => if p l then sedDelete p true ls else l :: sedDelete p false ls
  | true, l :: ls => if l = [] then sedDelete p false ls else sedDelete p true ls

/-- `/^@$name.*/`, /repo/scripts/pkgmk.in:1196. -/
def atName (name l : Str) : Bool := ('@' :: name).isPrefixOf l

/-- The file names that `${name}*.cards-*` stands for, /repo/scripts/pkgmk.in:1199. -/
def globName (name f : Str) : Bool := name.isPrefixOf f && (cutFirst ".cards-".toList (f.drop name.length)).isSome

/-- The packages of the loop. Nothing matches: the shell leaves the pattern as it is, and nothing is known of that file. -/
def globPkgs (name : Str) (dir : List BuiltPkg) : List BuiltPkg :=
  match dir.filter (fun p => globName name p.file) with
  | [] => [⟨name ++ "*.cards-*".toList, [], [], [], []⟩]
  | l => l

/-- What the loop appends to `.REPO`, /repo/scripts/pkgmk.in:1201-1208. -/
def repoLines (p : BuiltPkg) : List Str := ('@' :: p.file) :: p.info ++ ['i' :: p.size, 'H' :: p.sha, []]

/-- What it appends to `.FILES`, /repo/scripts/pkgmk.in:1202-1209. -/
def filesLines (p : BuiltPkg) : List Str := ('@' :: p.file) :: p.files ++ [[]]

/-- `update_repo_file`, /repo/scripts/pkgmk.in:1192-1210: the new `.REPO` and `.FILES`. -/
def updateRepoFile (name : Str) (dir : List BuiltPkg) (repo files : List Str) : List Str × List Str :=
  (sedDelete (atName name) false repo ++ (globPkgs name dir).flatMap repoLines,
   sedDelete (atName name) false files ++ (globPkgs name dir).flatMap filesLines)

end Cards
