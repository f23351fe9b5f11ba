import Verif.Model.Fs
import Verif.Model.PkgmkNames
/-!
# `pkgmk`: the scripts and the description go into the archives

/repo/scripts/pkgmk.in:719-742 (`add_meta_files`), 743-895 (`add_meta_to_archive`; the lines of `.META` are in Model/PkgmkMeta, here they are a parameter), 1077-1098
(the loop over the packages). An archive is the list of its members. Simplifications: the order in which `bsdtar` walks through a directory is that of the model's tree;
owners and dates are not modelled; no disk error.
-/
namespace Cards

/-- An archive: paths and what is there, in the order of the archive. -/
abbrev Tar := List (List Str × Node)

/-- The scripts: what comes behind the name of the package in the port, and the name in the archive, /repo/scripts/pkgmk.in:723-734. -/
def scriptFiles : List (Str × Str) :=
  [("pre-install".toList, ".PRE".toList), ("post-install".toList, ".POST".toList), ("pre-remove".toList, ".PRER".toList), ("post-remove".toList, ".POSTR".toList)]

/-- `[ -f $file ]`. -/
def Fs.isFile (fs : Fs) (k : List Str) : Bool :=
  match fs.get k with
  | some (.file _ _) => true
  | _ => false

/-- The file of that name at the top, as a member. -/
def Fs.topFile (fs : Fs) (f : Str) : Option (List Str × Node) :=
  match fs.get [f] with
  | some (.file d m) => some ([f], .file d m)
  | _ => none

/-- `cp $PKGMK_ROOT/$NAME.… .PRE` for one of the scripts. `port`: the files of the port. -/
def copyScript (port : Str → Option Str) (name : Str) (fs : Fs) (s : Str × Str) : Fs :=
  match port (name ++ '.' :: s.1) with
  | some d => fs.set [s.2] (.file d 0o644)
  | none => fs

/-- All four, /repo/scripts/pkgmk.in:723-734. -/
def copyScripts (port : Str → Option Str) (name : Str) (pkg : Fs) : Fs := scriptFiles.foldl (copyScript port name) pkg

/-- One turn of the loop that puts them into the archive and removes them. -/
def moveScript (st : Fs × Tar) (s : Str × Str) : Fs × Tar :=
  match st.1.topFile s.2 with
  | some m => (st.1.del [s.2], st.2 ++ [m])
  | none => st

/-- The loop, /repo/scripts/pkgmk.in:735-741. -/
def moveScripts (pkg : Fs) (t : Tar) : Fs × Tar := scriptFiles.foldl moveScript (pkg, t)

/-- `add_meta_files` /repo/scripts/pkgmk.in:719-742: what is left in `$PKG`, and the archive. -/
def addMetaFiles (port : Str → Option Str) (name : Str) (pkg : Fs) (t : Tar) : Fs × Tar := moveScripts (copyScripts port name pkg) t

/-- `bsdtar xf`. -/
def untar (fs : Fs) (t : Tar) : Fs := t.foldl (fun fs m => (fs.mkParents m.1).set m.1 m.2) fs

/-- The text of a path. -/
def pathText : List Str → Str
  | [] => []
  | [x] => x
  | x :: y :: p => x ++ '/' :: pathText (y :: p)

/-- `bsdtar -tf`: a line for each member. -/
def listing (t : Tar) : Str := t.flatMap (fun m => pathText m.1 ++ (match m.2 with | .dir _ => "/\n".toList | .file _ _ => "\n".toList))

/-- The `*` of the shell: what is not hidden. -/
def visible : List Str → Bool
  | x :: _ => x.head? ≠ some '.'
  | [] => false

/-- The hidden members, in the order of the loop /repo/scripts/pkgmk.in:884. -/
def hiddenNames : List Str := [".META".toList, ".MTREE".toList, ".PRE".toList, ".POST".toList, ".PRER".toList, ".POSTR".toList]

/-- `add_meta_to_archive` /repo/scripts/pkgmk.in:743-895. `tar0`: what is in the directory `tar` of the work directory before; `md`: the text of `.META`. -/
def addMeta (tar0 : Fs) (md : Str) (t : Tar) : Tar :=
  let fs := ((untar tar0 t).set [".META".toList] (.file md 0o644)).set [".MTREE".toList] (.file (listing t) 0o644)
  hiddenNames.filterMap fs.topFile ++ fs.filter (fun e => visible e.1)

/-- The loop over the packages, /repo/scripts/pkgmk.in:1087-1090; the directory `tar` is removed after each. -/
def finishAll (port : Str → Option Str) (md : Str → Str) : Fs → Fs → List (Str × Tar) → List (Str × Tar)
  | _, _, [] => []
  | pkg, tar0, (f, t) :: rest =>
    let r := addMetaFiles port (getPackageName f) pkg t
    (f, addMeta tar0 (md f) r.2) :: finishAll port md r.1 [] rest

end Cards
