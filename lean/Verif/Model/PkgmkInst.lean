import Verif.Model.Trans
import Verif.Model.PkgmkCheck
/-!
# `pkgmk`: the packages are installed, cleaned away, and their footprints made anew

/repo/scripts/pkgmk.in:1100-1127 (`install_package`), 1145-1160 (`clean`), 1161-1179 (`update_footprint`). The order in which `find` gives the files is that of the list, any list.
-/
namespace Cards

/-- What a call of `pkgadd` finds: its environment, the rules of that moment, and the archive. -/
structure MkPkg where
  env : Env
  rules : List Rule
  arch : Archive

/-- The options of `pkgadd FILE` and `pkgadd -u FILE`, /repo/scripts/pkgmk.in:1110-1114. -/
def mkAddOpts (upgrade : Bool) : Opts := ⟨upgrade, false, true, false⟩

/-- The loop over the files, /repo/scripts/pkgmk.in:1107-1126: the files installed, the system, and the status (9: `E_INSTALL`). `arch`: what `pkgadd` finds in the
file `$PKGMK_PACKAGE_DIR/$TARGET`; `none`: no archive is there. -/
def mkInstall (upgrade : Bool) (arch : Str → Option MkPkg) : List Str → Sys → List Str × Sys × Nat
  | [], s => ([], s, 0)
  | t :: ts, s =>
    match arch t with
    | none => ([], s, 9)
    | some p =>
      match pkgadd p.env p.rules (mkAddOpts upgrade) p.arch s with
      | (s', none) => let r := mkInstall upgrade arch ts s'; (t :: r.1, r.2)
      | (s', some _) => ([], s', 9)

/-- `install_package`, /repo/scripts/pkgmk.in:1100-1127. `dir`: the names `find` sees below the directory of the packages. -/
def installPackage (upgrade : Bool) (name : Str) (dir : List Str) (arch : Str → Option MkPkg) (s : Sys) : List Str × Sys × Nat :=
  if packagesList name dir = [] then ([], s, 9) else mkInstall upgrade arch (packagesList name dir) s

/-- The last component of a path. -/
def baseOf (k : List Str) : Str := k.getLast?.getD []

/-- The names `find DIR -name …` compares: those of everything below the directory. -/
def namesBelow (fs : Fs) (d : List Str) : List Str := (fs.filter (fun e => d.isPrefixOf e.1 && e.1 ≠ d)).map (fun e => baseOf e.1)

/-- `rm -f`, and `rm` of a file: directories stay. -/
def Fs.rmFile (fs : Fs) (k : List Str) : Fs :=
  match fs.get k with
  | some (.file _ _) => fs.del k
  | _ => fs

/-- `clean`, /repo/scripts/pkgmk.in:1145-1160: the packages of the port at the top of the directory of the packages, and the footprints anywhere below the directory of the port. -/
def cleanPort (name : Str) (packages port : List Str) (fs : Fs) : Fs :=
  let fs1 := (packagesList name (namesBelow fs packages)).foldl (fun fs t => fs.rmFile (packages ++ [t])) fs
  (fs1.filter (fun e => port.isPrefixOf e.1 && e.1 ≠ port && ".footprint".toList.isSuffixOf (baseOf e.1))).foldl (fun fs e => fs.rmFile e.1) fs1

/-- `update_footprint`, /repo/scripts/pkgmk.in:1161-1179, for what `get_packages_list` has found (`none`: the file is not at the top of the directory): the footprints, and the
status (7: `E_FOOTPRINT`). Simplification: the footprints can be written (`check_file`). -/
def updateFootprints : List (Str × Option (List Str)) → List (Str × List Str) → List (Str × List Str) × Nat
  | [], prints => (prints, 0)
  | (_, none) :: _, prints => (prints, 7)
  | (t, some lines) :: ts, prints => updateFootprints ts (mset (getPackageName t) lines prints)

/-- The same with the case that there is no package. -/
def updateFootprint (targets : List (Str × Option (List Str))) (prints : List (Str × List Str)) : List (Str × List Str) × Nat :=
  if targets = [] then (prints, 7) else updateFootprints targets prints

end Cards
