import Verif.Model.Ports
import Verif.Model.RepoCmds
/-!
# `cards create <collection>`: the search for the shared libraries of a port whose binary is up to date
-/
namespace Cards

/-- What `buildCollection` looks at in an entry of the repository: `cache::dependencies()`, `cache::libs()` and `cache::files`
(/repo/src/pkg.h:22, /repo/src/cache.h). Simplification: the build dates of the dependencies, which are not looked at, are left out. -/
structure LibPkg where
  deps : List Str
  libs : List Str
  files : List Str
deriving DecidableEq, Repr

/-- `m_listOfPackages` of `pkgrepo` with these fields. -/
abbrev LibRepo := List (Str × LibPkg)

/-- `m_listOfPackages[n]`: an entry that is not there is created empty (`std::map::operator[]`). -/
def touchPkg (n : Str) (m : LibRepo) : LibRepo :=
  match mget m n with
  | some _ => m
  | none => mset n ⟨[], [], []⟩ m

/-- The value of `m_listOfPackages[n]`. -/
def LibRepo.pkg (m : LibRepo) (n : Str) : LibPkg := (mget m n).getD ⟨[], [], []⟩

/-- `i + ".lib"`, /repo/src/create.cxx:386, 422, 448, 495. -/
def libName (i : Str) : Str := i ++ ".lib".toList

/-- The loop over the dependencies, /repo/src/create.cxx:370-379 and 454-463: the flag, and the repository with the entries made by
`getListOfFiles` (/repo/src/pkgrepo.cxx:1031-1035). -/
def depsHave (lib : Str) : List Str → Bool → LibRepo → Bool × LibRepo
  | [], found, m => (found, m)
  | d :: ds, found, m =>
    let m1 := touchPkg d m
    let found1 := found || (m1.pkg d).files.any (fun f => Str.has f ('/' :: lib))
    if found1 then (true, m1) else depsHave lib ds found1 m1

/-- `checkFileNameExist` /repo/src/pkgdbh.cxx:817-832: `inst` are the files of all installed packages. -/
def installedHas (inst : List Str) (lib : Str) : Bool := inst.any (fun f => Str.has f lib)

/-- The loops over the levels, /repo/src/create.cxx:406-437 and 479-509. The entries are looked up after `checkBinaryExist`, so none
is made. -/
def levelsHave (T : Ports) (lvl : Nat) (m : LibRepo) (lib : Str) : Bool :=
  (List.range lvl).any (fun l => T.any (fun p =>
    (mget m p.1).isSome && p.2.level = l &&
      ((m.pkg p.1).libs.contains lib || ((mget m (libName p.1)).isSome && (m.pkg (libName p.1)).libs.contains lib))))

/-- The search for one library of the package `own`, /repo/src/create.cxx:369-437 (`dotLib`: with lines 385-395) and 454-510: `lvl` is the level of
the port, `found` the value of the flag before. -/
def findLib (T : Ports) (inst : List Str) (own : Str) (lvl : Nat) (dotLib : Bool) (lib : Str) (found : Bool) (m : LibRepo) : Bool × LibRepo :=
  let r := depsHave lib (m.pkg own).deps found m
  let m1 := r.2
  (r.1 || installedHas inst lib
    || (dotLib && (mget m1 (libName own)).isSome && (m1.pkg (libName own)).libs.contains lib)
    || (m1.pkg own).files.any (fun f => Str.has f lib)
    || levelsHave T lvl m1 lib, m1)

/-- The loop over the libraries of the port, /repo/src/create.cxx:366-443: the first one not found. -/
def checkOwn (T : Ports) (inst : List Str) (i : Str) (lvl : Nat) : List Str → LibRepo → Option Str × LibRepo
  | [], m => (none, m)
  | lib :: ls, m =>
    let r := findLib T inst i lvl true lib false m
    if r.1 then checkOwn T inst i lvl ls r.2 else (some lib, r.2)

/-- The loop over the libraries of `i.lib`, /repo/src/create.cxx:452-516: the flag is set to false once, before the loop. -/
def checkDotLib (T : Ports) (inst : List Str) (iLib : Str) (lvl : Nat) : List Str → Bool → LibRepo → (Bool × Str) × LibRepo
  | [], found, m => ((found, []), m)
  | lib :: ls, found, m =>
    let r := findLib T inst iLib lvl false lib found m
    if r.1 then checkDotLib T inst iLib lvl ls true r.2 else ((false, lib), r.2)

/-- The library check of one up-to-date port, /repo/src/create.cxx:366-532: the name in the line `MAYBE NEEDS TO BE REBUILD`, if it is
printed, and the repository afterwards. -/
def libReport (T : Ports) (inst : List Str) (i : Str) (m : LibRepo) : Option Str × LibRepo :=
  let own := checkOwn T inst i (portLevel T i) (m.pkg i).libs m
  match own.1 with
  | some lib => (some lib, own.2)
  | none =>
    if (mget own.2 (libName i)).isSome then
      let r := checkDotLib T inst (libName i) (portLevel T i) (own.2.pkg (libName i)).libs false own.2
      (if r.1.1 then none else some r.1.2, r.2)
    else (none, own.2)

/-- The checks of `cards create --dry`, /repo/src/create.cxx:304-533, over the up-to-date ports of the collection in turn: the lines printed. -/
def libReports (T : Ports) (inst : List Str) : List Str → LibRepo → List (Str × Str)
  | [], _ => []
  | i :: is, m =>
    let r := libReport T inst i m
    match r.1 with
    | some lib => (i, lib) :: libReports T inst is r.2
    | none => libReports T inst is r.2

end Cards
