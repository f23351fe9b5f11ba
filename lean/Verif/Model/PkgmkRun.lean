import Verif.Model.PkgmkNames
/-!
# `pkgmk`: one run, from the decision to build to the exit status (/repo/scripts/pkgmk.in:905-1096, 1541-1598)

What the commands of the script and the functions of the Pkgfile do is given: each succeeds or fails. What is modelled is what `pkgmk` makes of it: which step
comes next, which failure ends the run, and with which status. Simplification: messages, `touch`, and the installation of `PKGMK_DEPENDS` are left out.
-/
namespace Cards

/-- The steps of a run. -/
inductive MkStep
  /-- a source is there, or fetched, /repo/scripts/pkgmk.in:281-300 -/
  | source
  /-- a source is unpacked, 312-351 -/
  | unpack
  /-- the functions of the Pkgfile, 935-961 -/
  | prepare
  | build
  | package
  /-- the packages of the port are removed, 1243-1250 -/
  | clear
  /-- the function of a group, 985-995 -/
  | groupFn
  /-- a directory of a group is packed, 494-613 -/
  | groupTar
  /-- the function of a language, 1022-1032 -/
  | localeFn
  /-- a directory of a language is packed, 1033-1041 -/
  | localeTar
  /-- there is no `sbin`, 1235-1240 -/
  | noSbin
  /-- there is something left for the main package, 1050-1054 -/
  | files
  /-- the main package is packed, 1055 -/
  | mainTar
  /-- the list of files of a package is what it was, 437-484 -/
  | footprint
  /-- there are packages, 1075-1079 -/
  | found
  /-- the packages a package asks for are installed, 811-844 -/
  | deps
  /-- the package is packed again, with `.META`, 880-891 -/
  | repack
  /-- a package is installed, 1097-1124 -/
  | install
  /-- a package is compressed, 1570-1578 -/
  | compress
  /-- `.REPO` is brought up to date, 1192-1213 -/
  | repo
  deriving DecidableEq

/-- A group or a language: it has a function in the Pkgfile, or its directories are packed. -/
inductive MkPart
  | fn (ok : Bool)
  | tars (oks : List Bool)

/-- What is asked of `pkgmk`, and how the steps go, if they are run. -/
structure MkRun where
  needed : Bool
  packOnly : Bool
  ignoreFootprint : Bool
  ignoreNew : Bool
  doInstall : Bool
  doCompress : Bool
  ignoreRepo : Bool
  sources : List Bool
  unpack : List Bool
  prepare : Option Bool
  build : Bool
  package : Option Bool
  groups : List MkPart
  locales : List MkPart
  noSbin : Bool
  files : Bool
  mainTar : Bool
  footprints : List Bool
  found : Bool
  metas : List (Bool × Bool)
  installs : List Bool
  compresses : List Bool
  repo : Bool

/-- What has been done, and how it went. -/
abbrev MkTrace := List (MkStep × Bool)

/-- A part of the script: what it adds to what has been done, and the status it ends the run with, if it does. -/
abbrev MkProg := MkTrace → MkTrace × Option Nat

/-- One after the other, unless the run ends. -/
def MkProg.then (p q : MkProg) : MkProg := fun t =>
  match p t with
  | (t', none) => q t'
  | r => r

/-- Nothing. -/
def MkProg.skip : MkProg := fun t => (t, none)

/-- `if [ $? != 0 ]; then exit $code`. -/
def mkMust (s : MkStep) (code : Nat) (ok : Bool) : MkProg := fun t => (t ++ [(s, ok)], if ok then none else some code)

/-- A command whose status nobody looks at. -/
def mkNote (s : MkStep) (ok : Bool) : MkProg := fun t => (t ++ [(s, ok)], none)

/-- A loop. -/
def mkEach {α : Type} (f : α → MkProg) : List α → MkProg
  | [] => .skip
  | x :: xs => (f x).then (mkEach f xs)

/-- The end of a run with `exit $code`, if the condition holds. -/
def mkExitIf (c : Bool) (code : Nat) : MkProg := fun t => (t, if c then some code else none)

/-- A function of the Pkgfile that need not be there, /repo/scripts/pkgmk.in:935-943, 952-961: after a failure nothing else of the build is run and the status is
`E_BUILD` (1086-1093). -/
def mkOptional (s : MkStep) : Option Bool → MkProg
  | none => .skip
  | some ok => mkMust s 8 ok

/-- A group, /repo/scripts/pkgmk.in:983-1019: all directories are packed, a failure is seen afterwards. -/
def mkGroup : MkPart → MkProg
  | .fn ok => mkMust .groupFn 8 ok
  | .tars oks => (mkEach (mkNote .groupTar) oks).then (mkExitIf (oks.any (!·)) 8)

/-- A language, /repo/scripts/pkgmk.in:1020-1043: `$?` is that of `j=1`; `abort_on_build` (30-33) exits with `$2`, which is not given. -/
def mkLocale : MkPart → MkProg
  | .fn ok => mkNote .localeFn ok
  | .tars oks => mkEach (mkMust .localeTar 0) oks

/-- `check_footprint`, /repo/scripts/pkgmk.in:437-484. -/
def mkFootprints (r : MkRun) : MkProg :=
  if r.ignoreFootprint || !r.mainTar then .skip
  else (mkEach (mkNote .footprint) r.footprints).then (mkExitIf (!r.ignoreNew && r.footprints.any (!·)) 8)

/-- `build_package`, /repo/scripts/pkgmk.in:905-1096. -/
def mkBuild (r : MkRun) : MkProg :=
  (mkEach (mkMust .source 4) r.sources).then <|
  (if r.packOnly then .skip
   else (mkEach (mkMust .unpack 5) r.unpack).then <| (mkOptional .prepare r.prepare).then <| (mkMust .build 8 r.build).then <| mkOptional .package r.package).then <|
  (mkNote .clear true).then <|
  (mkEach mkGroup r.groups).then <|
  (mkEach mkLocale r.locales).then <|
  (mkMust .noSbin 0 r.noSbin).then <|
  (mkMust .files 8 r.files).then <|
  (mkNote .mainTar r.mainTar).then <|
  (mkFootprints r).then <|
  (mkMust .found 8 r.found).then <|
  mkEach (fun m : Bool × Bool => (mkMust .deps 10 m.1).then (mkNote .repack m.2)) r.metas

/-- The end of `main`, /repo/scripts/pkgmk.in:1563-1598. -/
def mkMain (r : MkRun) : MkProg :=
  (if r.needed then mkBuild r else .skip).then <|
  (if r.doInstall then mkEach (mkMust .install 9) r.installs else .skip).then <|
  (if r.doCompress then mkEach (mkNote .compress) r.compresses else .skip).then <|
  (if r.ignoreRepo then .skip else mkNote .repo r.repo)

/-- The run: what was done, and the status. -/
def pkgmkRun (r : MkRun) : MkTrace × Nat :=
  match mkMain r [] with
  | (t, c) => (t, c.getD 0)

/-- A package of the port in the directory: its name without version, whether it is newer than the Pkgfile. -/
structure MkFile where
  name : Str
  newer : Bool

/-- Is a build needed?, /repo/scripts/pkgmk.in:1541-1565, 1180-1191. `main`: the file `$name.cards-$version-$release` is there; `files`: what `get_packages_list` finds,
in the order of `find`. -/
def mkNeeded (force : Bool) (name : Str) (main : Bool) (files : List MkFile) : Bool :=
  let rec go : List MkFile → Bool × Bool → Bool × Bool
    | [], s => s
    | f :: fs, (found, need) => if f.newer && !force then go fs (found || f.name = name, need) else (found, true)
  let r := if main then go files (false, false) else (false, true)
  !r.1 || r.2

/-- The same from the directory of the packages: the files with their dates, and the date of the Pkgfile, /repo/scripts/pkgmk.in:1541-1565 (`-nt`: newer). Simplification:
files below directories in it are not considered. -/
def mkRebuild (force : Bool) (name version release : Str) (dir : List (Str × Nat)) (pkgfile : Nat) : Bool :=
  mkNeeded force name ((mget dir (pkgFileName name none version release)).isSome)
    ((packagesList name (dir.map (·.1))).map fun f => ⟨getPackageName f, (mget dir f).any (fun t => decide (pkgfile < t))⟩)

end Cards
