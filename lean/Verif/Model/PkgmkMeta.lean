import Verif.Model.PkgmkNames
/-!
# `pkgmk`: the `.META` of a package (/repo/scripts/pkgmk.in:743-879)

The variables of the Pkgfile that are lists are arrays (as the documentation has them), every element one word that is no option of `echo`. Simplification: the
`.META` is given by its lines.
-/
namespace Cards

/-- The variables of a Pkgfile that `.META` is made from. `runOf g`: the array `run_g`. -/
structure MetaVars where
  version : Str
  release : Str
  description : Str
  url : Str
  contributors : Str
  maintainer : Str
  packager : Str
  license : Str
  runDeps : List Str
  runOf : Str → List Str
  aliases : List Str
  sets : List Str
  categories : List Str
  conflicts : List Str

/-- What comes from elsewhere: `$name`, `PKGMK_GROUPS`, `PKGMK_BUILDVER`, `$COLLECTION`, `PKGMK_ARCH`, what `du -b` says, what `pkginfo` says of the files
(`--runtimedepfiles`, `--runtimelibs`, the lines that do not begin with a capital) and of an installed package (`-b`), and the two switches. -/
structure MetaEnv where
  name : Str
  groups : List Str
  build : Str
  collection : Str
  arch : Str
  space : Str
  runtimeDeps : List Str
  runtimeLibs : List Str
  buildOf : Str → Str
  ignoreDeps : Bool
  ignoreLibs : Bool

/-- `echo "$x" >> .META`: the lines this adds. -/
def echoLines : Str → List Str
  | [] => [[]]
  | c :: s =>
    match echoLines s with
    | [] => [[c]]
    | l :: ls => if c = '\n' then [] :: l :: ls else (c :: l) :: ls

/-- `DESC="none"; [ ! -z "$description" ] && DESC=$description`, /repo/scripts/pkgmk.in:771-784. -/
def orDefault (d v : Str) : Str := if v = [] then d else v

/-- `/^R[[a-z0-9]*[-_+]*]*\.devel/`, /repo/scripts/pkgmk.in:816. -/
def isDevelDep : Str → Bool
  | 'R' :: s =>
    ".devel".toList.isPrefixOf
      (((s.dropWhile (fun c => c = '[' || ('a' ≤ c && c ≤ 'z') || ('0' ≤ c && c ≤ '9'))).dropWhile (fun c => c = '-' || c = '_' || c = '+')).dropWhile (· = ']'))
  | _ => false

/-- `cut -d "." -f1`. -/
def cutFirstField (s : Str) : Str :=
  match cutFirst ".".toList s with
  | none => s
  | some (b, _) => b

/-- The sub-package: `none` for the main package, else the group or the language, /repo/scripts/pkgmk.in:748-765. -/
def subOfName (full : Str) : Option Str := if cutSecond full = full then none else some (cutSecond full)

/-- One dependency from the Pkgfile, /repo/scripts/pkgmk.in:817-830 (`own`: a package of this port is written with this build), 831-843. `none`: not installed,
`pkgmk` gives up. -/
def runLine (e : MetaEnv) (own : Bool) (rd : Str) : Option Str :=
  if own && cutFirstField rd = e.name then some ('R' :: rd ++ e.build)
  else if e.buildOf rd = "0".toList ∨ e.buildOf rd = [] then none
  else some ('R' :: rd ++ e.buildOf rd)

/-- All of them. -/
def runLines (e : MetaEnv) (own : Bool) : List Str → Option (List Str)
  | [] => some []
  | rd :: rds =>
    match runLine e own rd with
    | none => none
    | some l => (runLines e own rds).map (l :: ·)

/-- The lines up to the dependencies, /repo/scripts/pkgmk.in:788-809. -/
def metaHead (e : MetaEnv) (v : MetaVars) (full : Str) : List Str :=
  (['N' :: full, 'V' :: v.version, 'r' :: v.release, 'B' :: e.build, 'S' :: e.space, 'c' :: e.collection, 'a' :: e.arch] ++
    (match subOfName full with
    | none =>
      ['D' :: orDefault "none".toList v.description, 'U' :: orDefault "none".toList v.url, 'C' :: orDefault "none".toList v.contributors,
       'M' :: orDefault "none".toList v.maintainer, 'P' :: orDefault "none".toList v.packager, 'L' :: orDefault "GPL".toList v.license]
    | some g => if e.groups.contains g then ['g' :: g] else ['n' :: g])).flatMap echoLines

/-- The dependencies, /repo/scripts/pkgmk.in:811-844; the `sed` goes over everything written so far. In a package of a language `$GROUP` is not set: `run_`. -/
def metaDeps (e : MetaEnv) (v : MetaVars) (full : Str) : Option (List Str) :=
  if e.ignoreDeps then some (metaHead e v full)
  else
    let head := (metaHead e v full ++ e.runtimeDeps.map ('R' :: ·)).filter (fun l => !isDevelDep l)
    match (if v.runDeps ≠ [] ∧ full = e.name then runLines e true v.runDeps else some []) with
    | none => none
    | some a =>
      match (match subOfName full with
        | none => some []
        | some g => runLines e false (v.runOf (if e.groups.contains g then g else []))) with
      | none => none
      | some b => some (head ++ a ++ b)

/-- An alias in the package, /repo/scripts/pkgmk.in:852-859: `$GROUP` is not set in the main package and in those of languages. -/
def aliasName (e : MetaEnv) (full a : Str) : Str :=
  match subOfName full with
  | none => a
  | some g => if e.groups.contains g then a ++ '.' :: g else a

/-- What follows the dependencies, /repo/scripts/pkgmk.in:845-879. -/
def metaTail (e : MetaEnv) (v : MetaVars) (full : Str) : List Str :=
  (if e.ignoreLibs then [] else e.runtimeLibs.map ('l' :: ·)) ++ (v.aliases.map (fun a => 'A' :: aliasName e full a) ++
    (v.sets.map ('s' :: ·) ++ (v.categories.map ('T' :: ·) ++ v.conflicts.map ('o' :: ·))))

/-- `add_meta_to_archive`, /repo/scripts/pkgmk.in:743-879: the lines of `.META`. -/
def metaLines (e : MetaEnv) (v : MetaVars) (full : Str) : Option (List Str) := (metaDeps e v full).map (· ++ metaTail e v full)

end Cards
