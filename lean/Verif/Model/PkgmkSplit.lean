import Verif.Model.Base
/-!
# `pkgmk`: how the files of a build are shared out among the packages of the port (/repo/scripts/pkgmk.in)

The build has put everything below `$PKG`. A path is the list of its components. Simplifications: groups and languages for which the Pkgfile brings its own
function (lines 985-995, 1022-1032) are not covered here; the directories in `opt` have names that the shell takes as one plain word (the script does not quote
them); no directory `pkgconfig` stands directly in `$PKG` and no directory is a symbolic link to a directory; `bsdtar` and `rm` succeed.
-/
namespace Cards

/-- Something below `$PKG`. -/
structure PEnt where
  path : List Str
  dir : Bool
deriving DecidableEq, Repr

/-- What is at `d` and below it: what `bsdtar -r … d` stores and `rm -r d` removes. -/
def PEnt.under (d : List Str) (e : PEnt) : Bool := d.isPrefixOf e.path

/-- `[ -d d ]` in `$PKG`. -/
def isDirAt (t : List PEnt) (d : List Str) : Bool := t.any (fun e => e.under d && (e.dir || decide (e.path ≠ d)))

/-- The files of `$PKG` and the archives made so far, by what stands behind the name of the port (`[]`: the main package). -/
structure PackSt where
  tree : List PEnt
  arch : List (Str × List PEnt)
deriving DecidableEq, Repr

/-- The content of an archive. -/
def PackSt.get (s : PackSt) (a : Str) : List PEnt := (mget s.arch a).getD []

/-- `bsdtar -r -f archive …`: appends. -/
def PackSt.put (s : PackSt) (a : Str) (es : List PEnt) : PackSt := { s with arch := mset a (s.get a ++ es) s.arch }

/-- `[ -d d ] && bsdtar -r -f archive d`, e.g. /repo/scripts/pkgmk.in:556-561. -/
def packDir (a : Str) (s : PackSt) (d : List Str) : PackSt :=
  if isDirAt s.tree d then s.put a (s.tree.filter (·.under d)) else s

/-- `[ -d d ] && rm -r d`, e.g. /repo/scripts/pkgmk.in:569-571. -/
def rmDir (s : PackSt) (d : List Str) : PackSt :=
  if isDirAt s.tree d then { s with tree := s.tree.filter (fun e => !e.under d) } else s

/-- Packing and removing at once, as `pack_devel` does, /repo/scripts/pkgmk.in:530-537. -/
def packRmDir (a : Str) (s : PackSt) (d : List Str) : PackSt := rmDir (packDir a s d) d

/-- `opt/*`: the names in `opt` that are not hidden, in order. -/
def optNames (t : List PEnt) : List Str :=
  sofList (t.filterMap (fun e =>
    match e.path with
    | o :: x :: _ => if o = "opt".toList ∧ x.head? ≠ some '.' then some x else none
    | _ => none))

/-- `usr opt/*`. -/
def prefixes (t : List PEnt) : List (List Str) := ["usr".toList] :: (optNames t).map (fun x => ["opt".toList, x])

/-- The directories of the sub-package `devel`, /repo/scripts/pkgmk.in:527-529. -/
def develSubs : List (List Str) :=
  [["include".toList], ["lib".toList, "pkgconfig".toList], ["share".toList, "pkgconfig".toList], ["lib".toList, "cmake".toList],
   ["lib".toList, "qt6".toList, "mkspecs".toList], ["lib".toList, "qt6".toList, "metatypes".toList]]

/-- Those of `doc`, 554-555. -/
def docSubs : List (List Str) := [["share".toList, "doc".toList], ["share".toList, "gtk-doc".toList]]

/-- Those of `man`, 577-578. -/
def manSubs : List (List Str) := [["share".toList, "info".toList], ["share".toList, "man".toList]]

/-- Those of `lib`, 496-497. -/
def libSubs : List (List Str) := [["lib".toList], ["lib64".toList]]

/-- Those of `service`, 600. -/
def serviceDirs : List (List Str) :=
  [["usr".toList, "lib".toList, "systemd".toList, "system".toList], ["usr".toList, "lib".toList, "systemd".toList, "user".toList]]

/-- `for DIR in usr opt/*; do for SUBDIR in …`: the list is computed once, at the start of the loop. -/
def loopDirs (t : List PEnt) (subs : List (List Str)) : List (List Str) := (prefixes t).flatMap (fun p => subs.map (p ++ ·))

/-- One directory of `pack_lib`, /repo/scripts/pkgmk.in:498-511: `pkgconfig` is put aside, the rest packed and removed, and `pkgconfig` put back. -/
def packLibDir (a : Str) (s : PackSt) (d : List Str) : PackSt :=
  if isDirAt s.tree d then
    let keep := if isDirAt s.tree (d ++ ["pkgconfig".toList]) then s.tree.filter (·.under (d ++ ["pkgconfig".toList])) else []
    let s' := s.put a ((s.tree.filter (·.under d)).filter (fun e => e ∉ keep))
    { s' with tree := s.tree.filter (fun e => !e.under d) ++ (if keep = [] then [] else ⟨d, true⟩ :: keep) }
  else s

/-- `pack_<group>` and then `remove_<group>`, /repo/scripts/pkgmk.in:494-617, 997-1003. A group without such functions does nothing. -/
def packGroup (s : PackSt) (g : Str) : PackSt :=
  if g = "devel".toList then
    let s := (loopDirs s.tree develSubs).foldl (packRmDir g) s
    (loopDirs s.tree develSubs).foldl rmDir s
  else if g = "doc".toList then
    let s := (loopDirs s.tree docSubs).foldl (packDir g) s
    (loopDirs s.tree docSubs).foldl rmDir s
  else if g = "man".toList then
    let s := (loopDirs s.tree manSubs).foldl (packDir g) s
    (loopDirs s.tree manSubs).foldl rmDir s
  else if g = "lib".toList then
    let s := (loopDirs s.tree libSubs).foldl (packLibDir g) s
    (loopDirs s.tree libSubs).foldl rmDir s
  else if g = "service".toList then
    let s := serviceDirs.foldl (packDir g) s
    let s := serviceDirs.foldl rmDir s
    -- `rm -d usr/lib/systemd`: only when it is empty
    { s with tree := s.tree.filter (fun e => !(e.dir && e.path = ["usr".toList, "lib".toList, "systemd".toList] &&
        s.tree.all (fun f => !f.under e.path || f.path = e.path))) }
  else s

/-- `usr/share/locale/l* opt/*/share/locale/l*`, /repo/scripts/pkgmk.in:1034; the name of a language is not empty and does not begin with a point. -/
def localeDirs (t : List PEnt) (l : Str) : List (List Str) :=
  (prefixes t).flatMap (fun p => (sofList (t.filterMap (fun e =>
    match e.path.drop p.length with
    | s :: c :: x :: _ => if p.isPrefixOf e.path ∧ s = "share".toList ∧ c = "locale".toList ∧ l.isPrefixOf x then some x else none
    | _ => none))).map (fun x => p ++ ["share".toList, "locale".toList, x]))

/-- The translations of one language, /repo/scripts/pkgmk.in:1034-1042. -/
def packLocale (s : PackSt) (l : Str) : PackSt := (localeDirs s.tree l).foldl (packRmDir l) s

/-- `for DIR in usr/share/locale opt/*/share/locale; rm -rf`, /repo/scripts/pkgmk.in:1045-1049. -/
def dropLocales (s : PackSt) : PackSt :=
  ((prefixes s.tree).map (· ++ ["share".toList, "locale".toList])).foldl rmDir s

/-- `*.la`. -/
def isLa (e : PEnt) : Bool := !e.dir && ".la".toList.isSuffixOf (e.path.getLast?.getD [])

/-- `check_build`, /repo/scripts/pkgmk.in:1220-1240: libtool archives are removed; `none`: the build is given up because of `usr/sbin` or `sbin`. -/
def checkBuild (keepLa : Bool) (s : PackSt) : Option PackSt :=
  let s := if keepLa then s else { s with tree := s.tree.filter (fun e => !isLa e) }
  if isDirAt s.tree ["usr".toList, "sbin".toList] || isDirAt s.tree ["sbin".toList] then none else some s

/-- `bsdtar -r -f … *`: what is not hidden in `$PKG`, /repo/scripts/pkgmk.in:1056. -/
def packMain (s : PackSt) : PackSt :=
  s.put [] (s.tree.filter (fun e => match e.path with | x :: _ => x.head? ≠ some '.' | [] => false))

/-- The packages of the port, /repo/scripts/pkgmk.in:984-1056: `none` when nothing is left for the main package or `check_build` gives up. -/
def splitPackages (groups locales : List Str) (keepLa : Bool) (tree : List PEnt) : Option (List (Str × List PEnt)) :=
  let s := groups.foldl packGroup ⟨tree, []⟩
  let s := locales.foldl packLocale s
  match checkBuild keepLa (dropLocales s) with
  | none => none
  | some s =>
    if s.tree.any (fun e => match e.path with | x :: _ => x.head? ≠ some '.' | [] => false) then some (packMain s).arch else none

end Cards
