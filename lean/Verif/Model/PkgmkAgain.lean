import Verif.Model.PkgmkSplit
/-!
# `pkgmk --pack-only`: packing again what was built before

/repo/scripts/pkgmk.in:485-493 (the work directory is kept), 926, 967-1056.
-/
namespace Cards

/-- What is in `$PKG` when the packages are made: /repo/scripts/pkgmk.in:984-1055; the main package is packed from it, nothing is put back. -/
def leftTree (groups locales : List Str) (keepLa : Bool) (tree : List PEnt) : Option (List PEnt) :=
  (checkBuild keepLa (dropLocales (locales.foldl packLocale (groups.foldl packGroup ⟨tree, []⟩)))).map (·.tree)

/-- A build with `--keep-work`, and then `--pack-only`: the packages of the first run and those of the second one; the first ones are removed before
(`clean_old_binaries`, /repo/scripts/pkgmk.in:970, 1241-1248). -/
def packTwice (groups locales : List Str) (keepLa : Bool) (tree : List PEnt) : Option (List (Str × List PEnt) × List (Str × List PEnt)) :=
  match splitPackages groups locales keepLa tree, leftTree groups locales keepLa tree with
  | some a, some t => (splitPackages groups locales keepLa t).map (a, ·)
  | _, _ => none

end Cards
