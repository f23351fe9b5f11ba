import Verif.Model.Base
/-!
# What the packages of a port are to hold

Independent of the model: the directories of the groups, and which package a file belongs to.
-/
namespace Cards.Spec
open Cards

/-- `p` is a path below `d`. -/
def Below (d p : List Str) : Prop := ∃ x r, p = d ++ x :: r

/-- `usr`, or a directory in `opt` that is not hidden. -/
inductive Home : List Str → Prop
  | usr : Home ["usr".toList]
  | opt (x : Str) : x.head? ≠ some '.' → Home ["opt".toList, x]

/-- The directories of a group, below `usr` and the directories in `opt`. -/
def homeDirs (g : Str) : List (List Str) :=
  if g = "devel".toList then
    [["include".toList], ["lib".toList, "pkgconfig".toList], ["share".toList, "pkgconfig".toList], ["lib".toList, "cmake".toList],
     ["lib".toList, "qt6".toList, "mkspecs".toList], ["lib".toList, "qt6".toList, "metatypes".toList]]
  else if g = "doc".toList then [["share".toList, "doc".toList], ["share".toList, "gtk-doc".toList]]
  else if g = "man".toList then [["share".toList, "info".toList], ["share".toList, "man".toList]]
  else if g = "lib".toList then [["lib".toList], ["lib64".toList]]
  else []

/-- The path is one of the group. -/
def InGroup (g : Str) (p : List Str) : Prop :=
  (∃ h s, Home h ∧ s ∈ homeDirs g ∧ Below (h ++ s) p) ∨
  (g = "service".toList ∧ (Below ["usr".toList, "lib".toList, "systemd".toList, "system".toList] p ∨
    Below ["usr".toList, "lib".toList, "systemd".toList, "user".toList] p))

/-- `x` is the first of the list for which `P` holds. -/
def FirstIn (P : Str → Prop) (l : List Str) (x : Str) : Prop := ∃ a b, l = a ++ x :: b ∧ P x ∧ ∀ y ∈ a, ¬ P y

/-- The files of `pkg-config` in the directories of the libraries. -/
def LibPkgconfig (p : List Str) : Prop :=
  ∃ h, Home h ∧ (Below (h ++ ["lib".toList, "pkgconfig".toList]) p ∨ Below (h ++ ["lib64".toList, "pkgconfig".toList]) p)

/-- The path is in the directory of the translations into the language `x`. -/
def Translation (x : Str) (p : List Str) : Prop := ∃ h, Home h ∧ Below (h ++ ["share".toList, "locale".toList, x]) p

/-- The path is in the directory of all translations. -/
def InLocale (p : List Str) : Prop := ∃ h, Home h ∧ Below (h ++ ["share".toList, "locale".toList]) p

/-- The package a file goes to: `some g` for the sub-package `g`, `some []` for the main package, `none` for nowhere. -/
inductive Dest (groups locales : List Str) (keepLa : Bool) (p : List Str) : Option Str → Prop
  | group (g : Str) : FirstIn (InGroup · p) groups g → (g = "lib".toList → ¬ LibPkgconfig p) → Dest groups locales keepLa p (some g)
  | lost : FirstIn (InGroup · p) groups "lib".toList → LibPkgconfig p → Dest groups locales keepLa p none
  | locale (l : Str) : (∀ g ∈ groups, ¬ InGroup g p) → FirstIn (fun l => ∃ x, l <+: x ∧ Translation x p) locales l → Dest groups locales keepLa p (some l)
  | noLocale : (∀ g ∈ groups, ¬ InGroup g p) → InLocale p → (∀ l ∈ locales, ¬ ∃ x, l <+: x ∧ Translation x p) → Dest groups locales keepLa p none
  | la : (∀ g ∈ groups, ¬ InGroup g p) → ¬ InLocale p → keepLa = false → ".la".toList <:+ p.getLast?.getD [] → Dest groups locales keepLa p none
  | hidden (x : Str) (r : List Str) : p = x :: r → x.head? = some '.' → Dest groups locales keepLa p none
  | main (x : Str) (r : List Str) : (∀ g ∈ groups, ¬ InGroup g p) → ¬ InLocale p → (keepLa = true ∨ ¬ ".la".toList <:+ p.getLast?.getD []) → p = x :: r →
      x.head? ≠ some '.' → Dest groups locales keepLa p (some [])

end Cards.Spec
