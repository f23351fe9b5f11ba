import Verif.Model.LibCheck
/-!
# What the library check of `cards create` looks for
-/
namespace Cards.Spec

/-- The text `pat` occurs in `s`. -/
def Occurs (pat s : Str) : Prop := ∃ a b, s = a ++ pat ++ b

/-- A file is known, in a dependency of `own`, in `own` itself or among the installed ones, whose path contains the name. -/
def Shipped (m : LibRepo) (inst : List Str) (own lib : Str) : Prop :=
  (∃ d ∈ (m.pkg own).deps, ∃ f ∈ (m.pkg d).files, Occurs ('/' :: lib) f)
  ∨ (∃ f ∈ inst, Occurs lib f)
  ∨ (∃ f ∈ (m.pkg own).files, Occurs lib f)

/-- A port of a lower level, or its `.lib` package, needs the same library. -/
def NeededBelow (T : Ports) (m : LibRepo) (lvl : Nat) (lib : Str) : Prop :=
  ∃ p ∈ T, p.2.level < lvl ∧ (mget m p.1).isSome ∧ (lib ∈ (m.pkg p.1).libs ∨ lib ∈ (m.pkg (libName p.1)).libs)

/-- What passes for a proof that a library is there. -/
def Traced (T : Ports) (m : LibRepo) (inst : List Str) (own : Str) (lvl : Nat) (lib : Str) : Prop :=
  Shipped m inst own lib ∨ NeededBelow T m lvl lib

end Cards.Spec
