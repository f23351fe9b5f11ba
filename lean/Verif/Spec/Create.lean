import Verif.Model.Create
import Verif.Spec.Ports
import Verif.Spec.Install
/-!
# Vocabulary for cards create
-/
namespace Cards.Spec
open Cards

/-- The record of a package says that it belongs to the set `chroot` or to the set `devel`. -/
def InBaseSet (i : Info) : Prop := 's' :: "chroot".toList ∈ i.md ∨ 's' :: "devel".toList ∈ i.md

/-- `x` is the first META line of the archive with the letter, without the letter; empty without such a line. -/
def FirstLine (a : Archive) (c : Char) (x : Str) : Prop :=
  (∃ pre post, a.md = pre ++ (c :: x) :: post ∧ ∀ l ∈ pre, l.head? ≠ some c) ∨ (x = [] ∧ ∀ l ∈ a.md, l.head? ≠ some c)

/-- A main package, or one whose group is a group of the configuration. -/
def GroupWanted (groups : List Str) (a : Archive) : Prop :=
  (FirstLine a 'g' [] ∧ FirstLine a 'n' []) ∨ ∃ g ∈ groups, FirstLine a 'g' g

/-- Port `d` is, directly or not, among the dependencies of port `n`. -/
def PortDependsOn (T : Ports) (n d : Str) : Prop := Relation.ReflTransGen (Declares T) n d ∧ d ≠ n

/-- `a` is the content of a package file the lists of binaries offer for the name `d`: the package of that name, which is listed, or one of its
sub-packages. -/
def OfferedFor (pkgOf : Str → Option Archive) (repo : List (Str × RepoPkg)) (files : List (Str × Str)) (d : Str) (a : Archive) : Prop :=
  ∃ b, mget repo d = some b ∧ ∃ p, (p = b ∨ ∃ k, (k, p) ∈ repo ∧ p.baseName = d) ∧ ∃ c, mget files p.path = some c ∧ pkgOf c = some a

end Cards.Spec
