import Verif.Model.Ports
import Verif.Lemmas.Base
import Mathlib.Logic.Relation
/-!
# What the user means by the dependencies of a port
-/
namespace Cards

/-- A dependency `d` written in a Pkgfile is read as the port `b`: the port itself, or the sub-package `b.group`. -/
def Names (d b : Str) : Prop := (d = b ∧ '.' ∉ b) ∨ ∃ g, '.' ∉ g ∧ d = b ++ '.' :: g

/-- The Pkgfile of `a` lists `d` among its dependencies. -/
def Declares (T : Ports) (a d : Str) : Prop := ∃ p, (a, p) ∈ T ∧ d ∈ p.deps

/-- The port `a` needs the other port `b` of the tree. -/
def Needs (T : Ports) (a b : Str) : Prop := a ≠ b ∧ b ∈ keys T ∧ ∃ d, Declares T a d ∧ Names d b

/-- No cycle of needs can be reached from `a`. -/
def CycleFree (T : Ports) (a : Str) : Prop :=
  ¬ ∃ c, Relation.ReflTransGen (Needs T) a c ∧ Relation.TransGen (Needs T) c c

/-- A tree as read from the Pkgfiles: names and indexes are distinct, the counters have their initial values. -/
structure FreshPorts (T : Ports) : Prop where
  sorted : Sorted (keys T)
  distinct : T.Pairwise (fun p q => p.2.index ≠ q.2.index)
  decount : ∀ p ∈ T, p.2.decount = 0
  decrement : ∀ p ∈ T, p.2.decrement = 0
  level : ∀ p ∈ T, p.2.level = 0

end Cards
