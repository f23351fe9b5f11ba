import Verif.Spec.Trans
import Mathlib.Logic.Relation
/-!
# Specification vocabulary for cards remove
-/
namespace Cards.Spec
open Cards

/-- The record lists a runtime dependency on `b`: a META line `R<b><epoch>` with an epoch of ten characters. -/
def ListsDep (i : Info) (b : Str) : Prop := ∃ e : Str, e.length = 10 ∧ 'R' :: b ++ e ∈ i.md

/-- Every dependency line is long enough to hold an epoch. -/
def DepLinesOk (db : Db) : Prop := ∀ p ∈ db, ∀ l ∈ p.2.md, l.head? = some 'R' → 11 ≤ l.length

/-- Installed package `a` lists `b` as runtime dependency. -/
def DependsOn (db : Db) (a b : Str) : Prop := ∃ i, (a, i) ∈ db ∧ ListsDep i b

/-- `n` is installed and not marked as automatically installed. -/
def ByHand (db : Db) (n : Str) : Prop := ∃ i, (n, i) ∈ db ∧ "d1".toList ∉ i.md

/-- `n` is reachable through recorded runtime dependencies from a package installed by hand. -/
def Needed (db : Db) (n : Str) : Prop := ∃ r, ByHand db r ∧ Relation.ReflTransGen (DependsOn db) r n

/-- The database without some packages. -/
def without (db : Db) (ns : List Str) : Db := db.filter (fun p => p.1 ∉ ns)

/-- The package belongs to the given collection: a META line `c...` says so and no other one names a collection. -/
def InCollection (i : Info) (c : Str) : Prop := 'c' :: c ∈ i.md ∧ ∀ l ∈ i.md, l.head? = some 'c' → l = 'c' :: c

/-- The record declares the alias `a`. -/
def HasAlias (i : Info) (a : Str) : Prop := 'A' :: a ∈ i.md

/-- The record has at most one line with field letter `c`. -/
def OneField (i : Info) (c : Char) : Prop := ∀ x y : Str, c :: x ∈ i.md → c :: y ∈ i.md → x = y

end Cards.Spec
