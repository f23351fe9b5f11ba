import Verif.Model.Resolve
import Mathlib.Logic.Relation
/-!
# What resolving the dependencies of a package means
-/
namespace Cards

/-- The dependency `d` (a name and a build date) is fulfilled: the date is known and the package is installed, not built before it. -/
def Satisfied (db : InstDb) (d : Str × Nat) : Prop := d.2 ≠ 0 ∧ ∃ i, mget db d.1 = some i ∧ d.2 ≤ i.build

/-- The installed packages make the archive superfluous. -/
def Current (db : InstDb) (a : ArchMeta) : Prop :=
  ∃ i, mget db a.name = some i ∧ i.version = a.version ∧ (i.release : Int) = a.release ∧ a.build ≤ i.build ∧
    (i.collection = [] ∨ a.collection = [] ∨ i.collection = a.collection)

/-- The repository is in order: every file is there (and verified, when that is asked for), is the archive `A n` of the package it is listed as,
and the repository file lists the dependencies of the archive. -/
def InOrder (net : Net) (files : List (Str × Str)) (A : Str → ArchMeta) : Prop :=
  ∀ n p, mget net.repo n = some p → ∃ c, mget files p.path = some c ∧
    (net.url ≠ [] → hashEq (net.hash c) p.hash = true ∧ net.verify p.dirName p.signature (net.hash c) = some true) ∧
    net.opens c = some (A n) ∧ (A n).name = n ∧ ∀ d, d.1 ≠ n → (d ∈ p.deps ↔ d ∈ (A n).deps)

/-- Installing `n` asks for `d`: the archive of `n` is not already installed and lists `d`, which is not fulfilled. -/
def Asks (net : Net) (A : Str → ArchMeta) (n : Str) (d : Str × Nat) : Prop :=
  n ∈ keys net.repo ∧ ¬ Current net.db (A n) ∧ d ∈ (A n).deps ∧ d.1 ≠ n ∧ ¬ Satisfied net.db d

/-- Installing `n` directly leads to installing `m`. -/
def LeadsTo (net : Net) (A : Str → ArchMeta) (n m : Str) : Prop := ∃ t, Asks net A n (m, t)

/-- `m` has to be installed for `root`. -/
def NeededFor (net : Net) (A : Str → ArchMeta) (root m : Str) : Prop := Relation.ReflTransGen (LeadsTo net A) root m

/-- Some package needed for `root` needs itself. -/
def Cyclic (net : Net) (A : Str → ArchMeta) (root : Str) : Prop :=
  ∃ c, NeededFor net A root c ∧ Relation.TransGen (LeadsTo net A) c c

/-- Names occur once, and whatever a package asks for stands before it. -/
def Ordered (net : Net) (A : Str → ArchMeta) (list : List (Str × Nat)) : Prop :=
  (list.map (·.1)).Nodup ∧ ∀ pre n t post, list = pre ++ (n, t) :: post → ∀ d, Asks net A n d → d.1 ∈ pre.map (·.1)

end Cards
