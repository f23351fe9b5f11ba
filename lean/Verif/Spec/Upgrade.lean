import Verif.Model.Upgrade
import Verif.Spec.Resolve
/-!
# What cards diff and cards upgrade have to find
-/
namespace Cards

/-- How the installed package `n` with record `i` compares to the repository. -/
def Standing (db : InstDb) (repo : List (Str × RepoPkg)) (n : Str) (i : Inst) : UpgStatus → Prop
  | .ok => ∃ p, mget repo n = some p ∧ Satisfied db (n, p.build)
  | .newBuild => ∃ p, mget repo n = some p ∧ ¬ Satisfied db (n, p.build) ∧ i.version = p.version ∧ i.release = p.release
  | .outOfDate => ∃ p, mget repo n = some p ∧ ¬ Satisfied db (n, p.build) ∧ ¬ (i.version = p.version ∧ i.release = p.release)
  | .obsolete => mget repo n = none ∧ i.dependency = true
  | .unmaintained => mget repo n = none ∧ i.dependency = false

/-- `n` is in the repository, there built at `t`, and not installed with a build as new. (A date 0 stands for an unknown date: as new as nothing.) -/
def NewerInRepo (db : InstDb) (repo : List (Str × RepoPkg)) (n : Str) (t : Nat) : Prop :=
  ∃ p, mget repo n = some p ∧ p.build = t ∧ (t = 0 ∨ ∀ i, mget db n = some i → i.build < t)

/-- `n` is the sub-package of an installed (main) package for one of the configured groups. -/
def GroupOfInstalled (db : InstDb) (groups : List Str) (n : Str) : Prop :=
  ∃ base i g, (base, i) ∈ db ∧ i.group = [] ∧ g ∈ groups ∧ n = base ++ '.' :: g

/-- `(n, t)` has to be updated. -/
def ToUpdate (db : InstDb) (repo : List (Str × RepoPkg)) (groups : List Str) (n : Str) (t : Nat) : Prop :=
  NewerInRepo db repo n t ∧ (n ∈ keys db ∨ GroupOfInstalled db groups n)

/-- `n` has to be deleted. -/
def ToDelete (db : InstDb) (repo : List (Str × RepoPkg)) (n : Str) : Prop :=
  ∃ i, (n, i) ∈ db ∧ i.dependency = true ∧ mget repo n = none

end Cards
