import Verif.Model.Install
import Verif.Spec.Trans
/-!
# Vocabulary for commands that handle several packages
-/
namespace Cards.Spec
open Cards

/-- The database has a record of package `a.name` with the META lines of the archive (apart from the mark of automatically installed packages)
and the files for which `owned` holds. -/
def Recorded (db : Db) (a : Archive) (owned : Str → Prop) : Prop :=
  ∃ i, (a.name, i) ∈ db ∧ (∀ l, l ≠ "d1".toList → (l ∈ i.md ↔ l ∈ a.md)) ∧ ∀ f, f ∈ i.files ↔ owned f

/-- The package files named directly on the command line, in order. -/
def LocalFiles (E : InstEnv) (args : List Str) : List (Option Archive × Bool) :=
  args.filterMap (fun x => if packagesOfSet E.net.repo x = [] ∧ packagesOfCollection E.net.repo x = [] then
    (E.localFile x).map (fun a => (a, false)) else none)

/-- The archive of a listed package: the content of its file. -/
def FileOf (E : InstEnv) (files : List (Str × Str)) (n : Str) : Option Archive :=
  (mget E.net.repo n).bind (fun p => (mget files p.path).bind E.pkgOf)

/-- The package files handled for the resolved list; the flag: pulled in as a dependency. -/
def ListedFiles (E : InstEnv) (sess : RepoSess) : List (Option Archive × Bool) :=
  sess.list.map (fun i => (FileOf E sess.files i.1, decide (0 < i.2)))

end Cards.Spec
