import Verif.Model.Trans
/-!
# Specification vocabulary for package transactions

Stated on plain data (the list of records, the tree), not with the model's helper functions.
-/
namespace Cards.Spec
open Cards

/-- Package `n` is installed. -/
def Installed (db : Db) (n : Str) : Prop := ∃ i, (n, i) ∈ db

/-- Package `n` lists file `f`. -/
def Owns (db : Db) (n f : Str) : Prop := ∃ i, (n, i) ∈ db ∧ f ∈ i.files

/-- `f` is the name of a directory entry: directories are listed with a trailing slash. -/
def IsDirName (f : Str) : Prop := ∃ g, f = g ++ ['/']

/-- No non-directory is listed by two packages. -/
def UniqueOwner (db : Db) : Prop :=
  ∀ n n' f, Owns db n f → Owns db n' f → ¬ IsDirName f → n = n'

/-- Representation invariant of the database (it is a map with ordered keys, and every file list is an ordered set).
Every database read from disk has it, because the tools read into `std::map` and `std::set`. -/
def WF (db : Db) : Prop :=
  (db.map (·.1)).Pairwise (· < ·) ∧ ∀ p ∈ db, p.2.files.Pairwise (· < ·)

/-- In the rule list, `r` is the last rule of event `ev` whose pattern matches `f`. -/
def LastRule (rx : Matcher) (rules : List Rule) (ev : Event) (f : Str) (r : Rule) : Prop :=
  ∃ before after, rules = before ++ r :: after ∧ r.event = ev ∧ rx r.pattern f = true ∧
    ∀ r' ∈ after, r'.event = ev → rx r'.pattern f = false

/-- The rules say not to install `f`. -/
def Excluded (rx : Matcher) (rules : List Rule) (f : Str) : Prop :=
  ∃ r, LastRule rx rules .INSTALL f r ∧ r.action = false

/-- The rules say to keep an existing `f` on upgrade. -/
def Protected (rx : Matcher) (rules : List Rule) (f : Str) : Prop :=
  ∃ r, LastRule rx rules .UPGRADE f r ∧ r.action = false

/-- The files package archive `a` is going to own under the given rules: listed in its MTREE, not a meta (dot) name,
not excluded. -/
def Ships (rx : Matcher) (rules : List Rule) (a : Archive) (f : Str) : Prop :=
  f ∈ a.mtree ∧ f.head? ≠ some '.' ∧ ¬ Excluded rx rules f

/-- Something exists at path name `f` (a regular file cannot be named with a trailing slash). -/
def Present (fs : Fs) (f : Str) : Prop :=
  ∃ n, fs.get (comps f) = some n ∧ (IsDirName f → ∃ m, n = .dir m)

/-- `f` stands in the way of installing package `n`: a non-directory listed by another package or present on disk,
and not listed by an installed version of `n`. -/
def InTheWay (db : Db) (fs : Fs) (n f : Str) : Prop :=
  ¬ IsDirName f ∧ ((∃ n', n' ≠ n ∧ Owns db n' f) ∨ Present fs f) ∧ ¬ Owns db n f

/-- `a/b/c`: the components separated by slashes. -/
def joined : List Str → Str
  | [] => []
  | [c] => c
  | c :: d :: r => c ++ '/' :: joined (d :: r)

/-- `f` is spelled the way archives spell names: one or more non-empty components separated by single slashes, no leading
slash, at most one trailing slash. -/
def PlainName (f : Str) : Prop :=
  ∃ ks : List Str, ks ≠ [] ∧ (∀ k ∈ ks, k ≠ [] ∧ '/' ∉ k) ∧ (f = joined ks ∨ f = joined ks ++ ['/'])

/-- `x` lies strictly inside the directory `d` (component lists). -/
def Inside (x d : List Str) : Prop := ∃ c r, x = d ++ c :: r

/-- A script never touches the node at `k`. -/
def Leaves (script : Fs → Fs) (k : List Str) : Prop := ∀ fs, (script fs).get k = fs.get k

/-- An archive as pkgmk writes them: names are spelled plainly, each path occurs once, a name ends with a slash exactly when
the entry is a directory, nothing lies inside a non-directory, and every name listed in the MTREE has its entry. -/
structure GoodArchive (a : Archive) : Prop where
  plain : ∀ e ∈ a.entries, PlainName e.path
  once : a.entries.Pairwise (fun e e' => comps e.path ≠ comps e'.path)
  kind : ∀ e ∈ a.entries, IsDirName e.path ↔ ∃ m, e.node = .dir m
  leaf : ∀ e ∈ a.entries, ∀ e' ∈ a.entries, Inside (comps e'.path) (comps e.path) → IsDirName e.path
  listed : ∀ f ∈ a.mtree, f.head? ≠ some '.' → ∃ e ∈ a.entries, e.path = f

end Cards.Spec
