import Verif.Model.Repo
/-!
# What `.REPO` should mean

Independent of the reading loop: which lines a package description has, and what a repository entry must say about it.
-/
namespace Cards

/-- The description of the package has the field `c` with value `v`. -/
def Rec.Has (r : Rec) (c : Char) (v : Str) : Prop := (c :: v) ∈ r.md

/-- The letters of the fields a package has at most once. -/
def singleFields : List Char := "NVrSaDUCMPLBcgn".toList

/-- A package description as pkgmk writes it: no empty line, no line that looks like a file name or like the three lines `cards repo` adds, a file name with
`.cards-`, a name, no field twice, a release number below 65536, a collection that is not the empty word, dependencies with ten-digit build dates. -/
structure RecOk (r : Rec) : Prop where
  lines : ∀ l ∈ r.md, ∃ c v, l = c :: v ∧ c ≠ '@' ∧ c ≠ 'H' ∧ c ≠ 'I' ∧ c ≠ 'i'
  file : ∃ a b, r.file = a ++ ".cards-".toList ++ b
  name : ∃ n, r.Has 'N' n
  single : ∀ c ∈ singleFields, ∀ v w, r.Has c v → r.Has c w → v = w
  release : ∀ v, r.Has 'r' v → ∃ n < 65536, v = dec n
  collection : ¬ r.Has 'c' []
  deps : ∀ v, r.Has 'R' v → ∃ n t, v = n ++ dec t ∧ 10 ^ 9 ≤ t ∧ t < 10 ^ 10

/-- The description is that of the sub-package `g` (a group or a language) of the package `b`, as pkgmk writes it: it begins with the name `b.g`, and says once
which group or language it is. -/
structure Rec.SubOf (r : Rec) (b g : Str) : Prop where
  first : ∃ rest, r.md = ('N' :: (b ++ '.' :: g)) :: rest
  says : r.Has 'g' g ∨ r.Has 'n' g
  once : ∀ v, r.Has 'g' v ∨ r.Has 'n' v → v = g

/-- The repository entry `p` says about the package file what its description says: every field the description has, and the sets of values exactly.
Dependencies whose name has less than four characters are exempt (see C26). -/
structure Describes (p : RepoPkg) (r : Rec) (c : Coll) : Prop where
  file : p.fileName = r.file
  dir : p.dirName = c.dir ++ '/' :: c.name
  origin : p.origin = c.origin
  version : ∀ v, r.Has 'V' v → p.version = v
  release : ∀ n, n < 65536 → r.Has 'r' (dec n) → p.release = n
  space : ∀ n, n < 2 ^ 31 → r.Has 'S' (dec n) → p.space = n
  arch : ∀ v, r.Has 'a' v → p.arch = v
  description : ∀ v, r.Has 'D' v → p.description = v
  url : ∀ v, r.Has 'U' v → p.url = v
  contributors : ∀ v, r.Has 'C' v → p.contributors = v
  maintainer : ∀ v, r.Has 'M' v → p.maintainer = v
  packager : ∀ v, r.Has 'P' v → p.packager = v
  license : ∀ v, r.Has 'L' v → p.license = v
  build : ∀ n, 0 < n → n < 2 ^ 64 → r.Has 'B' (dec n) → p.build = n
  collection : ∀ v, r.Has 'c' v → p.collection = v
  hash : p.hash = r.hash
  signature : p.signature = r.sign
  size : r.size < 2 ^ 31 → p.size = r.size
  group : ∀ v, r.Has 'g' v → p.group = v
  noGroup : (∀ v, ¬ r.Has 'g' v) → p.group = []
  nls : ∀ v, r.Has 'n' v → p.nls = v
  noNls : (∀ v, ¬ r.Has 'n' v) → p.nls = []
  sets : ∀ x, x ∈ p.sets ↔ r.Has 's' x
  aliases : ∀ x, x ∈ p.aliases ↔ r.Has 'A' x
  conflicts : ∀ x, x ∈ p.conflicts ↔ r.Has 'o' x
  base : ∀ b g, r.SubOf b g → p.baseName = b
  noBase : (∀ v, ¬ r.Has 'g' v ∧ ¬ r.Has 'n' v) → p.baseName = []
  deps : ∀ n t, 10 ^ 9 ≤ t → t < 10 ^ 10 → ((n, t) ∈ p.deps ↔ r.Has 'R' (n ++ dec t) ∧ 4 ≤ n.length)

end Cards
