import Verif.Model.Conf
import Verif.Model.Pkgfile
import Verif.Model.LineFile
import Verif.Model.MybldClean
/-!
# mybld: its cards.conf, which ports it takes, new ports and commits (/repo/scripts/mybld.in)

Not modelled: words that hold blanks or characters with a meaning for the shell or for grep; the editor started on a new port; the settings of `~/.mybld` other than `COLLECTIONS`.
-/
namespace Cards

/-- `${COLLECTION%-extra}`, /repo/scripts/mybld.in:508. -/
def stripExtra (c : Str) : Str := if "-extra".toList.isSuffixOf c then c.take (c.length - 6) else c

/-- The loop over the collections, /repo/scripts/mybld.in:517-537: the flag is `FOUND`. -/
def confLoop (coll : Str) : Bool → List Str → List Str
  | _, [] => []
  | found, i :: is =>
    if i = [] then confLoop coll found is
    else if found then ("collection ".toList ++ i) :: confLoop coll true is
    else if coll = i ++ "-extra".toList then ("collection ".toList ++ (i ++ "-extra".toList)) :: ("collection ".toList ++ i) :: confLoop coll true is
    else if coll = i then ("collection ".toList ++ i) :: confLoop coll true is
    else confLoop coll false is

/-- `setup_cards_conf`, /repo/scripts/mybld.in:503-540, as lines: `colls` is `COLLECTIONS`. -/
def mybldConf (coll : Str) (colls : List Str) : List Str :=
  "group devel".toList :: "group lib".toList :: "depot /DEPOT".toList ::
    (confLoop coll false ((if stripExtra coll ∈ colls then [] else stripExtra coll) :: colls) ++ ["logdir /LOGS".toList])

/-- A port as mybld sees it: its directory, what `. Pkgfile` sets, and the lines of its Pkgfile. -/
structure BldPort where
  dir : Str
  version : Str
  sets : List Str
  lines : List Str
deriving DecidableEq

/-- The git project: the directories that hold ports, in the order of `*`, with their ports in the order of `*`; the names of all directories below. -/
structure BldGit where
  colls : List (Str × List BldPort)
  dirs : List Str

/-- `base cli cli-extra gui gui-extra`, /repo/scripts/mybld.in:406, 431. -/
def bldCollections : List Str := ["base".toList, "cli".toList, "cli-extra".toList, "gui".toList, "gui-extra".toList]

/-- The ports of `$c/*/Pkgfile`. -/
def BldGit.ports (g : BldGit) (c : Str) : List BldPort := ((g.colls.find? (fun e => e.1 = c)).map (·.2)).getD []

/-- The first collection with a port taken by `want`, and what is taken from it, /repo/scripts/mybld.in:404-426 and 428-445: the search ends there. -/
def myFirst (g : BldGit) (want : BldPort → List Str) : List Str → Option (Str × List Str)
  | [] => none
  | c :: cs => if (g.ports c).flatMap want = [] then myFirst g want cs else some (c, (g.ports c).flatMap want)

/-- `[ $version == "$x" ]`, /repo/scripts/mybld.in:436-439: an empty version is an error of `[`, not a match. -/
def wantVersion (x : Str) (p : BldPort) : List Str := if p.version ≠ [] ∧ p.version = x then [p.dir] else []

/-- `find_version`, /repo/scripts/mybld.in:428-445. -/
def findVersion (g : BldGit) (x : Str) : Option (Str × List Str) := myFirst g (wantVersion x) bldCollections

/-- The port once for each time its `set` names `x`, /repo/scripts/mybld.in:410-420. -/
def wantSet (x : Str) (p : BldPort) : List Str := (p.sets.filter (fun s => s = x)).map (fun _ => p.dir)

/-- `find_set`, /repo/scripts/mybld.in:404-426. -/
def findSet (g : BldGit) (x : Str) : Option (Str × List Str) := myFirst g (wantSet x) bldCollections

/-- A character of a word, for `grep -w`. -/
def wordChar (c : Char) : Bool := c.isAlphanum || c = '_'

/-- `grep -w name=X$` on a line, /repo/scripts/mybld.in:459: the line ends in the text, and no character of a word stands before it. -/
def nameLine (x l : Str) : Bool :=
  "name=".toList ++ x == l.drop (l.length - (5 + x.length)) && ((l.take (l.length - (5 + x.length))).getLast?.map wordChar != some true)

/-- What mybld works on: a list of ports of a collection, one port, or a whole collection. -/
inductive BldTarget where
  | ports (coll : Str) (dirs : List Str)
  | port (coll dir : Str)
  | collection (coll : Str)
deriving DecidableEq

/-- `find_collection`, /repo/scripts/mybld.in:457-470: the first Pkgfile with a line `name=X` gives the collection; otherwise a directory called `X` is taken for a collection. -/
def findCollection (g : BldGit) (x : Str) : Option BldTarget :=
  match g.colls.find? (fun e => e.2.any (fun p => p.lines.any (nameLine x))) with
  | some e => some (.port e.1 x)
  | none => if x ∈ g.dirs then some (.collection x) else none

/-- What `mybld X` (`two`: `mybld X VERSION`) works on, /repo/scripts/mybld.in:596-632; `none`: it ends with an error. -/
def mybldTarget (g : BldGit) (two : Bool) (x : Str) : Option BldTarget :=
  match (if two then (findVersion g x).or (findSet g x) else none) with
  | some (c, l) => some (.ports c l)
  | none =>
    match findCollection g x with
    | some t => some t
    | none => (findSet g x).map (fun r => .ports r.1 r.2)

/-- `cut -d '/' -f1` and `-f2`, /repo/scripts/mybld.in:246-247: without the separator both give the whole text. -/
def cutTwo (s : Str) : Str × Str :=
  if '/' ∈ s then (s.takeWhile (fun c => c ≠ '/'), ((s.dropWhile (fun c => c ≠ '/')).drop 1).takeWhile (fun c => c ≠ '/')) else (s, s)

/-- The Pkgfile of a new port, /repo/scripts/mybld.in:104-124. -/
def newPkgfile (user email name version descr url source : Str) : List Str :=
  ["description='".toList ++ descr ++ "'".toList, "url='".toList ++ url ++ "'".toList, [], "packager=\"".toList ++ user ++ " <".toList ++ email ++ ">\"".toList, "contributors=\"\"".toList, [],
   "makedepends=()".toList, "run=()".toList, "set=()".toList, [], "name=".toList ++ name, "version=".toList ++ version, [], "source=(".toList ++ source ++ ")".toList, [],
   "build() {".toList, "cd $name-$version".toList, "./configure --prefix=/usr".toList, "make".toList, "make DESTDIR=$PKG install".toList, "}".toList]

/-- `mybld --new COLLECTION/NAME VERSION DESCRIPTION URL SOURCE`, /repo/scripts/mybld.in:78-126, 244-258: the place and the text of the new Pkgfile, or an error. `isColl`: the
directory is there; `has`: the port has a Pkgfile. -/
def mybldNew (isColl : Str → Bool) (has : Str → Str → Bool) (user email place version descr url source : Str) : Option ((Str × Str) × Str) :=
  let p := cutTwo place
  if has p.1 p.2 then none
  else if !isColl p.1 then none
  else if user = [] then none
  else if email = [] then none
  else some (p, writeList (newPkgfile user email p.2 version descr url source))

/-- The git repository: the paths there are, the content of each in the last commit, in the index and in the working tree, and the messages of the commits. -/
structure GitRepo where
  paths : List CPath
  head : CPath → Option Str
  index : CPath → Option Str
  work : CPath → Option Str
  log : List Str

/-- `git add DIR`. -/
def gitAdd (d : CPath) (g : GitRepo) : GitRepo := { g with index := fun p => if d.isPrefixOf p then g.work p else g.index p }

/-- `git commit -m MESSAGE`: an error when nothing is staged. -/
def gitCommit (m : Str) (g : GitRepo) : Bool × GitRepo :=
  if g.paths.all (fun p => g.index p == g.head p) then (false, g) else (true, { g with head := g.index, log := m :: g.log })

/-- What `. Pkgfile` sets. -/
structure MyVars where
  name : Str
  version : Str
  release : Str
deriving DecidableEq

/-- `commit DIR COMMENT`, /repo/scripts/mybld.in:127-145: `vars` is `none` when there is no Pkgfile, the release is 1 when it sets none. The flag is the status of the function. -/
def mybldCommitFn (d : CPath) (vars : Option MyVars) (comment : Str) (g : GitRepo) : Bool × GitRepo :=
  match vars with
  | none => (true, g)
  | some v =>
    if v.version = [] then (false, g)
    else
      let name := if v.name = [] then d.getLast?.getD [] else v.name
      gitCommit (name ++ ' ' :: v.version ++ '-' :: v.release ++ (if comment = [] then [] else '\n' :: comment)) (gitAdd d g)

/-- `mybld --commit DIR COMMENT`, /repo/scripts/mybld.in:239-242: `commit "$@"; exit 0`. -/
def mybldCommit (d : CPath) (vars : Option MyVars) (comment : Str) (g : GitRepo) : Bool × GitRepo := (true, (mybldCommitFn d vars comment g).2)

end Cards
