import Verif.Model.Strings
/-!
# `pkgmk`: the sources are fetched (/repo/scripts/pkgmk.in:77-85, 203-300)

The directory of the sources, with what is in the files. What the servers send is given. A run can be cut off at every point: the functions give all the states the
directory passes through. Simplification: one program (`curl` or `wget`), which is installed; a download overwrites what is there (`RESUME_OPTS` is never set).
-/
namespace Cards

/-- The directory of the sources. -/
abbrev SrcDir := List (Str × Str)

/-- Does the text end like this? -/
def endsIn (suf s : Str) : Bool := suf.isSuffixOf s

/-- `^(http|https|ftp|file)://.*/(.+)`, /repo/scripts/pkgmk.in:80: what follows the last slash that something follows. `.*` takes as much as it can. -/
def urlName (s : Str) : Option Str :=
  let rest := ["http://", "https://", "ftp://", "file://"].findSome? (fun p => if p.toList.isPrefixOf s then some (s.drop p.toList.length) else none)
  match rest with
  | none => none
  | some r =>
    if '/' ∈ r.dropLast then some ((r.dropLast.reverse.takeWhile (· ≠ '/')).reverse ++ r.getLast?.toList) else none

/-- `get_filename`, /repo/scripts/pkgmk.in:77-85, below the directory of the sources. `git`: `$name.git.tar.xz`. `none`: the source is a file of the port. -/
def srcName (git s : Str) : Option Str := if endsIn "git".toList s then some git else urlName s

/-- One try to fetch: does the program say it has the file, and what has been sent. -/
structure Attempt where
  ok : Bool
  data : Str

/-- The states while a file is written. -/
def writing (f data : Str) (d : SrcDir) : List SrcDir := (List.range (data.length + 1)).map (fun k => mset f (data.take k) d)

/-- `.partial`. -/
def partialOf (f : Str) : Str := f ++ ".partial".toList

/-- `download_file` without git, /repo/scripts/pkgmk.in:219-279: the mirrors are tried, then the place itself, into `f.partial`; what has come is then given its name.
`none`: no try was good. -/
def fetch (f : Str) : List Attempt → SrcDir → List SrcDir × Option SrcDir
  | [], _ => ([], none)
  | a :: as, d =>
    let w := writing (partialOf f) a.data d
    let d1 := mset (partialOf f) a.data d
    if a.ok then
      let d2 := mset f a.data (merase (partialOf f) d1)
      (w ++ [d2], some d2)
    else
      let r := fetch f as d1
      (w ++ r.1, r.2)

/-- `download_file` with git, /repo/scripts/pkgmk.in:206-215: nobody looks whether `git clone` succeeded, and the archive is written under its name. -/
def fetchGit (f : Str) (data : Str) (d : SrcDir) : List SrcDir × Option SrcDir := (writing f data d, some (mset f data d))

/-- A source, and what the servers have. -/
structure Source where
  text : Str
  /-- the file of the port is there -/
  here : Bool
  tries : List Attempt
  /-- the archive of the repository of `git` -/
  cloned : Str

/-- `download_source`, /repo/scripts/pkgmk.in:281-300 (with `-d`): the states passed through, and whether it goes on. -/
def fetchAll (git : Str) : List Source → SrcDir → List SrcDir × Option SrcDir
  | [], d => ([d], some d)
  | s :: ss, d =>
    match srcName git s.text with
    | none => if s.here then (d :: (fetchAll git ss d).1, (fetchAll git ss d).2) else ([d], none)
    | some f =>
      if (mget d f).isSome then (d :: (fetchAll git ss d).1, (fetchAll git ss d).2)
      else
        match (if endsIn ".git".toList s.text then fetchGit f s.cloned d else fetch f s.tries d) with
        | (w, none) => (d :: w, none)
        | (w, some d') => (d :: w ++ (fetchAll git ss d').1, (fetchAll git ss d').2)

end Cards
