import Verif.Model.Base
/-!
# `pkgmk`: the options, the configuration file, what is to be done, and the recursive call

/repo/scripts/pkgmk.in:1286-1350 (`parse_options`), 1351-1540 (`main` up to the build), 1129-1144 (`recursive`), 1602-1664 (the values the script starts with). The
variables of the shell are a map from names to texts. Not modelled: `/etc/profile`; that footprints are ignored
when the program to read packages is missing (1366-1371); an option of `echo` as first word; variables the Pkgfile sets; the tests of the directories and of the Pkgfile
between the recursive call and the other modes, which end the run (see Model/PkgmkCheck, Model/PkgmkRun).
-/
namespace Cards

/-- The variables of the shell. -/
abbrev ShVars := List (Str × Str)

/-- A value; a variable that is not set is empty. -/
def ShVars.val (vs : ShVars) (x : Str) : Str := (mget vs x).getD []

/-- Assignments, in order. -/
def assignAll (as : List (Str × Str)) (vs : ShVars) : ShVars := as.foldl (fun m a => mset a.1 a.2 m) vs

/-- The text "yes". -/
def yes : Str := "yes".toList

/-- The branches of the `case` that only assign, /repo/scripts/pkgmk.in:1289-1330: the short name, the long name, the assignments. -/
def pkgmkFlags : List (Str × Str × List (Str × Str)) := [
  ("-i".toList, "--install".toList, [("PKGMK_INSTALL".toList, "install".toList)]),
  ("-u".toList, "--upgrade".toList, [("PKGMK_INSTALL".toList, "upgrade".toList)]),
  ("-r".toList, "--recursive".toList, [("PKGMK_RECURSIVE".toList, yes)]),
  ("-q".toList, "--quiet".toList, [("PKGMK_QUIET".toList, yes)]),
  ("-d".toList, "--download".toList, [("PKGMK_DOWNLOAD".toList, yes)]),
  ("-cs".toList, "--check-syntax".toList, [("PKGMK_CHECK_SYNTAX".toList, yes)]),
  ("-do".toList, "--download-only".toList, [("PKGMK_DOWNLOAD".toList, yes), ("PKGMK_DOWNLOAD_ONLY".toList, yes)]),
  ("-eo".toList, "--extract-only".toList, [("PKGMK_EXTRACT_ONLY".toList, yes)]),
  ("-sv".toList, "--show-version-only".toList, [("PKGMK_SHOW_VERSION".toList, yes)]),
  ("-utd".toList, "--up-to-date".toList, [("PKGMK_UP_TO_DATE".toList, yes)]),
  ("-ur".toList, "--update-repo".toList, [("PKGMK_UPDATE_REPO".toList, yes)]),
  ("-uf".toList, "--update-footprint".toList, [("PKGMK_UPDATE_FOOTPRINT".toList, yes)]),
  ("-if".toList, "--ignore-footprint".toList, [("PKGMK_IGNORE_FOOTPRINT".toList, yes)]),
  ("-in".toList, "--ignore-new".toList, [("PKGMK_IGNORE_NEW".toList, yes)]),
  ("-ir".toList, "--ignore-repo".toList, [("PKGMK_IGNORE_REPO".toList, yes)]),
  ("-ns".toList, "--no-strip".toList, [("PKGMK_NO_STRIP".toList, yes)]),
  ("-f".toList, "--force".toList, [("PKGMK_FORCE".toList, yes)]),
  ("-co".toList, "--clean-only".toList, [("PKGMK_CLEAN_ONLY".toList, yes)]),
  ("-kw".toList, "--keep-work".toList, [("PKGMK_KEEP_WORK".toList, yes)]),
  ("-po".toList, "--pack-only".toList, [("PKGMK_KEEP_WORK".toList, yes), ("PKGMK_PACK_ONLY".toList, yes)])]

/-- The branch of a word. -/
def flagOf (w : Str) : Option (List (Str × Str)) := (pkgmkFlags.find? (fun f => w = f.1 || w = f.2.1)).map (·.2.2)

/-- The end of `parse_options`: the script goes on, or exits with a status. -/
inductive OptEnd where
  | go (vs : ShVars)
  | quit (status : Nat)
deriving DecidableEq, Repr

/-- `parse_options` /repo/scripts/pkgmk.in:1286-1350; an empty word ends the loop. -/
def parseOpts : ShVars → List Str → OptEnd
  | vs, [] => .go vs
  | vs, w :: ws =>
    if w = [] then .go vs
    else match flagOf w with
      | some as => parseOpts (assignAll as vs) ws
      | none =>
        if w = "-cf".toList ∨ w = "--config-file".toList then
          match ws with
          | [] => .quit 1
          | f :: ws => if f = [] then .quit 1 else parseOpts (mset "PKGMK_CONFFILE".toList f vs) ws
        else if w = "-v".toList ∨ w = "--version".toList then .quit 0
        else if w = "-h".toList ∨ w = "--help".toList then .quit 0
        else .quit 1

/-- What the script starts with, /repo/scripts/pkgmk.in:1610-1662 (those of interest here). Variables that are not in this list come from the environment of the
caller. -/
def pkgmkDefaults : List (Str × Str) := [
  ("PKGMK_CONFFILE".toList, "/etc/pkgmk.conf".toList), ("PKGMK_CLEAN".toList, yes), ("PKGMK_DOWNLOAD".toList, "no".toList),
  ("PKGMK_IGNORE_FOOTPRINT".toList, "no".toList), ("PKGMK_IGNORE_NEW".toList, yes), ("PKGMK_IGNORE_REPO".toList, "no".toList), ("PKGMK_NO_STRIP".toList, "no".toList),
  ("PKGMK_INSTALL".toList, "no".toList), ("PKGMK_RECURSIVE".toList, "no".toList), ("PKGMK_DOWNLOAD_ONLY".toList, "no".toList), ("PKGMK_KEEP_SOURCES".toList, "no".toList),
  ("PKGMK_EXTRACT_ONLY".toList, "no".toList), ("PKGMK_UP_TO_DATE".toList, "no".toList), ("PKGMK_UPDATE_FOOTPRINT".toList, "no".toList), ("PKGMK_FORCE".toList, "no".toList),
  ("PKGMK_KEEP_WORK".toList, "no".toList), ("PKGMK_PACK_ONLY".toList, "no".toList)]

/-- What a run does. -/
inductive PkMode where
  | recursive
  | showVersion
  | clean
  | updateRepo
  | updateFootprint
  | checkSyntax
  | downloadOnly
  | extractOnly
  | upToDate
  | build
deriving DecidableEq, Repr

/-- The tests of `main`, in their order, /repo/scripts/pkgmk.in:1392-1395, 1417-1420, 1443-1540. -/
def pkgmkMode (vs : ShVars) : PkMode :=
  if vs.val "PKGMK_RECURSIVE".toList = yes then .recursive
  else if vs.val "PKGMK_SHOW_VERSION".toList = yes then .showVersion
  else if vs.val "PKGMK_CLEAN_ONLY".toList = yes then .clean
  else if vs.val "PKGMK_UPDATE_REPO".toList = yes then .updateRepo
  else if vs.val "PKGMK_UPDATE_FOOTPRINT".toList = yes then .updateFootprint
  else if vs.val "PKGMK_CHECK_SYNTAX".toList = yes then .checkSyntax
  else if vs.val "PKGMK_DOWNLOAD_ONLY".toList = yes then .downloadOnly
  else if vs.val "PKGMK_EXTRACT_ONLY".toList = yes then .extractOnly
  else if vs.val "PKGMK_UP_TO_DATE".toList = yes then .upToDate
  else .build

/-- `main` up to the mode: the options, then the configuration file is read (/repo/scripts/pkgmk.in:1351-1364); `conf`: the assignments in the file of that name,
`none` when there is no such file. `Sum.inl`: the exit status. -/
def pkgmkStart (env : ShVars) (conf : Str → Option (List (Str × Str))) (args : List Str) : Sum Nat (ShVars × PkMode) :=
  match parseOpts (assignAll pkgmkDefaults env) args with
  | .quit n => .inl n
  | .go vs =>
    match conf (vs.val "PKGMK_CONFFILE".toList) with
    | none => .inl 1
    | some as => .inr (assignAll as vs, pkgmkMode (assignAll as vs))

/-- `sed "s/PAT//g"` for a pattern without special characters. `n`: how much of a match is still to be passed over. -/
def sedAway (pat : Str) : Nat → Str → Str
  | _, [] => []
  | n + 1, _ :: s => sedAway pat n s
  | 0, c :: s => if pat.isPrefixOf (c :: s) then sedAway pat (pat.length - 1) s else c :: sedAway pat 0 s

/-- `echo "$@"`: the words with a space between. -/
def echoWords : List Str → Str
  | [] => []
  | [w] => w
  | w :: v :: ws => w ++ ' ' :: echoWords (v :: ws)

/-- The parts of a text between its spaces. -/
def cutSpaces : Str → List Str
  | [] => [[]]
  | c :: s =>
    if c = ' ' then [] :: cutSpaces s
    else match cutSpaces s with
      | [] => [[c]]
      | w :: ws => (c :: w) :: ws

/-- The splitting of an unquoted `$ARGS` at spaces. Simplified: tabs, newlines and the characters of patterns in the words are not special here. -/
def shWords (s : Str) : List Str := (cutSpaces s).filter (fun w => w ≠ [])

/-- The words `recursive` gives to the calls, /repo/scripts/pkgmk.in:1129-1144. -/
def recursiveArgs (args : List Str) : List Str := shWords (sedAway "-r".toList 0 (sedAway "--recursive".toList 0 (echoWords args)))

end Cards
