import Verif.Model.Tools
/-!
# What a command line of pkgadd, pkgrm or pkginfo says

A line is a list of items, each written with a short or a long option; its meaning does not depend on how the tools read it.
-/
namespace Cards.Spec
open Cards

/-- A short or a long spelling. -/
def spell (long : Bool) (s l : String) : Str := if long then l.toList else s.toList

/-- The items of a pkgadd line. -/
inductive AddItem where
  | root (long : Bool) (dir : Str)
  | ignore (long : Bool)
  | upgrade (long : Bool)
  | force (long : Bool)
  | progress (long : Bool)
  | word (w : Str)

def AddItem.text : AddItem → List Str
  | .root l d => [spell l "-r" "--root", d]
  | .ignore l => [spell l "-i" "--ignore"]
  | .upgrade l => [spell l "-u" "--upgrade"]
  | .force l => [spell l "-f" "--force"]
  | .progress l => [spell l "-p" "--progress"]
  | .word w => [w]

def AddItem.dir? : AddItem → Option Str | .root _ d => some d | _ => none
def AddItem.word? : AddItem → Option Str | .word w => some w | _ => none

/-- The root directory for the values of the options `-r`: the last one comes first, and the slash last. -/
def rootOf (dirs : List Str) : Str := dirs.reverse.flatten ++ "/".toList

/-- The words of a line with one file or package: empty words, then the word. -/
def TheWord (ws : List Str) (w : Str) : Prop := (∃ k, ws = List.replicate k [] ++ [w]) ∧ w ≠ [] ∧ w.head? ≠ some '-'

/-- What a pkgadd line says. -/
structure AddSays (items : List AddItem) (a : AddArgs) : Prop where
  file : TheWord (items.filterMap AddItem.word?) a.file
  root : a.root = rootOf (items.filterMap AddItem.dir?)
  scripts : a.runScripts = true ↔ ∀ l, .ignore l ∉ items
  upgrade : a.upgrade = true ↔ ∃ l, .upgrade l ∈ items
  force : a.force = true ↔ ∃ l, .force l ∈ items
  progress : a.progress = true ↔ ∃ l, .progress l ∈ items

/-- The items of a pkgrm line. -/
inductive RmItem where
  | root (long : Bool) (dir : Str)
  | progress (long : Bool)
  | word (w : Str)

def RmItem.text : RmItem → List Str
  | .root l d => [spell l "-r" "--root", d]
  | .progress l => [spell l "-p" "--progress"]
  | .word w => [w]

def RmItem.dir? : RmItem → Option Str | .root _ d => some d | _ => none
def RmItem.word? : RmItem → Option Str | .word w => some w | _ => none

/-- What a pkgrm line says; a line without a word names the package with the empty name. -/
structure RmSays (items : List RmItem) (a : RmArgs) : Prop where
  name : TheWord (items.filterMap RmItem.word?) a.name ∨ (∃ k, items.filterMap RmItem.word? = List.replicate k []) ∧ a.name = []
  root : a.root = rootOf (items.filterMap RmItem.dir?)
  progress : a.progress = true ↔ ∃ l, .progress l ∈ items

/-- The items of a pkginfo line. -/
inductive InfoItem where
  | root (long : Bool) (dir : Str)
  | mode (m : InfoMode) (long : Bool) (arg : Str)

/-- The options of the manual page. -/
def modeOption (long : Bool) : InfoMode → Str
  | .installed => spell long "-i" "--installed"
  | .number => spell long "-n" "--number"
  | .details => spell long "-d" "--details"
  | .list => spell long "-l" "--list"
  | .runtime => spell long "-R" "--runtimedep"
  | .owner => spell long "-o" "--owner"
  | .archive => spell long "-a" "--archive"
  | .meta => spell long "-m" "--meta"
  | .footprint => spell long "-f" "--footprint"
  | .libraries => spell long "-L" "--libraries"
  | .runtimeFiles => "--runtimedepfiles".toList
  | .runtimeLibs => "--runtimelibs".toList
  | .build => spell long "-b" "--buildtime"

def InfoItem.text : InfoItem → List Str
  | .root l d => [spell l "-r" "--root", d]
  | .mode .installed l _ => [modeOption l .installed]
  | .mode .number l _ => [modeOption l .number]
  | .mode m l v => [modeOption l m, v]

def InfoItem.dir? : InfoItem → Option Str | .root _ d => some d | _ => none
def InfoItem.mode? : InfoItem → Option InfoMode | .mode m _ _ => some m | _ => none
def InfoItem.arg? : InfoItem → Option Str
  | .root _ _ => none
  | .mode .installed _ _ => none
  | .mode .number _ _ => none
  | .mode _ _ v => some v

/-- The modes pkginfo accepts only one of. -/
def exclusive : InfoMode → Bool
  | .runtimeFiles | .runtimeLibs | .footprint | .installed | .archive | .list | .owner | .number => true
  | _ => false

/-- No word of the line asks for the version or the help. -/
def NoCommon (argv : List Str) : Prop := ∀ o ∈ argv, o ∉ ["-v".toList, "--version".toList, "-h".toList, "--help".toList]

end Cards.Spec
