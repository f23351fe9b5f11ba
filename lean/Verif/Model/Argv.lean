import Verif.Model.Base
/-!
# Command line parsing (/repo/src/argument_parser.cxx, cards_argument_parser.cxx)

A command line is the list of words after the program name; words are C strings. Output and help texts are not modelled.
-/
namespace Cards

/-- `ArgParser::Option` /repo/src/argument_parser.h:133-147: the parts the parser uses. -/
structure AOpt where
  id : Nat
  needsValue : Bool
deriving DecidableEq, Repr

/-- `ArgParser::ArgNumberCheck` /repo/src/argument_parser.h:45. -/
inductive ArgCheck | none | min | eq | max
deriving DecidableEq, Repr

/-- `ArgParser::Command` /repo/src/argument_parser.h:149-165; mandatory options by id. -/
structure ACmd where
  name : Str
  check : ArgCheck
  num : Nat
  mandatory : List Nat
deriving DecidableEq, Repr

/-- The tables filled by `addCommand`/`addOption` /repo/src/argument_parser.cxx:31-114: `m_commands`, `m_optionsByLongName`,
`m_optionsByShortName`, and the id of the predefined help option. -/
structure Tables where
  cmds : List (Str × ACmd)
  long : List (Str × AOpt)
  short : List (Char × AOpt)
  help : Nat

/-- `std::map::find`. -/
def find {κ α : Type} [DecidableEq κ] : List (κ × α) → κ → Option α
  | [], _ => none
  | (k, v) :: m, x => if k = x then some v else find m x

/-- `m_setOptions[id] = val`. -/
def setOpt (id : Nat) (v : Str) (m : List (Nat × Str)) : List (Nat × Str) := (id, v) :: m.filter (fun p => p.1 ≠ id)

/-- `m_setOptions` and `m_otherArguments`. -/
structure AState where
  opts : List (Nat × Str)
  args : List Str
deriving DecidableEq, Repr

/-- The first loop /repo/src/argument_parser.cxx:126-155: the first word that does not begin with `-` must be a command. -/
inductive First | error | usage | found (cmd : ACmd) (pos : Nat)

/-- Its body. `i` is the index of the first word of the list in `argv`. -/
def firstLoop (T : Tables) : Nat → List Str → First
  | _, [] => .error
  | i, a :: as =>
    if a.head? ≠ some '-' then
      match find T.cmds a with
      | none => .error
      | some c => .found c i
    else if a = "-h".toList ∨ a = "--help".toList then .usage
    else firstLoop T (i + 1) as

/-- How the second loop sorts a word: `-` alone and `-xyz` are refused, `--r` is a long option, `-x` a short one. -/
inductive WordKind | bad | long (r : Str) | short (x : Char) | plain

/-- The tests on the first characters, /repo/src/argument_parser.cxx:163-167, 191-195, 216. -/
def wordKind : Str → WordKind
  | ['-'] => .bad
  | '-' :: '-' :: r => .long r
  | ['-', x] => .short x
  | '-' :: _ :: _ :: _ => .bad
  | _ => .plain

/-- The value after the first `=`, /repo/src/argument_parser.cxx:168-172, 181-189. -/
def longValue (r : Str) : Option Str :=
  match r.dropWhile (· ≠ '=') with
  | _ :: c :: v => some (c :: v)
  | _ => none

/-- The second loop /repo/src/argument_parser.cxx:157-219. `none`: `parseError`, which exits. -/
def secondLoop (T : Tables) (pos : Nat) : Nat → List Str → AState → Option AState
  | _, [], s => some s
  | i, a :: as, s =>
    if i = pos then secondLoop T pos (i + 1) as s
    else match wordKind a with
      | .bad => none
      | .long r =>
        match find T.long (r.takeWhile (· ≠ '=')) with
        | none => none
        | some o =>
          if o.needsValue then
            match longValue r with
            | some v => secondLoop T pos (i + 1) as { s with opts := setOpt o.id v s.opts }
            | none => none
          else secondLoop T pos (i + 1) as { s with opts := setOpt o.id [] s.opts }
      | .short x =>
        match find T.short x with
        | none => none
        | some o =>
          if o.needsValue then
            match as with
            | [] => none
            | v :: as' => secondLoop T pos (i + 2) as' { s with opts := setOpt o.id v s.opts }
          else secondLoop T pos (i + 1) as { s with opts := setOpt o.id [] s.opts }
      | .plain => secondLoop T pos (i + 1) as { s with args := s.args ++ [a] }

/-- What `parse` does: leave with an error, leave after printing help, or return. -/
inductive ParseResult | error | help | ok (cmd : ACmd) (s : AState)
deriving DecidableEq, Repr

/-- The check of the number of arguments /repo/src/argument_parser.cxx:243-281. -/
def countOk (c : ACmd) (n : Nat) : Bool :=
  match c.check with
  | .eq => n = c.num
  | .min => ¬ n < c.num
  | .max => ¬ n > c.num
  | .none => true

/-- `ArgParser::parse` /repo/src/argument_parser.cxx:117-282. -/
def parseArgs (T : Tables) (argv : List Str) : ParseResult :=
  match firstLoop T 1 argv with
  | .error => .error
  | .usage => .help
  | .found cmd pos =>
    match secondLoop T pos 1 argv ⟨[], []⟩ with
    | none => .error
    | some s =>
      if (find s.opts T.help).isSome then .help
      else if cmd.mandatory.all (fun id => (find s.opts id).isSome) then
        if countOk cmd s.args.length then .ok cmd s else .error
      else .error

/-- `getOptionValue` /repo/src/argument_parser.cxx:326-329 and `isSet` 312-320. -/
def AState.value (s : AState) (id : Nat) : Option Str := find s.opts id

/-- The commands of cards, /repo/src/cards_argument_parser.cxx:33-172. -/
def cardsCmds : List (Str × ACmd) :=
  [("help", ArgCheck.none, 0), ("config", .none, 0), ("files", .eq, 1), ("sync", .none, 0), ("query", .eq, 1), ("info", .eq, 1),
   ("list", .none, 0), ("search", .eq, 1), ("install", .min, 1), ("remove", .min, 1), ("upgrade", .none, 0), ("purge", .none, 0),
   ("diff", .none, 0), ("level", .none, 0), ("depends", .eq, 1), ("deptree", .eq, 1), ("create", .eq, 1), ("dependent", .eq, 1),
   ("keys", .none, 0), ("repo", .min, 0)].map (fun (n, c, k) => (n.toList, ⟨n.toList, c, k, []⟩))

/-- The options of cards, /repo/src/cards_argument_parser.cxx:174-324: long name, short name, whether a value is required. Only options
added to some command exist for the parser (`full`, `installed` and `remove` are added to none). The id is the position. -/
def cardsOptList : List (String × Option Char × Bool) :=
  [("help", some 'h', false), ("conf", none, true), ("ready", none, false), ("download-only", none, false), ("no-sync", none, false),
   ("no-progress", none, false), ("size", some 's', false), ("check", some 'c', false), ("proceed", some 'p', false),
   ("root", none, true), ("binaries", some 'b', false), ("sets", some 'S', false), ("name", some 'n', false),
   ("disable", some 'd', false), ("upgrade", some 'u', false), ("force", some 'f', false), ("nolog", none, false),
   ("dry", none, false), ("no-meta", none, false)]

/-- The tables of cards. -/
def cardsTables : Tables where
  cmds := cardsCmds
  long := cardsOptList.zipIdx.map (fun ((l, _, v), i) => (l.toList, ⟨i + 1, v⟩))
  short := cardsOptList.zipIdx.filterMap (fun ((_, c, v), i) => c.map (fun c => (c, ⟨i + 1, v⟩)))
  help := 1

end Cards
