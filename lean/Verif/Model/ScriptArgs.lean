import Verif.Model.PkgmkOpts
import Verif.Model.Strings
/-!
# The arguments of `mybld` and `outdated` (/repo/scripts/mybld.in:224-333, /repo/scripts/outdated.in:6-12, 372-421)
-/
namespace Cards

/-- The variables `parse_arguments` sets, /repo/scripts/mybld.in:224-333. -/
structure MbOpts where
  cleanup : Bool := false
  check : Bool := false
  increment : Bool := false
  verbose : Bool := false
  manual : Bool := false
  init : Bool := false
  diff : Bool := false
  sync : Bool := false
  confirm : Bool := false
  params : List Str := []
deriving DecidableEq, Repr

/-- The options without a word. -/
inductive MbFlag
  | pause | verbose | init | ask
deriving DecidableEq, Repr

/-- The options with a word. -/
inductive MbVal
  | cleanup | check | increment | diff | sync
deriving DecidableEq, Repr

/-- The options without a word, /repo/scripts/mybld.in:281-291, 317-320. -/
def mbFlag (w : Str) : Option MbFlag :=
  if w = "-p".toList ∨ w = "--pause".toList then some .pause
  else if w = "-v".toList ∨ w = "--verbose".toList then some .verbose
  else if w = "-I".toList ∨ w = "--init".toList then some .init
  else if w = "-A".toList ∨ w = "--ask".toList then some .ask
  else none

/-- The options with a word, /repo/scripts/mybld.in:227-237, 260-280, 293-315. -/
def mbVal (w : Str) : Option MbVal :=
  if w = "-c".toList ∨ w = "--cleanup".toList then some .cleanup
  else if w = "-C".toList ∨ w = "--check".toList then some .check
  else if w = "-i".toList ∨ w = "--increment".toList then some .increment
  else if w = "-d".toList ∨ w = "--diff".toList then some .diff
  else if w = "-s".toList ∨ w = "--sync".toList then some .sync
  else none

/-- What an option without a word sets. -/
def MbFlag.set : MbFlag → MbOpts → MbOpts
  | .pause, o => { o with verbose := true, manual := true }
  | .verbose, o => { o with verbose := true }
  | .init, o => { o with init := true }
  | .ask, o => { o with confirm := true, verbose := true }

/-- What an option with a word sets. -/
def MbVal.set : MbVal → MbOpts → MbOpts
  | .cleanup, o => { o with cleanup := true }
  | .check, o => { o with check := true }
  | .increment, o => { o with increment := true }
  | .diff, o => { o with diff := true }
  | .sync, o => { o with sync := true }

/-- `PARAM+=($1)`. -/
def MbOpts.add (o : MbOpts) (w : Str) : MbOpts := { o with params := o.params ++ shWords w }

/-- How the reading ends: with the settings, with a status, or with one of the two commands that take all the rest. -/
inductive MbEnd
  | go (o : MbOpts)
  | stop (code : Nat)
  | commit (args : List Str)
  | new (args : List Str)
deriving DecidableEq, Repr

/-- `parse_arguments`, /repo/scripts/mybld.in:224-333: `while [ "$1" ]` ends at an empty word. `[ -z ${1} ]` holds for a word of blanks, too. -/
def mbParse : MbOpts → List Str → MbEnd
  | o, [] => .go o
  | o, w :: ws =>
    if w = [] then .go o
    else match mbFlag w with
    | some f => mbParse (f.set o) ws
    | none =>
      match mbVal w with
      | some v =>
        match ws with
        | [] => .stop 1
        | x :: xs => if shWords x = [] then .stop 1 else mbParse ((v.set o).add x) xs
      | none =>
        if w = "--commit".toList then .commit ws
        else if w = "-n".toList ∨ w = "--new".toList then .new ws
        else if w = "-h".toList ∨ w = "--help".toList then .stop 0
        else if w.head? = some '-' then .stop 1
        else mbParse (o.add w) ws

/-- `COLLECTIONS`, /repo/scripts/outdated.in:6. -/
def outColls : List Str := ["base", "cli", "cli-extra", "gui", "gui-extra"].map (·.toList)

/-- The settings of `outdated`, /repo/scripts/outdated.in:372-421. -/
structure OutOpts where
  update : Bool := false
  summary : Bool := false
  notfound : Bool := false
  debug : Bool := false
  params : List Str := []
deriving DecidableEq, Repr

/-- `[[ "$COLLECTIONS" =~ .*"$1".* ]]`, /repo/scripts/outdated.in:399: the word is a part of the text of all names. -/
def outKnown (w : Str) : Bool := (cutFirst w (echoWords outColls)).isSome

/-- The loop, /repo/scripts/outdated.in:372-413: `while (( "$#" ))`. The settings, or the status of `exit`. -/
def outParse : OutOpts → List Str → Sum Nat OutOpts
  | o, [] => .inr o
  | o, w :: ws =>
    if w = "-u".toList ∨ w = "--update".toList then outParse { o with update := true } ws
    else if w = "-s".toList ∨ w = "--summary".toList then outParse { o with summary := true } ws
    else if w = "-nf".toList ∨ w = "--notfound".toList then outParse { o with notfound := true } ws
    else if w = "-h".toList ∨ w = "--help".toList then .inl 0
    else if w = "--debug".toList then outParse { o with debug := true } ws
    else if w.head? = some '-' then .inl 1
    else if outKnown w then outParse { o with params := o.params ++ [w] } ws
    else .inl 1

/-- The collections that are gone through, /repo/scripts/outdated.in:417-421, 446: all when none is named; `sort`. -/
def outLoop (srt : List Str → List Str) (o : OutOpts) : List Str :=
  if o.params.flatten = [] then outColls else srt (o.params.flatMap shWords)

end Cards
