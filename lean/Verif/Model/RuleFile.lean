import Verif.Model.Strings
import Verif.Model.Trans
/-!
# Reading pkgadd.conf and the post-install list
-/
namespace Cards

/-- `getline` until `eof`: the pieces between newline characters, including empty ones (/repo/src/pkgdbh.cxx:1342-1344). -/
def lines : Str → List Str
  | [] => [[]]
  | c :: cs =>
    if c = '\n' then [] :: lines cs
    else match lines cs with
      | [] => [[c]]
      | h :: t => (c :: h) :: t

/-- The errors of the rule file, /repo/src/pkgdbh.cxx:1347-1407. -/
inductive RuleErr where
  | tooLong | wrongArgs | unknownAction | unknownEvent
deriving DecidableEq, Repr

/-- The event names, /repo/src/pkgdbh.cxx:1359-1393. -/
def eventOf (s : Str) : Option Event :=
  if s = "UPGRADE".toList then some .UPGRADE
  else if s = "INSTALL".toList then some .INSTALL
  else if s = "INFO".toList then some .INFO
  else if s = "LDCONF".toList then some .LDCONF
  else if s = "FONTS".toList then some .FONTS
  else if s = "ICONS".toList then some .ICONS
  else if s = "SCHEMAS".toList then some .SCHEMAS
  else if s = "DESKTOP_DB".toList then some .DESKTOP_DB
  else if s = "MIME_DB".toList then some .MIME_DB
  else if s = "QUERY_PIXBUF".toList then some .QUERY_PIXBUF
  else if s = "GIO_QUERY".toList then some .GIO_QUERY
  else if s = "QUERY_IMOD3".toList then some .QUERY_IMOD3
  else if s = "QUERY_IMOD2".toList then some .QUERY_IMOD2
  else none

/-- `sscanf(line, "%s %s %s %s", ...)`: the white space separated words, at most four are looked at; the return value is the number
found (EOF for none). A line is read as C string, up to its first NUL. /repo/src/pkgdbh.cxx:1355. -/
def scanWords (line : Str) : List Str := (splitLoop isSpaceC (line.takeWhile (fun c => c ≠ '\x00')) [] []).take 4

/-- One line of the rule file: no rule, a rule or an error. /repo/src/pkgdbh.cxx:1345-1409. -/
def readRuleLine (line : Str) : Except RuleErr (List Rule) :=
  if line = [] ∨ line.head? = some '#' then .ok []
  else if 1024 ≤ line.length then .error .tooLong
  else match scanWords line with
    | [event, pattern, action] =>
      match eventOf event with
      | none => .error .unknownEvent
      | some ev =>
        if action = "YES".toList then .ok [⟨ev, pattern, true⟩]
        else if action = "NO".toList then .ok [⟨ev, pattern, false⟩]
        else .error .unknownAction
    | _ => .error .wrongArgs

/-- `readRulesFile` /repo/src/pkgdbh.cxx:1333-1422 on the file content (`none`: the file cannot be opened, no rules). -/
def readRules : Option Str → Except RuleErr (List Rule)
  | none => .ok []
  | some content => (lines content).foldlM (fun acc l => do let r ← readRuleLine l; pure (acc ++ r)) []

/-- pkgadd with the content of the rule file, /repo/src/pkgadd.cxx:67-73: the rules are read after the archive has been opened and before the mode
test; an error ends the command. (Both come before any change, so reading first is equivalent as far as effects go.) -/
def pkgaddConf (env : Env) (conf : Option Str) (opts : Opts) (a : Archive) (s : Sys) : Sys × Option (Err ⊕ RuleErr) :=
  match readRules conf with
  | .error e => (s, some (.inr e))
  | .ok rules => let r := pkgadd env rules opts a s; (r.1, r.2.map .inl)

/-- The loop over the post-install rules for one file in `applyInstallRules`, /repo/src/pkgadd.cxx:240-250: from the last rule to the
first, remember the event of the rule looked at; stop at the first rule that applies and take its action. Returns the remembered
event and the decision. `ev0` is the value of `a.second` before (a value-initialised pair: 0, that is LDCONF). -/
def postScan (rx : Matcher) (f : Str) : List Rule → Event → Bool → Event × Bool
  | [], ev, b => (ev, b)
  | r :: rs, _, b => if rx r.pattern f then (r.event, r.action) else postScan rx f rs r.event b

/-- The post-install entry `applyInstallRules` adds for one file, if any: /repo/src/pkgadd.cxx:240-258. -/
def postEntry (rx : Matcher) (rules : List Rule) (f : Str) : Option (Str × Event) :=
  let d := postScan rx f (postRulesOf rules).reverse .LDCONF (installFile rx rules f)
  if d.2 then some (if d.1 = .LDCONF then [] else f, d.1) else none

/-- `m_postInstallList` after `applyInstallRules` (as a list without duplicates). -/
def postInstallList (rx : Matcher) (rules : List Rule) (files : List Str) : List (Str × Event) :=
  (files.filterMap (postEntry rx rules)).eraseDups

end Cards
