import Verif.Model.Base
/-!
# Rules of pkgadd.conf
-/
namespace Cards

/-- `rule_event_t` /repo/src/enum.h:121-135. -/
inductive Event where
  | LDCONF | UPGRADE | INSTALL | INFO | ICONS | FONTS | SCHEMAS | DESKTOP_DB | MIME_DB
  | QUERY_PIXBUF | GIO_QUERY | QUERY_IMOD3 | QUERY_IMOD2
deriving DecidableEq, Repr

/-- `rule_t`: event, pattern, action. -/
structure Rule where
  event : Event
  pattern : Str
  action : Bool
deriving DecidableEq, Repr

/-- The regular expression matcher of `checkRuleAppliesToFile` (/repo/src/pkgdbh.cxx:1520-1534, `regcomp` with
REG_EXTENDED|REG_NOSUB, then `regexec`). It is a parameter of the model.
Simplification: every pattern compiles (a pattern that does not makes the tool throw). -/
abbrev Matcher := Str → Str → Bool

/-- `getInstallRulesList` /repo/src/pkgadd.cxx:315-323. -/
def rulesOf (rules : List Rule) (ev : Event) : List Rule := rules.filter (fun r => r.event = ev)

/-- `getPostInstallRulesList` /repo/src/pkgadd.cxx:324-332. -/
def postRulesOf (rules : List Rule) : List Rule :=
  rules.filter (fun r => r.event ≠ Event.INSTALL && r.event ≠ Event.UPGRADE)

/-- The reverse scan `for (j = found.rbegin(); ...) if (applies) {...; break;}`
(/repo/src/pkgadd.cxx:194-202, 226-233): the first rule from the end that applies. -/
def lastApplying (rx : Matcher) (found : List Rule) (f : Str) : Option Rule :=
  found.reverse.find? (fun r => rx r.pattern f)

/-- `getKeepFileList` /repo/src/pkgadd.cxx:184-206: files whose governing UPGRADE rule has action NO. -/
def keepFileList (rx : Matcher) (files : List Str) (rules : List Rule) : List Str :=
  files.foldl (fun keep f =>
    match lastApplying rx (rulesOf rules .UPGRADE) f with
    | some r => if r.action then keep else sinsert f keep
    | none => keep) []

/-- The install decision of `applyInstallRules` /repo/src/pkgadd.cxx:225-233. -/
def installFile (rx : Matcher) (rules : List Rule) (f : Str) : Bool :=
  match lastApplying rx (rulesOf rules .INSTALL) f with
  | some r => r.action
  | none => true

/-- `applyInstallRules` /repo/src/pkgadd.cxx:208-282, the part deciding what is installed:
returns (install_set, non_install_set). The post-install list is modelled in `Model/PostInstall.lean`. -/
def applyInstallRules (rx : Matcher) (files : List Str) (rules : List Rule) : List Str × List Str :=
  files.foldl (fun (acc : List Str × List Str) f =>
    if installFile rx rules f then (sinsert f acc.1, acc.2) else (acc.1, sinsert f acc.2)) ([], [])

end Cards
