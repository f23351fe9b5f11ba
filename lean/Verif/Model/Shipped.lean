import Verif.Model.RuleFile
import Verif.Model.Trigger
/-!
# The configuration of pkgadd that is shipped

/repo/src/pkgadd.conf, read by the model of `readRulesFile`, and the extended regular expressions it uses.
-/
namespace Cards

/-- What one character of a text is matched with. -/
inductive EreAtom where
  | chr (c : Char) | any | word | notSlash
deriving DecidableEq

/-- Does the character match? `.` any one (`REG_NEWLINE` is not set), `\\w` a letter, a digit or the underscore, `[^/]` all but the slash. Simplification: characters are Unicode characters, a byte that is no character is not considered. -/
def EreAtom.ok : EreAtom → Char → Bool
  | .chr a, c => c = a
  | .any, _ => true
  | .word, c => c.isAlphanum || c = '_'
  | .notSlash, c => c != '/'

/-- An expression: `^` at its beginning, the atoms with or without a star, `$` at its end. -/
structure Ere where
  bol : Bool
  items : List (EreAtom × Bool)
  eol : Bool
deriving DecidableEq

/-- The atom at the beginning, and the rest. Simplification: only what the shipped file uses: characters, `.`, a backslash before a point, `\\w`, `[^/]`. -/
def ereAtom : Str → Option (EreAtom × Str)
  | '[' :: '^' :: '/' :: ']' :: s => some (.notSlash, s)
  | '\\' :: 'w' :: s => some (.word, s)
  | '\\' :: '.' :: s => some (.chr '.', s)
  | '.' :: s => some (.any, s)
  | c :: s => if c = '[' ∨ c = '\\' ∨ c = '*' ∨ c = '+' ∨ c = '?' ∨ c = '(' ∨ c = ')' ∨ c = '{' ∨ c = '|' ∨ c = '^' ∨ c = '$' then none else some (.chr c, s)
  | [] => none

/-- The atoms, and whether the expression ends in `$`. -/
def ereItems : Nat → Str → Option (List (EreAtom × Bool) × Bool)
  | 0, _ => none
  | n + 1, s =>
    if s = [] then some ([], false)
    else if s = ['$'] then some ([], true)
    else match ereAtom s with
      | none => none
      | some (a, '*' :: s) => (ereItems n s).map (fun r => ((a, true) :: r.1, r.2))
      | some (a, s) => (ereItems n s).map (fun r => ((a, false) :: r.1, r.2))

/-- `regcomp` with REG_EXTENDED, /repo/src/pkgdbh.cxx:1520-1534, of the expressions the shipped file uses. -/
def ereCompile : Str → Option Ere
  | '^' :: s => (ereItems (s.length + 1) s).map (fun r => ⟨true, r.1, r.2⟩)
  | s => (ereItems (s.length + 1) s).map (fun r => ⟨false, r.1, r.2⟩)

/-- Any number of characters of the atom, then what follows. -/
def ereStar (a : EreAtom) (k : Str → Bool) : Str → Bool
  | [] => k []
  | c :: s => k (c :: s) || (a.ok c && ereStar a k s)

/-- The atoms from here on. -/
def ereHere (eol : Bool) : List (EreAtom × Bool) → Str → Bool
  | [], s => !eol || s.isEmpty
  | (a, true) :: is, s => ereStar a (ereHere eol is) s
  | (a, false) :: is, s => match s with
    | [] => false
    | c :: s => a.ok c && ereHere eol is s

/-- `regexec`: from the beginning, or from anywhere. -/
def Ere.matches (r : Ere) (s : Str) : Bool :=
  if r.bol then ereHere r.eol r.items s else ereStar .any (ereHere r.eol r.items) s

/-- `checkRuleAppliesToFile`, /repo/src/pkgdbh.cxx:1520-1534, for these expressions. -/
def ere : Matcher := fun p f => match ereCompile p with
  | some r => r.matches f
  | none => false

/-- The text of /repo/src/pkgadd.conf:1-57, its lines. -/
def shippedLines : List String :=
  ["#",
   "# /var/lib/pkg/pkgadd.conf: pkgadd(8) configuration",
   "#",
   "",
   "# Default rule (implicit)",
   "#UPGRADE\t^.*$\t\t\tYES",
   "",
   "UPGRADE\t\t^etc/.*$\t\tNO",
   "UPGRADE\t\t^var/log/.*$\t\tNO",
   "UPGRADE\t\t^var/spool/\\w*cron/.*$\tNO",
   "UPGRADE\t\t^var/run/utmp$\t\tNO",
   "",
   "UPGRADE\t\t^etc/ports/drivers/.*$\tYES",
   "UPGRADE\t\t^etc/X11/.*$\t\tYES",
   "",
   "UPGRADE\t\t^etc/rc.*$\t\tYES",
   "UPGRADE\t\t^etc/rc\\.local$\t\tNO",
   "UPGRADE\t\t^etc/rc\\.modules$\tNO",
   "UPGRADE\t\t^etc/rc\\.conf$\t\tNO",
   "UPGRADE\t\t^etc/rc\\.d/net$\t\tNO",
   "",
   "UPGRADE\t\t^etc/udev/rules.d/.*$\tYES",
   "UPGRADE\t\t^etc/udev/rules.d/1.*$\tNO",
   "UPGRADE         ^etc/ssl                YES",
   "UPGRADE         ^dev/                   NO",
   "UPGRADE         ^proc/                  NO",
   "UPGRADE         ^sys/                   NO",
   "",
   "INSTALL         ^usr/share/info/dir     NO",
   "INSTALL         perllocal.pod$          NO",
   "INSTALL         ^usr/share/icons/[^/]*/icon-theme.cache  NO",
   "INSTALL         ^usr/share/fonts/[^/]*/fonts.scale  NO",
   "INSTALL         ^usr/share/fonts/[^/]*/fonts.dir  NO",
   "# Was required to make meson packages compiling fine.",
   "# Today as 10.5 most of the critical packages are clean up",
   "# INSTALL         ^usr/lib/.*.la$          NO",
   "",
   "# Post-install triggers",
   "",
   "LDCONF         ^usr/lib/$                      YES",
   "LDCONF         ^lib64/$                        YES",
   "LDCONF         ^lib/$                          YES",
   "LDCONF         ^usr/local/lib/$                YES",
   "LDCONF         ^etc/ld.so.conf.d/.*$           YES",
   "INFO           ^usr/share/info/.*info          YES",
   "ICONS          ^usr/share/icons/[^/]*/$        YES",
   "FONTS          ^usr/share/fonts/[^/]*/$        YES",
   "",
   "SCHEMAS        ^usr/share/glib-2.0/schemas/$   YES",
   "DESKTOP_DB     ^usr/share/applications/$       YES",
   "MIME_DB        ^usr/share/mime/$               YES",
   "QUERY_PIXBUF   ^usr/lib/gdk-pixbuf-2.0/2.10.0/loaders/.*.so YES",
   "GIO_QUERY      ^usr/lib/gio/modules/.*.so       YES",
   "QUERY_IMOD3    ^usr/lib/gtk-3.0/3.0.0/immodules/.*.so  YES",
   "QUERY_IMOD2    ^usr/lib/gtk-2.0/2.10.0/immodules/.*.so  YES",
   "",
   "# End of file",
   ""]

/-- The content of /repo/src/pkgadd.conf:1-57. -/
def shippedConf : Str := ['\n'].intercalate (shippedLines.map String.toList)

/-- The UPGRADE rules of /repo/src/pkgadd.conf:8-27. -/
def shippedUpgrade : List Rule := [
  ⟨.UPGRADE, "^etc/.*$".toList, false⟩,
  ⟨.UPGRADE, "^var/log/.*$".toList, false⟩,
  ⟨.UPGRADE, "^var/spool/\\w*cron/.*$".toList, false⟩,
  ⟨.UPGRADE, "^var/run/utmp$".toList, false⟩,
  ⟨.UPGRADE, "^etc/ports/drivers/.*$".toList, true⟩,
  ⟨.UPGRADE, "^etc/X11/.*$".toList, true⟩,
  ⟨.UPGRADE, "^etc/rc.*$".toList, true⟩,
  ⟨.UPGRADE, "^etc/rc\\.local$".toList, false⟩,
  ⟨.UPGRADE, "^etc/rc\\.modules$".toList, false⟩,
  ⟨.UPGRADE, "^etc/rc\\.conf$".toList, false⟩,
  ⟨.UPGRADE, "^etc/rc\\.d/net$".toList, false⟩,
  ⟨.UPGRADE, "^etc/udev/rules.d/.*$".toList, true⟩,
  ⟨.UPGRADE, "^etc/udev/rules.d/1.*$".toList, false⟩,
  ⟨.UPGRADE, "^etc/ssl".toList, true⟩,
  ⟨.UPGRADE, "^dev/".toList, false⟩,
  ⟨.UPGRADE, "^proc/".toList, false⟩,
  ⟨.UPGRADE, "^sys/".toList, false⟩]

/-- The INSTALL rules of /repo/src/pkgadd.conf:29-33. -/
def shippedInstall : List Rule := [
  ⟨.INSTALL, "^usr/share/info/dir".toList, false⟩,
  ⟨.INSTALL, "perllocal.pod$".toList, false⟩,
  ⟨.INSTALL, "^usr/share/icons/[^/]*/icon-theme.cache".toList, false⟩,
  ⟨.INSTALL, "^usr/share/fonts/[^/]*/fonts.scale".toList, false⟩,
  ⟨.INSTALL, "^usr/share/fonts/[^/]*/fonts.dir".toList, false⟩]

/-- The rules of the triggers, /repo/src/pkgadd.conf:40-55. -/
def shippedPost : List Rule := [
  ⟨.LDCONF, "^usr/lib/$".toList, true⟩,
  ⟨.LDCONF, "^lib64/$".toList, true⟩,
  ⟨.LDCONF, "^lib/$".toList, true⟩,
  ⟨.LDCONF, "^usr/local/lib/$".toList, true⟩,
  ⟨.LDCONF, "^etc/ld.so.conf.d/.*$".toList, true⟩,
  ⟨.INFO, "^usr/share/info/.*info".toList, true⟩,
  ⟨.ICONS, "^usr/share/icons/[^/]*/$".toList, true⟩,
  ⟨.FONTS, "^usr/share/fonts/[^/]*/$".toList, true⟩,
  ⟨.SCHEMAS, "^usr/share/glib-2.0/schemas/$".toList, true⟩,
  ⟨.DESKTOP_DB, "^usr/share/applications/$".toList, true⟩,
  ⟨.MIME_DB, "^usr/share/mime/$".toList, true⟩,
  ⟨.QUERY_PIXBUF, "^usr/lib/gdk-pixbuf-2.0/2.10.0/loaders/.*.so".toList, true⟩,
  ⟨.GIO_QUERY, "^usr/lib/gio/modules/.*.so".toList, true⟩,
  ⟨.QUERY_IMOD3, "^usr/lib/gtk-3.0/3.0.0/immodules/.*.so".toList, true⟩,
  ⟨.QUERY_IMOD2, "^usr/lib/gtk-2.0/2.10.0/immodules/.*.so".toList, true⟩]

/-- All rules of /repo/src/pkgadd.conf:1-57, as they are read (proved in the properties). -/
def shippedRules : List Rule := shippedUpgrade ++ shippedInstall ++ shippedPost

end Cards
