import Verif.Model.RuleFile
import Verif.Model.Repo
/-!
# The programs run after an installation

`runLastPostInstall` is called by the destructor of `pkgdbh` (/repo/src/pkgdbh.cxx:27-34): also when the command ends with an error, because the
exception is caught in `main` (/repo/src/tools.cxx:41-60) after the destruction of the object.
-/
namespace Cards

/-- The value of the enumerators, /repo/src/enum.h:121-135. -/
def Event.num : Event → Nat
  | .LDCONF => 0 | .UPGRADE => 1 | .INSTALL => 2 | .INFO => 3 | .ICONS => 4 | .FONTS => 5 | .SCHEMAS => 6 | .DESKTOP_DB => 7
  | .MIME_DB => 8 | .QUERY_PIXBUF => 9 | .GIO_QUERY => 10 | .QUERY_IMOD3 => 11 | .QUERY_IMOD2 => 12

/-- One round of the loop of `applyInstallRules` for the triggers, /repo/src/pkgadd.cxx:240-257. -/
def postStep (rx : Matcher) (rules : List Rule) (s : List (Str × Nat)) (f : Str) : List (Str × Nat) :=
  match postEntry rx rules f with
  | some e => dinsert (e.1, e.2.num) s
  | none => s

/-- `m_postInstallList`, a `std::set<std::pair<std::string, int>>` (/repo/src/pkgdbh.h:106-107) filled by
`applyInstallRules` (/repo/src/pkgadd.cxx:240-257): in the order of the set. -/
def postSet (rx : Matcher) (rules : List Rule) (files : List Str) : List (Str × Nat) :=
  files.foldl (postStep rx rules) []

/-- A program start: the program, relative to the root, and its arguments. -/
structure Run where
  app : Str
  args : List Str
deriving DecidableEq, Repr

/-- `if (checkFileExist(m_root + app)) p.execute(m_root + app, args, 0)`: the program is started when `there` says that the file `look`
exists; the argument text is cut at the blanks (/repo/src/process.cxx:40-69). -/
def startIf (there : Str → Bool) (look app args : Str) : List Run :=
  if there look then [⟨app, splitChar ' ' args⟩] else []

/-- The `switch` of `runLastPostInstall` for one entry, /repo/src/pkgdbh.cxx:1430-1516, with the names of /repo/src/define.h:97-148. -/
def runsOf (root : Str) (there : Str → Bool) (e : Str × Nat) : List Run :=
  match e.2 with
  | 0 => startIf there "etc/ld.so.conf".toList "usr/bin/ldconfig".toList ("-r ".toList ++ root)
  | 3 => startIf there "usr/bin/install-info".toList "usr/bin/install-info".toList ("--info-dir=usr/share/info ".toList ++ e.1)
  | 4 => startIf there "usr/bin/gtk-update-icon-cache".toList "usr/bin/gtk-update-icon-cache".toList ("-f -t ".toList ++ e.1)
  | 5 => startIf there "usr/bin/mkfontscale".toList "usr/bin/mkfontscale".toList e.1 ++
      startIf there "usr/bin/mkfontdir".toList "usr/bin/mkfontdir".toList e.1 ++
      startIf there "usr/bin/fc-cache".toList "usr/bin/fc-cache".toList e.1
  | 6 => startIf there "usr/bin/glib-compile-schemas".toList "usr/bin/glib-compile-schemas".toList e.1
  | 7 => startIf there "usr/bin/update-desktop-database".toList "usr/bin/update-desktop-database".toList ("-q ".toList ++ e.1)
  | 8 => startIf there "usr/bin/update-mime-database".toList "usr/bin/update-mime-database".toList ("-n ".toList ++ e.1)
  | 9 => startIf there "usr/bin/gdk-pixbuf-query-loaders".toList "usr/bin/gdk-pixbuf-query-loaders".toList "--update-cache".toList
  | 10 => startIf there "usr/bin/gio-querymodules".toList "usr/bin/gio-querymodules".toList "usr/lib/gio/modules".toList
  | 11 => startIf there "usr/bin/gtk-query-immodules-3.0".toList "usr/bin/gtk-query-immodules-3.0".toList "--update-cache".toList
  | 12 => startIf there "usr/bin/gtk-query-immodules-2.0".toList "usr/bin/gtk-query-immodules-2.0".toList "--update-cache".toList
  | _ => []

/-- `runLastPostInstall` /repo/src/pkgdbh.cxx:1423-1519. -/
def runLast (root : Str) (there : Str → Bool) (l : List (Str × Nat)) : List Run := l.flatMap (runsOf root there)

/-- The programs a `pkgadd` command starts at its end: the list has been filled when the command got past the tests of
/repo/src/pkgadd.cxx:70-85, whatever happened later. -/
def pkgaddRuns (env : Env) (rules : List Rule) (opts : Opts) (root : Str) (there : Str → Bool) (a : Archive) (s : Sys) : List Run :=
  match precheck opts a (load s opts.asDep) with
  | some _ => []
  | none => runLast root there (postSet env.rx rules a.files)

end Cards
