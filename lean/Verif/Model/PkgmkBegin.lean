import Verif.Model.PkgmkNames
/-!
# `pkgmk`: what is checked before a port is built, and the build types (/repo/scripts/pkgmk.in)
-/
namespace Cards

/-- What `check_directory` looks at, /repo/scripts/pkgmk.in:180-191. -/
structure DirRights where
  there : Bool
  writable : Bool
  searchable : Bool
  readable : Bool
deriving DecidableEq, Repr

/-- `check_directory`, /repo/scripts/pkgmk.in:180-191: `none`: it goes on, else the status of `exit`. -/
def checkDirectory (d : DirRights) : Option Nat :=
  if !d.there then some 3
  else if !d.writable then some 3
  else if !d.searchable || !d.readable then some 3
  else none

/-- What is known once the options and the configuration are read and the Pkgfile is sourced. `dir`: the name of the directory of the port. -/
structure MkBegin where
  dir : Str
  pkgfile : Bool
  vars : PkgVars
  showVersion : Bool
  sources : DirRights
  packages : DirRights
  work : DirRights
  mode : Str
deriving DecidableEq, Repr

/-- How this part ends. -/
inductive BeginEnd
  | stop (code : Nat) (printed : Option Str)
  | go (name : Str)
deriving DecidableEq, Repr

/-- The name: `[ -z $name ] && name=$NAME`, /repo/scripts/pkgmk.in:1408-1409: a name of blanks only is taken for none. Simplification: a name of several words that `[` would take for a
condition is not covered. -/
def mkNameOf (dir name : Str) : Str := if name.all (fun c => c = ' ' || c = '\n' || c = '\t') then dir else name

/-- The modes of compression, /repo/scripts/pkgmk.in:1430-1438. -/
def mkModes : List Str := ["gz".toList, "bz2".toList, "xz".toList, "zst".toList]

/-- `main`, /repo/scripts/pkgmk.in:1397-1438: the Pkgfile is there, the name, the version, `--version`, the directories, `check_pkgfile`, the mode of compression. Simplification: the
name that is checked by `check_pkgfile` is the one of the directory when the Pkgfile gives none; `error` is not an outcome. -/
def pkgmkBegin (b : MkBegin) : BeginEnd :=
  if !b.pkgfile then .stop 2 none
  else if mkNameOf b.dir b.vars.name ≠ b.dir then .stop 2 none
  else if b.vars.version = [] then .stop 2 none
  else if b.showVersion then .stop 0 (some b.vars.version)
  else match checkDirectory b.sources with
  | some c => .stop c none
  | none =>
    match checkDirectory b.packages with
    | some c => .stop c none
    | none =>
      match checkDirectory b.work with
      | some c => .stop c none
      | none =>
        if !checkPkgfile { b.vars with name := mkNameOf b.dir b.vars.name } then .stop 2 none
        else if b.mode ∉ mkModes then .stop 1 none
        else .go (mkNameOf b.dir b.vars.name)

/-- A command: its words, the variables given to it first. -/
abbrev ShCmd := List Str

/-- The texts the build types need. `name2`: `$_name`; `deb`: there is a `data.tar.xz`; `meson`: the words of `PKGMK_MESON_OPTIONS`. -/
structure RecipeVars where
  name : Str
  name2 : Str
  version : Str
  pkg : Str
  deb : Bool
  meson : List Str

/-- Words of a command written as texts. -/
def cmd (ws : List String) : ShCmd := ws.map (·.toList)

/-- `make`, `make DESTDIR=$PKG install`. -/
def makeInstall (v : RecipeVars) : List ShCmd := [cmd ["make"], ["make".toList, "DESTDIR=".toList ++ v.pkg, "install".toList]]

/-- `./configure --prefix=/usr --disable-static`. -/
def configureStatic : ShCmd := cmd ["./configure", "--prefix=/usr", "--disable-static"]

/-- `cmake`, `cmake --build`, `cmake --install`, /repo/scripts/pkgmk.in:690-711. -/
def cmakeAll (v : RecipeVars) : List ShCmd :=
  [cmd ["cmake", "-B", "build", "-S"] ++ [v.name ++ '-' :: v.version] ++ cmd ["-DCMAKE_INSTALL_PREFIX=/usr", "-DCMAKE_BUILD_TYPE=Release", "-DCMAKE_INSTALL_LIBDIR=lib", "-DBUILD_TESTING=OFF", "-Wno-dev"],
   cmd ["cmake", "--build", "build"],
   ("DESTDIR=".toList ++ v.pkg) :: cmd ["cmake", "--install", "build"]]

/-- `build`, /repo/scripts/pkgmk.in:618-718: the commands of a build type, `none`: an invalid one. -/
def recipe (build : Str) (v : RecipeVars) : Option (List ShCmd) :=
  let dir := v.name ++ '-' :: v.version
  let dir2 := v.name2 ++ '-' :: v.version
  if build = [] then
    if v.deb then some [cmd ["bsdtar", "-xf", "data.tar.xz", "-C"] ++ [v.pkg]]
    else some (["cd".toList, dir] :: cmd ["./configure", "--prefix=/usr"] :: makeInstall v)
  else if build = "meson".toList then
    some [cmd ["meson", "setup", "--prefix", "/usr", "--buildtype", "plain", "--libexecdir", "lib", "--sbindir", "bin", "-D", "b_pie=true"] ++ [dir, "builddir".toList] ++ v.meson,
      cmd ["meson", "compile", "-C", "builddir"],
      ("DESTDIR=".toList ++ v.pkg) :: cmd ["meson", "install", "-C", "builddir"]]
  else if build = "autogen".toList then some (["cd".toList, dir] :: cmd ["./autogen.sh"] :: configureStatic :: makeInstall v)
  else if build = "autoreconf".toList then some (["cd".toList, dir] :: cmd ["autoreconf", "-fiv"] :: configureStatic :: makeInstall v)
  else if build = "autotools".toList then some (["cd".toList, dir] :: configureStatic :: makeInstall v)
  else if build = "pip3".toList ∨ build = "python3".toList then
    some [["cd".toList, dir2],
      cmd ["pip3", "wheel", "-w", "dist", "--no-build-isolation", "--no-deps", "$PWD"],
      cmd ["pip3", "install", "--no-index", "--find-links", "dist", "--no-cache-dir", "--no-user"] ++ ["--root=".toList ++ v.pkg, v.name2],
      cmd ["find"] ++ [v.pkg] ++ cmd ["-type", "d", "-name", "vendor", "-o", "-name", "tests", "|", "xargs", "rm", "-rf"]]
  else if build = "xorg".toList then
    some (["cd".toList, dir2] :: cmd ["./configure", "--prefix=/usr", "--sysconfdir=/etc", "--localstatedir=/var", "--disable-static"] :: makeInstall v)
  else if build = "kde5".toList ∨ build = "cmake".toList then some (cmakeAll v)
  else if build = "kde6".toList then some (cmakeAll v)
  else none

/-- `(set -e; …)`: the commands run, and whether all went well. `ok done c`: the command `c` succeeds after the commands `done`. -/
def runCmds (ok : List ShCmd → ShCmd → Bool) : List ShCmd → List ShCmd → List ShCmd × Bool
  | done, [] => (done, true)
  | done, c :: cs => if ok done c then runCmds ok (done ++ [c]) cs else (done ++ [c], false)

/-- `(set -e -x ; build)` and `$? = 0`, /repo/scripts/pkgmk.in:946-951, for a port without a function `build` of its own. -/
def runBuild (ok : List ShCmd → ShCmd → Bool) (build : Str) (v : RecipeVars) : List ShCmd × Bool :=
  match recipe build v with
  | none => ([], false)
  | some cs => runCmds ok [] cs

end Cards
