# Design: a Lean 4 model of NuTyX/cards

## Trusted base
* Lean 4.33.0's kernel. Axioms used: only `propext`, `Classical.choice`, `Quot.sound`; `AXIOMS.txt` (written by
  `tools/axioms.py` from `#print axioms`) lists them for every theorem of the manifest. No own axioms, no compiled
  evaluation.
* The hand translation of the C++ in /repo/src into the definitions in `lean/Verif/Model/*.lean`. Every definition
  cites the file and the lines it models and says where it simplifies. Nothing is extracted from or tested against the
  compiled code: the sandbox has no dependencies to build it.
* Semantics assumed for the environment:
  * `std::set<std::string>` and `std::map` are ordered by bytes; strings are lists of characters ordered by code point
    (the same order on UTF-8). A map or set is a strictly sorted list.
  * POSIX `rename` is atomic, `flock` is an exclusive lock per directory inode released when its holder dies,
    `remove(3)` deletes a file or an empty directory, `fgets`/`getline`/`strtoul`/`strtok` as in ISO C.
  * A file tree is a finite map from component lists to files and directories. No symbolic or hard links, no owners; `Model/Links.lean` models installing and removing once more on a tree with symbolic links (C205–C208).
  * regcomp/regexec, OpenSSL digests and signatures, the web server, libarchive decoding and the scripts of packages
    are arbitrary functions (oracles); theorems hold for all of them unless a hypothesis says otherwise.
  * Undefined behaviour (reading out of bounds, uninitialised flags) is an explicit outcome or an oracle value.
  * Non-termination is modelled by fuel (`none` = not finished); "diverges" is "no result for any fuel".

## Layout
* `Verif/Model/*`  — the model, function by function.
* `Verif/Spec/*` — small specifications that do not use the model's helpers.
* `Verif/Lemmas/*` — helper lemmas.
* `Verif/Props/*` — the property theorems, named `Cxx_…`, with a concrete example beside each group. `_partial` marks a
  theorem that proves only part of its property; `_counterexample` proves on a concrete system that the code breaks the
  property (the negation of the full statement), so no proof of it can exist.
* `tools/` — `manifest.py` (MANIFEST.json), `axioms.py` (AXIOMS.txt), `mutate.py` (seeded bugs, log in
  `seeded/LOG.jsonl`).

## What is modelled
| source | model | functions |
|--------|-------|-----------|
| pkgadd.cxx | Trans, Rules, RuleFile, Crash, Lock | run (all of it), getKeepFileList, applyInstallRules, checks on rules, readRulesFile |
| pkgdbh.cxx | Trans, Fs, Crash, RuleFile, Paths, RemoveCmd, Numbers | buildDatabase, moveMetaFilesPackage, addPackageFilesRefsToDB, removePackageFilesRefsFromDB (both), removePackageFiles (both), getConflictsFilesList, installArchivePackage, checkPackageNameExist, checkDependency, readRulesFile, runLastPostInstall, getListOfPackageNames |
| pkgrm.cxx, remove.cxx | Trans, RemoveCmd | run; remove::remove, purge, group handling |
| install.cxx, upgrade.cxx, diff.cxx | Install, Upgrade | install::install, upgrade::upgrade, deletion of obsolete packages, selection, sizes, percentage |
| pkgrepo.cxx, repo.cxx, dwl.cxx, archive.cxx | Repo, Resolve, Numbers | parse, generateDependencies (both), downloads and verification, hash codec, set/collection/group queries |
| archive.cxx, pkginfo.cxx (-a, -m), pkgdbh.cxx (openArchivePackage) | Archive | the constructor, extractFileContent, the getters |
| pkgfile.cxx, depends/deptree/dependent/level.cxx | Pkgfile, Ports | parse, confirmDependencies, generate_level, list/print |
| conf.cxx, argument_parser.cxx, cards_argument_parser.cxx | Conf, Argv | parseConfig, parse |
| pkginfo.cxx | Query | run: --installed, --list, --owner, --builddate, --details |
| pkginfo.cxx, runtime_dependencies_utils.cxx, file_utils.cxx | Elf, ElfMem | getDatas, getRuntimeLibrariesList, run: --runtimedepfiles, -R |
| file_utils.cxx (cleanupMetaFiles), pkgdbh.cxx (meta files), pkgadd.cxx (postRun) | Meta | the meta files in the root directory, schedules |
| all commands with --root | Root | the root and the paths built from it |
| create.cxx | Create | core, base, list, installDependencies, run, checkBinaries, buildCollection (except the search for missing libraries, which only prints), buildBinary; pkgmk is an oracle |
| files.cxx, query.cxx, search.cxx, list.cxx | RepoCmds | parse, list, run; pkgrepo::parseFiles, the .FILES part of repo.cxx |
| sync.cxx, dwl.cxx (list of files), repo.cxx (verification), conf.cxx (purge), file_utils.cxx (findRecursiveFile) | Sync | sync::run, uncompress, dwl::dwl, get, repo::repo, purge, checkSign with the key of the depot |
| file_utils.cxx, string_utils.cxx, process.cxx, vector.cxx, string.cxx, lock.cxx | LineFile, RemoveFile, Strings, Numbers, Containers, Lock, FileUtils | as cited |
| cards.cxx, tools.cxx, pkgdbh.cxx (interruption) | Main, Tools, Halt | dispatch, exit status, a process stopped between two system calls |
| create.cxx (search for missing libraries), runtime_dependencies_utils.cxx | LibCheck | the report |
| pkgadd.cxx, pkgdbh.cxx (postRun, triggers) | Trigger | which caches are rebuilt |
| pkgrepo.cxx (keys, signatures, hash) | Keys, FileHash | generateKeys, sign, checkSign, generateHash |
| diff.cxx, info.cxx | Report, InfoCmd | what is printed |
| webcards.cxx, webrepo.cxx | Web | the pages: requests, packages, documents |
| mysql.cxx | Forum | lastPosts |
| scripts/pkgmk.in | PkgmkSplit, PkgmkRepo, PkgmkNames, PkgmkMeta, PkgmkRun, PkgmkMan, PkgmkSrc, PkgmkCheck | splitting into sub-packages, the repository files, names, META, the order of steps and the exit status, manual pages, sources |
| process.cxx, create.cxx (the log of a build) | BuildLog | executeShell with its pipe, all schedules |
| pkgdbh.cxx (getFootprintPackage) | Footprint | pkginfo -f |
| scripts/ (mybld, resolve-libs, outdated) | Mybld, MybldClean, ResolveLibs, Outdated | as cited; grep, sort -V, ldd and file are oracles or small models |
| fltk front-end (flcards) | Gui, GuiJobs, GuiGo, Progress | lists, job marks, the Go! button, progress |

`std::sort` is assumed to return a sorted permutation when its comparison is a strict weak order, and anything otherwise (`StdSort`).

## Not modelled
libarchive, libcurl, OpenSSL and regex internals (oracles); gettext messages and colour output; the layout of the fltk windows; the MySQL server and its library;
the parts of the shell scripts not cited in the model; symbolic links outside `Model/Links.lean`, hard links, ownership and permissions beyond what the cited functions compare; signals
other than those of Halt.
`--root` for dependency resolution (the resolver reads the host database; `InstEnv.net.db` is therefore a separate
database from the one that is changed).

## Plan per property
| id | modelled | proof | where the code breaks the full property |
|----|----------|-------|------------------------------------------|
