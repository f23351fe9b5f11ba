# Design: a Lean 4 model of NuTyX/cards

## Trusted base
* Lean 4.33.0's kernel. Axioms used: only `propext`, `Classical.choice`, `Quot.sound`; `AXIOMS.txt` (written by
  `tools/axioms.py` from `#print axioms`) lists them for every theorem of the manifest. No own axioms, no compiled
  evaluation.
* The hand translation of the C++ in /repo/src into the definitions in `lean/Verif/Model/*.lean`. Every definition
  cites the file and the lines it models and says where it simplifies. Nothing is extracted from or tested against the
  compiled code: the sandbox has no dependencies to build it.
* Semantics assumed for the environment:
  * `std::set<std::string>` and `std::map` are ordered by bytes; strings are lists of characters ordered by code point
    (the same order on UTF-8). A map or set is a strictly sorted list.
  * POSIX `rename` is atomic, `flock` is an exclusive lock per directory inode released when its holder dies,
    `remove(3)` deletes a file or an empty directory, `fgets`/`getline`/`strtoul`/`strtok` as in ISO C.
  * A file tree is a finite map from component lists to files and directories. No symbolic or hard links, no owners; `Model/Links.lean` models installing and removing once more on a tree with symbolic links (C205–C208).
  * regcomp/regexec, OpenSSL digests and signatures, the web server, libarchive decoding and the scripts of packages
    are arbitrary functions (oracles); theorems hold for all of them unless a hypothesis says otherwise.
  * Undefined behaviour (reading out of bounds, uninitialised flags) is an explicit outcome or an oracle value.
  * Non-termination is modelled by fuel (`none` = not finished); "diverges" is "no result for any fuel".

## Layout
* `Verif/Model/*`  — the model, function by function.
* `Verif/Spec/*` — small specifications that do not use the model's helpers.
* `Verif/Lemmas/*` — helper lemmas.
* `Verif/Props/*` — the property theorems, named `Cxx_…`, with a concrete example beside each group. `_partial` marks a
  theorem that proves only part of its property; `_counterexample` proves on a concrete system that the code breaks the
  property (the negation of the full statement), so no proof of it can exist.
* `tools/` — `manifest.py` (MANIFEST.json), `axioms.py` (AXIOMS.txt), `mutate.py` (seeded bugs, log in
  `seeded/LOG.jsonl`).

## What is modelled
| source | model | functions |
|--------|-------|-----------|
| pkgadd.cxx | Trans, Rules, RuleFile, Crash, Lock | run (all of it), getKeepFileList, applyInstallRules, checks on rules, readRulesFile |
| pkgdbh.cxx | Trans, Fs, Crash, RuleFile, Paths, RemoveCmd, Numbers | buildDatabase, moveMetaFilesPackage, addPackageFilesRefsToDB, removePackageFilesRefsFromDB (both), removePackageFiles (both), getConflictsFilesList, installArchivePackage, checkPackageNameExist, checkDependency, readRulesFile, runLastPostInstall, getListOfPackageNames |
| pkgrm.cxx, remove.cxx | Trans, RemoveCmd | run; remove::remove, purge, group handling |
| install.cxx, upgrade.cxx, diff.cxx | Install, Upgrade | install::install, upgrade::upgrade, deletion of obsolete packages, selection, sizes, percentage |
| pkgrepo.cxx, repo.cxx, dwl.cxx, archive.cxx | Repo, Resolve, Numbers | parse, generateDependencies (both), downloads and verification, hash codec, set/collection/group queries |
| archive.cxx, pkginfo.cxx (-a, -m), pkgdbh.cxx (openArchivePackage) | Archive | the constructor, extractFileContent, the getters |
| pkgfile.cxx, depends/deptree/dependent/level.cxx | Pkgfile, Ports | parse, confirmDependencies, generate_level, list/print |
| conf.cxx, argument_parser.cxx, cards_argument_parser.cxx | Conf, Argv | parseConfig, parse |
| pkginfo.cxx | Query | run: --installed, --list, --owner, --builddate, --details |
| pkginfo.cxx, runtime_dependencies_utils.cxx, file_utils.cxx | Elf, ElfMem | getDatas, getRuntimeLibrariesList, run: --runtimedepfiles, -R |
| file_utils.cxx (cleanupMetaFiles), pkgdbh.cxx (meta files), pkgadd.cxx (postRun) | Meta | the meta files in the root directory, schedules |
| all commands with --root | Root | the root and the paths built from it |
| create.cxx | Create | core, base, list, installDependencies, run, checkBinaries, buildCollection (except the search for missing libraries, which only prints), buildBinary; pkgmk is an oracle |
| files.cxx, query.cxx, search.cxx, list.cxx | RepoCmds | parse, list, run; pkgrepo::parseFiles, the .FILES part of repo.cxx |
| sync.cxx, dwl.cxx (list of files), repo.cxx (verification), conf.cxx (purge), file_utils.cxx (findRecursiveFile) | Sync | sync::run, uncompress, dwl::dwl, get, repo::repo, purge, checkSign with the key of the depot |
| file_utils.cxx, string_utils.cxx, process.cxx, vector.cxx, string.cxx, lock.cxx | LineFile, RemoveFile, Strings, Numbers, Containers, Lock, FileUtils | as cited |
| cards.cxx, tools.cxx, pkgdbh.cxx (interruption) | Main, Tools, Halt | dispatch, exit status, a process stopped between two system calls |
| create.cxx (search for missing libraries), runtime_dependencies_utils.cxx | LibCheck | the report |
| pkgadd.cxx, pkgdbh.cxx (postRun, triggers) | Trigger | which caches are rebuilt |
| pkgrepo.cxx (keys, signatures, hash) | Keys, FileHash | generateKeys, sign, checkSign, generateHash |
| diff.cxx, info.cxx | Report, InfoCmd | what is printed |
| webcards.cxx, webrepo.cxx | Web | the pages: requests, packages, documents |
| mysql.cxx | Forum | lastPosts |
| scripts/pkgmk.in | PkgmkSplit, PkgmkRepo, PkgmkNames, PkgmkMeta, PkgmkRun, PkgmkMan, PkgmkSrc, PkgmkCheck | splitting into sub-packages, the repository files, names, META, the order of steps and the exit status, manual pages, sources |
| process.cxx, create.cxx (the log of a build) | BuildLog | executeShell with its pipe, all schedules |
| pkgdbh.cxx (getFootprintPackage) | Footprint | pkginfo -f |
| scripts/ (mybld, resolve-libs, outdated) | Mybld, MybldClean, ResolveLibs, Outdated | as cited; grep, sort -V, ldd and file are oracles or small models |
| fltk front-end (flcards) | Gui, GuiJobs, GuiGo, Progress | lists, job marks, the Go! button, progress |

`std::sort` is assumed to return a sorted permutation when its comparison is a strict weak order, and anything otherwise (`StdSort`).

## Not modelled
libarchive, libcurl, OpenSSL and regex internals (oracles); gettext messages and colour output; the layout of the fltk windows; the MySQL server and its library;
the parts of the shell scripts not cited in the model; symbolic links outside `Model/Links.lean`, hard links, ownership and permissions beyond what the cited functions compare; signals
other than those of Halt.
`--root` for dependency resolution (the resolver reads the host database; `InstEnv.net.db` is therefore a separate
database from the one that is changed).

## Plan per property
| id | modelled | proof | where the code breaks the full property |
|----|----------|-------|------------------------------------------|
| C01 | `pkgadd::run` up to the mode tests (Model/Trans `runAdd`) over a file tree and an on-disk database | case analysis of the control flow; the state is literally unchanged | an alias of the name makes an upgrade go through: C01_alias_upgrade_counterexample |
| C02 | idem, with `getConflictsFilesList` for all three kinds of conflict | exact membership of the conflict set, then case analysis | PRE scripts run first: C02_script_effect_counterexample |
| C03 | every command that changes the database: pkgadd, pkgrm, cards install, cards upgrade, cards remove; histories are lists of them | invariant by induction over histories and over the runs inside one process | — |
| C04 | `removePackageFiles` over a finite tree with the directory semantics of remove(3) | frame lemma for the deletion loop | spelling: C04_spelling_counterexample |
| C05 | idem | induction on the sorted list, reverse order deletes children first | — |
| C06 | keep list and `installArchivePackage` with the rejected directory | frame lemma over the extraction loop | C06_empty_dropped_, C06_dropped_file_deleted_counterexample |
| C07 | `applyInstallRules` and the extraction loop | induction on rules and entries | C07_unlisted_entry_counterexample |
| C08 | whole of `pkgadd::run` | post-condition; order of entries handled by induction on the archive | C08_failed_extraction_, C08_twice_counterexample |
| C09 | `removePackageFilesRefsFromDB(files,keep)` | post-condition | — |
| C10 | META lines with `d1` through `moveMetaFilesPackage` and `buildDatabase` | invariant by induction on upgrade histories | — |
| C11 | the system calls of `addPackageFilesRefsToDB` on a disk with buffered data; kill or power loss after any prefix, any chunking, any failing call | case analysis on the prefix, induction on histories | — |
| C12 | byte level writer and reader of `files` | induction | C12_newline_counterexample (excluded by the statement) |
| C13 | writer of `R` records, `substr` based reader, strtoul | list lemmas | C13_short_epoch_counterexample |
| C14 | lock as a transition system of n processes with crashes | invariant by induction on the schedule | create::base and create::run: C14_create_base_unlocked |
| C15 | load, lock and write phases of interleaved commands | counterexamples; partial for undisturbed executions | C15_stale_data_deletes, C15_stale_data_conflict |
| C16 | `remove::purge` with its DFS over a visited set | closure = reflexive transitive closure | C16_group_, C16_alias_counterexample, C16_uninitialised_flag |
| C17 | decision part of cards remove | case analysis | C17_base_alias_, C17_base_orphan_, C17_collection_counterexample |
| C18 | `depends::list`, `depends::print` | closure theorem | C18_cycle_, C18_subpackage_counterexample |
| C19 | `confirmDependencies`, `generate_level`, `level::print` | loop invariant on a height function | C19_second_call_, C19_dotted_name_, C19_same_index_counterexample |
| C20 | `deptree::print` | termination measure and closure theorem | C20_self_counterexample |
| C21 | `dependent::print` | membership | C21_subpackage_counterexample |
| C22 | `pkgrepo::generateDependencies`, both overloads, as a worklist step function | termination iff acyclic (multiset order), exact closure, topological order | C22_cycle_, C22_short_name_counterexample |
| C23 | idem with oracles for server, hash and signature | invariant over the session | C23_no_global_url_, C23_other_name_counterexample |
| C24 | hex codec; out of bounds writes are an outcome | induction | C24_odd_counterexample |
| C25 | `checkBinaryExist`-style date and release decisions | case analysis | — |
| C26 | writer (`repo`) and parser (`pkgrepo::parse`) of .REPO | round trip by induction on records and collections | C26_leak_, C26_short_name_, C26_big_size_counterexample |
| C27 | set, collection and group filters | membership | — |
| C28 | counting loop of diff | induction | — |
| C29 | selection logic of upgrade, percentage in single precision modelled exactly | membership; error bounds for the rounding | C29_check_, C29_download_only_counterexample |
| C30 | line parser of pkgadd.conf | separate grammar, iff | — |
| C31 | rule lookup | induction on rules | — |
| C32 | `parseConfig` | induction on lines | C32_dir_twice_counterexample |
| C33 | the argv parser and the tables of cards | separate grammar, iff | C33_command_as_value_, C33_dropped_value_, C33_foreign_option_counterexample (document what the statement leaves open) |
| C34 | fgets based reader | exact characterisation | C34_unterminated_, C34_nul_counterexample |
| C35 | trimFileName | termination and specification | — |
| C36 | removeFile recursion | induction on the path | C36_trailing_slash_counterexample |
| C37 | split, strip, replaceAll, case mapping, key/value splitting | induction; divergence stated as absence of a result for every fuel | C37_replaceAll_diverges |
| C38 | cards::vector and cards::string with explicit out-of-bounds outcomes | refinement to List | seven counterexamples |
| C39 | mtos | injectivity on bit fields | — |
| C40 | sorted set walked backwards | order lemma | — |
| C41 | wait status arithmetic | case analysis | C41_reported_as_success |
| C42 | the alias map: `buildDatabase`, `add`/`removePackageFilesRefsFromDB`, `checkPackageNameExist` | invariant along the packages handled by one process | C42_deleted_alias_, C42_remove_counterexample |
| C43 | `runLastPostInstall` with its rule scan and the trigger flags | induction on files and rules | C43_spurious_, C43_excluded_counterexample |
| C44 | path names of extraction, removal and record directories, resolved with `..` | containment lemma | C44_dotdot_, C44_name_counterexample |
| C45 | all system calls of pkgadd's database update, cut at any point, then `buildDatabase` | case analysis on the crash point | C45_crash_, C45_upgrade_lost_counterexample, C45_broken_forever |
| C46 | itos, ultos, strtoul with their buffers | decimal round trip | C46_ultos_overflow, C46_itos_counterexample |
| C47 | argument selection of cards remove | exact list | C47_second_set_, C47_empty_argument_counterexample |
| C48 | `pkgfile::parse` line scanner | separate grammar of Pkgfiles | six counterexamples |
| C49 | sums of diff | induction | C49_obsolete_counterexample |
| C50 | `install::install` with resolution, downloads and the chain of pkgadd runs in one process | induction on the resolved list; C22 gives the list | — |
| C51 | idem, the `d1` mark | idem | C51_argument_, C51_by_hand_, C51_twice_, C51_upgrade_counterexample |
| C52 | `upgrade::upgrade` end to end, with deletion of obsolete packages | C29 + C22 + C50's chain lemma | — |
| C53 | `remove::remove` end to end on the tree | a transitive relation `Shrink` between states, closed under each removal | — |
| C54 | `pkginfo::run`, modes -i -n -l -o -b -d, and `cards list`, over the loaded database | characterisation of rows; C42 for names | C54_alias_hides_, C54_alias_junk_counterexample |
| C55 | the .FILES lines of each collection and the three loops over them | induction over the records; `.cards-` has no border, so the name in a header is unique | two collections with the same package; patterns matching `/` |
| C56 | search::parse as a fold over the lines, search::list as filter | fold lemmas per field; rows and records related by Forall₂ in order | capital letters in names; records without URL or packager |
| C57 | list.cxx as fold over the lines | as C56; sorted set membership | – |
| C58 | the whole function on the bytes of the file: headers, section and program headers, dynamic entries, names | induction over the sections, segments and entries against a specification of ELF64 | string table late, not first or last; 32 bit files; truncated header |
| C59 | librariesList, libOwners, runtimeDeps, runtimeDepFiles | decision logic on top of C58, round trip through C13 | longer names, aliases |
| C60 | clean-up, extraction, .PRE, reading and moving of the meta files, postRun on the whole file system | per-step description of every path, composed | leftover .PRER/.POSTR after a crash; --root |
| C61 | the installation as six steps, other commands as clean-ups at any moment | case analysis over the windows, for schedules of any length; clean-up idempotent | the clean-up of any other command in the windows |
| C62 | the root each command computes and the paths built from it, with the working directory | path component algebra | upgrade, create, relative directories |
| C63 | create.cxx: core, base, list, installDependencies, buildBinary; the history records what each run of pkgmk finds | invariant of the process over all builds (memory and disk agree, names known are installed), C18 for the order, C22 for the base sets | alias of a removed package; dependency on a sub-package; run-time dependencies of the base packages are removed |
| C64 | create.cxx: run and its callers | create::run refines pkgadd::run; invariant over all steps | rebuilding a package the command installed itself leaves the old files without owner; a directory that cannot be entered is ignored and pkgmk is run elsewhere (no case for ERROR_ENUM_CANNOT_CHANGE_DIRECTORY in treatErrors) |
| C65 | create.cxx: checkBinaries, buildCollection (decision and loop) | induction over the build list of C19; refinement of the decision to BinOk | sub-packages of a removed port stay in the depot and in the lists |
| C66 | create.cxx: constructor, checkBinaries, buildCollection | induction over the build list, compared with C65 | --dry with a single port builds it; an unknown port is no error: packages are removed and pkgmk is run in the current directory |
| C67 | create.cxx: run, base with OPT_NO_META | the records at the end are among those at the beginning, by induction over all steps | files of recorded packages are deleted, records of rebuilt packages are lost |
| C68 | sync.cxx, dwl.cxx (list constructor, get, writeToStream); transfers are an oracle, decompression a function | writes as a list; induction over files; places of files are injective when directories are | empty answer, damaged answer: success with a stale list |
| C69 | the writes of sync.cxx/dwl.cxx in order, with a stop after any number of them and in the middle of one | prefix of the list of writes; downloads never go to lists, lists never to compressed files | torn list -> cards upgrade deletes a dependency; new key with old list |
| C70 | repo.cxx writing, sync, pkgrepo::parse, checkSign with the key in the directory | composition of C68, C34, C26; case analysis of fetchAndCheck | see C26, C34 |
| C71 | conf::purge with findRecursiveFile on the tree of files | invariant over the collections; the search finds exactly the visible files (induction on depth) | local directory with global url; `dir base|http://..` deletes the system |
| C72 | the loop of repo.cxx 18-34 | induction over the list | count printed after an early stop |
| C73 | archive constructor and getters on the entries of the file, pkginfo -a and -m, openArchivePackage | splitting of texts, first-match semantics of the getters, composition with pkgadd and C54 | C73_unterminated_, C73_empty_, C73_release_, C73_twice_, C73_itself_counterexample |
| C74 | parseArguments of the three tools and the dispatch of tools.cxx | parser/printer round trip over items; counting | C74_junk_, C74_shared_, C74_help_, C74_rm_user_counterexample |
| C75 | The dispatch of main, the tests of the user, the clean-up and synchronisation before the bodies; the bodies are arbitrary functions on the file system. | Case analysis over the commands; the clean-ups through C60 for any root. | --no-sync ignored; --root without --conf |
| C76 | Isdownload with the never-set hash member, the returns of the constructor before it. | Unfolding of the plan of C29, case analysis. | hash never computed; refusal reported as success |
| C77 | Model/Halt.lean: AddHalt, RmHalt list every state of pkgadd::run and pkgrm::run | case analysis over the moments with the phase lemmas of C04-C09; for the second pkgrm, that a name the deletion loop has passed stays as it is | an unreadable database; an upgrade killed after the removal of the old version cannot be repeated and loses the protection |
| C78 | the search loops of buildCollection with the entries operator[] creates | per-loop characterisation; strong induction over the levels | the .lib package, prefix match, phantom entries: counterexamples |
| C79 | pkgadd and pkgrm composed on database and tree | src of every node after extraction; deletion covers exactly the new nodes | empty directories, permissions, clash: counterexamples |
| C80 | runLastPostInstall, the set m_postInstallList, the splitting of arguments; existence of programs is a function | membership in the ordered set, sortedness of the set (pairwise) for order and multiplicity; literal command table as the specification | per-file cache programs, blanks, refused commands |
| C81 | getFootprintPackage on the entries libarchive reports; user and group databases are functions | injectivity of the line by cutting at the separators; last-write lemma for the map of modes | damage at the end, ambiguous names |
| C82 | cards install up to its loop over the resolved list, each package by pkgadd in one process | phases of the command; induction over the list with the packages done and the failing one; the order of the list from C22 | a failed upgrade loses the record of the package (C82_lost_counterexample) |
| C83 | pkgadd in both modes and pkgrm, tree and database | both runs are reduced to the same removal and the same extraction; the second conflict check finds nothing because the first did not; database extensionality | another package with the name as alias: refused (C83_alias_counterexample) |
| C84 | generateKeys as the sequence of states of the two files, with an oracle for each system call | case analysis over all failures; lookup laws of the file map | umask 022 exposes the key; an old key is lost; a full disk is not noticed |
| C85 | Model/Report (showInfo, amountInfo, hintLines, outTable, sizeHumanRead with exact %5.2f rounding), Model/Upgrade | reading functions in Spec/Report (sectionOf, readSize); the report is a list of parts, each found under its heading; arithmetic of roundDiv and of single precision | diff.cxx:108 float, :314 f_bsize |
| C86 | Model/InfoCmd (infoPairs, infoBinaries, infoSets), Model/Repo | the labels differ in their first 16 characters, so each selects its line; then C26 and C27 for the entry | pkgrepo.cxx:394 record kept between packages |
| C87 | Model/Web webArgs, searchForm, webBody | skeleton of the page (its markup characters) is equal for any two encoded requests; counterexamples for raw ones | page name and search text are printed unescaped (webcards.cxx:541-543, searchpkg) |
| C88 | Model/Web webArgs (set order, find/substr) | fold over the sorted set of parameters, one match only | parameters are looked for anywhere in a piece and in sorted order |
| C89 | Model/Web webListed, webRow, webRows, packageLines, rowLines | membership of rows in the printed page in both directions; the count is the number of rows | names with capital letters are never found by name; only the first word counts |
| C90 | Model/Web webLines, WebSt.line, webParse | fold over the records with the state left by the record before | missing or empty list ends the reading; memchr is given the size of the whole file; the record is never cleared |
| C91 | Model/Web tocLine, tocPage, getContent, webBody, docSearch | induction over the lines with the pair (table, body) | <hr>, <head> … are taken as headings; previousHeaderLevel is not closed at the end |
| C92 | Model/Web visitStep, visitRun (seek and write as two events) | induction over the events | the log is opened with r+ and positioned once, not opened for appending |
| C93 | the tree below $PKG and the archives; pack_* and remove_* of every group, the languages, the removal of translations, check_build and the packing of the main package (groups with their own function in the Pkgfile are not) | one file followed through all the loops: Here (in the tree once, in no archive) or Gone (in one archive once or in none); the directories of the loops characterised by membership | groups lib,devel lose usr/lib/pkgconfig; translations and hidden files dropped |
| C94 | update_repo_file: the sed deletion of a record up to the empty line, the glob of packages, the lines appended | records as text; the deletion over a text of records is a filter of the records | prefix of another name; no package: the unexpanded glob is recorded |
| C95 | check_pkgfile 66-131, the names of the package files, the cuts at points, the patterns of bash | a cut at the first point is undone by its absence in the name; a pattern without special characters is equality | brackets in names; releases from 65536 on |
| C96 | add_meta_to_archive: all lines of .META; the variables as arrays of words; pkginfo as an oracle | every letter's lines by membership; then C26 | line end in a value; the sed against .devel; aliases of language packages |
| C97 | build_package and the end of main as a program over step outcomes: what was done and the exit status | an invariant of every part of the script (Notices, Does), closed under sequence and loops | - |
| C98 | build_needed and the decision in main; get_packages_list of C95 | the loop characterised by induction; the names by C95 | - |
| C99 | one directory as a map from names to pages and links; gzip, readlink, rm, test -e, ln -sf | invariant Between: some entries have their new names, the others their old ones | links to links, to other directories, to oneself |
| C100 | as C97 | invariants Does and Blames of every part of the script | locale functions, the main archive, abort_on_build, repacking, compression |
| C101 | download_source, download_file, get_filename with every state the directory of sources passes through | induction over the sources and the tries, for every intermediate state | archives of git; two sources of one name; names ending in .partial |
| C102 | pkgmk, its helpers, the pipe and the two loops of execShellLog as a transition system with any schedule | invariants by induction over the schedule | - |
| C103 | the same, and the opening of the log files over a collection | invariant; induction over the ports | fast failures; NUL; background processes; more ports than descriptors |
| C104 | createRecursiveDirs with access and mkdir on the file tree, character by character | induction over the name with an invariant on the part passed | the reported result (file in the way, /, one letter) and names of 4096 characters |
| C105 | the block loops of checkFilesEqual and copyFile with eof as iostream and stdio set it | strong induction over the length | devices, pipes and sockets; copying a missing file |
| C106 | table, menus, marks and job list of the main window (Model/Gui) | invariant over event sequences: status bits = parity of picks, rows = permutation of the filtered list | – |
| C107 | refreshTable, setFilter (Model/Gui) | same invariant | – |
| C108 | sort_table_column, event_callback2 (Model/Gui) | texts are ranked (below digits, digits, above); lexicographic comparison by rank | – |
| C109 | as C108 | exact description of the order after each kind of event; counterexample | table_package.cxx:24-61 does not sort |
| C110 | threads, package lists in memory, rows and job list pointing into them (Model/GuiJobs) | invariant over schedules; first bad event | cards_wrapper.cxx:286 frees the list the table and m_arrJobList still point into |
| C111 | as C110 | control state invariant | cards_wrapper.cxx:372-384 tests a flag the thread sets later |
| C112 | as C110, with the progress window | decreasing measure; invariant on closing threads; stuck states are invariant | mainWindow.cxx:105-126 opens the window whether or not a thread was started |
| C113 | RemovePackages, InstallPackages, m_DoJobList_Thread as functions on the system (Model/GuiGo) | the removal loop refines the removals of C05; the installation is the one of C50 on the resulting state | – |
| C114 | guiRemove against pkgrm (Model/GuiGo, Model/Trans) | simulation by induction on the selection; counterexample with a script | cards_client.cxx:80-94 runs no script |
| C115 | as C113, with the dependency relation of the database | exact condition; counterexample | cards_client.cxx:80-94 |
| C116 | progressInfo with its static counter, driven by the events of an operation (Model/Progress) | induction over operations | pkgdbh.cxx:199-308 |
| C117 | cards_client::progressInfo with its static counter (Model/Progress) | exact characterisation by arithmetic | cards_client.cxx:98-147 |
| C118 | the three sed commands on the list of lines, and the reader of Pkgfiles of C48 (Model/Mybld) | induction on the lines; the edit maps a Pkgfile written in closed parts to one with the same arrays | mybld.in:806-808, 862-865 (patterns not anchored) |
| C119 | umount_all, remove_all, error and the mounts as functions on a tree with mount points, killed after any number of commands (Model/MybldClean) | Hoare triples with a crash invariant, induction over histories | mybld.in:646 only knows the mount points of the present project; 467-468 accepts "." |
| C120 | as C119 | frame invariant; total correctness by a chain of conditions; counterexamples | mybld.in:390 calls remove_all without its argument; 364 does not see hidden directories |
| C121 | the loop with the answers of file, ldd, objdump and grep (Model/ResolveLibs) | induction over the files; counterexamples | resolve-libs.in:34-36, 52 |
| C122 | the loop and the comparison (Model/Outdated); sort -V on digits and points | induction over the text, over the numbers and over the ports; counterexamples | outdated.in:51-56, 217-218, 478-484 |
| C123 | check_pkgfile, the aliases (Model/PkgmkCheck) | case analysis of the two loops; symmetry over the collection | pkgmk.in:146 (missing quotes) |
| C124 | check_footprint (Model/PkgmkCheck); diff and sort with a contract | induction over the packages; counterexamples | pkgmk.in:459-460, 466-468, 1637 |
| C125 | lastPosts and the four queries (Model/Forum); the server answers with the rows asked for | sorting lemma; fold of the map; induction over the loop | mysql.cxx:37 (no size test), 86 (result not tested), 149 (poster_name not asked for) |
| C126 | generateHash (Model/FileHash); the digest with a contract | induction over the bytes left | — |
| C127 | the same paths as C58, with the stream and the buffers (Model/ElfMem); malloc does not fail | case analysis of the paths; induction over the files | file_utils.cxx:32-36 |
| C128 | the processes of Model/Lock as programs of atomic steps | invariant over the schedule (C14 theorems) | - |
| C129 | cards remove of Model/RemoveCmd | the check of the arguments comes before all else | - |
| C130 | pkgadd of Model/Trans | C08_record_exact, C01 theorems | - |
| C131 | pkgrm of Model/Trans | frame theorems of C04 | - |
| C132 | the raw database at each moment (Model/Halt, Model/Crash) | C77_records, C77_rm_others | - |
| C133 | load and list of Model/Trans and Model/Query | C42_reported, C42_resolves, C54_files | - |
| C134 | Model/Ports | C18_list, C20_deptree_partial | - |
| C135 | cards create of Model/Create | invariant through all steps (C64_unique_owner) | - |
| C136 | Model/Sync | C68_only_lists, C69_failed_keeps_lists, C68_only_root | - |
| C137 | Model/Sync | C71_purges_exactly | - |
| C138 | Model/PkgmkNames | C95_name_back, C95_group_back, C95_distinct | - |
| C139 | Model/PkgmkSplit | C93_nothing_else, C93_never_twice | - |
| C140 | Model/ResolveLibs | C121_complete | - |
| C141 | Model/Web | C92_old_lines, C92_serial | - |
| C142 | Model/Keys | C84_only_keys, C84_refused | - |
| C143 | Model/Trigger | C80_ldconfig_first | - |
| C144 | Model/Progress | C116_never_killed | - |
| C145 | Model/Tools | C74 theorems | - |
| C146 | Model/Main | C75_user, C75_queries, C75_user_told | - |
| C147 | Model/MybldClean | C120_all, C120_only_clean | - |
| C148 | Model/Query | C54_owner, C54_bad_pattern | - |
| C149 | Model/Upgrade | C29_selected, C29_no_repository | - |
| C150 | Model/Strings | C37 theorems | - |
| C151 | the loop over the collections, the two lists open at once, the compression (Model/RepoRun); moments as an inductive predicate | induction over the moments | — |
| C152 | as C151; the listing of a directory as a set of path names | induction over the moments; the listing holds each visible file once (joined names determine the path) | — |
| C153 | as C151, with the three ways a run ends | induction over the collections; concrete trees for the failures | repo.cxx:55-70, 73, 80-83, 142-148 |
| C154 | the variables as a map; the case of parse_options as a table; the loop over the words; the configuration file read after it (Model/PkgmkOpts) | induction over the words, the table by evaluation | pkgmk.in:1351-1364, 1645 |
| C155 | as C154, the tests of main in their order | the first test that holds, by the list of the modes | pkgmk.in:1287, 1602-1664 |
| C156 | echo, sed s/x//g and the splitting into words as functions on texts (Model/PkgmkOpts) | induction over the text and the words; a pattern without space does not reach over a space | pkgmk.in:1132 |
| C157 | the tree left by the split, split again (Model/PkgmkAgain, Model/PkgmkSplit) | the destination of a file (C93) and what is left of the tree | pkgmk.in:491, 970, 984-1055 |
| C158 | archives as lists of members, the trees $PKG and tar (Model/PkgmkTar) | induction over the packages: after each of them $PKG has no scripts | pkgmk.in:491, 735-741, 768-770 |
| C159 | as C158; unpacking makes the directories above | what is in the unpacked tree, by induction over the members; no path twice | pkgmk.in:880-892 |
| C160 | install_package on top of the model of pkgadd | induction over the files with the exact effect of pkgadd on the database | — |
| C161 | install_package with pkgadd -u | as C160; concrete counterexamples | a new group makes -u fail half way; the order of find decides between two versions |
| C162 | clean on a tree, with find | exact characterisation of the resulting tree | the footprints of the port are deleted too |
| C163 | update_footprint, composed with check_footprint of C124 | induction over the packages | two versions of one package in the directory |
| C164 | unpack_source with the current directory, on a tree | frame by induction over the sources | with a git source whose clone failed the directory of the port is renamed |
| C165 | unpack_source with the current directory, on a tree | induction over the sources; exact condition on the tree before | a file of the port behind a git source is looked for in $SRC |
| C166 | lock machine (Lock), pkgadd, pkgrm | C14_mutual_exclusion, C14_available_after_crash, C14_rm_locked, C14_add_locked | — |
| C167 | pkgadd and its halts | C06_protected_untouched, C77_protected | — |
| C168 | pkgadd, pkgrm | C79_database, C79_files_kept, C79_nothing_left | — |
| C169 | pkgadd, rules | C07_recorded_iff_not_excluded, C07_excluded_untouched | — |
| C170 | Ports | C19_levels, C19_level_print, C19_collection_order | — |
| C171 | Numbers | C24_roundtrip, C24_capitals, C24_encode_injective, C24_hash_compare | — |
| C172 | RemoveFile | C36_below, C36_file_removed, C36_no_empty_parent | — |
| C173 | Query | C54_installed, C54_by_hand, C54_number | — |
| C174 | Report | C85_up_to_date, C85_outdated, C85_names, C85_totals | — |
| C175 | RepoCmds | C56_names_exact | — |
| C176 | Web | C91_request, C91_missing, C91_search | — |
| C177 | Web | C89_exact, C89_count, C89_row | — |
| C178 | Sync | C68_succeeds, C68_failure_reported | — |
| C179 | halts of pkgadd and pkgrm | C77_rerun, C77_rm_rerun | — |
| C180 | Trigger | C80_refused_early, C80_only_listed | — |
| C181 | Install | C51_marks | — |
| C182 | setup_cards_conf, with the model of conf::parseConfig | induction over the loop, settings of the written lines (C32) | — |
| C183 | find_version, find_set, find_collection and the choice between them | induction over the collections | the search ends at the first collection; a set wins over a port of the same name; name="x" is not recognised |
| C184 | generate_Pkgfile, with the model of the reader of Pkgfiles | bounds of the line reader (C34), parts of a Pkgfile (C48) | texts are written into the Pkgfile without quoting |
| C185 | commit, git add and git commit on head, index and working tree | cases | git commit takes the whole index; exit 0 after commit |
| C186 | the loop over the drivers with the two sed ranges | induction over the ranges, the sections and the drivers | the text of the driver is looked for without its end; the ports are named in small letters |
| C187 | get_dependencies, the loop of pkgadd, remove_dependencies, pkginfo -b | what is added is a suffix whose names are all removed, and no name that was there is in the list | build date 0; missing packages; interruption |
| C188 | the choice of PKGMK_COLLECTIONS | cases | — |
| C189 | get_categories: grep, cut, the splitting at ';', sort, uniq, the test of the shell | induction over the words; the sorted set of Base | missing semicolon; white space |
| C190 | strip_files with grep -v -f, read and the case on the kind | membership in the filtered list | names changed by read; patterns inside names |
| C191 | main up to the mode of compression, check_directory, with check_pkgfile from PkgmkNames | cases along the checks | — |
| C192 | build with all its types, set -e | induction over the commands | — |
| C193 | parse_arguments | round trip by induction over the options; an invariant for the settings | empty words; options taken for words |
| C194 | the loop over the arguments | induction over the words | parts of names |
| C195 | Ports | C18_printed_exact, C20_exact | — |
| C196 | PkgmkInst | C162_exact | — |
| C197 | Gui | C109_exact | — |
| C198 | LineFile | C34_exact_bounds | — |
| C199 | RepoCmds (purge) | C71_local_stays | — |
| C200 | Web | C88_exact | — |
| C201 | GuiGo | C115_exact | — |
| C202 | main of webcards (WebMain) over the content of the page (Web) | cut at the last slash, case analysis | a script at the top of the server prints a header and no page (C202_otherwise) |
| C203 | the loops and the report of outdated (OutReport) | invariant of the two loops | a collection named twice is counted twice and listed once |
| C204 | update_repo (OutReport) | parsing of name-version-release, induction over the entries | the old table is lost; half a table is called updated |
| C205 | the kernel's walk with links, lstat, extraction by libarchive and the conflict check (Links) | a walk that arrives is not changed by new nodes; the tree grows by entries at free places, induction over the entries | a link in the archive and an entry below it get past the conflict check |
| C206 | linkAdd, linkRm (Links) | invariant over histories; new files lie where nothing was, old names lead where they led | a missing recorded file |
| C207 | linkRm (Links) | removing only takes nodes away, so a walk that arrives arrived before | removing the owner of a link |
| C208 | linkAdd, linkRm (Links) | a walk from the root stays below it, invariant of the extraction | an absolute link below the root |
| C209 | linkUpgrade (Links) | the upgrade is a removal and an accepted installation, then C205 and C207 | names compared as text, places by the kernel |
| C210 | the queue, the subscribers and what was shown; one step per call | refinement by induction over the history, with the unbounded list of waiting lines as the abstract queue | nothing broken: it is what the logger does |
| C211 | as C210; the shipped flcards is a history without subscription and loop | filter by kind of the specification of C210 | 51st line lost; order between threads; shipped flcards shows nothing |
| C212 | the vector with its buffer, its room and its generation, the cached iterators of the loops, the handlers alive | invariant by induction over calm histories; refinement to the list of subscribed handlers | growth and deletion during a loop: there is no lock |
| C213 | as C16 | C16_terminates and C16_purge_exact_no_groups together | nothing in this range; groups: C16 |
| C214 | as C22 | C22_terminates_iff, C22_missing and C22_resolved together | nothing in this range; outside it C22 |
| C215 | as C186 | induction over the ports | nothing; which port gets a section: C186 |
| C216 | as C118 | filter over the sed program | nothing; the lines with version= and release=: C118 |
| C217 | as C187 | prefix, by induction over the dependencies | nothing; what is removed after the build: C187 |
| C218 | as C207 | invariant over the files removed from the longest name down | nothing; names of other packages: C207 |
| C219 | as C194 | induction over the words | nothing; which words are accepted: C194 |
| C220 | the text of the file, the reader of C30, a matcher for the expressions it uses (characters, ., \w, [^/], *, ^, $) | lemmas for each form of expression, then the chain of the seventeen rules from the last to the first | nothing; two expressions take more than meant (C220_overwritten) |
| C221 | as C220 | each expression as a predicate on names; C07 for the effect | a manual whose name begins with dir is left out |
| C222 | as C220, with the post-install list of C43 | expressions of different events match no common name (checked on their literal beginnings), so the last matching line is the only event | nothing |
| C223 | the changes of the directory of packages as a list, any beginning of it; the state of each package; the decision of C98 | where a file of the directory comes from, by induction on the changes; C98_rebuild_iff | the date of the main package alone decides; it is packed before its description is added |
| C224 | the files as lines; sed -i is one step, each line appended is one; the reader of C26 | records and a cut record under the range of sed; the unfinished record never reaches an empty line, so the reader does not store it | the range of sed runs from the unfinished record into the next one |
| C225 | the installations of C187, a beginning of them; the trap | the packages installed are a prefix plus dependencies; C187 for later builds | nothing |
| C226 | the runs as a transition system (sed reads, sed renames, a line is appended) with a schedule | invariant of the file and of what every sed has read; C94 twice for the order | pkgmk takes no lock |
| C227 | the tree of the build, its split, the finished tar files, the opening of a tar file as archive and pkgadd | C93 (split) + C159 (finished) + C73 (opened) + C07/C08 (installed); a finished package is a GoodArchive | — |
| C228 | as C227 | C93 (each file has one place) for the first; what a fresh installation leaves on the disk and in the database for the second | — |
| C229 | as C227, and pkgrm | the main package lists the directories above whatever it lists (invariant of the split) -> C168; the files of the others are owned by nobody else -> deleted | sub-packages leave directories behind: C229_subpackage_counterexample |
| C230 | the two rsync calls as functions of the list of the server and the number of files that arrive | lookups in folds of writes; filters on names | — |
| C231 | as C230 | what is deleted is not on the server; writes only add | rm -f before rsync, exit 0 after it: C231_binaries_lost_counterexample |
| C232 | as C227, with an upgrade | a fresh installation makes the package the only owner of its files -> the upgrade deletes what the new one does not ship (upgrade_gone) | — |
| C233 | as C227, two packages, and pkgrm | no entry of the second package is at or below a file of the first (C93: each file has one place; a file of the build is above nothing) | directories above the files of a group are 0755 in its archive: C233_directory_counterexample |
| C234 | as C227, a sequence of pkgadd | induction on the sequence: the package of the file puts it there (C227), the others leave it and its owner alone (C233) | — |
| C235 | as C234, followed by a sequence of pkgrm | each file has one owner after the installations (C234) and keeps it until that package is removed (C05); what is gone stays gone | — |
| C236 | build_package twice, then pkgadd and pkgadd -u, then the conflict list of a third package | C232 (old files are gone), C228 (no common file), the records of others unchanged | — |
| C237 | build_package, then a sequence of pkgadd with and without -u | C227 at the package's own step; before and after it the steps of the others have no entry at the place and, after it, no record of it (C228), so neither extraction nor the deletion of old files touches it | — |
| C238 | build_package, then a sequence of pkgadd with and without -u | upgrade_gone at the package's own step; the steps of the others neither record nor make anything there | — |
| C239 | build_package, then a sequence of pkgadd with and without -u | induction on the entries (a kept entry goes to the rejected files) and on the steps | — |
| C240 | build_package, then two sequences of pkgadd with and without -u | from C237 at files of the build, C238 at files that only the port had, C240_others_untouched elsewhere | — |
| C241 | build_package, then a sequence of pkgadd with and without -u | induction on the steps: each records its own and, without conflicts, leaves the others' | — |
