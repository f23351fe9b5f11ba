{"id": "C01", "title": "Mode mismatch is refused without effect", "statement": "Installing (without -u) a package whose name is already installed is refused, upgrading (-u) a package that is not installed is refused, and in both cases the file tree and the package database are exactly what they were before the command.", "quantifier": "every database, file tree, package archive, rule file and option set", "why_tests_cant": "needs to hold for every database and archive, including ones where a conflict or a rule would also apply", "anchors": ["src/pkgadd.cxx pkgadd::run", "src/pkgdbh.cxx pkgdbh::checkPackageNameExist"]}
{"id": "C02", "title": "An unforced conflict changes nothing", "statement": "Without --force, if some non-directory file the package would install is owned by another package or already exists on disk without being owned by the installed version of this package, the command fails and neither the file tree nor the database changes. If there is no such file the command does not fail with a conflict.", "quantifier": "every database, file tree, archive, rule list and mode (install or upgrade)", "why_tests_cant": "quantifies over all file trees and ownership relations", "anchors": ["src/pkgadd.cxx pkgadd::run", "src/pkgdbh.cxx pkgdbh::getConflictsFilesList"]}
{"id": "C03", "title": "No non-directory file is ever owned by two packages", "statement": "Starting from an empty database (or any database with the property), after any sequence of install, upgrade, forced install, forced upgrade and remove commands, successful or failing, no path that is not a directory entry is listed by two different installed packages.", "quantifier": "every finite history of package commands with arbitrary archives, options and file trees", "why_tests_cant": "an invariant over unbounded histories", "anchors": ["src/pkgadd.cxx pkgadd::run", "src/pkgrm.cxx pkgrm::run", "src/pkgdbh.cxx pkgdbh::getConflictsFilesList", "src/pkgdbh.cxx pkgdbh::removePackageFilesRefsFromDB"]}
{"id": "C04", "title": "Removal only touches the package's own unshared files", "statement": "Removing a package never deletes a path that another installed package lists, and never deletes or modifies a path that the removed package does not list. Records of the other packages are unchanged.", "quantifier": "every database, file tree and package name", "why_tests_cant": "must hold for every sharing pattern between packages", "anchors": ["src/pkgdbh.cxx pkgdbh::removePackageFiles", "src/pkgrm.cxx pkgrm::run"]}
{"id": "C05", "title": "Removal is complete", "statement": "After a package is removed it is no longer in the database, every regular file only it listed is gone from disk, and a directory only it listed is gone when nothing foreign remains inside it.", "quantifier": "every database and file tree with well-formed paths", "why_tests_cant": "depends on the deletion order for arbitrarily deep trees", "anchors": ["src/pkgdbh.cxx pkgdbh::removePackageFiles", "src/pkgdbh.cxx pkgdbh::removePackageFilesRefsFromDB(name)"]}
{"id": "C06", "title": "Protected configuration files survive an upgrade", "statement": "On upgrade, a file of the new package that exists on disk and whose last matching UPGRADE rule says NO keeps exactly its content; the packaged version ends up under var/lib/pkg/rejected or is dropped because it is identical.", "quantifier": "every rule list, archive, database and file tree", "why_tests_cant": "quantifies over rule lists with overlapping patterns and arbitrary trees", "anchors": ["src/pkgadd.cxx pkgadd::getKeepFileList", "src/pkgdbh.cxx pkgdbh::installArchivePackage", "src/pkgdbh.cxx pkgdbh::removePackageFiles(name,keep)"]}
{"id": "C07", "title": "INSTALL NO files are neither written nor recorded", "statement": "A file of the archive whose last matching INSTALL rule says NO is not created or modified by the installation and is not in the recorded file list; every other non-meta file of the archive is recorded. A file matched by no INSTALL rule is installed.", "quantifier": "every rule list and archive", "why_tests_cant": "all rule orders and overlaps", "anchors": ["src/pkgadd.cxx pkgadd::applyInstallRules", "src/pkgdbh.cxx pkgdbh::installArchivePackage"]}
{"id": "C08", "title": "A successful install records exactly what it put on disk", "statement": "After a successful install or upgrade the package is in the database with a file list equal to the archive's non-meta files minus those excluded by rules, all of these exist on disk, and the other packages' file lists are unchanged except for the files taken over by force.", "quantifier": "every archive, database, file tree, rules, options", "why_tests_cant": "a post-condition over all inputs", "anchors": ["src/pkgadd.cxx pkgadd::run", "src/pkgdbh.cxx pkgdbh::addPackageFilesRefsToDB", "src/pkgdbh.cxx pkgdbh::moveMetaFilesPackage"]}
{"id": "C09", "title": "Forced installation transfers ownership", "statement": "After a forced install or upgrade succeeds each conflicting file is listed by the new package only; every other package keeps all its remaining files in its list.", "quantifier": "every database, file tree, archive, rules", "why_tests_cant": "any number of conflicting packages and files", "anchors": ["src/pkgdbh.cxx pkgdbh::removePackageFilesRefsFromDB(files,keep)", "src/pkgadd.cxx pkgadd::run"]}
{"id": "C10", "title": "The automatic-dependency mark survives upgrades", "statement": "A package installed as a dependency is still marked as dependency after any number of upgrades; a package installed by hand never becomes marked by an upgrade; all other metadata lines are those of the archive.", "quantifier": "every history of upgrades", "why_tests_cant": "invariant over histories", "anchors": ["src/pkgadd.cxx pkgadd::run", "src/pkgdbh.cxx pkgdbh::moveMetaFilesPackage", "src/pkgdbh.cxx pkgdbh::checkDependency"]}
{"id": "C11", "title": "The file list of a package is replaced atomically", "statement": "If the process is killed at any point while the file list of a package is being rewritten, a later reader finds either the complete old list or the complete new list, never a truncated or mixed one.", "quantifier": "every crash point and every old/new list", "why_tests_cant": "needs all crash points", "anchors": ["src/pkgdbh.cxx pkgdbh::addPackageFilesRefsToDB"]}
{"id": "C12", "title": "The recorded file list round-trips", "statement": "Reading back the file list written for a package gives exactly the set of paths written, for every set of non-empty paths without newline.", "quantifier": "every set of paths", "why_tests_cant": "all strings", "anchors": ["src/pkgdbh.cxx pkgdbh::addPackageFilesRefsToDB", "src/pkgdbh.cxx pkgdbh::buildDatabase"]}
{"id": "C13", "title": "A runtime dependency record round-trips", "statement": "A runtime dependency written to a META file as R<name><epoch> is read back as the same name and epoch for every name and every ten-digit epoch.", "quantifier": "every name and epoch", "why_tests_cant": "all names (including ones ending with digits) and epochs", "anchors": ["src/pkgdbh.cxx pkgdbh::buildDatabase", "src/pkgdbh.cxx pkgdbh::buildSimpleDependenciesDatabase", "src/archive.cxx archive::getRunTimeDependenciesEpoch"]}
{"id": "C14", "title": "Package commands exclude each other", "statement": "At no time do two processes modify the database of the same root at once: while one holds the exclusive lock every other attempt to lock fails, and the lock is released on exit, error or crash.", "quantifier": "every interleaving of any number of processes", "why_tests_cant": "all schedules", "anchors": ["src/lock.cxx lock::lock", "src/pkgadd.cxx pkgadd::run", "src/pkgrm.cxx pkgrm::run"]}
{"id": "C15", "title": "A command acts on the database it locked", "statement": "The ownership data a command bases its deletions on is the data on disk at the time it holds the lock (no lost update between two concurrent commands).", "quantifier": "every interleaving of two commands", "why_tests_cant": "all schedules", "anchors": ["src/pkgadd.cxx pkgadd::run", "src/pkgdbh.cxx pkgdbh::buildDatabase", "src/create.cxx create::run"]}
{"id": "C16", "title": "Orphan purge removes exactly the unneeded automatic packages", "statement": "After cards remove, the packages selected for automatic removal are exactly the installed packages that are not reachable through recorded runtime dependencies from any package installed by hand; the computation terminates on cyclic dependencies.", "quantifier": "every dependency graph", "why_tests_cant": "all graphs including cycles and dangling dependencies", "anchors": ["src/pkgrm.cxx pkgrm::getListOfManInstalledPackages", "src/pkgrm.cxx pkgrm::getDirectDependencies", "src/remove.cxx remove::remove"]}
{"id": "C17", "title": "cards remove refuses to break a dependency", "statement": "cards remove refuses the argument 'base', and refuses any argument that an installed package lists as a runtime dependency, before changing anything; packages of collection base are only removed with --force.", "quantifier": "every database and argument list", "why_tests_cant": "all databases", "anchors": ["src/remove.cxx remove::remove"]}
{"id": "C18", "title": "cards depends lists the transitive build dependencies", "statement": "The list of a port contains exactly the ports reachable through its build and run dependencies, once each, and the computation terminates on cycles.", "quantifier": "every ports tree", "why_tests_cant": "all graphs", "anchors": ["src/depends.cxx depends::list", "src/depends.cxx depends::print"]}
{"id": "C19", "title": "Build levels order ports after their dependencies", "statement": "Level computation terminates; in a tree without cyclic or dangling dependencies every port gets a level strictly greater than the level of each of its dependencies and ports without dependencies get level 0, so building level by level never needs a port not yet built.", "quantifier": "every ports tree", "why_tests_cant": "all graphs", "anchors": ["src/pkgfile.cxx pkgfile::generate_level", "src/pkgfile.cxx pkgfile::confirmDependencies", "src/level.cxx level::print"]}
{"id": "C20", "title": "cards deptree terminates and shows every dependency once", "statement": "The tree printer terminates on every ports tree, expands each port at most once, and prints every reachable port.", "quantifier": "every ports tree", "why_tests_cant": "all graphs", "anchors": ["src/deptree.cxx deptree::print"]}
{"id": "C21", "title": "cards dependent is the inverse of the dependency relation", "statement": "The reverse dependency listing of a port lists exactly the ports that have that name among their declared dependencies, each with its collection, version and release.", "quantifier": "every ports tree and port", "why_tests_cant": "all trees", "anchors": ["src/dependent.cxx dependent::print"]}
{"id": "C22", "title": "Dependency resolution for install is complete, duplicate free and ordered", "statement": "For a package to install, the resolved list contains the package and every not-up-to-date package reachable through repository runtime dependencies, each once, with each dependency before the packages that need it; resolution terminates.", "quantifier": "every repository and installed database", "why_tests_cant": "all graphs, including cyclic ones", "anchors": ["src/pkgrepo.cxx pkgrepo::generateDependencies"]}
{"id": "C23", "title": "No unverified package file is used from a remote collection", "statement": "When a collection has a URL, the path of a package handed to the installer names a file whose hash equals the hash in the repository metadata and whose signature verifies; otherwise the command fails.", "quantifier": "every repository, download outcome, file content", "why_tests_cant": "all adversarial contents", "anchors": ["src/pkgrepo.cxx pkgrepo::generateDependencies", "src/pkgrepo.cxx pkgrepo::checkHash", "src/pkgrepo.cxx pkgrepo::checkSign"]}
{"id": "C24", "title": "Hexadecimal hashes and signatures round-trip", "statement": "Hex-encoding a byte string and decoding it gives the byte string back, and decoding never writes outside its buffer.", "quantifier": "every byte string / every hex string found in metadata", "why_tests_cant": "all byte strings and malformed metadata", "anchors": ["src/pkgrepo.cxx pkgrepo::generateHash", "src/pkgrepo.cxx pkgrepo::checkSign"]}
{"id": "C25", "title": "Up-to-date decisions are sound", "statement": "A package is reported up to date against a repository entry only if it is installed with the same version and release, from the same collection when both are known, and with a build date not older than the entry's. A dependency with unknown build date is never considered satisfied.", "quantifier": "every installed database and entry", "why_tests_cant": "all combinations", "anchors": ["src/pkgdbh.cxx pkgdbh::checkPackageNameUptodate", "src/pkgdbh.cxx pkgdbh::checkPackageNameBuildDateSame"]}
{"id": "C26", "title": "Repository metadata round-trips", "statement": "The .REPO file written by cards repo, read by the package resolver, yields for each package the name, version, release, arch, url, description, collection, dependencies, sets, aliases, hash, size and signature that were written, in particular no field of one package appears in another.", "quantifier": "every list of package records", "why_tests_cant": "all record lists and field subsets", "anchors": ["src/repo.cxx repo::generateMetaFile", "src/pkgrepo.cxx pkgrepo::parse"]}
{"id": "C27", "title": "Set and collection queries list exactly the members", "statement": "The packages of a set are exactly the non-group repository packages that declare the set; the packages of a collection exactly the non-group, non-language packages of that collection.", "quantifier": "every repository", "why_tests_cant": "all repositories", "anchors": ["src/pkgrepo.cxx pkgrepo::getListOfPackagesFromSet", "src/pkgrepo.cxx pkgrepo::getListOfPackagesFromCollection"]}
{"id": "C28", "title": "cards diff classifies every installed package exactly once", "statement": "Every installed package is counted in exactly one class (up to date, new build, new version, obsolete, unmaintained) and the counts add up to the number of installed packages.", "quantifier": "every database and repository", "why_tests_cant": "all databases", "anchors": ["src/diff.cxx diff::diff"]}
{"id": "C29", "title": "cards upgrade selects exactly the outdated packages", "statement": "The packages upgraded are installed and present in the repository with a newer build (plus their configured group packages); the packages deleted are marked as dependency and gone from the repository; nothing is done when the repository is empty or, without --proceed, when the removal ratio exceeds the limit.", "quantifier": "every database, repository and options", "why_tests_cant": "all databases", "anchors": ["src/upgrade.cxx upgrade::upgrade"]}
{"id": "C30", "title": "Rule file parsing is exact", "statement": "Every accepted line of pkgadd.conf yields one rule with the event, pattern and action written, in file order; empty lines and comments yield none; any other line is rejected with an error before the file tree or database changes.", "quantifier": "every rule file", "why_tests_cant": "all texts", "anchors": ["src/pkgdbh.cxx pkgdbh::readRulesFile"]}
{"id": "C31", "title": "Last matching rule wins", "statement": "For both INSTALL and UPGRADE rules the decision for a file is that of the last rule of that event in file order whose pattern matches, independent of all other rules; rules of other events never change it.", "quantifier": "every rule list and file", "why_tests_cant": "all rule lists", "anchors": ["src/pkgadd.cxx pkgadd::getKeepFileList", "src/pkgadd.cxx pkgadd::applyInstallRules", "src/pkgadd.cxx pkgadd::getInstallRulesList"]}
{"id": "C32", "title": "Configuration parsing precedence", "statement": "In cards.conf, the first url/depot/version wins, the last logdir/keypath wins, comments are ignored, a collection listed twice with `collection` is taken once, and collections keep their order.", "quantifier": "every configuration file", "why_tests_cant": "all texts", "anchors": ["src/conf.cxx conf::parseConfig"]}
{"id": "C33", "title": "Command line parsing", "statement": "A command line is accepted only if it has a known command, known options, values for all value-requiring options, all mandatory options and the right number of arguments; the accepted parse holds exactly the options and arguments given, in order (an option that takes no value ignores one attached to it, and options are not tied to commands).", "quantifier": "every argv", "why_tests_cant": "all argument vectors", "anchors": ["src/argument_parser.cxx ArgParser::parse", "src/cards_argument_parser.cxx"]}
{"id": "C34", "title": "Line files are read completely", "statement": "Reading a metadata file returns exactly its lines.", "quantifier": "every file content", "why_tests_cant": "all contents including missing final newline and over-long lines", "anchors": ["src/file_utils.cxx parseFile"]}
{"id": "C35", "title": "Path trimming", "statement": "trimFileName removes every double slash and nothing else: the result contains no '//', is unchanged by a second application and has the same components.", "quantifier": "every string", "why_tests_cant": "all strings", "anchors": ["src/file_utils.cxx trimFileName"]}
{"id": "C36", "title": "Empty parent cleanup stays inside the root", "statement": "Removing a file with parent cleanup removes only the file and then-empty ancestors below the base directory, never the base directory's siblings or non-empty directories.", "quantifier": "every path and file tree", "why_tests_cant": "all trees and depths", "anchors": ["src/file_utils.cxx removeFile"]}
{"id": "C37", "title": "String helpers are total and exact", "statement": "Splitting a string by a delimiter yields exactly the maximal non-empty delimiter-free pieces in order; stripping white space removes exactly leading and trailing white space; replaceAll replaces every occurrence and terminates.", "quantifier": "every string", "why_tests_cant": "all strings", "anchors": ["src/string_utils.cxx parseDelimitedVectorList", "src/string_utils.cxx stripWhiteSpace", "src/string_utils.cxx replaceAll"]}
{"id": "C38", "title": "The dynamic containers behave as sequences", "statement": "cards::vector and cards::string keep the elements pushed, in order, whatever sequence of operations is performed, and never access memory out of bounds.", "quantifier": "every sequence of operations", "why_tests_cant": "all operation sequences", "anchors": ["src/vector.cxx", "src/string.cxx"]}
{"id": "C39", "title": "Mode strings identify permissions", "statement": "The symbolic mode string printed in footprints determines the permission bits and file type: two modes with the same string have the same type and the same twelve permission bits.", "quantifier": "every mode", "why_tests_cant": "all modes", "anchors": ["src/string_utils.cxx mtos"]}
{"id": "C40", "title": "Children are deleted before their directory", "statement": "Whenever the package file list is deleted, every entry inside a listed directory is deleted before the directory itself.", "quantifier": "every set of paths", "why_tests_cant": "all trees", "anchors": ["src/pkgdbh.cxx pkgdbh::removePackageFiles"]}
{"id": "C41", "title": "A failed script is reported as failed", "statement": "The status returned for a child process is zero only if the child exited normally with status zero.", "quantifier": "every wait status", "why_tests_cant": "all termination causes", "anchors": ["src/process.cxx process::exec", "src/process.cxx process::execShell"]}
{"id": "C42", "title": "Aliases resolve to installed packages", "statement": "Every name the database reports as installed, directly or by alias, resolves to a package whose record is in the database.", "quantifier": "every database and history within one process", "why_tests_cant": "all databases", "anchors": ["src/pkgdbh.cxx pkgdbh::buildDatabase", "src/pkgdbh.cxx pkgdbh::checkPackageNameExist"]}
{"id": "C43", "title": "Post-install triggers run only for matching files", "statement": "After an installation the trigger commands run (ldconfig, install-info, update-mime-database, ...) are exactly those of the installed files whose last matching trigger rule in pkgadd.conf has action YES.", "quantifier": "every rule file, matcher and file list", "why_tests_cant": "the rule file and file names are unbounded", "anchors": ["src/pkgadd.cxx:applyInstallRules", "src/pkgdbh.cxx:runLastPostInstall"]}
{"id": "C44", "title": "Package files stay inside the root", "statement": "No name found in an archive makes an installation write, or a removal delete, anything outside the root directory; the record of a package lies below the database directory.", "quantifier": "every root directory and every entry name and package name", "why_tests_cant": "names are arbitrary data from an archive", "anchors": ["src/pkgdbh.cxx:installArchivePackage", "src/pkgdbh.cxx:removePackageFiles", "src/pkgdbh.cxx:moveMetaFilesPackage"]}
{"id": "C45", "title": "A crash never makes the database unusable", "statement": "If a package command is killed at any point, the next command can read the database: every other package is recorded as before, and the package being worked on is recorded in its old or new state.", "quantifier": "every crash point of install, upgrade and remove, and every later command history", "why_tests_cant": "crash points between system calls cannot be enumerated by tests", "anchors": ["src/pkgdbh.cxx:buildDatabase", "src/pkgdbh.cxx:moveMetaFilesPackage", "src/pkgdbh.cxx:addPackageFilesRefsToDB", "src/pkgdbh.cxx:removePackageFilesRefsFromDB"]}
{"id": "C46", "title": "Numbers written as text are read back", "statement": "Sizes, dates and releases printed by the tools and read back give the same number, and printing never overruns its buffer.", "quantifier": "every unsigned number", "why_tests_cant": "64 bit domain", "anchors": ["src/string_utils.cxx:itos", "src/string_utils.cxx:ultos", "src/repo.cxx"]}
{"id": "C47", "title": "cards remove selects the packages its arguments name", "statement": "Each argument of cards remove selects the installed packages whose collection or group it is (or, if there is none, whose set it is) and the package it is the name or an alias of; nothing else is selected.", "quantifier": "every database and argument list", "why_tests_cant": "all databases and argument combinations", "anchors": ["src/remove.cxx remove::remove"]}
{"id": "C48", "title": "The dependencies of a port are those its Pkgfile lists", "statement": "After the ports tree is read, there is one port per directory name holding a Pkgfile (the last one scanned wins), its dependencies are exactly the names listed in the makedepends and run arrays of that Pkgfile, and its version and release are the values of its version and release lines.", "quantifier": "every list of collections, every Pkgfile text, arrays on one or several lines with comments", "why_tests_cant": "all texts and all scan orders", "anchors": ["src/pkgfile.cxx pkgfile::parse"]}
{"id": "C49", "title": "The sizes cards diff announces are those of the packages concerned", "statement": "The announced download size is the sum of the file sizes of the packages to be replaced, the size of reinstalled packages the sum of the space they will take, and the size of removed packages the sum of the space now taken by the replaced and the obsolete packages.", "quantifier": "every database and repository", "why_tests_cant": "all databases and sizes", "anchors": ["src/diff.cxx diff::downloadSize", "src/diff.cxx diff::AddSize", "src/diff.cxx diff::RemoveSize"]}
{"id": "C50", "title": "cards install installs what it was asked for, with everything needed, and nothing else", "statement": "After a successful cards install, every package file named on the command line and every package the arguments resolve to is recorded in the database as its archive says (META lines, files); for a package asked for by name from a repository in order these are exactly the package and all it transitively needs that is not up to date; every other package is as before (with --force it loses just the non-directories the packages handled ship). An unknown argument, or a failed resolution, leaves everything as it was.", "quantifier": "every argument list, repository, set of package files, database, and number of packages handled by the one process", "why_tests_cant": "all repositories, dependency graphs and databases; several packages handled in one process that loaded the database once", "anchors": ["src/install.cxx install::parse", "src/install.cxx install::getLocalePackagesList", "src/pkgadd.cxx pkgadd::run"]}
{"id": "C51", "title": "The mark of automatically installed packages tells what was asked for", "statement": "After cards install, a package carries the mark of automatically installed packages (which makes cards remove take it away when nothing needs it any more) exactly when it was pulled in as a dependency, or was so marked before; a package the user asked for by name or had installed by hand does not get it.", "quantifier": "every argument list, repository and database", "why_tests_cant": "all histories of installs and dependency graphs", "anchors": ["src/install.cxx install::parse", "src/pkgdbh.cxx pkgdbh::setDependency", "src/pkgdbh.cxx pkgdbh::moveMetaFilesPackage"]}
{"id": "C52", "title": "cards upgrade brings the packages to update to the repository's state and deletes just the obsolete ones", "statement": "After a successful cards upgrade every package to update, and all it transitively needs that is not up to date, is recorded as the archive of the repository says; the packages the plan calls obsolete are gone from the database together with the files no other package lists; every other package is as before (it loses just the non-directories the packages handled ship). When there is nothing to do, or the command is a dry run or simple check, nothing changes.", "quantifier": "every repository, database, file tree, option set and set of package files", "why_tests_cant": "all repositories, dependency graphs, databases and trees; installs and deletions follow one another in one process that loaded the database once", "anchors": ["src/upgrade.cxx upgrade::upgrade", "src/upgrade.cxx upgrade::upgradePackages", "src/pkgdbh.cxx pkgdbh::removePackageFiles"]}
{"id": "C53", "title": "cards remove deletes from the tree exactly what only removed packages listed", "statement": "However a cards remove command ends, with its groups and the purge of unneeded dependencies: package records only disappear, none is changed; a path of the tree that no removed package lists, or that a package still installed lists under the same name, is as before; and a non-directory that only removed packages listed is gone. Paths the removal scripts of the packages touch themselves are excepted.", "quantifier": "every database, tree, argument list, configuration of groups, behaviour of removal scripts and locks, success or failure at any step", "why_tests_cant": "ranges over all databases, trees and the failure point of every one of the nested removals; a test fixes one database", "anchors": ["src/remove.cxx remove::remove", "src/pkgrm.cxx pkgrm::run", "src/pkgdbh.cxx pkgdbh::removePackageFiles"]}
{"id": "C54", "title": "Queries on the installed packages tell what the database records", "statement": "pkginfo -i prints one line per installed package with the collection, version, release and automatic mark of its record, and cards list one line, without the mark, for exactly the packages installed by hand; cards files NAME prints exactly the recorded file list of the package of that name (or alias) and refuses names no package has; cards query PATTERN prints exactly the pairs of a package and a file it lists whose path matches; pkginfo -b prints the build date and cards info the version, release, collection, mark and dependencies of the named package.", "quantifier": "every database, every name and alias, every pattern and regular expression engine", "why_tests_cant": "ranges over all databases and alias constellations; the failing cases need a particular order of names", "anchors": ["src/pkginfo.cxx pkginfo::run", "src/pkgdbh.cxx pkgdbh::buildDatabase"]}
{"id": "C55", "title": "File queries on the repositories tell what the package files contain", "statement": "cards files --binaries NAME prints exactly the file list of the package file of NAME that cards install NAME would install; cards query --binaries PATTERN prints exactly the triples of a collection, a package file in it and a path the file contains that matches PATTERN; the file sets of the repository packages (pkgrepo::parseFiles) are exactly the files of the package files of that name.", "quantifier": "every set of collections, package names, file lists, patterns and regular expression engines", "why_tests_cant": "ranges over all repositories; the failing cases need two collections with the same package, or a pattern matching the separator line", "anchors": ["src/files.cxx files::parse", "src/query.cxx query::parse", "src/pkgrepo.cxx pkgrepo::parseFiles", "src/repo.cxx repo::repo"]}
{"id": "C56", "title": "cards search finds exactly the matching packages", "statement": "cards search WORD prints one line, in repository order, with collection, name, version and description for each package file (language sub-packages excepted) whose collection, name, description, URL, packager or version contains WORD ignoring the case of ASCII letters, and no others; with --names only the name is searched.", "quantifier": "every set of collections and package descriptions, every word", "why_tests_cant": "ranges over all descriptions and orders of records; the failing cases depend on the record before", "anchors": ["src/search.cxx search::parse", "src/search.cxx search::list", "src/string_utils.cxx convertToLowerCase"]}
{"id": "C57", "title": "cards list --binaries and --sets list the repositories", "statement": "cards list --binaries prints one line for each package file of the collections, in order, with its collection, name, version and release; cards list --sets prints exactly the sets some package file belongs to, each once.", "quantifier": "every set of collections and package descriptions that give name, version, release and collection", "why_tests_cant": "ranges over all repositories", "anchors": ["src/list.cxx list::list"]}
{"id": "C58", "title": "The shared libraries of a file are read correctly", "statement": "For every file, the list of libraries collected from it is exactly the list of the names its ELF dynamic section gives with DT_NEEDED or DT_SONAME; a file that is not ELF contributes nothing.", "quantifier": "every file content", "why_tests_cant": "The answer depends on where the tools that made the file placed sections and string tables; tests try a few binaries of one compiler.", "anchors": ["src/runtime_dependencies_utils.cxx: getRuntimeLibrariesList", "src/file_utils.cxx: getDatas", "src/elf.h"]}
{"id": "C59", "title": "Run time dependencies are the owners of the libraries", "statement": "pkginfo -R prints each installed package that has a library used by the ELF files of the named package and no other; the lines of pkginfo --runtimedepfiles, read back as run time dependencies, are exactly the packages that have a library used by the files, each with its installed build date.", "quantifier": "every database, every set of files and contents", "why_tests_cant": "Ranges over all databases and library names; the substring test is only wrong for particular pairs of names.", "anchors": ["src/pkginfo.cxx: run"]}
{"id": "C60", "title": "Metadata and scripts of a package come from its archive", "statement": "A successful pkgadd records the .META text of the archive (plus the dependency mark when asked) and exactly the removal scripts of the archive, runs the .PRE and .POST scripts of the archive once each in this order, leaves no meta file in the root directory and touches nothing else with its handling of the meta files.", "quantifier": "every archive, every file system, every history including crashes, every root", "why_tests_cant": "A leftover script appears only after a crash at a particular point of another installation; the wrong directory only with --root.", "anchors": ["src/pkgdbh.cxx: moveMetaFilesPackage, extractAndRunPREfromPackage, installArchivePackage", "src/pkgadd.cxx: postRun", "src/file_utils.cxx: cleanupMetaFiles"]}
{"id": "C61", "title": "Other commands do not disturb a running installation", "statement": "While a package is being installed, starting other commands of the suite (queries, refused installations) does not change the outcome: the package is recorded and its scripts are run.", "quantifier": "every schedule of starts of other commands between the steps of the installation, every archive and file system", "why_tests_cant": "Depends on the interleaving of two processes.", "anchors": ["src/pkgdbh.cxx: buildDatabase, moveMetaFilesPackage", "src/file_utils.cxx: cleanupMetaFiles"]}
{"id": "C62", "title": "--root confines a command to the directory", "statement": "With --root DIR (an existing directory, absolute or relative) a command reads, locks and writes the database of DIR and looks for, deletes and extracts files below DIR; without the option it works on /.", "quantifier": "every directory name, every working directory, every command that accepts the option", "why_tests_cant": "Ranges over all spellings of directories and working directories.", "anchors": ["src/pkgadd.cxx: parseArguments", "src/pkgdbh.cxx: parseArguments, installArchivePackage", "src/install.cxx: parseArguments", "src/upgrade.cxx: upgrade", "src/create.cxx: create", "src/lock.cxx"]}
{"id": "C63", "title": "The environment in which cards create builds a port", "statement": "Each time cards create runs pkgmk for a port, the packages installed in the chroot are exactly the packages of the sets chroot and devel, the main packages of the direct and indirect dependencies of the port, and their sub-packages of the configured groups; dependencies were installed after the ports they depend on.", "quantifier": "for every ports tree, list of binaries, content of the depot, configured groups, installed packages, behaviour of pkgmk and scripts, port or collection asked for, and every run of pkgmk during the command", "why_tests_cant": "it speaks about all dependency graphs, all databases found in the chroot and all earlier builds in the same process; a test runs a handful of ports", "anchors": ["src/create.cxx:core", "src/create.cxx:base", "src/create.cxx:list", "src/create.cxx:installDependencies", "src/create.cxx:buildBinary"]}
{"id": "C64", "title": "The package database during cards create", "statement": "However cards create ends, the database is well formed and no file has got a second owner; when it succeeds for a port, the packages pkgmk made are recorded with their META lines and files, and files of the versions they replace that no package owns are gone.", "quantifier": "for every initial database with one owner per file, every port or collection, every behaviour of pkgmk, locks and scripts, and every point at which the command may fail", "why_tests_cant": "the invariant must hold for all sequences of removals, installations and builds and for each of their failures", "anchors": ["src/create.cxx:run", "src/create.cxx:base", "src/create.cxx:buildBinary"]}
{"id": "C65", "title": "Which ports of a collection are built", "statement": "cards create of a collection builds exactly the ports of the collection whose binary is missing or has another version or release than the port, each once and none before one it needs; afterwards all binaries of the collection match their ports, and running it again builds nothing. Before building, the files of binaries of the collection that have no port any more are removed.", "quantifier": "for every ports tree, lists of binaries, content of the depot, and every pkgmk that, when it succeeds, produces the binary of its port and leaves those of other ports alone", "why_tests_cant": "every combination of missing, outdated and present binaries over every dependency graph has to be covered", "anchors": ["src/create.cxx:checkBinaries", "src/create.cxx:buildCollection"]}
{"id": "C66", "title": "cards create --dry", "statement": "With --dry, cards create changes nothing and names exactly the ports that the same command without --dry would build, in the same order.", "quantifier": "for every ports tree, lists of binaries, depot, database and argument", "why_tests_cant": "it compares two runs of the command over all inputs", "anchors": ["src/create.cxx:create", "src/create.cxx:buildCollection", "src/create.cxx:buildBinary"]}
{"id": "C67", "title": "cards create --no-meta", "statement": "With --no-meta, cards create records nothing about the packages it installs and leaves the existing records as they are and true; without records no post-install script is run.", "quantifier": "for every database, port or collection, and behaviour of pkgmk and scripts", "why_tests_cant": "it must hold for all packages installed, upgraded and removed during the command", "anchors": ["src/create.cxx:run", "src/create.cxx:base"]}
{"id": "C68", "title": "cards sync brings the lists of the server and touches nothing else", "statement": "When `cards sync` reports success, every configured collection with an address (and its own directory) has the public key the server sent, and its .REPO and .FILES say what the compressed lists the server sent say; it succeeds when every transfer does and fails when a file of a collection cannot be fetched. Whatever the server sends, and whether the command succeeds, fails or is stopped, no file other than the keys and lists of such collections changes. Only root can run it.", "quantifier": "every configuration, every depot and system before, every sequence of complete and broken transfers with any content, every compression format, every moment of a stop", "why_tests_cant": "a test runs against one well-behaved server; empty, damaged or broken answers and overlapping collections are not tried", "anchors": ["src/sync.cxx: sync::run, sync::uncompress", "src/dwl.cxx: dwl::dwl, dwl::get, dwl::writeToStream", "src/cards.cxx: CMD_SYNC"]}
{"id": "C69", "title": "An interrupted cards sync leaves usable lists", "statement": "A `cards sync` that fails leaves every list of every collection unchanged. Stopped at any moment, every list is the old one or the new one, except at most one that can be a beginning of the new one; running the command again repairs it.", "quantifier": "every configuration, depot, server behaviour and every moment at which the process, the disk or the machine stops", "why_tests_cant": "crash points are not enumerable by tests, and the consequences appear in later commands", "anchors": ["src/sync.cxx: sync::run, sync::uncompress", "src/dwl.cxx: dwl::get"]}
{"id": "C70", "title": "What cards repo publishes is what cards sync, the readers and the signature check see", "statement": "When the lists written by `cards repo` are published and fetched with `cards sync` (or are in a local collection), the repository the commands read knows exactly the published packages, says about each what was published, and a package file passes the signature check exactly when its hash is that of the published file; whatever is in the depot under its name, a delivered published file ends there.", "quantifier": "every set of collections and packages, every content, every configuration, every hash function and signature scheme meeting the stated contract", "why_tests_cant": "a round trip through four programs for all package sets; tests try a handful of packages", "anchors": ["src/repo.cxx: repo::repo", "src/sync.cxx: sync::run", "src/pkgrepo.cxx: parse, checkSign, checkHash, generateDependencies", "src/file_utils.cxx: parseFile"]}
{"id": "C71", "title": "cards purge deletes exactly the package files of the remote collections", "statement": "`cards purge`, run by root, deletes exactly the visible files below the directories of the collections with an address: keys, lists, hidden files, directories, local collections and the rest of the system stay.", "quantifier": "every configuration, every tree of files of any depth", "why_tests_cant": "a deletion command must be right for every tree and configuration, tests try one", "anchors": ["src/conf.cxx: conf::purge, conf::parseConfig", "src/file_utils.cxx: findRecursiveFile"]}
{"id": "C72", "title": "cards repo without a private key notices every wrong signature", "statement": "Without a private key `cards repo` verifies the packages: it reports no package only when every package of the list has a valid signature, and a reported package has a wrong one.", "quantifier": "every list of packages and every outcome of the verifications", "why_tests_cant": "position of the bad package in the list matters; tests try one list", "anchors": ["src/repo.cxx: repo::repo", "src/pkgrepo.cxx: checkSign"]}
{"id": "C73", "title": "What a package file says about itself is read exactly, before and after installation", "statement": "For every package file whose .META and .MTREE are text files, the name, version, release, architecture, build date, dependencies and file list the tools take from it are those written in it: pkginfo --meta prints the description line by line, pkginfo --archive shows the value of each field, a package for another machine is refused without effect, and after the package is installed the database says about it what pkginfo --archive said.", "quantifier": "every package file, every description and file list, every system it is installed on", "why_tests_cant": "a round trip over all texts through two different readers; tests use packages made by pkgmk", "anchors": ["src/archive.cxx: archive::archive, extractFileContent, getters", "src/pkginfo.cxx: run (-a, -m)", "src/pkgdbh.cxx: openArchivePackage, buildDatabase"]}
{"id": "C74", "title": "The command lines of pkgadd, pkgrm and pkginfo mean what the manual says", "statement": "pkgadd, pkgrm and pkginfo accept a line exactly when it consists of their options, short or long, in any order, with their arguments, and the one file or package the tool needs (pkginfo: at least one mode and no two exclusive ones), and run with the root, flags, mode and argument the line states; every other line, a line asking for version or help, and a pkgadd or pkgrm line of an ordinary user changes nothing on the system.", "quantifier": "every command line of any length, every user, every file system", "why_tests_cant": "ranges over all interleavings of options and arguments, and over what uninitialised memory happens to hold", "anchors": ["src/tools.cxx main", "src/pkgadd.cxx pkgadd::parseArguments", "src/pkgdbh.cxx pkgdbh::parseArguments", "src/pkginfo.cxx pkginfo::parseArguments", "src/pkginfo.cxx pkginfo::pkginfo", "src/pkginfo.cxx pkginfo::run"]}
{"id": "C75", "title": "Only root changes the system through cards; queries change nothing", "statement": "A cards line given by an ordinary user changes no file of the system, except the meta-file names of C60, unless it is one of keys and repo (which work on the user's own files and refuse root); install, create, sync and purge always, remove when there is something to remove and upgrade when there is something to do, tell that user that they failed; files, query, list, search, info, level, depends, dependent and deptree change nothing whoever gives them; for root the changing commands run.", "quantifier": "every command line, every user id, every file system, every behaviour of the bodies of the commands", "why_tests_cant": "ranges over all lines, users and systems, with the bodies of the commands left arbitrary", "anchors": ["src/cards.cxx main", "src/upgrade.cxx upgrade::upgrade", "src/remove.cxx remove::remove", "src/diff.cxx diff::diff", "src/pkgdbh.cxx pkgdbh::buildDatabase"]}
{"id": "C76", "title": "cards upgrade --ready tells whether the files to upgrade are downloaded", "statement": "cards upgrade --ready ends with success exactly when every package to be updated has its file, with the announced hash, in the local directory.", "quantifier": "every repository, installed database, option set and content of the cache", "why_tests_cant": "ranges over all databases, repositories and caches", "anchors": ["src/upgrade.cxx upgrade::Isdownload", "src/pkgrepo.cxx pkgrepo::checkHash", "src/cards.cxx main"]}
{"id": "C77", "title": "What a killed pkgadd or pkgrm leaves behind, and running it again", "statement": "At every moment at which pkgadd can be killed: a regular file that an UPGRADE rule protects has its content and permissions; without --force the files and records of other packages are as before (with --force a record can only lack files the new package ships); every place the package does not ship is as before. If the database can be read then, running pkgadd again with --force (and -u exactly if the package is still recorded) succeeds, and the package owns exactly what it ships, all of it on disk with the content of the archive. At every moment at which pkgrm can be killed the places of other files and the other records are as before, and if the database can be read, running pkgrm again gives the state in which the first run would have ended.", "quantifier": "every system, archive, rule list and option set, every moment of the command (inside the scripts, between any two deletions, while a record is removed or made, between two extracted files and in the middle of one)", "why_tests_cant": "The moments are unbounded in number (every file of the package adds some) and what the middle of a script or of an extraction leaves is arbitrary; a test kills the program at a few moments.", "anchors": ["src/pkgadd.cxx:pkgadd::run", "src/pkgrm.cxx:pkgrm::run", "src/pkgdbh.cxx:pkgdbh::installArchivePackage", "src/pkgdbh.cxx:pkgdbh::removePackageFiles", "src/pkgdbh.cxx:pkgdbh::removePackageFilesRefsFromDB", "src/pkgdbh.cxx:pkgdbh::moveMetaFilesPackage"]}
{"id": "C78", "title": "cards create tells exactly which up-to-date ports need a shared library that is gone", "statement": "For a port whose binary is up to date, `cards create <collection>` prints the line MAYBE NEEDS TO BE REBUILD exactly when some shared library needed by the binary or by its .lib package is in no file of the package, of its dependencies or of the installed system and no port of a lower level needs it too; the line names the first such library; the checks of different ports do not influence one another; and a run that prints no such line means a file is known for every needed library.", "quantifier": "every ports tree, every repository and installed system, every order of the ports, every set of needed libraries", "why_tests_cant": "The search nests five loops with shared flags over arbitrary repositories, and the 'needed by a lower level' rule is justified only by an induction over the levels.", "anchors": ["src/create.cxx: create::buildCollection", "src/pkgrepo.cxx: pkgrepo::getLibs, getListOfFiles, getDependenciesList, checkBinaryExist", "src/pkgdbh.cxx: checkFileNameExist"]}
{"id": "C79", "title": "Installing a package and removing it again gives the old system back", "statement": "When a package that was not installed is installed with pkgadd (no --force, scripts that do nothing) and then removed with pkgrm, the removal succeeds, the package database is exactly the one before the installation, every regular file that existed before is there with its content and permissions, nothing new is left in the tree, and every directory that was there before is there again with its permissions.", "quantifier": "every archive, every rule file, every system state, every pattern of extraction failures during the installation", "why_tests_cant": "Ranges over all archives, rules, trees and partial extraction failures; the interplay of implicit parent directories, shared directories and reverse-order deletion cannot be sampled.", "anchors": ["src/pkgadd.cxx: pkgadd::run", "src/pkgrm.cxx: pkgrm::run", "src/pkgdbh.cxx: installArchivePackage, removePackageFiles, removePackageFilesRefsFromDB"]}
{"id": "C80", "title": "pkgadd starts the programs its trigger rules ask for, once, ldconfig first", "statement": "When pkgadd ends, it has started, for each file of the archive whose last matching trigger rule of pkgadd.conf says YES, exactly the programs of that trigger that exist in the root, with the file as one argument; ldconfig is started first and at most once, no program is started twice with the same arguments, and a command that was refused starts none.", "quantifier": "every archive, rule file, root directory, set of programs present, database and file system", "why_tests_cant": "The list is an ordered set over all files and all rules of a configuration file, filled before the conflict test and executed by a destructor; the order, the multiplicity and the error paths concern every combination of files, rules and refusals.", "anchors": ["src/pkgdbh.cxx:runLastPostInstall", "src/pkgdbh.cxx:~pkgdbh", "src/pkgadd.cxx:applyInstallRules", "src/process.cxx:execute", "src/define.h"]}
{"id": "C81", "title": "The footprint of a package tells what is in it", "statement": "`pkginfo -f` prints one line for each entry of the archive, in the order of the archive; from the line the reader can recover the name, owner, group, type and permissions (for a hard link those of the file it is linked to), the target of a symbolic link, the numbers of a device and whether a file is empty: two entries that differ in one of these have different lines. An archive that is damaged or empty is refused.", "quantifier": "every archive, user and group database", "why_tests_cant": "That different contents never print the same line is a statement about all pairs of entries of all archives, over all modes and names.", "anchors": ["src/pkgdbh.cxx:getFootprintPackage", "src/string_utils.cxx:mtos", "src/pkginfo.cxx:run"]}
{"id": "C82", "title": "cards install that stops in the middle leaves no new package without its dependencies", "statement": "However cards install of names from a repository in order ends - also when it stops at an error after some of the packages - every package that is installed now and was not before has all the dependencies its package file lists installed, no package installed before has disappeared, and nothing was installed that was not wanted.", "quantifier": "every set of arguments, every repository in order, every database, every environment (which package fails, and how), forced or not", "why_tests_cant": "a test picks one repository and one failing package; the property ranges over all dependency graphs and every point of failure", "anchors": ["src/install.cxx: cards::install::install (final loop)", "src/pkgrepo.cxx: generateDependencies", "src/pkgadd.cxx: pkgadd::run"]}
{"id": "C83", "title": "An upgrade gives the system that removing and installing gives", "statement": "When no rule protects a file of the new version, a successful upgrade of a package gives exactly the system - every file, its content and permissions, and the whole database - that removing the package and installing the new version gives, the mark of automatically installed packages apart, which the upgrade keeps.", "quantifier": "every archive, database and tree in order, all rules that protect no file of the new version, whatever the post-install script does", "why_tests_cant": "equality of two whole systems for all archives and all prior states; tests compare a few files of one example", "anchors": ["src/pkgadd.cxx: pkgadd::run", "src/pkgrm.cxx: pkgrm::run", "src/pkgdbh.cxx: removePackageFiles, installArchivePackage"]}
{"id": "C84", "title": "cards keys makes a pair of keys and keeps the private one secret", "statement": "After a successful cards keys the private key file and the public key file hold the two halves of one new pair, the private key is readable by its owner only and was so at every moment, an existing pair is only replaced as a whole, and no other file is touched; a failing or killed run leaves the old pair.", "quantifier": "every umask, every prior state of the files, every failure of the system calls, every moment at which the process can be killed", "why_tests_cant": "a test sees the files after the run; the property is about every intermediate state and every failing system call", "anchors": ["src/pkgrepo.cxx: pkgrepo::generateKeys", "src/define.h: PRIVATEKEY, PUBLICKEY"]}
{"id": "C85", "title": "The report of cards diff and cards upgrade is right", "statement": "cards diff (and cards upgrade without --proceed) prints the single line that the system is up to date exactly when every installed package is in the repository and none is newer there. Otherwise the report gives the number of packages and how many are unchanged; under one heading the number of packages that are out of date and, with details, a table with one row per such package, its name, installed and available version in columns separated by blanks; under a heading each, only when there are any, the number and names of the packages to be rebuilt, to be removed and not maintained; the space available on the system, the sizes to download, install and remove and the difference of the latter two; and the percentage of packages not up to date, with the advice to upgrade when it is more than a fifth. Every size printed reads back as the size to within half a hundredth of its unit, and larger sizes never read as smaller.", "quantifier": "every set of installed packages, every repository, every size below 2^64", "why_tests_cant": "ranges over all databases and repositories, the column widths depend on all names; the rounding errors need particular numbers", "anchors": ["src/diff.cxx diff::showInfo", "src/diff.cxx diff::amountInfo", "src/diff.cxx diff::size", "src/diff.cxx diff::ratio", "src/diff.cxx diff::availableSpace", "src/string_utils.cxx sizeHumanRead", "src/define.h KILO MEGA GIGA"]}
{"id": "C86", "title": "cards info --binaries tells what the package file says", "statement": "For every repository made by cards repo, cards info --binaries NAME prints, each on the line of its label, exactly the fields the package file of that name has: name, aliases, description, archive name, group, collection, sets, URL, license, version, release, build date, hash, signature, sizes, maintainer, packager, contributors, architecture, origin, folder and dependencies, and nothing for a name the repository does not have. cards info --sets NAME prints one line for each member of the set, or of the collection of that name when the set has no member.", "quantifier": "every set of collections and package descriptions, every name", "why_tests_cant": "ranges over all repositories; the failing cases need a neighbouring record with a field this one lacks", "anchors": ["src/pkgrepo.cxx pkgrepo::getBinaryPackageInfo", "src/info.cxx info::info", "src/pkgrepo.cxx pkgrepo::parse"]}
{"id": "C87", "title": "A request to the package site cannot bring markup of its own into the page", "statement": "For every request to the web site program, the markup of the answered page (its tags, attributes and quotes) is that of the site's own templates, documents and package lists: no text of the request appears in the page as markup.", "quantifier": "every query string, every content of the site", "why_tests_cant": "the text of the request is arbitrary and is printed in several places (page name, search field), for every document set and package list", "anchors": ["src/webcards.cxx: main, searchpkg, parseArguments"]}
{"id": "C88", "title": "The parameters of a request mean what they say", "statement": "For every query string, a parameter given once has exactly the value given, whatever the order of the parameters and whatever other parameters are given; a parameter that is not given has its default; other parameters do not matter.", "quantifier": "every query string", "why_tests_cant": "the parameters come in any number, order and content", "anchors": ["src/webcards.cxx: parseArguments"]}
{"id": "C89", "title": "A package search on the site shows exactly the matching packages", "statement": "For every list of packages and every searched text, the table answered has one row for every package of the selected branch and system whose name, collection or description contains the text (or whose collection is the text, when collections are searched), no other row, and the heading tells the number of rows.", "quantifier": "every package list, every request", "why_tests_cant": "completeness and soundness over all lists and all texts", "anchors": ["src/webcards.cxx: getFormatedBinaryPackageList", "src/webcards.h: INSERTPACKAGE"]}
{"id": "C90", "title": "The site knows exactly the packages of the configured lists", "statement": "For every configuration and every content of the lists of the configured directories, the site's list has for every record of every list one package with exactly the members of that record, its collection and the system and branch of its directory, and no other.", "quantifier": "every configuration and every content of the lists", "why_tests_cant": "any number of directories and records, any missing or broken list", "anchors": ["src/webrepo.cxx: webrepo::parse, getListOfPackages"]}
{"id": "C91", "title": "The documents of the site are shown complete, with their table of contents, and can be searched", "statement": "For every document, the page shows all its lines in order, each heading of level 2 or more being the target of an entry of the table of contents, whose lists are properly opened and closed; a page that does not exist is answered so; a search shows exactly the lines that contain the text.", "quantifier": "every document (any lines, headings of any levels), every request", "why_tests_cant": "documents have any number of headings at any level in any order", "anchors": ["src/webcards.cxx: parseHTMLDelimitedList, getContent, main"]}
{"id": "C92", "title": "Every search on the site is logged once", "statement": "For every number of simultaneous searches and every schedule of them, the log of visits has in the end one more line for every search, and every line logged before.", "quantifier": "every number of requests, every schedule", "why_tests_cant": "any interleaving of any number of processes", "anchors": ["src/webcards.cxx: visitOfPage"]}
{"id": "C93", "title": "The packages of a port hold every file of the build, once", "statement": "When pkgmk has built a port, every file the build has put below $PKG is in exactly one of the packages made (the main one, a sub-package of a group, or a language), exactly once; and no package holds anything else.", "quantifier": "for every tree of files a build leaves, every list of groups (devel, doc, man, lib, service, others), every list of languages, with and without libtool archives kept", "why_tests_cant": "The outcome depends on the interplay of the order of the groups, the directories each of them packs and removes, and the tree; the combinations are unbounded.", "anchors": ["scripts/pkgmk.in: pack_lib", "scripts/pkgmk.in: pack_devel", "scripts/pkgmk.in: pack_doc", "scripts/pkgmk.in: pack_man", "scripts/pkgmk.in: pack_service", "scripts/pkgmk.in: make_packages", "scripts/pkgmk.in: check_build"]}
{"id": "C94", "title": "After a build the repository files of a collection list exactly the packages in the port's directory", "statement": "When pkgmk has built a port it brings the .REPO and .FILES of the port's directory in step: they list exactly the packages in the directory, each once, with the contents of that package's description and file list; nothing said about other packages changes; doing it twice is doing it once.", "quantifier": "for every directory of packages, every earlier .REPO and .FILES, every port name", "why_tests_cant": "The update is a sed deletion by a pattern made from the name followed by appends; whether some other record is hit depends on all the other names in the file.", "anchors": ["scripts/pkgmk.in: update_repo_file", "scripts/pkgmk.in: make_meta_files"]}
{"id": "C95", "title": "A package file's name gives back the port, the group, and no two packages share one", "statement": "For every Pkgfile pkgmk accepts, the names of the package files it makes determine the port and the group or language they are of; packages of different ports or groups never have the same file name; what pkgmk removes, compresses and installs as the packages of the port are packages of this port and no other; the release it accepts is the one cards reads.", "quantifier": "for every Pkgfile (name, version, release, description), every group and language, every directory of packages", "why_tests_cant": "It ranges over all names: whether `${name}*.cards*`-style patterns and cuts at points confuse two of them is a statement about every pair.", "anchors": ["scripts/pkgmk.in: check_pkgfile", "scripts/pkgmk.in: main", "scripts/pkgmk.in: add_meta_to_archive", "src/pkgrepo.cxx: parse"]}
{"id": "C96", "title": "What a Pkgfile says of a package is what cards finds in the repository", "statement": "The .META of a package says what the Pkgfile says: name, version, release, description, licence, group or language, the dependencies its files need and those the Pkgfile asks for with the build of the package that was there, libraries, aliases, sets, categories, conflicts, each exactly once and nothing else; and cards, reading the repository the package is published in, finds exactly that.", "quantifier": "for every Pkgfile's variables, every sub-package, every environment, every repository the package is published in", "why_tests_cant": "The values are free text; the composition with the writer and reader of .REPO ranges over all repositories.", "anchors": ["scripts/pkgmk.in: add_meta_to_archive", "src/pkgrepo.cxx: parse", "src/cards_sync.cxx"]}
{"id": "C97", "title": "A failed build fails, stops, and spoils nothing", "statement": "When a source cannot be had or unpacked, when prepare, build, package or the function of a group fails, when a group cannot be packed, when nothing is left for the main package, when a package it depends on is not installed, or when an installation fails, then pkgmk ends with a failure; nothing is removed, packed, installed, compressed or published after it (but the rest of the same group); and a failure before the packing leaves the packages made before where they are.", "quantifier": "for every way all the steps of a run can go, every set of options, every number of sources, groups, languages and packages", "why_tests_cant": "The number of combinations of outcomes is exponential in the number of steps, which is itself unbounded.", "anchors": ["scripts/pkgmk.in: build_package", "scripts/pkgmk.in: main", "scripts/pkgmk.in: unpack_source", "scripts/pkgmk.in: install_package"]}
{"id": "C98", "title": "A port is built exactly when its packages are missing or out of date", "statement": "Without being forced, pkgmk builds a port exactly if the package file of its present version and release is not there (uncompressed), or one of the packages of the port \u2014 of any group and version \u2014 is not newer than the Pkgfile.", "quantifier": "for every directory of packages with their dates, every date of the Pkgfile, every port name of letters, digits, dashes, underscores and plus signs", "why_tests_cant": "It ranges over all directories and names; the decision is a loop with an early exit over the order in which find lists the files.", "anchors": ["scripts/pkgmk.in: build_needed", "scripts/pkgmk.in: main", "scripts/pkgmk.in: get_packages_list"]}
{"id": "C99", "title": "Compressing the manual pages loses none and breaks no link", "statement": "After pkgmk has compressed the manual and info pages, every page is there compressed with the same contents, every link to a page leads to the same page, and nothing else has appeared; in whatever order find lists the files.", "quantifier": "for every directory of pages and links, every order in which find lists them, even if it lists the new files too", "why_tests_cant": "The order in which find lists a directory is not specified and the loop changes the directory while it is listed; all orders have to be considered.", "anchors": ["scripts/pkgmk.in: compress_manpages"]}
{"id": "C100", "title": "pkgmk reports success only if everything was done", "statement": "pkgmk ends with status 0 only if every step it ran succeeded and everything that was to be done was done; otherwise it ends with a failure.", "quantifier": "for every way all the steps of a run can go, every set of options", "why_tests_cant": "The number of combinations of outcomes is exponential in the number of steps, which is itself unbounded.", "anchors": ["scripts/pkgmk.in: build_package", "scripts/pkgmk.in: abort_on_build", "scripts/pkgmk.in: check_build", "scripts/pkgmk.in: main"]}
{"id": "C101", "title": "A source that is there is complete", "statement": "Wherever pkgmk is cut off while it fetches the sources, every source file that is there is complete: it was there before, or a server has sent it as a whole. So a later run that takes it for granted is right; and pkgmk goes on to the build only if every source is there, each with what was sent for it.", "quantifier": "for every list of sources, every directory of sources at the start, every sequence of failed, partial and successful transfers, every point at which the run is cut off, and every number of later runs", "why_tests_cant": "It ranges over every crash point of every download and over all server behaviours.", "anchors": ["scripts/pkgmk.in: download_source", "scripts/pkgmk.in: download_file", "scripts/pkgmk.in: get_filename"]}
{"id": "C102", "title": "The log of a build is never garbled: complete, or empty", "statement": "While cards create runs pkgmk with a log, under every schedule the log is at every moment a beginning of what the build and the processes it started have printed: nothing is lost in between, doubled or put in another order. When cards goes on, the log is complete or empty, and it is complete whenever the build was still running when cards looked for the first time. cards only waits while some process still holds the output open.", "quantifier": "for every interleaving of cards, pkgmk and any number of processes started by it, every sequence of outputs of any size, every capacity of the pipe", "why_tests_cant": "The outcome depends on the schedule of three or more processes; a test sees one of them.", "anchors": ["src/process.cxx: executeShell", "src/process.cxx: execShellLog", "src/create.cxx: buildBinary"]}
{"id": "C103", "title": "Every port built has a complete log, and the screen shows the same", "statement": "With a log directory configured, after a build the log of every port of the collection holds all that pkgmk printed, the screen has shown the same, and cards goes on as soon as pkgmk has ended.", "quantifier": "for every schedule, output and number of ports", "why_tests_cant": "It ranges over all schedules and over collections of any size.", "anchors": ["src/process.cxx: executeShell", "src/process.cxx: execShellLog", "src/create.cxx: buildBinary"]}
{"id": "C104", "title": "A directory is made with its parents, and nothing else is touched", "statement": "When cards makes a directory (for downloads or logs, with a name of 2 to 4095 characters), it and all the directories on the way are there afterwards exactly if none of them was a file before; what was there keeps its contents and mode, nothing else is made, and making it again changes nothing.", "quantifier": "for every file tree and every name with any number of components, doubled and trailing slashes", "why_tests_cant": "It ranges over all trees and names.", "anchors": ["src/file_utils.cxx: createRecursiveDirs", "src/dwl.cxx: dwl", "src/create.cxx: buildBinary"]}
{"id": "C105", "title": "Files and links are compared and copied byte for byte", "statement": "The comparison that decides whether a rejected configuration file is dropped calls two regular files or links equal exactly if they are of the same kind and have the same contents or target, whatever their size; a missing file or a directory is equal to nothing. A copied file has the contents of the original, whatever its size.", "quantifier": "for every two contents of any length, with the block size of the buffers", "why_tests_cant": "Errors in block loops show only for particular sizes; the statement is for all contents.", "anchors": ["src/file_utils.cxx: checkFilesEqual", "src/file_utils.cxx: copyFile", "src/pkgdbh.cxx: installArchive"]}
{"id": "C106", "title": "flcards: \"Go !\" does what the user marked", "statement": "Whatever the user does in the table of flcards (clicking on rows, taking menu items or not, changing the search text, sorting), \"Go !\" will install exactly the packages that were not installed and whose menu item was taken an odd number of times, and remove exactly those that were installed and whose item was taken an odd number of times; never the same package in both; each row offers exactly one item; and the button is active just when there is something to do.", "quantifier": "all package lists, all sequences of clicks, searches and sorts, all implementations of std::sort", "why_tests_cant": "the number of sequences of user actions is unbounded, and filter and sort change which row belongs to which package between two clicks", "anchors": ["fltk/table_package.cxx: OnEvent, refreshTable", "fltk/cards_wrapper.cxx: refreshJobList, m_DoJobList_Thread", "src/cache.cxx"]}
{"id": "C107", "title": "flcards: the table shows exactly the packages that match", "statement": "At any time the table shows exactly the packages in whose name, collection, description or version the text of the search field occurs (all of them when it is empty), each in one row, with its own data and its current mark.", "quantifier": "all package lists, search texts and sequences of user actions", "why_tests_cant": "sequences of user actions and search texts are unbounded", "anchors": ["fltk/table_package.cxx: refreshTable", "fltk/table_base.cxx: setFilter, OnJobListChange"]}
{"id": "C108", "title": "flcards: a click on a header sorts the table, and the comparison is a legal one", "statement": "The comparison of rows used with std::sort is a strict weak ordering for every column, in both directions, whatever the cells contain (numbers and texts mixed, empty, missing), so sorting has defined behaviour; after a click on a header the same rows are shown in the order of that column (texts ascending, numbers descending), and a second click on the same header reverses it.", "quantifier": "all rows, columns and directions", "why_tests_cant": "a comparison that is not a strict weak ordering crashes std::sort only for particular triples of cells", "anchors": ["fltk/table_base.cxx: sort_table_column::operator(), sort_column, event_callback2"]}
{"id": "C109", "title": "flcards: the table stays in the order the user chose", "statement": "Once the user has sorted the table by a column, it stays in that order (as the arrow in the header says) until he chooses another one.", "quantifier": "all sequences of user actions", "why_tests_cant": "sequences of user actions are unbounded", "anchors": ["fltk/table_base.cxx: event_callback2, draw_sort_arrow", "fltk/table_package.cxx: refreshTable"]}
{"id": "C110", "title": "flcards: no package is used after it was freed", "statement": "Under every schedule of the main thread and the threads of flcards, drawing the table, clicking on a row and performing the jobs never read a package object that was freed.", "quantifier": "all schedules of user actions and threads", "why_tests_cant": "the faulty schedules need a particular interleaving, or a particular order of user actions", "anchors": ["fltk/cards_wrapper.cxx: m_RefreshPackageList_Thread, m_ClearPackagesList, m_DoJobList_Thread", "fltk/table_package.cxx: OnDrawCell, OnEvent"]}
{"id": "C111", "title": "flcards: one job at a time", "statement": "While a thread of flcards is loading the list, synchronising, performing jobs or fetching information, no other such thread works.", "quantifier": "all schedules of user actions and threads", "why_tests_cant": "needs a particular interleaving", "anchors": ["fltk/cards_wrapper.cxx: m_IsThreadFree, sync, doJobList, refreshPackageList, getPackageInfo"]}
{"id": "C112", "title": "flcards: the progress window closes when the job is done", "statement": "After \"Sync\" or \"Go !\" the progress window closes once the threads have done their work.", "quantifier": "all schedules of user actions and threads", "why_tests_cant": "liveness over all schedules", "anchors": ["fltk/mainWindow.cxx: onWindowEvent", "fltk/progressbox.cxx", "fltk/cards_wrapper.cxx: sync, doJobList, m_IsThreadFree"]}
{"id": "C113", "title": "flcards: what is installed after \"Go !\"", "statement": "After a successful \"Go !\" the installed packages are exactly: the packages marked to install with everything they need, and those installed before that were not marked for removal. Each package installed by it is recorded as its file says, every other package keeps its META and loses at most files (no directories) that a package installed now ships; the dependency marks are those of the first package that asked for each. A removal alone touches only what the removed packages own and nobody else does, and succeeds when no other process holds the lock.", "quantifier": "all systems in a legal state, all selections, all repositories in order", "why_tests_cant": "removals and installations meet in one operation: a package marked for removal can come back as a dependency, and dependencies are computed on the state after the removals", "anchors": ["fltk/cards_client.cxx: InstallPackages, RemovePackages", "fltk/cards_wrapper.cxx: m_DoJobList_Thread", "src/cards_depends.cxx", "src/pkgadd.cxx", "src/pkgdbh.cxx"]}
{"id": "C114", "title": "flcards: removing in the window is removing with pkgrm", "statement": "Removing packages in flcards leaves the system in the state that pkgrm, run on each of them in turn, would have left.", "quantifier": "all systems, all selections, all remove scripts", "why_tests_cant": "selections, package contents and scripts are unbounded", "anchors": ["fltk/cards_client.cxx: RemovePackages", "src/pkgrm.cxx: run"]}
{"id": "C115", "title": "flcards: removing breaks nothing that stays", "statement": "A removal in flcards leaves installed every dependency of the packages that stay, and the packages of the base collection, as cards remove does.", "quantifier": "all systems, all selections", "why_tests_cant": "depends on the dependency graph of the whole database", "anchors": ["fltk/cards_client.cxx: RemovePackages", "src/cards_remove.cxx"]}
{"id": "C116", "title": "Console progress: the percentages are percentages", "statement": "While cards, pkgadd and pkgrm open the database, install or remove, the numbers shown are percentages from 0 to 100 that never fall and end with 100, and computing them never ends the program.", "quantifier": "all sequences of operations, all numbers of packages, files and archive entries", "why_tests_cant": "only particular numbers of packages or files reach a division by zero or a value over 100, and the counter is shared by all the operations of a run", "anchors": ["src/pkgdbh.cxx: progressInfo, getListOfPackages, installArchivePackage, removePackageFilesRefsFromDB"]}
{"id": "C117", "title": "flcards: the progress bar", "statement": "Whatever the number of packages installed and of files, the progress bar of flcards shows percentages, and computing them never ends the program.", "quantifier": "all numbers of packages and files", "why_tests_cant": "the failing numbers are a range nobody tries: a developer machine has hundreds of packages", "anchors": ["fltk/cards_client.cxx: progressInfo"]}
{"id": "C118", "title": "mybld sets the version or the release of a port, and nothing else", "statement": "After \"mybld NAME VERSION\" cards reads from the Pkgfile the new version and release 1; after \"mybld -i NAME\" the same version and the release one higher. Every other line of the Pkgfile, and the dependencies read from it, stay as they were.", "quantifier": "all Pkgfiles, all versions, all releases", "why_tests_cant": "the edit is a text substitution: whether it also hits other lines depends on every line of the file", "anchors": ["scripts/mybld.in: 804-843, 862-865", "src/pkgfile.cxx: 105-176"]}
{"id": "C119", "title": "mybld never removes the developer's files through a mount", "statement": "mybld bind mounts the git project of the developer, the sources, the logs and the packages into the tree in which it builds, and removes that tree with rm -r. However builds and clean ups follow each other, fail or are killed, rm -r never reaches the content of what is mounted.", "quantifier": "all histories of builds and clean ups, of all versions and collections, each killed at any command, with any mount or unmount failing", "why_tests_cant": "the loss needs a particular crash point in one run and a particular later run; it destroys the work of the developer when tried", "anchors": ["scripts/mybld.in: umount_all, remove_all, error, 635-650, 888-932"]}
{"id": "C120", "title": "mybld: the clean up removes the whole tree and nothing else", "statement": "A clean up, by mybld -c, before a build, after it or after an error, that succeeds leaves no file, directory or mount in the tree; it never removes or unmounts anything outside of it; and it succeeds on what any run left, if no unmount fails.", "quantifier": "all trees, all mounts, all points where it is killed", "why_tests_cant": "depends on what is mounted where when the run before ended", "anchors": ["scripts/mybld.in: umount_all, remove_all, error"]}
{"id": "C121", "title": "resolve-libs reports exactly the broken files", "statement": "resolve-libs prints, for every program or library of an installed package that needs a library which cannot be found, one line with the package, the file and the library, and nothing else.", "quantifier": "all databases, all sets of files, all missing and needed libraries", "why_tests_cant": "a wrong line depends on which files precede it and on how names match each other as patterns", "anchors": ["scripts/resolve-libs.in"]}
{"id": "C122", "title": "outdated lists exactly the ports with an older version", "statement": "outdated lists, for the ports of the collections asked for, exactly those whose version is before the version of the corresponding package of Arch Linux, with both versions, and counts as not found exactly the ports whose package is not there.", "quantifier": "all ports, all names, all versions, in any order", "why_tests_cant": "version texts are unbounded and the variables of the loop are shared by all ports, so an answer may depend on the ports before it", "anchors": ["scripts/outdated.in"]}
{"id": "C123", "title": "No word names two ports of a collection", "statement": "pkgmk refuses a port, with the status 11, exactly when one of its aliases is the name or an alias of another port of the collection; so when all ports of a collection are accepted, no word is the name or an alias of two of them.", "quantifier": "all collections, all sets of aliases", "why_tests_cant": "the check compares every alias with every other port; the last part is about a whole collection", "anchors": ["scripts/pkgmk.in"]}
{"id": "C124", "title": "The footprint of a package is checked", "statement": "When pkgmk has made the packages of a port, the build counts as successful only if every package has exactly the files of its footprint; a package without a footprint gets one. With --ignore-new files that are not in the footprint are accepted, but missing ones are not.", "quantifier": "all packages, footprints and orders of the packages, and every diff that keeps its contract", "why_tests_cant": "the lines are unbounded and pass a chain of filters; one package may hide the result of another", "anchors": ["scripts/pkgmk.in"]}
{"id": "C125", "title": "The site shows the ten newest messages of the forum", "statement": "Beside each page the site shows the ten newest messages of the forum (all of them when there are fewer), the newest first, each with its date, its category and board, the name of its author, the link to it and its subject; when the data base does not answer, the page is shown without them.", "quantifier": "all data bases of the forum, all forums", "why_tests_cant": "the tables are unbounded, and the rows shown depend on the order of the whole table and on look-ups in three others", "anchors": ["src/mysql.cxx lastPosts, listOfBoards, listOfCategories, listOfMembers, listOfMessages"]}
{"id": "C126", "title": "The hash of a package file is that of all its bytes", "statement": "The hash that cards computes of a package file, to publish it or to check a download, is the hexadecimal text of the digest of all bytes of the file, whatever its size and the size of the buffer; a file that is not there or cannot be read to its end has no hash, and the command stops.", "quantifier": "all files, all sizes of the buffer, all places where reading may fail, every digest that takes its bytes in pieces", "why_tests_cant": "files have any size, the boundaries of the pieces are where a loop of this kind goes wrong", "anchors": ["src/pkgrepo.cxx generateHash"]}
{"id": "C127", "title": "Looking at files for their libraries leaves nothing open and nothing allocated", "statement": "When pkginfo looks for the libraries in any number of files of any content, every file it opened is closed before the next one is opened, and no memory stays allocated for it.", "quantifier": "all sequences of files, all contents, every way out of the function", "why_tests_cant": "the function has a dozen ways out that depend on the content; tests see those of well-formed files", "anchors": ["src/runtime_dependencies_utils.cxx getRuntimeLibrariesList, dependencies_utils_end", "src/file_utils.cxx getDatas"]}
{"id": "C128", "title": "Only the holder of the lock changes the database", "statement": "Let any number of pkgadd, pkgrm, pkginfo and upgrade deletions run on one root, in any interleaving and killed at any moment. The database only changes by a step of the process that holds the exclusive lock, and then nobody else holds a lock; while a process holds a lock, nothing the others do changes the database; a process that asks for a lock in conflict with one held is refused and changes nothing; a process that has ended or was killed holds no lock.", "quantifier": "all numbers of processes, all schedules, all crash points", "why_tests_cant": "schedules are unbounded", "anchors": ["src/lock.cxx lock::lock", "src/pkgadd.cxx pkgadd::run", "src/pkgrm.cxx pkgrm::run"]}
{"id": "C129", "title": "cards remove refuses base and what is needed", "statement": "cards remove with base among its arguments, or with an argument that an installed package lists as a run time dependency, is refused and changes nothing, whatever the other arguments, the database and the configuration.", "quantifier": "all databases, argument lists, configurations", "why_tests_cant": "depends on every record of the database", "anchors": ["src/remove.cxx remove::remove"]}
{"id": "C130", "title": "What pkgadd records is what the package ships", "statement": "After a successful pkgadd the package is installed and the recorded file list is exactly the files of the archive that no INSTALL rule excludes; without --force every other record is as before. Installing without -u what is installed fails and changes nothing; upgrading what is not installed fails and, without --force, leaves every record.", "quantifier": "all archives, rules, options, databases, file trees", "why_tests_cant": "the record depends on the order of rules and files of any archive", "anchors": ["src/pkgadd.cxx pkgadd::run", "src/pkgdbh.cxx pkgdbh::addPackageFilesRefsToDB", "src/pkgdbh.cxx pkgdbh::moveMetaFilesPackage", "src/pkgdbh.cxx pkgdbh::checkPackageNameExist"]}
{"id": "C131", "title": "pkgrm touches only what the package lists", "statement": "Whatever its outcome, pkgrm leaves the records of all other packages as they are, and every path that no line of the file list of the package names, apart from what the remove scripts of the package do themselves.", "quantifier": "all databases, trees, outcomes and paths", "why_tests_cant": "every path of every tree", "anchors": ["src/pkgdbh.cxx pkgdbh::removePackageFiles", "src/pkgrm.cxx pkgrm::run"]}
{"id": "C132", "title": "A killed command leaves the records of the other packages", "statement": "At every moment at which pkgadd or pkgrm can be killed, the database directory of every other package holds what it held; only a pkgadd with --force may have taken files from its list, and only files that the new package ships.", "quantifier": "all crash points of all commands on all databases", "why_tests_cant": "crash points between any two system calls", "anchors": ["src/pkgdbh.cxx:buildDatabase", "src/pkgdbh.cxx:moveMetaFilesPackage", "src/pkgdbh.cxx:addPackageFilesRefsToDB", "src/pkgdbh.cxx:removePackageFilesRefsFromDB", "src/pkgadd.cxx:pkgadd::run", "src/pkgrm.cxx:pkgrm::run", "src/pkgdbh.cxx:pkgdbh::installArchivePackage", "src/pkgdbh.cxx:pkgdbh::removePackageFiles", "src/pkgdbh.cxx:pkgdbh::removePackageFilesRefsFromDB", "src/pkgdbh.cxx:pkgdbh::moveMetaFilesPackage"]}
{"id": "C133", "title": "Names and aliases are resolved the same way", "statement": "After the database is read, a name counts as installed exactly when an installed package has it as name or alias, and it stands for the last, in the order of names, of the packages that have it; cards files prints the file list of that package and refuses exactly the names that no package has.", "quantifier": "all databases and names", "why_tests_cant": "aliases can coincide with names in any database", "anchors": ["src/pkgdbh.cxx pkgdbh::buildDatabase", "src/pkgdbh.cxx pkgdbh::checkPackageNameExist", "src/pkginfo.cxx pkginfo::run"]}
{"id": "C134", "title": "Dependencies of a port are found on every tree", "statement": "On every tree of ports, with cycles or without: the search for the dependencies of a port ends and gives exactly the names reachable through declared dependencies, each once; cards deptree ends, prints only such names and expands a port at most once.", "quantifier": "all trees of ports, all names", "why_tests_cant": "graphs of any size and form", "anchors": ["src/depends.cxx depends::list", "src/depends.cxx depends::print", "src/deptree.cxx deptree::print"]}
{"id": "C135", "title": "cards create never gives a file two owners", "statement": "However cards create ends, of a port or of a collection, and whatever pkgmk does meanwhile: the database is well formed and no file has two owners, if it was so before.", "quantifier": "all trees of ports, databases, repositories, behaviours of pkgmk", "why_tests_cant": "any number of installations and removals in one run", "anchors": ["src/create.cxx:run", "src/create.cxx:base", "src/create.cxx:buildBinary"]}
{"id": "C136", "title": "cards sync changes nothing but keys and lists", "statement": "Whatever the servers send, and whether cards sync succeeds, fails or is stopped at any moment, only the keys and lists of collections with an address change; when it fails no list has changed; for an ordinary user nothing changes and it fails.", "quantifier": "all servers, configurations, trees and moments", "why_tests_cant": "answers of servers and crash points are unbounded", "anchors": ["src/sync.cxx: sync::run, sync::uncompress", "src/dwl.cxx: dwl::dwl, dwl::get, dwl::writeToStream", "src/cards.cxx: CMD_SYNC", "src/dwl.cxx: dwl::get"]}
{"id": "C137", "title": "cards purge deletes exactly the visible files of the collections with an address", "statement": "cards purge of root deletes exactly the visible files below the directories of the collections for which the configuration gives an address, never a name that begins with a point, and nothing else; for an ordinary user, nothing.", "quantifier": "all trees and configurations", "why_tests_cant": "every file of every tree", "anchors": ["src/conf.cxx: conf::purge, conf::parseConfig", "src/file_utils.cxx: findRecursiveFile"]}
{"id": "C138", "title": "A package file name tells the package", "statement": "For every two Pkgfiles that pkgmk accepts: from the file name of each of their packages the package name is found again, and from that the group or language; packages of different ports, groups or languages never have the same file name, whatever the versions.", "quantifier": "all accepted Pkgfiles, groups and versions", "why_tests_cant": "names, versions and groups can combine in any way", "anchors": ["scripts/pkgmk.in: check_pkgfile", "scripts/pkgmk.in: main", "scripts/pkgmk.in: add_meta_to_archive", "src/pkgrepo.cxx: parse"]}
{"id": "C139", "title": "No file is packed twice, nothing is packed that was not built", "statement": "When pkgmk has packed a build, every package holds only what the build has put below $PKG (and directories above it), and no file is in two packages or twice in one, whatever the groups and languages.", "quantifier": "all build trees, groups and languages", "why_tests_cant": "trees of any form", "anchors": ["scripts/pkgmk.in: pack_lib", "scripts/pkgmk.in: pack_devel", "scripts/pkgmk.in: pack_doc", "scripts/pkgmk.in: pack_man", "scripts/pkgmk.in: pack_service", "scripts/pkgmk.in: make_packages", "scripts/pkgmk.in: check_build"]}
{"id": "C140", "title": "resolve-libs misses nothing", "statement": "Every file of an installed package that needs a library which cannot be found is reported by resolve-libs with that library.", "quantifier": "all databases and all sets of files", "why_tests_cant": "any number of files and packages", "anchors": ["scripts/resolve-libs.in"]}
{"id": "C141", "title": "The log of visits is never damaged", "statement": "Whatever the number and interleaving of searches, what the log of visits held stays at its beginning; searches made one after the other are one line each, in their order.", "quantifier": "all schedules", "why_tests_cant": "interleavings are unbounded", "anchors": ["src/webcards.cxx: visitOfPage"]}
{"id": "C142", "title": "cards keys touches only the two key files", "statement": "At whatever moment cards keys ends or is killed, no file but the private and the public key has changed; without a configured path, or when no pair can be made, it fails and nothing has changed.", "quantifier": "all moments, all contents", "why_tests_cant": "crash points", "anchors": ["src/pkgrepo.cxx: pkgrepo::generateKeys", "src/define.h: PRIVATEKEY, PUBLICKEY"]}
{"id": "C143", "title": "ldconfig is run first and once", "statement": "Of the programs pkgadd starts after an installation, ldconfig is the first if it is started at all, and it is started once, whatever the files and the rules.", "quantifier": "all archives, rules and outcomes", "why_tests_cant": "any list of files and rules", "anchors": ["src/pkgdbh.cxx:runLastPostInstall", "src/pkgdbh.cxx:~pkgdbh", "src/pkgadd.cxx:applyInstallRules", "src/process.cxx:execute", "src/define.h"]}
{"id": "C144", "title": "Showing the progress never ends a command", "statement": "Whatever number of databases is opened and packages with at least one file are installed and removed, in which order, computing what the console shows never divides by zero.", "quantifier": "all sequences of operations and all numbers of files and packages", "why_tests_cant": "the counters are shared between operations", "anchors": ["src/pkgdbh.cxx: progressInfo, getListOfPackages, installArchivePackage, removePackageFilesRefsFromDB"]}
{"id": "C145", "title": "pkgadd and pkgrm do what the line says", "statement": "pkgadd and pkgrm carry out, for root, exactly the lines that consist of their options, in any order and number, with their arguments and of one file or package, with the root, flags and argument these state; a pkgadd line that is none, or of an ordinary user, changes nothing.", "quantifier": "all argument lists", "why_tests_cant": "unbounded lines", "anchors": ["src/tools.cxx main", "src/pkgadd.cxx pkgadd::parseArguments", "src/pkgdbh.cxx pkgdbh::parseArguments", "src/pkginfo.cxx pkginfo::parseArguments", "src/pkginfo.cxx pkginfo::pkginfo", "src/pkginfo.cxx pkginfo::run"]}
{"id": "C146", "title": "Queries and ordinary users change nothing", "statement": "A cards line of an ordinary user other than keys and repo, and a query of anybody, changes no file except the six meta-file names in the root directory; an ordinary user who asks for install, create, sync or purge is told that it failed.", "quantifier": "all lines, users and trees", "why_tests_cant": "all lines of all commands", "anchors": ["src/cards.cxx main", "src/upgrade.cxx upgrade::upgrade", "src/remove.cxx remove::remove", "src/diff.cxx diff::diff", "src/pkgdbh.cxx pkgdbh::buildDatabase"]}
{"id": "C147", "title": "A clean up of mybld removes the tree and nothing else", "statement": "A clean up that reports success has left no file, directory or mount in the tree, be it of mybld -c or of a build; mybld -c removes and unmounts nothing outside of the tree however it ends.", "quantifier": "all trees, mounts and failures", "why_tests_cant": "any state left by earlier runs", "anchors": ["scripts/mybld.in: umount_all, remove_all, error"]}
{"id": "C148", "title": "cards query answers exactly", "statement": "cards query PATTERN prints one row for each pair of an installed package and a file of it that matches, none else and none twice, in the order of packages and files; a text that is no regular expression is refused.", "quantifier": "all databases and patterns, any regular expression engine", "why_tests_cant": "all databases", "anchors": ["src/pkginfo.cxx pkginfo::run", "src/pkgdbh.cxx pkgdbh::buildDatabase"]}
{"id": "C149", "title": "cards upgrade touches exactly what is out of date", "statement": "When cards upgrade goes to work, the packages it updates are exactly the installed ones with a newer build in the repository and the sub-packages for the configured groups that are missing or have a newer build, the packages it deletes are exactly the installed dependencies that are gone from the repository; and it never goes to work when no installed package is in the repository.", "quantifier": "all databases, repositories, groups and options", "why_tests_cant": "all pairs of database and repository", "anchors": ["src/upgrade.cxx upgrade::upgrade"]}
{"id": "C150", "title": "Text is split, stripped and cut exactly", "statement": "For every text: splitting at a character or a set of characters gives exactly the maximal non-empty pieces between them in order, stripping removes exactly the white space at both ends, a line key=value is cut at the first delimiter with nothing lost, and changing the case keeps the length.", "quantifier": "all texts and delimiters", "why_tests_cant": "all texts", "anchors": ["src/string_utils.cxx parseDelimitedVectorList", "src/string_utils.cxx stripWhiteSpace", "src/string_utils.cxx replaceAll"]}
{"id": "C151", "title": "Publishing touches only the lists of the collections that were asked for", "statement": "At every moment of a `cards repo` run with a private key, also when it is stopped there, no file differs from before but .REPO, .FILES, .REPO.zst and .FILES.zst of the collections asked for (all, or with a name the first collection of that name).", "quantifier": "all trees, configurations, arguments, archive contents, keys, and every moment of the run", "why_tests_cant": "a run can be stopped at any byte of any list; the directories are unbounded", "anchors": ["src/repo.cxx repo::repo, compress", "src/file_utils.cxx findRecursiveFile", "src/archive.cxx archive::archive"]}
{"id": "C152", "title": "The compressed lists are only made from whole lists", "statement": "At every moment of a `cards repo` run, each of the two compressed lists of a collection is as it was before the run, or it is (a beginning of) the compression of its list, and at that moment both lists are whole and describe exactly the visible files below the directory of the collection, each once.", "quantifier": "all trees in order, configurations whose collections lie in different directories, arguments, and every moment of the run", "why_tests_cant": "the moments are those of a kill or a crash, and the runs that end with an error", "anchors": ["src/repo.cxx repo::repo, compress", "src/file_utils.cxx findRecursiveFile", "src/archive.cxx archive::archive"]}
{"id": "C153", "title": "Publishing is all or nothing, and says which", "statement": "When `cards repo` reports success, the lists of every collection asked for and their compressed forms describe exactly the packages in its directory, under the names at which they are; when it cannot do that it reports failure and the lists are as before.", "quantifier": "all trees, configurations, arguments, archive contents and keys", "why_tests_cant": "it depends on every file in the directories", "anchors": ["src/repo.cxx repo::repo, compress", "src/file_utils.cxx findRecursiveFile", "src/archive.cxx archive::archive"]}
{"id": "C154", "title": "Every option of pkgmk has its effect, wherever it stands", "statement": "An option given to pkgmk, in its short or long form, at whatever place among the other options, sets what it stands for, and nothing else sets it; of install and upgrade the last one counts; every option named by the help is accepted.", "quantifier": "all lists of options, environments and configuration files", "why_tests_cant": "the combinations of options, environment and configuration are unbounded", "anchors": ["scripts/pkgmk.in parse_options", "scripts/pkgmk.in main", "scripts/pkgmk.in print_help"]}
{"id": "C155", "title": "pkgmk builds exactly when no other thing was asked for", "statement": "With one of the options for the version, cleaning, the repository list, the footprint, the syntax, download only, extract only, up to date or the recursive run, no package is built, and what is done is what the first of these in the documented order asks for; without any of them the port is built.", "quantifier": "all lists of options, environments and configuration files", "why_tests_cant": "the combinations of options, environment and configuration are unbounded", "anchors": ["scripts/pkgmk.in parse_options", "scripts/pkgmk.in main"]}
{"id": "C156", "title": "A recursive run gives every port the same options", "statement": "With --recursive (or -r) every port below is built with the options given, without the one for the recursion.", "quantifier": "all lists of arguments", "why_tests_cant": "the arguments are free texts", "anchors": ["scripts/pkgmk.in recursive"]}
{"id": "C157", "title": "Packing again gives the same packages", "statement": "After a build whose work directory was kept, `pkgmk --pack-only` makes the same packages with the same files again.", "quantifier": "all trees, groups, languages and files", "why_tests_cant": "the trees and the groups are unbounded", "anchors": ["scripts/pkgmk.in make_work_dir", "scripts/pkgmk.in build_package", "scripts/pkgmk.in clean_old_binaries"]}
{"id": "C158", "title": "A package has exactly the scripts the port has for it", "statement": "Every package made by pkgmk contains the pre-install, post-install, pre-remove and post-remove script that the port has under the name of that package, and no other script.", "quantifier": "all ports, scripts, lists of packages, and histories of stopped runs", "why_tests_cant": "it must hold for every combination of packages and scripts, and after every interrupted run", "anchors": ["scripts/pkgmk.in add_meta_files", "scripts/pkgmk.in add_meta_to_archive", "scripts/pkgmk.in build_package"]}
{"id": "C159", "title": "A package holds its description, the list of its files and what was packed, once", "statement": "Every package made by pkgmk begins with .META and .MTREE; after them come its scripts and exactly the files that were packed for it with the directories above them, unchanged, each once; .MTREE names what is in it.", "quantifier": "all lists of packages, archives and descriptions", "why_tests_cant": "the archives are unbounded", "anchors": ["scripts/pkgmk.in add_meta_to_archive", "scripts/pkgmk.in build_package"]}
{"id": "C160", "title": "pkgmk -i installs all packages of the port or fails", "statement": "When pkgmk -i succeeds in installing, every package file of the port in the package directory has been installed: its package was not installed before, it is now with exactly the files it ships, no two files are of the same package, and every other record is what it was. When it fails the status is 9, the files before the one that failed are installed as if they were all, and only the record of the package that failed can have changed besides. With no package file there it fails and changes nothing.", "quantifier": "for every package directory in every order, every content of the package files, every well-formed database and tree, and every behaviour of the environment of each pkgadd (scripts, locks, failing extractions)", "why_tests_cant": "It ranges over all package directories, databases and failures of each of the installations.", "anchors": ["scripts/pkgmk.in: install_package", "scripts/pkgmk.in: get_packages_list", "src/pkgadd.cxx: pkgadd::run"]}
{"id": "C161", "title": "pkgmk -u brings the port up to date", "statement": "When pkgmk -u succeeds every package of the port is installed with the files of the version that was built; groups that are new in this version are installed; when it fails the port is not left half upgraded.", "quantifier": "for every package directory in every order, every content of the package files, every well-formed database and tree, and every behaviour of the environment of each pkgadd", "why_tests_cant": "It ranges over all orders of the directory, databases and failures.", "anchors": ["scripts/pkgmk.in: install_package", "src/pkgadd.cxx: pkgadd::run"]}
{"id": "C162", "title": "Cleaning a port removes only its packages", "statement": "pkgmk -co, and the cleaning after an installation, remove exactly the packages of the port from the package directory; the files of the port (Pkgfile, scripts, footprints) and the packages of other ports stay.", "quantifier": "for every port name, every tree, and every place of the package directory and of the port", "why_tests_cant": "It ranges over all trees and all names of files next to the packages.", "anchors": ["scripts/pkgmk.in: clean", "scripts/pkgmk.in: get_packages_list"]}
{"id": "C163", "title": "pkgmk -uf makes the footprints right", "statement": "After pkgmk -uf the footprint of every package of the port is what the package holds, other footprints are unchanged, and a check of the same packages passes; a package file that is not there makes it fail.", "quantifier": "for every list of packages and contents, every set of footprints before, and every diff and sort that meet their contracts", "why_tests_cant": "It ranges over all contents of packages and footprints.", "anchors": ["scripts/pkgmk.in: update_footprint", "scripts/pkgmk.in: make_footprint", "scripts/pkgmk.in: check_footprint"]}
{"id": "C164", "title": "Unpacking changes only the work directory", "statement": "However the unpacking of the sources of a port ends, nothing outside of the work directory has changed: not the port, not the collection, not the source archives.", "quantifier": "for every list of sources, every tree, every content of the archives, and every outcome of each step", "why_tests_cant": "It ranges over all trees, archives and failures, among them a failed git clone of an earlier step.", "anchors": ["scripts/pkgmk.in: unpack_source", "scripts/pkgmk.in: make_work_dir"]}
{"id": "C165", "title": "The sources are unpacked in whatever order they are listed", "statement": "Unpacking succeeds exactly if every source is there and every archive can be read, whatever the order in which the Pkgfile lists them; afterwards each is in the source directory: copied files under their names, archives with all their members. Otherwise the status is 5.", "quantifier": "for every list of sources in every order, every tree and every content of the archives", "why_tests_cant": "It ranges over all orders and contents of the sources.", "anchors": ["scripts/pkgmk.in: unpack_source", "scripts/pkgmk.in: get_filename"]}
{"id": "C166", "title": "The lock excludes other programs, survives no killed one, and is obeyed", "statement": "Whenever a process holds the exclusive lock of the database no other process holds any; when its holder is killed the next process that asks gets it; a pkgrm that does not get it fails and changes nothing, and a pkgadd that does not get a lock it needs does not succeed.", "quantifier": "for every system, every set of programs, every schedule with kills at every point, every package, rule list and option", "why_tests_cant": "Schedules and kill points cannot be enumerated by tests.", "anchors": ["src/lock.cxx lock::lock", "src/pkgadd.cxx pkgadd::run", "src/pkgrm.cxx pkgrm::run"]}
{"id": "C167", "title": "A protected file keeps its content in every upgrade, also a killed one", "statement": "A regular file that the last matching UPGRADE rule protects keeps its content and permissions in every upgrade to a version that ships it: however the upgrade ends, and at every moment at which it can be killed.", "quantifier": "for every environment, rule list, archive with sound paths, system, protected file and crash point, when no script touches the file", "why_tests_cant": "All rule lists, archives and crash points.", "anchors": ["src/pkgadd.cxx pkgadd::getKeepFileList", "src/pkgdbh.cxx pkgdbh::installArchivePackage", "src/pkgdbh.cxx pkgdbh::removePackageFiles(name,keep)", "src/pkgadd.cxx:pkgadd::run", "src/pkgrm.cxx:pkgrm::run", "src/pkgdbh.cxx:pkgdbh::installArchivePackage", "src/pkgdbh.cxx:pkgdbh::removePackageFiles", "src/pkgdbh.cxx:pkgdbh::removePackageFilesRefsFromDB", "src/pkgdbh.cxx:pkgdbh::moveMetaFilesPackage"]}
{"id": "C168", "title": "Installing and removing leaves the system as it was", "statement": "A package whose scripts do nothing, installed without -u and --force and then removed: the removal succeeds, the database is the one before, every regular file that was there is there with its content and permissions (unless the archive had a directory in its place), and where nothing was there is nothing.", "quantifier": "for every environment, rule list, archive that lists the directories above its files, and well-formed system whose recorded files are there", "why_tests_cant": "All systems and archives.", "anchors": ["src/pkgadd.cxx: pkgadd::run", "src/pkgrm.cxx: pkgrm::run", "src/pkgdbh.cxx: installArchivePackage, removePackageFiles, removePackageFilesRefsFromDB"]}
{"id": "C169", "title": "The INSTALL rules decide what is recorded and what is touched", "statement": "After a successful pkgadd the recorded files are exactly those of the archive whose last matching INSTALL rule does not say NO; and however pkgadd ends, the place of a file that is excluded is as it was, if the old version did not list it and no entry of the archive lies above it as a file.", "quantifier": "for every environment, rule list, options, archive and well-formed system", "why_tests_cant": "All rule lists and archives.", "anchors": ["src/pkgadd.cxx pkgadd::applyInstallRules", "src/pkgdbh.cxx pkgdbh::installArchivePackage"]}
{"id": "C170", "title": "Levels and build lists of ports", "statement": "For every tree of ports the levels are found; a port from which no cycle can be reached is above everything it needs and no higher than that requires, the others are at level 0; cards level prints every port once, level by level; and the build list of a collection has exactly its ports, each once, none before a port it needs unless a cycle can be reached from it.", "quantifier": "for every tree of ports freshly read, with any dependencies and cycles", "why_tests_cant": "All dependency graphs.", "anchors": ["src/pkgfile.cxx pkgfile::generate_level", "src/pkgfile.cxx pkgfile::confirmDependencies", "src/level.cxx level::print"]}
{"id": "C171", "title": "The text of a digest or signature determines its bytes", "statement": "A digest or signature written as text can be read back, in small letters and in capitals; the text has two characters for each byte; and two digests are found equal exactly when their bytes are.", "quantifier": "for all strings of bytes", "why_tests_cant": "All byte strings.", "anchors": ["src/pkgrepo.cxx pkgrepo::generateHash", "src/pkgrepo.cxx pkgrepo::checkSign"]}
{"id": "C172", "title": "Removing a file below a base directory", "statement": "Everything that disappears is the file or a directory above it strictly below the base, nothing else changes, and a directory disappears only when it is empty; a regular file is gone; and no empty directory is left between the base and a file that was deleted.", "quantifier": "for every tree, base directory and path", "why_tests_cant": "All trees and spellings of paths.", "anchors": ["src/file_utils.cxx removeFile"]}
{"id": "C173", "title": "The lists of installed packages are complete and exact", "statement": "pkginfo -i prints one line for each installed package, in the order of the names, with what its record states and the mark of automatically installed packages; cards list one line for each package installed by hand and none for the others; pkginfo -n the number of the installed packages.", "quantifier": "for every database in which each record has one version, release and collection", "why_tests_cant": "All databases.", "anchors": ["src/pkginfo.cxx pkginfo::run", "src/pkgdbh.cxx pkgdbh::buildDatabase"]}
{"id": "C174", "title": "The report of cards diff counts every package where it belongs", "statement": "It says that the system is up to date exactly when every installed package is in the repository and none is newer there; otherwise it gives the number of the packages that are out of date, with a row for each, the numbers and names of those to be rebuilt, removed and unmaintained, and the number of all packages.", "quantifier": "for every database and repository with releases below 65536, with and without details", "why_tests_cant": "All databases and repositories.", "anchors": ["src/diff.cxx diff::showInfo", "src/diff.cxx diff::amountInfo", "src/diff.cxx diff::size", "src/diff.cxx diff::ratio", "src/diff.cxx diff::availableSpace", "src/string_utils.cxx sizeHumanRead", "src/define.h KILO MEGA GIGA"]}
{"id": "C175", "title": "A search for names finds exactly the packages with that name", "statement": "cards search --names WORD prints a row for each package file of the collections, in their order, whose name contains the word in small letters, and no others.", "quantifier": "for all collections of complete records and every word", "why_tests_cant": "All collections and words.", "anchors": ["src/search.cxx search::parse", "src/search.cxx search::list", "src/string_utils.cxx convertToLowerCase"]}
{"id": "C176", "title": "The site shows its own documents and nothing else", "statement": "A request for a page gives the document of that name with its date and its board, or says that there is none, whatever the name; a search in the documents shows exactly the lines that contain the text.", "quantifier": "for every set of documents and every query string", "why_tests_cant": "All query strings, in particular hostile ones.", "anchors": ["src/webcards.cxx: parseHTMLDelimitedList, getContent, main"]}
{"id": "C177", "title": "A search for packages on the site is exact", "statement": "It shows a row for each package of the branch whose name or collection contains the text in small letters, or whose description contains it, and no others; with type=col those of that collection; the heading tells the number of the rows; and a row shows the collection, name, version, release and description of its package.", "quantifier": "for every set of packages and every query string with at least two characters to search for", "why_tests_cant": "All query strings and package lists.", "anchors": ["src/webcards.cxx: getFormatedBinaryPackageList", "src/webcards.h: INSERTPACKAGE"]}
{"id": "C178", "title": "cards sync succeeds when the server answers and fails when it does not", "statement": "cards sync of root succeeds when every transfer does; when no transfer of one of the three files of a collection with an address succeeds, it fails.", "quantifier": "for every server behaviour over time, configuration and tree", "why_tests_cant": "All failure patterns of the network.", "anchors": ["src/sync.cxx: sync::run, sync::uncompress", "src/dwl.cxx: dwl::dwl, dwl::get, dwl::writeToStream", "src/cards.cxx: CMD_SYNC"]}
{"id": "C179", "title": "A killed command can be repeated", "statement": "If the database can be read afterwards, running a killed pkgadd again with --force (and -u exactly if the package is recorded) succeeds and the package owns exactly the files it ships; and a killed pkgrm of a package without scripts had finished, or running it again ends where the first run would have ended.", "quantifier": "for every crash point of every pkgadd and pkgrm on every well-formed system", "why_tests_cant": "Crash points cannot be enumerated by tests.", "anchors": ["src/pkgadd.cxx:pkgadd::run", "src/pkgrm.cxx:pkgrm::run", "src/pkgdbh.cxx:pkgdbh::installArchivePackage", "src/pkgdbh.cxx:pkgdbh::removePackageFiles", "src/pkgdbh.cxx:pkgdbh::removePackageFilesRefsFromDB", "src/pkgdbh.cxx:pkgdbh::moveMetaFilesPackage"]}
{"id": "C180", "title": "The programs pkgadd starts", "statement": "A package pkgadd refuses at once (installed already, not installed for -u, for another machine, damaged) starts no program; and each program pkgadd starts belongs to the trigger of a file of the package and is there.", "quantifier": "for every rule list, archive, system and set of programs present, when root and file names have no blank", "why_tests_cant": "All archives and rule lists.", "anchors": ["src/pkgdbh.cxx:runLastPostInstall", "src/pkgdbh.cxx:~pkgdbh", "src/pkgadd.cxx:applyInstallRules", "src/process.cxx:execute", "src/define.h"]}
{"id": "C181", "title": "Who is marked as installed automatically", "statement": "After a successful cards install a package it handled carries the mark of automatically installed packages exactly if it was only pulled in as a dependency, or had the mark before and was handled once.", "quantifier": "for every environment, options, list of arguments and well-formed system", "why_tests_cant": "All dependency graphs and installed states.", "anchors": ["src/install.cxx install::parse", "src/pkgdbh.cxx pkgdbh::setDependency", "src/pkgdbh.cxx pkgdbh::moveMetaFilesPackage"]}
{"id": "C182", "title": "The cards.conf mybld writes says what is to be built on what", "statement": "From the cards.conf mybld writes for the build, cards reads the groups devel and lib, the depot /DEPOT, the log directory /LOGS, and as collections: the one to be built first, then (for X-extra) X, then those that come after it in the user's list, or all of the list if it is not in it; each once.", "quantifier": "for every list of collections and every collection with plain names", "why_tests_cant": "All lists of collections; it composes a shell function with the reader of the configuration.", "anchors": ["scripts/mybld.in: setup_cards_conf", "src/conf.cxx: conf::parseConfig"]}
{"id": "C183", "title": "mybld changes the ports it was asked to", "statement": "mybld OLD NEW takes all ports of the version OLD, mybld SET NEW all ports of the set, and mybld PORT [NEW] that port; nothing else is taken.", "quantifier": "for every project, with any versions, sets and names", "why_tests_cant": "All projects and names that coincide.", "anchors": ["scripts/mybld.in: find_version", "scripts/mybld.in: find_set", "scripts/mybld.in: find_collection"]}
{"id": "C184", "title": "A new port is what was asked for", "statement": "mybld --new never replaces a Pkgfile, and cards reads the Pkgfile it writes as a port of that name with the version given, release 1 and no dependencies, whatever the description, address and source are and whatever other ports there are.", "quantifier": "for all texts given, and all trees of ports around", "why_tests_cant": "All texts, in particular hostile ones; it composes the writer with the reader of ports.", "anchors": ["scripts/mybld.in: generate_Pkgfile", "src/pkgfile.cxx: pkgfile::parse"]}
{"id": "C185", "title": "mybld commits the port and says whether it did", "statement": "mybld --commit DIR makes one commit with the message NAME VERSION-RELEASE that brings exactly the files of the port to the state of the working tree and changes nothing else, or fails and says so.", "quantifier": "for every state of the repository and its index, and every port", "why_tests_cant": "All states of the index.", "anchors": ["scripts/mybld.in: commit", "scripts/mybld.in: parse_arguments"]}
{"id": "C186", "title": "Every driver gets its firmware notes", "statement": "The file WHENCE of the port of each driver has exactly the sections of that driver, in order, whatever the order in which the drivers are gone through; no line is lost and none is written twice.", "quantifier": "for every WHENCE made of sections, every set of driver names and every order", "why_tests_cant": "All files and orders; names that begin alike.", "anchors": ["scripts/generate_fw_pkgs.sh"]}
{"id": "C187", "title": "A build leaves the machine with the packages it had", "statement": "The packages a port asks for are installed while it is built, those that were there stay, and after the build, however it ended, the machine has exactly the packages it had before.", "quantifier": "for every machine, collections, files in them and list of packages asked for", "why_tests_cant": "All machines and collections; the packages removed must be exactly the ones that were added.", "anchors": ["scripts/pkgmk.in: get_dependencies", "scripts/pkgmk.in: remove_dependencies", "scripts/pkgmk.in: build_package", "src/pkginfo.cxx: -b"]}
{"id": "C188", "title": "A port takes packages only from collections below its own, base first", "statement": "When nothing is configured the collections of a port begin with base, contain its own, and all others are of a lower level (base, cli, then cli-extra and gui, then the rest); cli is among them from level 2 on and gui for the rest.", "quantifier": "for every name of a collection", "why_tests_cant": "All names, not only the four known ones.", "anchors": ["scripts/pkgmk.in: main"]}
{"id": "C189", "title": "The categories of a package are those of its desktop files", "statement": "The categories recorded for a package are exactly the ones its desktop files name, each once and sorted.", "quantifier": "for every set of desktop files", "why_tests_cant": "All files and all their line endings and orders.", "anchors": ["scripts/pkgmk.in: get_categories"]}
{"id": "C190", "title": "Files are stripped as their kind asks, except those of .nostrip", "statement": "Programs, libraries and archives that are not stripped yet are stripped in the way of their kind, all others and the files named in .nostrip are left alone.", "quantifier": "for every tree of files and every .nostrip", "why_tests_cant": "All file names, also with blanks and backslashes.", "anchors": ["scripts/pkgmk.in: strip_files"]}
{"id": "C191", "title": "A port that is not in order is refused before anything is done", "statement": "pkgmk works on a port exactly when its Pkgfile is there and correct, its name is that of its directory, it has a version, the three directories can be read, searched and written, and the compression is one of gz, bz2, xz, zst; otherwise it ends with an error, or after printing the version if only that was asked.", "quantifier": "for every Pkgfile, directories and settings", "why_tests_cant": "All combinations of wrong settings, with their order.", "anchors": ["scripts/pkgmk.in: main", "scripts/pkgmk.in: check_directory", "scripts/pkgmk.in: check_pkgfile"]}
{"id": "C192", "title": "A build type runs all its commands, or the build fails", "statement": "A port without a build function of its own is taken for built only when its build type is known and all the commands of that type ran, in order, each with success; nothing is run after a failure; and whatever installs is told to install below $PKG.", "quantifier": "for every build type, port, and every way the commands may go", "why_tests_cant": "All outcomes of all commands.", "anchors": ["scripts/pkgmk.in: build", "scripts/pkgmk.in: build_package"]}
{"id": "C193", "title": "mybld does what its arguments say", "statement": "Every option of mybld given, in whatever order and spelling, is set, no other is, the words are taken in their order; an unknown option, and an option without the word it needs, is an error and nothing is done.", "quantifier": "for every list of arguments", "why_tests_cant": "All orders and mixtures of options and words.", "anchors": ["scripts/mybld.in: parse_arguments"]}
{"id": "C194", "title": "outdated looks at the collections it is told to", "statement": "outdated accepts exactly the names of collections, goes through those (all if none is named), and refuses all other words and options.", "quantifier": "for every list of arguments", "why_tests_cant": "All words.", "anchors": ["scripts/outdated.in: main loop"]}
{"id": "C195", "title": "Questions about the dependencies of ports always end", "statement": "Whatever the ports and their dependencies, cycles included, cards depends and cards deptree end. The first prints each line once, in the order of the levels, the port itself last, and besides it exactly the ports that can be reached from it and lie at a lower level; the second prints the port and exactly the names that can be reached from it through dependencies that a port does not list behind itself.", "quantifier": "for every tree of ports with any dependencies and cycles, and every name", "why_tests_cant": "All dependency graphs.", "anchors": ["src/depends.cxx depends::list", "src/depends.cxx depends::print", "src/deptree.cxx deptree::print"]}
{"id": "C196", "title": "What pkgmk clean deletes", "statement": "pkgmk clean deletes the regular files of the directory of the packages that are named like packages of the port, and the regular files named like a footprint below the directory of the port; everything else stays as it was.", "quantifier": "for every name without wildcards, every directory and tree of files", "why_tests_cant": "All trees of files.", "anchors": ["scripts/pkgmk.in: clean", "scripts/pkgmk.in: get_packages_list"]}
{"id": "C197", "title": "The rows of the window are in the order the user asked for", "statement": "After any events the rows are sorted by the column whose header was clicked last, in the direction that is noted; in the order of the list after another text in the search field or an item taken from a menu; and unchanged by a click that takes nothing.", "quantifier": "for every list of packages and every sequence of events", "why_tests_cant": "All sequences of events.", "anchors": ["fltk/table_base.cxx: event_callback2, draw_sort_arrow", "fltk/table_package.cxx: refreshTable"]}
{"id": "C198", "title": "Which files of lines are read back", "statement": "A file of complete lines is read as exactly these lines if and only if no line has more than 8190 characters and none contains NUL.", "quantifier": "for all lists of lines", "why_tests_cant": "All lists of lines, of any length.", "anchors": ["src/file_utils.cxx parseFile"]}
{"id": "C199", "title": "cards purge leaves local collections alone", "statement": "cards purge leaves every file of a collection that has no address and neither lies below a collection with an address nor contains one.", "quantifier": "for every configuration and every tree of files", "why_tests_cant": "All configurations and trees.", "anchors": ["src/conf.cxx: conf::purge, conf::parseConfig", "src/file_utils.cxx: findRecursiveFile"]}
{"id": "C200", "title": "The parameters of a request to the site", "statement": "Whatever the request, each parameter has the value told by the greatest (in byte order) of the pieces between & in which its name is found, behind its first occurrence there, and its default if it is found in none (or, for type, branch and system, if the value is empty).", "quantifier": "for every query string", "why_tests_cant": "All query strings, in particular hostile ones.", "anchors": ["src/webcards.cxx: parseArguments"]}
{"id": "C201", "title": "When a removal from the window keeps the system closed", "statement": "After a successful \"Go !\" that only removes, on a system where every dependency of an installed package is installed, this holds still if and only if no package that stays depends on a package that was marked for removal.", "quantifier": "for every environment, options, set of marked packages and well-formed system", "why_tests_cant": "All systems and choices.", "anchors": ["fltk/cards_client.cxx: RemovePackages", "src/cards_remove.cxx"]}
{"id": "C202", "title": "A request to the site gets a whole page in the language of its directory", "statement": "A request to a script that lies in a directory of the site gets a whole page: header, menu, the content for the request and the end of the page, in French exactly when the directory is fr. No other request gets the end of a page: without a request or a name of the script, or when the name has no slash, nothing is printed, and when it has one only the header.", "quantifier": "for every site, query string and script name", "why_tests_cant": "All query strings and script names.", "anchors": ["src/webcards.cxx: main"]}
{"id": "C203", "title": "The numbers in the report of outdated agree with its lists", "statement": "For different collections the report of outdated shows each collection with the rows found in it and their number, with -s the same numbers, and a total that is their sum, beside the number of the ports compared; the number of the ports without a package is shown exactly when there are some, their names exactly with -nf.", "quantifier": "for all names, tables, collections that differ in their letters, and ports", "why_tests_cant": "All ports and tables; the variables of the loops are shared by all collections.", "anchors": ["scripts/outdated.in"]}
{"id": "C204", "title": "outdated -u gives the table of the other distribution or keeps the old one", "statement": "After outdated -u that is called updated the table gives for each name the version of its package, and has no other names; an update that fails leaves the table as it was.", "quantifier": "for all packages of the two parts, and whatever transfers fail", "why_tests_cant": "All package names and versions, and failures of transfers.", "anchors": ["scripts/outdated.in"]}
{"id": "C205", "title": "Through symbolic links too an installation overwrites nothing", "statement": "On a tree with symbolic links an installation without --force that is accepted changes no file, link or directory that was there, through whatever links the names of the package lead; what is new is an entry of the archive at the place its name leads to, or a directory above one; and every file and link of the archive is afterwards at its place under its name. The archive has nothing below one of its own files or links and no name through a link that leads nowhere.", "quantifier": "for every tree with any links, every database and every such archive, of any size", "why_tests_cant": "All trees and all ways links can lead.", "anchors": ["src/pkgdbh.cxx: getConflictsFilesList, installArchivePackage", "src/pkgadd.cxx: pkgadd::run", "src/file_utils.cxx: checkFileExist"]}
{"id": "C206", "title": "No place of the disk comes to belong to two packages", "statement": "From an empty database, after any installations, upgrades and removals, each installation and upgrade made while all recorded files are there, no file or link on the disk is the one that names of two different packages lead to, through whatever links.", "quantifier": "for every history of installations, upgrades and removals, every tree with any links, of any length", "why_tests_cant": "All histories.", "anchors": ["src/pkgdbh.cxx: getConflictsFilesList, installArchivePackage", "src/pkgadd.cxx: pkgadd::run", "src/file_utils.cxx: checkFileExist", "src/pkgdbh.cxx: removePackageFiles"]}
{"id": "C207", "title": "Removing a package on a tree with links takes only what is its own", "statement": "Removing a package adds and changes nothing; what is gone was at the place one of its names led to, a name no other package has; the files and links of other packages stay at their places and under their names.", "quantifier": "for every database and every tree with any links", "why_tests_cant": "All trees and databases.", "anchors": ["src/pkgdbh.cxx: removePackageFiles", "src/pkgrm.cxx"]}
{"id": "C208", "title": "With --root nothing outside the root is touched, whatever links lie in it", "statement": "With --root an installation or removal changes nothing outside the root, whatever symbolic links lie below it.", "quantifier": "for every tree with any links, every root, archive and database", "why_tests_cant": "All trees; the links are followed by the kernel.", "anchors": ["src/pkgdbh.cxx: installArchivePackage, removePackageFiles"]}
{"id": "C209", "title": "An upgrade on a tree with links replaces the package and nothing else", "statement": "When all recorded files are there and no place has two owners, an upgrade without --force gives what removing the package and installing the new version gives: the files and links of other packages stay at their places and under their names, all files and links of the new version are there, and the upgrade is refused only for a file that is not the package's own.", "quantifier": "for every tree with any links, every database, every old and new version", "why_tests_cant": "All trees and versions; names and places differ only where links lead.", "anchors": ["src/pkgadd.cxx: pkgadd::run", "src/pkgdbh.cxx: getConflictsFilesList, removePackageFiles, installArchivePackage"]}
{"id": "C210", "title": "The log of flcards shows each subscriber exactly the lines it should", "statement": "A subscriber of the log is shown, each once however often it subscribed: every line the main thread logs, at once, and at every turn of the loop the last fifty lines the other threads logged since the turn before, in their order; a line is the level, the message and an end of line. Who has not subscribed or has left is shown nothing, and never more than fifty lines wait in memory.", "quantifier": "all interleavings of log calls of any threads, loop turns, subscriptions and unsubscriptions, all messages and levels", "why_tests_cant": "it depends on the interleaving of the threads with the loop and on the number of messages between two turns", "anchors": ["fltk/cards_log.cxx: log, loopCallback, subscribe, unSubscribe, sendToSubscribers", "src/define.h: MAX_BUFFER"]}
{"id": "C211", "title": "Every message logged by flcards reaches the user, in order", "statement": "Every message that a thread of flcards logs (for example the error of a synchronisation) is shown to the user, and the messages are shown in the order they were logged.", "quantifier": "all histories of the logger and of flcards", "why_tests_cant": "it depends on the speed of the threads", "anchors": ["fltk/cards_log.cxx: log, loopCallback", "fltk/mainWindow.cxx: mainWindow", "fltk/flcards.cxx: main", "fltk/cards_wrapper.cxx: m_Sync_Thread"]}
{"id": "C212", "title": "At the end of a job every handler of flcards hears of it exactly once", "statement": "When a job of flcards ends, every handler (table, window, progress box) that is subscribed is told exactly once, in the order of subscription, and no handler that has been deleted and no freed memory is used, whatever the user does meanwhile.", "quantifier": "all interleavings of the loops over the handlers with creation and deletion of handlers", "why_tests_cant": "it depends on a race between the worker threads and the main thread", "anchors": ["fltk/cards_wrapper.cxx: subscribeToEvents, unsubscribeFromEvents, m_OnSyncFinished_Callback, m_OnRefreshPackageFinished_Callback, m_OnDoJobListFinished_Callback", "fltk/progressbox.cxx: ProgressBox, ~ProgressBox", "fltk/mainWindow.cxx: onWindowEvent"]}
{"id": "C213", "title": "cards remove ends and leaves exactly what is needed", "statement": "cards remove ends on every dependency graph, cyclic or dangling. When no group other than lib is configured and the command succeeds, the packages installed afterwards are exactly those that were not asked to be removed and that a package installed by hand needs, directly or through others.", "quantifier": "all databases, dependency graphs, arguments and scripts", "why_tests_cant": "the graph and its cycles are unbounded", "anchors": ["src/pkgrm.cxx pkgrm::getListOfManInstalledPackages", "src/pkgrm.cxx pkgrm::getDirectDependencies", "src/remove.cxx remove::remove"]}
{"id": "C214", "title": "Resolution of dependencies, as a whole", "statement": "In a repository in order, resolving the dependencies of a package ends normally exactly when every needed package is in the repository and no needed package needs itself; and then the packages added to the list are exactly the needed ones that were not there, and what a package asks for stands before it.", "quantifier": "all repositories in order, all packages and all lists already resolved", "why_tests_cant": "dependency graphs are unbounded", "anchors": ["src/pkgrepo.cxx pkgrepo::generateDependencies"]}
{"id": "C215", "title": "The lines of WHENCE are conserved", "statement": "When the firmware licences are distributed over the ports, every line of WHENCE is written to exactly one file or left over, as often as it was there.", "quantifier": "all files and all lists of ports", "why_tests_cant": "all files", "anchors": ["scripts/generate_fw_pkgs.sh"]}
{"id": "C216", "title": "mybld leaves the other lines of a Pkgfile alone", "statement": "Changing the version or raising the release with mybld keeps every line of the Pkgfile in which neither version= nor release= occurs, in order, and adds no such line.", "quantifier": "all Pkgfiles, versions and releases", "why_tests_cant": "all files", "anchors": ["scripts/mybld.in: 804-843, 862-865", "src/pkgfile.cxx: 105-176"]}
{"id": "C217", "title": "What was installed stays installed during a build", "statement": "While the packages a build needs are installed, every package that was on the machine stays there with its version, in its place.", "quantifier": "all machines, collections and lists of dependencies", "why_tests_cant": "all machines", "anchors": ["scripts/pkgmk.in: get_dependencies", "scripts/pkgmk.in: remove_dependencies", "scripts/pkgmk.in: build_package", "src/pkginfo.cxx: -b"]}
{"id": "C218", "title": "Removing a package on a tree with links touches only what its own names led to", "statement": "On a tree with symbolic links, removing a package creates and changes nothing; everything that disappears was at the place one of its recorded names led to before the removal, a name that no other package records, and a name that ends in a slash only takes a directory.", "quantifier": "all trees, links and databases", "why_tests_cant": "links can chain and form cycles", "anchors": ["src/pkgdbh.cxx: removePackageFiles", "src/pkgrm.cxx"]}
{"id": "C219", "title": "The options of the script of outdated ports", "statement": "When its words are accepted, exactly the options among them are set, and the other words are the collections gone through, in their order.", "quantifier": "all lists of words", "why_tests_cant": "all lists", "anchors": ["scripts/outdated.in: main loop"]}
{"id": "C220", "title": "The shipped configuration of pkgadd protects exactly the files it should on an upgrade", "statement": "With the pkgadd.conf that is shipped, an upgrade leaves the regular files on the disk alone that lie in etc/ (except etc/ssl*, etc/X11/, etc/ports/drivers/, the rules of udev not beginning with 1, and etc/rc* other than rc.local, rc.modules, rc.conf and rc.d/net), in dev/, proc/, sys/ and var/log/, the crontabs and var/run/utmp; all other files the new version ships are replaced.", "quantifier": "all file names, packages and systems", "why_tests_cant": "the expressions and the order of the rules decide for every file name", "anchors": ["src/pkgadd.conf", "src/pkgdbh.cxx: readRulesFile, checkRuleAppliesToFile", "src/pkgadd.cxx: getKeepFileList"]}
{"id": "C221", "title": "The shipped configuration leaves out only the generated indexes", "statement": "With the pkgadd.conf that is shipped, every file of a package is installed except the index of the info manuals, perllocal.pod, and the caches of icon themes and font directories.", "quantifier": "all file names and packages", "why_tests_cant": "the expressions decide for every file name", "anchors": ["src/pkgadd.conf", "src/pkgadd.cxx: applyInstallRules"]}
{"id": "C222", "title": "The programs the shipped configuration asks for after an installation", "statement": "With the pkgadd.conf that is shipped, each program for icons, fonts, schemas, desktop files, MIME types, info manuals, pixbuf, gio and gtk modules is asked for exactly for the files of the package that a line of the configuration for this program matches; ldconfig is run exactly when a file is a directory of libraries or a configuration of them, or when some installed file is matched by no line.", "quantifier": "all packages", "why_tests_cant": "the expressions of fifteen lines must not get in each other's way for any file name", "anchors": ["src/pkgadd.conf", "src/pkgadd.cxx: applyInstallRules"]}
{"id": "C223", "title": "A killed build is built again", "statement": "If pkgmk is killed or interrupted at any moment of a build, the next run of pkgmk on the port builds it again, unless all its packages had been finished.", "quantifier": "all ports, directories of packages and moments of the interruption", "why_tests_cant": "the moment may fall between any two changes of the directory", "anchors": ["scripts/pkgmk.in: build_package, clean_old_binaries, add_meta_to_archive, build_needed, interrupted"]}
{"id": "C224", "title": "A killed update of the lists of a collection does no harm", "statement": "If pkgmk is killed while it updates .REPO and .FILES, then cards reads in them the other packages as they were and of the port only whole records; and the next update leaves exactly what it would have left without the killed one.", "quantifier": "all lists, directories of packages and moments of the kill (between two lines)", "why_tests_cant": "the moment may fall between any two lines of either file", "anchors": ["scripts/pkgmk.in: update_repo_file", "src/pkgrepo.cxx: parse"]}
{"id": "C225", "title": "What an interrupted build leaves on the machine", "statement": "If a build is interrupted, pkgmk ends with a failure and the work directory is gone unless it is to be kept; every package that was on the machine is still there; what came besides are packages the port asks for that were not there; and no later build removes any of them.", "quantifier": "all machines, ports and moments of the interruption", "why_tests_cant": "the moment may fall between any two installations", "anchors": ["scripts/pkgmk.in: interrupted, get_dependencies, remove_dependencies, build_package"]}
{"id": "C226", "title": "Several builds at the same time leave the lists of a collection in order", "statement": "However the runs of pkgmk on different ports of a collection overlap, .REPO afterwards has the records of the packages of all of them and, unchanged, those of all other ports.", "quantifier": "all numbers of runs, schedules of their steps, lists and directories of packages", "why_tests_cant": "the order of the steps of the runs is arbitrary", "anchors": ["scripts/pkgmk.in: update_repo_file"]}
{"id": "C227", "title": "What was built is what is installed", "statement": "Whatever a build leaves in its directory (ordinary file names, nothing named like a script at the top) and however pkgmk is told to split it: every package file pkgmk makes that has something in it can be opened by pkgadd and lists only files of the build; and a file of the build is, after the package it belongs to has been installed, recorded as that package's unless a rule excludes it, and is on the disk with the content and the permissions the build gave it, unless extracting it failed, a directory was in its place, an UPGRADE rule protects the installed one or a script of the package changed it.", "quantifier": "all build trees, groups, languages, scripts, descriptions with a name, rules, options and systems", "why_tests_cant": "trees, splits, rules and systems are unbounded; it joins a shell script and a C++ program that share only the format of the file", "anchors": ["scripts/pkgmk.in: build_package, add_meta_files, add_meta_to_archive", "src/archive.cxx: archive", "src/pkgdbh.cxx: openArchivePackage, installArchivePackage", "src/pkgadd.cxx: run"]}
{"id": "C228", "title": "The packages of one build do not hinder each other", "statement": "No file is in two of the packages pkgmk makes from one build, and when one of them has been installed on a system, whatever hinders the installation of another of them was there before.", "quantifier": "all build trees, groups, languages, pairs of packages, rules and systems", "why_tests_cant": "trees, splits and systems are unbounded", "anchors": ["scripts/pkgmk.in: build_package", "src/pkgdbh.cxx: getConflictsFilesList", "src/pkgadd.cxx: run"]}
{"id": "C229", "title": "Building, installing and removing a package leaves no trace", "statement": "A package made by pkgmk, installed where it was not installed (no --force, no rule excluding anything of it, scripts that do nothing) and removed again, leaves the database as it was, every file with the content and permissions it had (unless the package has a directory in its place), and nothing where nothing was.", "quantifier": "all build trees, groups, languages, packages of the port, rules, options and systems", "why_tests_cant": "trees, splits and systems are unbounded; it joins pkgmk, pkgadd and pkgrm", "anchors": ["scripts/pkgmk.in: build_package, add_meta_files", "src/pkgadd.cxx: run", "src/pkgrm.cxx: run", "src/pkgdbh.cxx: installArchivePackage, removePackageFilesRefsFromDB"]}
{"id": "C230", "title": "Fetching binaries touches what was asked only", "statement": "mybld --rsync changes nothing without a yes, and says so in its status; asked for one port it touches that port's files only; wherever the connection breaks, every file then there has the content it had or the server's; when the connection holds, what was asked for (the port's files, or the whole collection) is exactly what the server has.", "quantifier": "all local directories, server directories, ports, answers and points where the connection breaks", "why_tests_cant": "a failure point and directory contents are unbounded", "anchors": ["scripts/mybld.in: rsync_binaries, answer"]}
{"id": "C231", "title": "A failed fetch loses nothing and is reported", "statement": "When the connection breaks while mybld --rsync fetches binaries, no file that both the server and the directory had is lost, and the status says that the fetch failed.", "quantifier": "all local directories, server directories, ports and points where the connection breaks", "why_tests_cant": "a failure point and directory contents are unbounded", "anchors": ["scripts/mybld.in: rsync_binaries"]}
{"id": "C232", "title": "A new build replaces the old one", "statement": "A package of one build is installed and then upgraded, without --force, to a package of a later build with the same name (the port, its groups and its languages may all have changed): the record is then exactly what the new package ships, and a file of the old package that the new one has nothing at or below the place of is gone from the disk.", "quantifier": "all pairs of build trees, groups and languages, packages with one name, rules, options and systems", "why_tests_cant": "trees, splits, rules and systems are unbounded; it joins two runs of pkgmk and two of pkgadd", "anchors": ["scripts/pkgmk.in: build_package, add_meta_files", "src/pkgadd.cxx: run", "src/pkgdbh.cxx: removePackageFilesRefsFromDB, installArchivePackage"]}
{"id": "C233", "title": "The packages of one build leave each other alone", "statement": "Installing one package of a build where another package of the same build is installed, or removing it again, changes nothing of what the other one put on the disk: neither its files nor the permissions of its directories.", "quantifier": "all build trees, groups, languages, pairs of packages of the build, rules, options and systems", "why_tests_cant": "trees, splits and systems are unbounded; it joins pkgmk, pkgadd and pkgrm", "anchors": ["scripts/pkgmk.in: build_package, add_meta_to_archive", "src/pkgdbh.cxx: installArchivePackage", "src/pkgadd.cxx: run", "src/pkgrm.cxx: run"]}
{"id": "C234", "title": "All packages of a build together are the build", "statement": "When packages of one build are installed, in any order and each once, without --force on a system that has none of them, every file of the build that belongs to one of them and is excluded by no rule is on the disk with the content and the permissions the build gave it and is recorded as that package's and no other's; and every file on the disk then was there before or is a file of the build.", "quantifier": "all build trees, groups, languages, orders, choices of packages, rules, options and systems", "why_tests_cant": "trees, splits, orders and systems are unbounded; it joins pkgmk and a sequence of runs of pkgadd", "anchors": ["scripts/pkgmk.in: build_package, add_meta_to_archive", "src/pkgadd.cxx: run", "src/pkgdbh.cxx: installArchivePackage, addPackageFilesRefsToDB"]}
{"id": "C235", "title": "A port installed as a whole can be removed as a whole", "statement": "When packages of one build are installed, in any order, on a system that has none of them, and all of them are then removed, in any order (scripts that do nothing, every step succeeding), the database is as it was before and no file of the build that belonged to one of them is left on the disk.", "quantifier": "all build trees, groups, languages, choices of packages, orders of installing and of removing, rules, options and systems", "why_tests_cant": "trees, splits, orders and systems are unbounded; it joins pkgmk, pkgadd and pkgrm", "anchors": ["scripts/pkgmk.in: build_package", "src/pkgadd.cxx: run", "src/pkgrm.cxx: run", "src/pkgdbh.cxx: removePackageFilesRefsFromDB"]}
{"id": "C236", "title": "Files that move between the packages of a port are no obstacle once the losing package is upgraded", "statement": "A package of one build is installed for the first time and then upgraded (successfully, not forced, scripts that do nothing) to the package of that name in a later build. Whatever is then in the way of a file of another package of the later build (not a rejected file, and with no directory at its place) was already in its way before anything was installed: a file that moved from the one package to the other between the builds does not hinder the other from being installed.", "quantifier": "all pairs of builds (trees, groups, languages), all packages of them, rules, options, systems and scripts that do nothing", "why_tests_cant": "pairs of builds, splits and systems are unbounded; it joins pkgmk's splitting with pkgadd's conflict detection and its deletion of old files", "anchors": ["scripts/pkgmk.in: build_package", "src/pkgadd.cxx: run", "src/pkgdbh.cxx: getConflictsFilesList, removePackageFiles, removePackageFilesRefsFromDB"]}
{"id": "C237", "title": "A port upgraded as a whole", "statement": "Packages of one build are installed or upgraded, in whatever order, each once, every step successful, not forced, with scripts that do nothing \u2014 on a system where older packages of the port, cut otherwise, may be installed. Then every file of the build that belongs to one of them (and is neither excluded nor protected by a rule) is on the disk with the content and the permissions the build gave it, and is recorded as that package's and no other's.", "quantifier": "all builds, groups, languages, choices and orders of packages, options per step, rules, and systems in which the place belongs to at most one package and is no directory", "why_tests_cant": "builds, orders and systems are unbounded; a later upgrade could delete what an earlier one had installed", "anchors": ["scripts/pkgmk.in: build_package", "src/pkgadd.cxx: run", "src/pkgdbh.cxx: getConflictsFilesList, removePackageFiles, removePackageFilesRefsFromDB"]}
{"id": "C238", "title": "What a new build of a port no longer has is gone once the port is upgraded", "statement": "Packages of one build are installed or upgraded, in whatever order, each once, every step successful, not forced, with scripts that do nothing. A file that before belonged to the package of one of these names and to nobody else, and at and below whose place the new build has nothing, is afterwards not on the disk and in nobody's record.", "quantifier": "all builds, groups, languages, choices and orders of packages, options per step, rules, systems and files", "why_tests_cant": "builds, orders and systems are unbounded; the deletion happens in one of the steps and must survive all later ones", "anchors": ["scripts/pkgmk.in: build_package", "src/pkgadd.cxx: run", "src/pkgdbh.cxx: removePackageFiles, removePackageFilesRefsFromDB"]}
{"id": "C239", "title": "Upgrading a port puts nothing on the disk but what was built", "statement": "Packages of one build are installed or upgraded, in whatever order and however often, every step successful, not forced, with scripts that do nothing. Every file on the disk afterwards was there before with the same content and permissions, or is a file of the build with the content and the permissions it has there (the directory of rejected files apart).", "quantifier": "all builds, groups, languages, sequences of steps with their options, rules, protected files, systems and places", "why_tests_cant": "builds, sequences and systems are unbounded; protected files, excluded files and failing extractions take other paths through the loop", "anchors": ["scripts/pkgmk.in: build_package", "src/pkgadd.cxx: run", "src/pkgdbh.cxx: installArchivePackage, removePackageFiles"]}
{"id": "C240", "title": "The order in which the packages of a port are upgraded does not matter", "statement": "The same packages of one build are installed or upgraded in two orders on the same system, each once, every step of both successful, not forced, with scripts that do nothing. Then at the place of every file of the build that belongs to one of them (neither excluded nor protected), and at every place at and below which the build has nothing, the two systems hold the same. Places and records of others, at and below which the build has nothing, are unchanged.", "quantifier": "all builds, groups, languages, pairs of orders, options per step, rules, systems in which the place belongs to at most one package and is no directory", "why_tests_cant": "the orders are as many as the permutations, and builds and systems are unbounded", "anchors": ["scripts/pkgmk.in: build_package", "src/pkgadd.cxx: run", "src/pkgdbh.cxx: getConflictsFilesList, installArchivePackage, removePackageFiles"]}
{"id": "C241", "title": "After a port is upgraded the database records exactly its packages", "statement": "Packages of one build are installed or upgraded, in whatever order, each once, every step successful and not forced. Each is then recorded with exactly the files its package file ships that no INSTALL rule excludes, and the records of packages with other names are what they were before.", "quantifier": "all builds, groups, languages, choices and orders of packages, options per step, scripts, rules and systems", "why_tests_cant": "builds, orders and systems are unbounded; every later step rewrites the database", "anchors": ["scripts/pkgmk.in: build_package", "src/pkgadd.cxx: run", "src/pkgdbh.cxx: addPackageFilesRefsToDB, removePackageFilesRefsFromDB"]}
