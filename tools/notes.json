{
 "C01": {
  "status": "partial",
  "note": "Refusals without effect proved for both modes. The upgrade of a name that is installed only as an alias is not refused (C01_alias_upgrade_counterexample)."
 },
 "C02": {
  "status": "partial",
  "note": "A PRE script runs before the conflict test, so its own effect on the file tree remains (C02_script_effect_counterexample); proved without script."
 },
 "C04": {
  "status": "partial",
  "note": "Frame theorems proved for every tree, database, outcome and path, given that the removed package does not spell a shared path differently; C04_spelling_counterexample shows the code compares spellings only (lib vs lib/)."
 },
 "C05": {
  "status": "proved",
  "note": "Files and directories, for names spelled as archives spell them; scripts of the package must leave the place alone."
 },
 "C06": {
  "status": "partial",
  "note": "Content of a protected file proved unchanged for every outcome; the packaged version is rejected or dropped. False parts: an empty packaged file is dropped although different (C06_empty_dropped_counterexample); a protected file the new version no longer ships is deleted (C06_dropped_file_deleted_counterexample)."
 },
 "C07": {
  "status": "partial",
  "note": "Proved for files listed in the MTREE; an entry missing from the MTREE escapes the rules (C07_unlisted_entry_counterexample)."
 },
 "C08": {
  "status": "partial",
  "note": "Record exactness proved without restriction; existence on disk under the stated archive well-formedness and no failing extraction; failed extractions are still reported as success (C08_failed_extraction_counterexample)."
 },
 "C37": {
  "status": "partial",
  "note": "split and strip are exact on every input; replaceAll is exact where it terminates, but it does not terminate when the replacement contains the searched text (counterexample proved)."
 },
 "C30": {
  "status": "proved",
  "note": "Exact characterisation of accepted rule files (without NUL characters) and no effect when any line is malformed."
 },
 "C11": {
  "status": "proved",
  "note": "Any chunking of the writes, any failing call, any kill point; also power loss with in-order directory updates and arbitrary unsynced data."
 },
 "C12": {
  "status": "proved",
  "note": "Names without newline and not empty, as the property says; counterexample shows the restriction is needed."
 },
 "C13": {
  "status": "proved",
  "note": "Ten-digit epochs, as the property says; outside them the record is misread (C13_short_epoch_counterexample)."
 },
 "C24": {
  "status": "partial",
  "note": "Round trip and bounds proved for texts of even length; odd length writes out of bounds (C24_odd_counterexample)."
 },
 "C41": {
  "status": "partial",
  "note": "True for children that exit; death by signal, failed fork and failed wait are all reported as 0 (C41_reported_as_success)."
 },
 "C43": {
  "status": "partial",
  "note": "Right for files some trigger rule matches; an unmatched installed file starts the trigger of the first rule (C43_spurious_counterexample), and an excluded file can trigger (C43_excluded_counterexample)."
 },
 "C44": {
  "status": "partial",
  "note": "Proved for names without '..' component (no symbolic links); '..' is not refused (C44_dotdot_counterexample)."
 },
 "C45": {
  "status": "partial",
  "note": "Other packages intact at every crash point and exact outcome per crash point proved; the full property is false (C45_crash_counterexample, C45_upgrade_lost_counterexample), and the damage is permanent (C45_broken_forever)."
 },
 "C46": {
  "status": "partial",
  "note": "ultos below 10^19, itos below 2^32; overflow and truncation proved otherwise."
 },
 "C39": {
  "status": "proved",
  "note": "All twelve permission bits; the type for the seven POSIX types (others all print '?')."
 },
 "C14": {
  "status": "partial",
  "note": "Proved for any number of pkgadd, pkgrm, pkginfo processes and upgrade deletions under every schedule with crashes. cards create (create::base, create::run) drops the lock at once and writes unlocked: C14_create_base_unlocked proves the violation. The clean-up of meta files that every command does before taking the lock is not part of this model: see C60 and C61."
 },
 "C15": {
  "status": "partial",
  "note": "The full property is false: C15_stale_data_deletes and C15_stale_data_conflict. Proved: undisturbed executions equal the sequential command."
 },
 "C16": {
  "status": "partial",
  "note": "Exact characterisation proved for all graphs and configurations when the uninitialised flag reads false. Full property is false with configured groups (C16_group_counterexample), when the flag reads true (C16_uninitialised_flag), and for dependencies recorded under an alias (C16_alias_counterexample)."
 },
 "C17": {
  "status": "partial",
  "note": "The two refusals are proved in full. That base packages are only removed with --force is false through an alias or the purge (counterexamples proved) and proved otherwise."
 },
 "C47": {
  "status": "partial",
  "note": "Exact for one non-empty argument; false for a second set argument and for the empty argument (counterexamples proved)."
 },
 "C26": {
  "status": "partial",
  "note": "Round trip of the repository file proved for well-formed records, any number of collections, last collection wins. False parts: fields missing from a sub-package description leak from the previous record (C26_leak_counterexample), names shorter than four characters are dropped (C26_short_name_counterexample), sizes from 2 GiB wrap (C26_big_size_counterexample)."
 },
 "C27": {
  "status": "proved",
  "note": "Exact membership of sets and collections for any repository with distinct names; the 'c' line, which pkgmk always writes, is required for the collection."
 },
 "C34": {
  "status": "partial",
  "note": "Exact characterisation (iff) of the files read back line by line; an unterminated last line, over-long lines and NUL bytes are misread (counterexamples proved)."
 },
 "C36": {
  "status": "partial",
  "note": "Nothing outside the base is touched, the file is gone and no empty parent below the base remains, for a base spelled without trailing slash. With a trailing slash the base is not recognised and is deleted with its parents (C36_trailing_slash_counterexample)."
 },
 "C38": {
  "status": "partial",
  "note": "Refinement to lists proved inside the documented preconditions; capacity 0, empty values, size wrap, empty assignment, reading a fresh string and reserve break it (counterexamples proved). Implicit copies (double free) are not modelled."
 },
 "C33": {
  "status": "proved",
  "note": "Acceptance is characterised exactly, for the tables of cards without any hypothesis. The counterexamples document what the statement excludes: a value attached to a value-less option is ignored, a command name can be an option value, options are not tied to commands."
 },
 "C32": {
  "status": "proved",
  "note": "Exact value of every key for every configuration text. Duplicates are only removed for `collection`; `dir` entries given twice are kept (C32_dir_twice_counterexample)."
 },
 "C18": {
  "status": "partial",
  "note": "The list is exactly the set of names reachable through declared dependencies (C18_list); C18_printed_exact says for every tree which of them are printed (those of a level below that of the port); all of them for ports whose dependencies reach no cycle and name no sub-package (C18_printed_partial). Otherwise ports are missing from the output (C18_cycle_counterexample, C18_subpackage_counterexample)."
 },
 "C19": {
  "status": "partial",
  "note": "Levels: every port that reaches no cycle gets the level one above its dependencies; ports that reach a cycle keep level 0 (C19_levels). Build order therefore only without cycles. False parts: C19_second_call_counterexample (list accumulates), C19_dotted_name_counterexample, C19_same_index_counterexample."
 },
 "C20": {
  "status": "partial",
  "note": "Terminates on every tree and expands each port once (C20_deptree_partial); C20_exact says for every tree exactly which names are printed; a port that lists itself hides its later dependencies (C20_self_counterexample)."
 },
 "C21": {
  "status": "proved",
  "note": "Exactly the ports that declare the name (C21_dependent). A user who expects the ports that need a sub-package of the port to be listed too is disappointed: C21_subpackage_counterexample."
 },
 "C48": {
  "status": "partial",
  "note": "Proved for readable Pkgfiles whose arrays are closed and carry no text after the closing parenthesis of a one-line array. False otherwise: C48_comment_, C48_inner_comment_, C48_tab_, C48_open_array_, C48_version_, C48_unreadable_counterexample."
 },
 "C22": {
  "status": "partial",
  "note": "Proved for a repository in order (every listed dependency present under its full name, archive names as listed): the list handed to the installer contains exactly the packages needed, each once, dependencies before dependents; resolution ends iff the reachable dependencies contain no cycle. False in general: C22_cycle_counterexample (a cycle makes resolution run forever), C22_short_name_counterexample. Not modelled: pkgrepo's own database handle always reads the host root, even with --root."
 },
 "C23": {
  "status": "partial",
  "note": "Proved for every server and every content on disk, with a global url line, one file per package and archives that carry the name they are listed under. False without them: C23_no_global_url_counterexample, C23_other_name_counterexample."
 },
 "C25": {
  "status": "proved",
  "note": ""
 },
 "C28": {
  "status": "proved",
  "note": "For every database (a map) and repository with releases below 65536 (unsigned short)."
 },
 "C29": {
  "status": "partial",
  "note": "Selection, the conditions under which anything is done (with the single precision computation of the percentage modelled exactly, up to 2^21 packages) and --check proved. The installation list needs a repository in order (as C22). False: --check/--size do not tell whether upgrade has something to do (C29_check_counterexample); --download-only downloads nothing."
 },
 "C49": {
  "status": "partial",
  "note": "Download and reinstalled sizes proved; the removed size leaves out obsolete packages (C49_obsolete_counterexample)."
 },
 "C50": {
  "status": "proved",
  "note": "For any arguments: C50_installed (given what resolution produced), C50_unknown_argument, C50_resolution_error. For one package of a repository in order (C22's conditions), end to end: C50_one_package; for any packages, sets, collections and the configured groups: C50_packages. C50_only_package_files: downloads touch only package files. The environment decides what each extraction, script and download does; rules matched by an arbitrary matcher, the same for the whole process. Not modelled: --root (the resolver reads the host database), signals, locking between processes (C14)."
 },
 "C51": {
  "status": "partial",
  "note": "Exact characterization for any arguments (C51_marks) and, for one package of a repository in order whose dependencies carry dates, C51_one_package; for packages, sets, collections and groups: C51_packages (marked: those for which the first package asked for that needs them is another one). False in general: a dependency of an earlier argument that is asked for by name too is marked (C51_argument_counterexample); a package installed by hand and upgraded on the way becomes marked (C51_by_hand_counterexample); the mark is lost when two package files of the same package are given (C51_twice_counterexample). cards upgrade never marks the dependencies it newly pulls in (C51_upgrade_counterexample)."
 },
 "C52": {
  "status": "proved",
  "note": "End to end for a repository in order: C52_packages says which packages are handled, C52_done what the database and the tree are afterwards, C52_nothing when nothing happens. The database the resolution reads is the host's (InstEnv.net.db), as in the code."
 },
 "C42": {
  "status": "partial",
  "note": "Proved for a loaded database (C42_reported, C42_resolves: which package a name resolves to) and, exactly, for any packages handled by one process (C42_process). False for the aliases of a package the process has deleted (C42_deleted_alias_counterexample, which also shows that a package just installed is not reported), and in cards remove, where looking an argument up creates an entry for it (C42_remove_counterexample)."
 },
 "C53": {
  "status": "proved",
  "note": "Proved for every outcome of the whole command, against names spelled alike (C04_spelling_counterexample shows what differing spellings do). C03_unique_owner_all_commands closes C03 over pkgadd, pkgrm, cards install, upgrade and remove in any order."
 },
 "C54": {
  "status": "partial",
  "note": "Proved for every database when the argument is a package name that is nobody's alias; which package an alias selects is characterised (C54_files). False for aliases: C54_alias_hides_counterexample, C54_alias_junk_counterexample."
 },
 "C55": {
  "status": "partial",
  "note": "C55_files: the file list of the first package file of the name, exactly; C55_first_collection_counterexample: that is not the one cards install takes when two collections have the package (the last). C55_query_partial: patterns that do not match '/' alone; C55_blank_line_counterexample for the others. C55_file_sets: full."
 },
 "C56": {
  "status": "partial",
  "note": "Exact result for every repository of complete descriptions: C56_names_exact, C56_all_exact. C56_names_partial, C56_all_partial: names and collections without capital letters, descriptions with URL and packager. C56_capital_counterexample: a name with capitals is never found; C56_previous_url_counterexample: a record without URL is searched with the URL of the record before."
 },
 "C57": {
  "status": "proved",
  "note": "descriptions as pkgmk writes them (RecOk, Rec.Complete)"
 },
 "C58": {
  "status": "partial",
  "note": "Proved for 64 bit files of which the linked string table is the first one, not the last section and in the first half of the file, with names that are not empty and do not end with a point. Counterexamples: a string table in the second half of the file, another string table in front, .dynstr as last section (all silently give no or wrong names), 32 bit files on a 64 bit machine and truncated headers (undefined behaviour)."
 },
 "C59": {
  "status": "partial",
  "note": "Proved when no installed file name goes on behind the name of a needed library and the files are such as C58 covers. Counterexamples: libc.so.60 counts as libc.so.6; an alias as argument finds the package but prints nothing."
 },
 "C60": {
  "status": "partial",
  "note": "Proved for the root / when the root directory holds no .PRER or .POSTR (C60_recorded_partial); the clean-up at the start of a command removes exactly six names, whatever a crash left (C60_cleanup). Broken after a crash: .PRER and .POSTR are not cleaned up, the next package installed is recorded with the removal script of the interrupted one (C60_leftover_counterexample). Broken with --root: .MTREE stays in the alternative root, a /.MTREE of the host is deleted, and the clean-up looks in the alternative root but deletes in / (C60_root_counterexample, C60_cleanup_root_counterexample)."
 },
 "C61": {
  "status": "partial",
  "note": "Every command begins with buildDatabase, whose clean-up removes the meta files of the installation in progress, without any lock. C61_schedule_partial tells for every schedule exactly what happens: the installation fails iff another command starts between the extraction and the end of the move (the files are there, nothing is recorded), the pre/post scripts are silently left out iff one starts in their window. C61_query_counterexample and C61_post_counterexample are schedules with one query."
 },
 "C62": {
  "status": "partial",
  "note": "Proved for absolute names with pkgadd, pkgrm, pkginfo, cards install, cards remove (C62_root_partial; several options are nested, C62_nested). Broken for cards upgrade (no slash is added: for every absolute name without trailing slash another database is read than the one locked, C62_upgrade_counterexample), for cards create (option accepted and ignored, C62_create_counterexample) and for relative names (the working directory is changed and not restored: for every relative name the database written is not the one read, C62_relative_counterexample). Not included: scripts and dependency resolution, which use the host."
 },
 "C63": {
  "status": "partial",
  "note": "Proved for ports from which no cycle is reached and whose dependencies are ports of the tree (not sub-packages), when no alias names a package that is not installed. The three counterexamples show each of these gaps is a defect of the program: an alias of a removed package hides a dependency, a dependency on a sub-package of an unconfigured group is not installed, and what the packages of the base sets need is removed again at once."
 },
 "C64": {
  "status": "partial",
  "note": "One owner per file: proved without restriction. Recording: proved when no two package files of the port carry the same name. The last part is false: a package installed by the command itself and then built anew is not taken for an upgrade, and the files of the old version stay without owner (C64_counterexample_stale). When the directory of the port is not found from the directory the command was started in, pkgdbh::treatErrors does nothing and pkgmk is run where the program is: another port may be built and the command succeeds (C64_counterexample_directory)."
 },
 "C65": {
  "status": "partial",
  "note": "Proved under the contract of pkgmk given in MakeOk when no two binaries share a file and the directories of the ports can be entered. False in one point: only main packages without port are removed, their sub-packages stay, and all remain listed (C65_counterexample_subpackages)."
 },
 "C66": {
  "status": "partial",
  "note": "Proved for collections (the comparison with the real run under the contract of pkgmk, for a repository in order). False for a single port: --dry only skips the preparation, packages are removed and the port is built (C66_counterexample_port); a name that is no port is no error: packages are removed and pkgmk is run in the directory the program is in (C66_counterexample_unknown)."
 },
 "C67": {
  "status": "partial",
  "note": "Proved: no record is added or changed, and scripts play no part. False: the files of packages in no base set are deleted while their records stay (C67_counterexample_records), and the record of an installed package that is built anew is lost (C67_counterexample_lost)."
 },
 "C68": {
  "status": "partial",
  "note": "Proved: exact contents for non-empty answers that can be uncompressed, success/failure, frame for every outcome and stop. False (counterexamples): an empty or damaged compressed list leaves the old list and the command reports success."
 },
 "C69": {
  "status": "partial",
  "note": "Proved as stated. The ideal property (no torn list, key and list change together) is false: a torn list is read without complaint and the next cards upgrade removes installed dependencies; the key is replaced before the list, after which every package of the old list is refused."
 },
 "C70": {
  "status": "partial",
  "note": "Composition of C68, C26, C34 and C23 through the file system. Missing what C26 and C34 miss (long lines, short dependency names, absent fields). The signature scheme is a hypothesis."
 },
 "C71": {
  "status": "partial",
  "note": "The exact characterisation is proved for every tree and list of collections. False as configured: a global url line gives an address to local directories, which are then purged; a `dir` without a slash and no depot names `/`, and every visible file of the system is deleted."
 },
 "C72": {
  "status": "partial",
  "note": "The summary line is false: the loop stops at the first wrong signature and \"All n packages checked\" is printed with the number of all packages."
 },
 "C73": {
  "status": "partial",
  "note": "Proved for text files of non-empty lines, each ended by a newline, and fields given once. False otherwise: without a final newline the last character is lost (for every file), an empty .META makes the program write in front of its buffer, a release that is no number ends the program, a field given twice is shown differently before and after, and every package is shown to depend on itself."
 },
 "C74": {
  "status": "partial",
  "note": "Proved: the accepted lines and their meaning for all three tools (C74_add_line, C74_rm_line, C74_info_line, C74_info_accepts, C74_info_one), refusals change nothing (C74_add_refused, C74_rm_refused). The acceptance of pkginfo lines needs clean memory: two counters are not initialised (C74_junk_counterexample). Also false: pkgrm of an ordinary user cleans up before it is refused (C74_rm_user_counterexample), combined modes share an argument (C74_shared_counterexample), -h as the argument of an option (C74_help_counterexample)."
 },
 "C75": {
  "status": "partial",
  "note": "The dispatch and every user test are modelled, the bodies are arbitrary functions. The code breaks two expectations: --no-sync is accepted and never looked at, so diff and upgrade --check given by root always synchronise (C75_no_sync_counterexample), and --root without --conf reads the configuration of the host (C75_conf_root_counterexample)."
 },
 "C76": {
  "status": "partial",
  "note": "Proved: with nothing to update the answer is yes; a yes means nothing to update or a refused upgrade (C76_ready_partial). The code does not do what it promises: the hash compared is that of no file, so with anything to update the answer is no whatever the cache holds (C76_never_counterexample), and a refused upgrade (more than 20 percent) answers yes (C76_refused_counterexample)."
 },
 "C77": {
  "status": "partial",
  "note": "Proved: C77_protected, C77_others, C77_elsewhere, C77_records (every moment), C77_rerun, C77_rm_others, C77_rm_rerun (packages without remove scripts and with plainly spelled names), C77_final (the last state is among the moments). What the code does not give: C77_unreadable_counterexample (a package directory without a file list stops every command, see C45) and C77_upgrade_again_counterexample (an upgrade killed after the removal of the old version is refused when repeated, and the forced installation that works overwrites the protected file). Meta files in the root directory are left to C60."
 },
 "C78": {
  "status": "partial",
  "note": "Exact for the libraries of the port itself (C78_report_exact_partial, C78_names_first), never a false alarm for them (C78_no_false_alarm), independence (C78_run) and the induction over levels (C78_grounded, C78_grounded_plain). False in the code for the .lib package: only its first library is looked for, one without libraries is always reported with an empty name, an unmet dependency on it creates it; a name that is the beginning of another one passes for it; and only the lowest port needing a vanished library is reported. Counterexamples proved. Repository entries are assumed closed under dependencies where stated."
 },
 "C79": {
  "status": "partial",
  "note": "Database: C79_database. Files: C79_files_kept (unless the archive has a directory in the place of a file: C79_clash_counterexample). Nothing left: C79_nothing_left for archives that list what they contain and ship the parent directories (C79_excluded_dir_counterexample otherwise). Directories: C79_dirs_kept for directories holding a file; an empty one is removed and permissions become those of the archive (counterexamples)."
 },
 "C80": {
  "status": "partial",
  "note": "Proved: exactly the programs of the YES triggers when each file has a matching rule and names have no blank (C80_exact_partial), in general only programs of listed files (C80_only_listed), nothing for commands refused by the first tests (C80_refused_early), ldconfig first and once (C80_ldconfig_first), no program twice except the four cache programs (C80_once_partial). Refuted: the cache programs are started once per file (C80_twice_counterexample), a blank in a file name cuts it into two arguments (C80_blank_counterexample), a command refused by a conflict still starts the programs (C80_refused_counterexample)."
 },
 "C81": {
  "status": "partial",
  "note": "Proved for names without blank, tab and newline (C81_reads_partial, C81_one_line_each_partial); refused archives (C81_refused); hard links to a missing file (C81_missing_target). Refuted: an archive damaged after its first entry prints the readable beginning as if it were complete (C81_damaged_counterexample), names that end in ' (EMPTY)' (C81_name_counterexample) or hold a newline (C81_newline_counterexample)."
 },
 "C82": {
  "status": "partial",
  "note": "proved up to one package: a package that was installed before, is to be upgraded and whose upgrade fails after the removal of its record is lost (C82_lost_counterexample); a package installed earlier in the run can depend on it"
 },
 "C83": {
  "status": "proved",
  "note": "for a database in order (one owner per file, plain names are not directories), no other package going by the name (else the installation is refused: C83_alias_counterexample), no --force and a pre-install script that does nothing; the mark: C83_mark_counterexample"
 },
 "C84": {
  "status": "partial",
  "note": "proved: refusals change nothing, only the two files change at any moment, the pair and the final permissions after a success in which what was written reached the disk, secrecy when the umask or the existing permissions give it, what the files hold at every moment. The code breaks the rest: the key is readable for others with umask 022 until chmod (C84_exposed_counterexample), an old private key is destroyed by a run that fails (C84_old_key_counterexample), errors of fclose are ignored (C84_full_disk_counterexample)"
 },
 "C85": {
  "status": "partial",
  "note": "Everything proved except: the percentage is off by one for some numbers because of single precision arithmetic (C85_percentage_counterexample: 48 % shown for 47 packages of 100; within one per cent always, C85_percentage_partial), and the available space is computed with the block size instead of the fragment size (C85_space_counterexample; right where both agree). The size of removed packages omits obsolete ones, see C49."
 },
 "C86": {
  "status": "partial",
  "note": "C86_info_partial: every field the package file has. False for fields it lacks (the value of the record before is shown, C86_leak_counterexample), for archives of 2 GiB (C86_big_size_counterexample) and dependencies with names shorter than four characters (C26). Categories are a parameter of the model."
 },
 "C87": {
  "status": "partial",
  "note": "proved for every query without raw markup characters (as browsers encode them): two such requests of the same type and branch with the same rows have the same skeleton of markup; false for raw requests (proved: a script in page=, a quote in searchpkg=)"
 },
 "C88": {
  "status": "partial",
  "note": "Exact meaning of every request: C88_exact with C88_tells_one. As stated the property holds when no other parameter contains the text `name=` (C88_value, C88_default) and is false otherwise (C88_counterexamples: a parameter given twice, a longer name that ends in a known one)"
 },
 "C89": {
  "status": "partial",
  "note": "Exact rows for every request and list: C89_exact. As stated proved for every text without + and % and packages with names and collections in lower case; false for names with capitals and for several words (counterexamples)"
 },
 "C90": {
  "status": "partial",
  "note": "proved for any number of non-empty lists of complete records in directories of known branches with different names per branch; false (proved): an empty or missing list hides all later ones, a list without a final newline is read beyond its end, members leak from one record to the next"
 },
 "C91": {
  "status": "partial",
  "note": "proved for all documents whose headings stand on one line each; false (proved): lines with other tags beginning with <h or headings over two lines vanish, lists stay open when the last heading is below level 2"
 },
 "C92": {
  "status": "partial",
  "note": "proved for requests one after the other, and that old lines are never lost whatever the schedule; false for two at once: one line overwrites the other (proved)"
 },
 "C93": {
  "status": "partial",
  "note": "C93_split_exact_partial says for every file in which package it ends, if in any (Dest, proved total by C93_dest_total, written only in terms of the directory names); C93_never_twice: never in two packages nor twice in one, without condition; C93_nothing_else: nothing else gets in. C93_nothing_lost_partial: no file is lost if it is not hidden at the top of $PKG, no translation into a language not asked for, no libtool archive, and no file of pkg-config beside the libraries. Missing from the ideal, because the code does lose files: with the group lib before devel the files of pkg-config (put aside for devel) are removed before devel sees them (C93_counterexample_pkgconfig); translations and hidden files are dropped (C93_counterexample_dropped); the language as takes the translations into ast (C93_example_as)."
 },
 "C94": {
  "status": "partial",
  "note": "C94_update_exact_partial: for records without empty lines, exactly which records go and come; C94_in_step_partial: if the port has a package and the records of the other ports were right, afterwards .REPO and .FILES list exactly the packages of the directory; C94_again_partial: idempotent. Missing from the ideal, because the code fails: names are matched as beginnings, so updating gtk loses a record of gtk-doc that is not in the directory (C94_counterexample_prefix); `pkgmk -ur` without a package adds a record of a package gcc*.cards-* (C94_counterexample_unbuilt) that cards then takes for the package before it (C94_counterexample_reader)."
 },
 "C95": {
  "status": "partial",
  "note": "C95_accepted_iff: exactly which Pkgfiles check_pkgfile accepts; C95_no_point: an accepted name has no point; C95_name_back and C95_group_back: the name and the group are found again from the file; C95_distinct: no two packages share a file; C95_only_own_partial: the patterns find the packages of this port only, if the name has no bracket; C95_release_back_partial for releases below 65536. Missing from the ideal, because the code accepts them: names with brackets, whose pattern finds packages of other ports (C95_counterexample_brackets); releases up to 99999999 although cards keeps 16 bits (C95_counterexample_release), and a release of 20 digits, because `[ -gt ]` fails, which makes cards fail on the whole repository (C95_counterexample_huge)."
 },
 "C96": {
  "status": "partial",
  "note": "C96_meta_exact_partial: for values of one line, every line of .META characterised, in both directions, letter by letter; C96_repository_ok_partial: such a .META meets the conditions of C26; C96_read_back_partial: through `cards repo` and the reader, cards finds version, release, build, architecture, collection, description, group, base name, aliases, sets, conflicts and dependencies as the Pkgfile says. Missing from the ideal, because the code fails: a line end in the description begins another field, so a package can claim another name (C96_counterexample_line); development packages among what the files need are left out, unless the name has a letter after a dash (C96_counterexample_devel); a language package carries the alias of the main package (C96_counterexample_alias). Dependencies with names below four characters: see C26. C96_refused: a package is refused exactly when a dependency asked for is not installed."
 },
 "C97": {
  "status": "proved",
  "note": "C97_failure_seen: the status is not 0; C97_stops: nothing but the rest of the same group (and the comparison of the other file lists) follows; C97_kept: a failure before the packing leaves the packages made before; C97_in_order: what is done is a beginning of the planned steps, in order. The steps whose failure is not seen are the subject of C100."
 },
 "C98": {
  "status": "proved",
  "note": "C98_rebuild_iff over directories; C98_needed_iff the decision alone. Consequences shown: a compressed package is never up to date (C98_example_compressed), a missing sub-package is not noticed (C98_example_group)."
 },
 "C99": {
  "status": "partial",
  "note": "C99_pages_survive_partial and C99_same_partial: for directories with one entry for each page and links to pages of the same directory, the result is as stated and the same for all orders. Missing from the ideal, because the code fails: a link to a link is lost or kept depending on the order (C99_counterexample_chain); a link to a page of another directory is lost (C99_counterexample_far); a compressed page with a link of the uncompressed name to it is replaced by a link to itself, the page is lost (C99_counterexample_self)."
 },
 "C100": {
  "status": "partial",
  "note": "C100_exact: the status is 0 exactly if no step failed whose failure is looked at, and all is done if no step failed that ends the run; C100_success_partial: with status 0, without sbin and without translations that cannot be packed, everything was done. Missing from the ideal, because the code fails: the function of a language may fail unseen (C100_counterexample_locale); the main package may not be packed and pkgmk goes on to install (C100_counterexample_tar); abort_on_build ends the run with status 0 after the old packages have been removed (C100_counterexample_abort), which breaks what cards create (C65) expects of pkgmk; packing with .META, compression and .REPO are not looked at (C100_counterexample_end)."
 },
 "C101": {
  "status": "partial",
  "note": "C101_complete_partial, C101_again_partial, C101_all_there_partial and C101_final_partial hold for sources not fetched with git and whose name is not that of an unfinished download. Where the code breaks it: C101_counterexample_same (two sources of the same last name), C101_counterexample_git (the archive of git is written in place, half of it is taken for the whole by the next run), C101_counterexample_partial_name. C101_name, C101_no_name: the name of a source."
 },
 "C102": {
  "status": "proved",
  "note": "C102_in_order, C102_all_or_nothing, C102_complete, C102_waits_for_someone, over all schedules; the failures of the system calls themselves are those of C41. What the user would like in addition is C103."
 },
 "C103": {
  "status": "partial",
  "note": "C103_screen_partial: the screen shows the log when nothing printed contains NUL. C103_logs_exact: which ports get a log. False in the code: C103_counterexample_fast (a build that ends before cards first looks leaves an empty log: the message of its error is lost), C103_counterexample_nul, C103_counterexample_left_behind (cards waits for a background process), C103_counterexample_descriptors (the log of each port is opened and never closed: in a collection of more ports than descriptors the command ends in the middle, whatever the limit)."
 },
 "C104": {
  "status": "proved",
  "note": "C104_made_iff, C104_nothing_else, C104_again. Beyond the statement, the reported result is wrong in four cases, all proved: C104_counterexample_file (success although a file is in the way), C104_counterexample_root and C104_counterexample_letter (failure for / and for names of one letter), C104_counterexample_long (names of 4096 characters or more overflow the buffer)."
 },
 "C105": {
  "status": "proved",
  "note": "C105_equal (files, links, directories, missing files), C105_regular, C105_links, C105_copy. Outside the statement the code is wrong: C105_counterexample_device (different devices of one file system are equal: st_dev is compared instead of st_rdev), C105_counterexample_same_device, C105_counterexample_special, C105_counterexample_missing."
 },
 "C106": {
  "status": "proved",
  "note": "Proved for all sequences of events by an invariant relating the status bits of every package to the parity of the picks (C106_marks, C106_one, C106_menu). std::sort is used through the contract of the C++ standard."
 },
 "C107": {
  "status": "proved",
  "note": "C107_rows: for every sequence of events."
 },
 "C108": {
  "status": "proved",
  "note": "C108_swo, C108_header. Texts that begin with a digit are compared as numbers with each other and as texts with the rest: that this mixture is transitive needs that the digits are contiguous."
 },
 "C109": {
  "status": "partial",
  "note": "Does not hold: changing the search text or marking a package puts the rows back in the order of the list while the arrow stays, and the next click on the header sorts the other way round (C109_counterexample). C109_exact says for every event what happens to the order."
 },
 "C110": {
  "status": "partial",
  "note": "Does not hold. Marking a package, then \"Sync\", then \"Go !\" reads the freed packages of the job list, without any race (C110_counterexample); drawing the table while a list is being loaded reads freed packages (C110_redraw_counterexample). Proved for every schedule: the rows are valid whenever no list is being loaded (C110_rows_partial), and these two are the only ways to use freed memory (C110_exact)."
 },
 "C111": {
  "status": "partial",
  "note": "Does not hold: the flag is set by the new thread, so a second one can be started before (C111_counterexample). C111_prompt_partial: at most one thread works in every schedule in which a started thread takes its first step at once (the early reset of the flag inside the thread of \"Go !\" does no harm: the progress window is modal)."
 },
 "C112": {
  "status": "partial",
  "note": "Does not hold when the button is pressed while a thread runs, e.g. while the list is loaded at the start: nothing is started and the modal window stays open under every schedule (C112_stuck). Otherwise, for every schedule, while the window is open a thread that closes it is alive, and the number of steps threads can take is bounded (C112_closes_partial)."
 },
 "C113": {
  "status": "proved",
  "note": "C113_packages, C113_marks, C113_removed, C113_removes, and C03_unique_owner_flcards (no two owners of a file after any \"Go !\", failed or not). What is needed is computed with the database after the removals, so a package marked for removal comes back when a package to install needs it."
 },
 "C114": {
  "status": "partial",
  "note": "True for packages without remove scripts (C114_as_pkgrm). False with them: flcards runs neither pre-remove nor post-remove (C114_scripts_counterexample)."
 },
 "C115": {
  "status": "partial",
  "note": "False: RemovePackages checks nothing (C115_counterexample: the library of an installed program and a package of base are removed, cards remove refuses both). C115_exact: dependencies stay complete exactly when no selected package is a dependency of one not selected."
 },
 "C116": {
  "status": "partial",
  "note": "The program is never ended (C116_never_killed). The percentages are right for archives with no more entries than lines in .MTREE and one database per process (C116_percentages_partial); they are over 100 otherwise (C116_entries_counterexample, C116_second_counterexample)."
 },
 "C117": {
  "status": "partial",
  "note": "False: opening the database divides by (packages / 100), and flcards is ended by the division by zero exactly when 1 to 99 packages are installed (C117_killed_exact); all other operations do not end it (C117_others); with 199 packages the bar goes to 198 (C117_counterexample); right when the number of packages is a multiple of 100 and the counter is fresh (C117_percentages_partial)."
 },
 "C118": {
  "status": "partial",
  "note": "True for a Pkgfile that sets its version with a plain line (C118_version_partial, C118_release_version_partial, C118_set_partial, C118_deps_partial, C118_rest); C118_release_exact says exactly when the release is raised. False in general: a quoted version is not changed and the release lost (C118_counterexample_quoted), a line of the build with release= is lost (C118_counterexample_line), other variables are changed (C118_counterexample_variable, _prefix), an indented version puts the release back to 1 (C118_counterexample_indented)."
 },
 "C119": {
  "status": "partial",
  "note": "Proved by an invariant over all histories started from git projects of the same name (C119_safe_partial). False otherwise: a build killed in project A, then a build of the same version and collection from project B, whose clean up removes the content of project A (C119_counterexample_project); mybld -c . removes the content of everything mounted by a running build (C119_counterexample_dot)."
 },
 "C120": {
  "status": "partial",
  "note": "Proved: nothing is left (C120_all), nothing outside is touched by mybld -c (C120_only_clean), nor by a build but for mounts run, sys, proc, dev directly in $ROOT (C120_only_build_partial); it succeeds on what a killed run left when no directory at its top is hidden (C120_recovers). False: after an error the mounts of the system stay and the files in them are offered for removal one by one (C120_counterexample_error), mounts outside of the tree are unmounted (C120_counterexample_other), a hidden directory stops every clean up (C120_counterexample_hidden)."
 },
 "C121": {
  "status": "partial",
  "note": "Nothing is missed (C121_complete). C121_exact says which lines are printed; they are the right ones when every broken file belongs to exactly one package and the names can be told apart (C121_report_partial). False otherwise: a library missing for a file of no package is reported for the next broken file (C121_counterexample_leak), the path is used as a pattern (C121_counterexample_pattern, _three), with one package installed a directory is named (C121_counterexample_single)."
 },
 "C122": {
  "status": "partial",
  "note": "For numbers with points between them the comparison is that of the lists of numbers (C122_older); when every port has its own name and sets its version the list is exact (C122_report_partial, C122_lost_partial). False in general: letters of a version are dropped (C122_letters_counterexample), what follows a + is compared (C122_plus_counterexample), 1.02 is listed beside 1.2 (C122_zeros_counterexample), aspell-dict is compared with the package of the port before it (C122_previous_counterexample). sort -V is modelled for digits and points only."
 },
 "C123": {
  "status": "partial",
  "note": "A port is refused only with a reason (C123_refused). Accepted ports have no clash with a port of at most one alias (C123_accepted_partial), so a collection is unambiguous except between ports that both have several aliases (C123_unambiguous_partial). False there: `[ ! -z $alias ]` is an error for two words, and the aliases of such a port are not looked at (C123_counterexample)."
 },
 "C124": {
  "status": "partial",
  "note": "Without --ignore-new: a difference in any line with ordinary permissions is caught, whatever the other packages (C124_caught_partial), a package that is not there is caught (C124_absent), a footprint is not changed (C124_kept), packages that agree pass and missing footprints are made (C124_passed). False: --ignore-new, the default, ignores missing files too and overwrites the footprint (C124_counterexample_missing); a missing file whose line begins with \"--\" is taken for a header of diff (C124_counterexample_shadow). diff and sort are parameters with a contract."
 },
 "C125": {
  "status": "partial",
  "note": "True with at least ten messages, all by members, and a server that answers (C125_ten_newest_partial; C125_fields_partial: where in the text of a message each field stands). False: with fewer messages the list is read past its end (C125_counterexample_few), so it is when a query fails (C125_counterexample_down), and the name of a guest is not shown (C125_counterexample_guest). The answers of the SQL server (order and limit) are trusted."
 },
 "C126": {
  "status": "proved",
  "note": "The digest of OpenSSL is a parameter with the contract that pieces count as the whole."
 },
 "C127": {
  "status": "partial",
  "note": "The files are always closed and at most one buffer per file is lost (C127_closed, C127_all_files; the names found are those of C58). Nothing is lost for 64 bit files whose tables lie in the file and for files that are not ELF (C127_no_memory_partial, C127_other_files). False for files cut off: getDatas does not free its buffer on a short read (C127_counterexample_cut). Where the function has undefined behaviour (C58) nothing is claimed."
 },
 "C128": {
  "status": "proved",
  "note": "The part of C14 that the program never breaks, stated whole. cards create is not such a process (C14_create_base_unlocked)."
 },
 "C129": {
  "status": "proved",
  "note": "The part of C17 that the program never breaks, stated whole."
 },
 "C130": {
  "status": "proved",
  "note": "The part of C01, C08 that the program never breaks, stated whole."
 },
 "C131": {
  "status": "proved",
  "note": "The part of C04 that the program never breaks, stated whole."
 },
 "C132": {
  "status": "proved",
  "note": "The part of C45, C77 that the program never breaks, stated whole. The record of the package being worked on can be damaged (C45, C77)."
 },
 "C133": {
  "status": "proved",
  "note": "The part of C42, C54 that the program never breaks, stated whole."
 },
 "C134": {
  "status": "proved",
  "note": "The part of C18, C20 that the program never breaks, stated whole. What cards depends prints of this list, and the ports missing from the tree when a port lists itself, see C18 and C20."
 },
 "C135": {
  "status": "proved",
  "note": "The part of C64 that the program never breaks, stated whole."
 },
 "C136": {
  "status": "proved",
  "note": "The part of C68, C69 that the program never breaks, stated whole."
 },
 "C137": {
  "status": "proved",
  "note": "The part of C71 that the program never breaks, stated whole. Which directories the configuration gives an address is the other part (C71_local_counterexample, C71_slash_counterexample)."
 },
 "C138": {
  "status": "proved",
  "note": "The part of C95 that the program never breaks, stated whole."
 },
 "C139": {
  "status": "proved",
  "note": "The part of C93 that the program never breaks, stated whole. Files can be lost (C93)."
 },
 "C140": {
  "status": "proved",
  "note": "The part of C121 that the program never breaks, stated whole. The package named beside it can be wrong (C121)."
 },
 "C141": {
  "status": "proved",
  "note": "The part of C92 that the program never breaks, stated whole."
 },
 "C142": {
  "status": "proved",
  "note": "The part of C84 that the program never breaks, stated whole."
 },
 "C143": {
  "status": "proved",
  "note": "The part of C80 that the program never breaks, stated whole."
 },
 "C144": {
  "status": "proved",
  "note": "The part of C116 that the program never breaks, stated whole. A package file without files is refused before anything is shown."
 },
 "C145": {
  "status": "proved",
  "note": "The part of C74 that the program never breaks, stated whole."
 },
 "C146": {
  "status": "proved",
  "note": "The part of C75 that the program never breaks, stated whole."
 },
 "C147": {
  "status": "proved",
  "note": "The part of C120 that the program never breaks, stated whole."
 },
 "C148": {
  "status": "proved",
  "note": "The part of C54 that the program never breaks, stated whole."
 },
 "C149": {
  "status": "proved",
  "note": "The part of C29 that the program never breaks, stated whole."
 },
 "C150": {
  "status": "proved",
  "note": "The part of C37 that the program never breaks, stated whole. replaceAll does not end on some texts (C37)."
 },
 "C151": {
  "status": "proved",
  "note": "C151_only_lists, C151_first; C151_end: the end of a run is one of the moments."
 },
 "C152": {
  "status": "proved",
  "note": "C152_whole_lists. The compressed list itself can be cut off by a kill; clients see that when they uncompress it."
 },
 "C153": {
  "status": "partial",
  "note": "True for runs that come to the end (C153_all_partial, C153_named_partial, C153_in_depot_partial: what C70 needs), and they do when nothing is in the way (C153_succeeds). False otherwise: a file that is not a package, or a bad key, leaves a shortened list (C153_not_a_package_counterexample, C153_no_key_counterexample); an unknown collection and a missing directory are reported as success (C153_unknown_counterexample, C153_missing_counterexample); packages in subdirectories are announced at a place where they are not (C153_subdirectory_counterexample)."
 },
 "C154": {
  "status": "partial",
  "note": "True when the configuration file leaves the variable alone (C154_effect_partial, C154_no_effect_partial, C154_last_install_partial). False otherwise: the configuration file is read after the options and wins (C154_conf_counterexample); the help names -cv, which is refused (C154_help_counterexample); -in changes nothing, it is always on (C154_ignore_new_counterexample)."
 },
 "C155": {
  "status": "partial",
  "note": "C155_only_partial and C155_builds_partial, for configuration files and environments that do not set these variables. False otherwise: variables the script does not initialise are taken from the environment (C155_environment_counterexample: a plain pkgmk cleans); nothing is read after an empty word (C155_empty_word_counterexample)."
 },
 "C156": {
  "status": "partial",
  "note": "C156_same_options_partial: true when no word has a space in it and no other word contains \"-r\". False otherwise: --ignore-repo and --update-repo are mutilated and refused, configuration files with -r in their name are not found (C156_repo_counterexample), names with spaces come apart (C156_space_counterexample)."
 },
 "C157": {
  "status": "partial",
  "note": "True of the files of the main package (C157_main_partial), and when there is no sub-package (C157_same_partial). False otherwise: packing removes the files of the sub-packages from the tree, the packages of the first run are removed, and no package of the second run has them (C157_lost for every such file, C157_counterexample)."
 },
 "C158": {
  "status": "partial",
  "note": "C158_scripts_partial, when the build left no hidden script in the tree and the directory tar is empty at the start. False otherwise: C158_killed_counterexample (--pack-only after a killed run: a script and files of another package), C158_stray_counterexample."
 },
 "C159": {
  "status": "partial",
  "note": "C159_finished_partial, C159_packages: under the conditions of C158, for archives without hidden members at the top; .MTREE is the list of what was packed. False otherwise: .MTREE does not name the directories above, and names hidden files that are not in the package (C159_list_counterexample); stale files of a stopped run come in (C158_killed_counterexample)."
 },
 "C160": {
  "status": "proved",
  "note": "C160_installed, C160_failed (for -i and -u), C160_nothing."
 },
 "C161": {
  "status": "partial",
  "note": "C161_upgraded_partial: after success every package file was installed over an installed version, and the last file of a package in the order of the directory decides. Where the code breaks it: C161_new_package_fails (for every port: a package that is not installed yet makes pkgmk -u fail), C161_half_counterexample (the main package is upgraded, then the new group fails), C161_older_counterexample (an older file listed behind the new one wins)."
 },
 "C162": {
  "status": "partial",
  "note": "C162_exact says exactly what is removed: regular files at the top of the package directory that look like packages of the port, and every file named *.footprint below the port. C162_kept_partial: packages of other ports without a point in their name stay. Where the code breaks it: C162_footprint_counterexample (the reference footprint of the port is deleted)."
 },
 "C163": {
  "status": "partial",
  "note": "C163_updated_partial for packages of different names; C163_absent. Where the code breaks it: C163_two_versions_counterexample (two versions of a package in the directory share a footprint)."
 },
 "C164": {
  "status": "partial",
  "note": "C164_only_work_partial and C164_frame hold for ports without a git source (or with PKGMK_IGNORE_UNPACK=yes). Where the code breaks it: C164_port_renamed_counterexample (a failed git clone leaves an empty archive; unpacking it packs the port over the archive of the sources and renames the directory of the port, and counts as a success)."
 },
 "C165": {
  "status": "partial",
  "note": "C165_exact_partial and C165_there for ports without a git source; C165_there speaks of the last source. Where the code breaks it: C165_behind_git (for every port: a file of the port listed behind a git source is never found) and C165_behind_git_counterexample."
 },
 "C166": {
  "status": "proved",
  "note": "C166_lock"
 },
 "C167": {
  "status": "proved",
  "note": "C167_protected"
 },
 "C168": {
  "status": "proved",
  "note": "C168_undone"
 },
 "C169": {
  "status": "proved",
  "note": "C169_install_rules"
 },
 "C170": {
  "status": "proved",
  "note": "C170_levels"
 },
 "C171": {
  "status": "proved",
  "note": "C171_hex"
 },
 "C172": {
  "status": "proved",
  "note": "C172_remove_file"
 },
 "C173": {
  "status": "proved",
  "note": "C173_listed"
 },
 "C174": {
  "status": "proved",
  "note": "C174_report"
 },
 "C175": {
  "status": "proved",
  "note": "C175_names"
 },
 "C176": {
  "status": "proved",
  "note": "C176_pages"
 },
 "C177": {
  "status": "proved",
  "note": "C177_packages"
 },
 "C178": {
  "status": "proved",
  "note": "C178_sync"
 },
 "C179": {
  "status": "proved",
  "note": "C179_again"
 },
 "C180": {
  "status": "proved",
  "note": "C180_started"
 },
 "C181": {
  "status": "proved",
  "note": "C181_marks"
 },
 "C182": {
  "status": "proved",
  "note": "C182_listed, C182_own (all cases: the name without -extra is in the list or not)."
 },
 "C183": {
  "status": "partial",
  "note": "Proved: exactly the ports of the first collection that has any (C183_version_partial, C183_set_partial), and the port when its name is neither a version nor a set (C183_port_partial). False: ports in a second collection (C183_two_collections_counterexample), a port with the name of a set (C183_name_of_set_counterexample), a quoted name (C183_quoted_counterexample)."
 },
 "C184": {
  "status": "partial",
  "note": "C184_refused, C184_read_partial (texts of one line, plain version). False: a description of two lines (C184_newline_counterexample), a version with # (C184_version_counterexample)."
 },
 "C185": {
  "status": "partial",
  "note": "C185_commit (exact), C185_port_partial (nothing else staged). False: staged files are committed too (C185_staged_counterexample), the status is always success (C185_status_counterexample)."
 },
 "C186": {
  "status": "partial",
  "note": "C186_conserved (every file and order), C186_sections_partial (no name begins with another, ports of different names). False: a name that begins with another (C186_prefix_counterexample), names that differ in capitals (C186_capitals_counterexample)."
 },
 "C187": {
  "status": "partial",
  "note": "Proved: the machine is as before (C187_as_before_partial), what was there stays (C187_kept), and the packages that are in the collections are there (C187_present_partial). False: a package installed with the build date 0 is removed (C187_date_counterexample); a package no collection has is silently missing (C187_missing_counterexample). Not modelled: a build that is interrupted removes nothing."
 },
 "C188": {
  "status": "proved",
  "note": "C188_base_first, C188_own, C188_below, C188_all_below."
 },
 "C189": {
  "status": "partial",
  "note": "Proved for files with one line of categories, each followed by a semicolon, and without white space (C189_exact_partial). False: a file without the last semicolon glues two categories (C189_glued_counterexample); two lines in a file lose all (C189_lines_counterexample)."
 },
 "C190": {
  "status": "partial",
  "note": "Proved, for names that read does not change: exactly the files of the three kinds with no pattern of .nostrip in them (C190_exact_partial, C190_named_partial); an empty line in .nostrip leaves all (C190_empty_line). False: a pattern that is a part of another name (C190_part_counterexample), a blank at the end (C190_blank_counterexample), a backslash (C190_backslash_counterexample: a file of .nostrip is stripped)."
 },
 "C191": {
  "status": "proved",
  "note": "C191_go_iff, C191_stop."
 },
 "C192": {
  "status": "proved",
  "note": "C192_known, C192_all_run, C192_succeeds, C192_below, C192_installs. The pipe find | xargs of pip3 is one command."
 },
 "C193": {
  "status": "partial",
  "note": "Proved for words without blanks (C193_options_partial, C193_unknown, C193_no_word). False: what follows an empty word is not looked at, not even a wrong option (C193_empty_counterexample); an option without its word takes the next option for it (C193_swallowed_counterexample)."
 },
 "C194": {
  "status": "partial",
  "note": "Proved: names are accepted and gone through (C194_names, C194_all), unknown options refused (C194_unknown), and exactly which words are accepted (C194_accepted_partial). False: a part of the text of all names is accepted as well (C194_part_counterexample)."
 },
 "C195": {
  "status": "proved",
  "note": "C195_ends"
 },
 "C196": {
  "status": "proved",
  "note": "C196_clean"
 },
 "C197": {
  "status": "proved",
  "note": "C197_rows"
 },
 "C198": {
  "status": "proved",
  "note": "C198_read_back"
 },
 "C199": {
  "status": "proved",
  "note": "C199_local"
 },
 "C200": {
  "status": "proved",
  "note": "C200_parameters"
 },
 "C201": {
  "status": "proved",
  "note": "C201_go_closed"
 },
 "C202": {
  "status": "proved",
  "note": "C202_whole, C202_otherwise"
 },
 "C203": {
  "status": "proved",
  "note": "C203_numbers, C203_missing, C203_compared; a collection named twice is counted twice (C203_twice_counterexample)."
 },
 "C204": {
  "status": "partial",
  "note": "Proved when both parts come (C204_entry, C204_table_partial), and when it is called updated (C204_message). The old table is deleted first, so that a failed update leaves none (C204_lost_counterexample), and one part is enough to be called updated (C204_half_counterexample)."
 },
 "C205": {
  "status": "proved",
  "note": "C205_nothing_overwritten, C205_landed (no two entries at the same place). Without the condition it is false: an archive with a link and an entry below it overwrites a file of another package without a conflict (C205_link_in_archive)."
 },
 "C206": {
  "status": "proved",
  "note": "C206_history, C206_add, C206_remove, C206_all_there. When a recorded file is missing, a second package can bring it under another name, and removing the first deletes it (C206_missing_file)."
 },
 "C207": {
  "status": "partial",
  "note": "C207_only_own; C207_others_stay (when no place has two owners, C206). The names fail: when the package that owns a link is removed, the files of other packages recorded through it are no longer there under their names, and removing those packages leaves them behind (C207_link_removed)."
 },
 "C208": {
  "status": "partial",
  "note": "Proved when the links below the root, and those of the archive, are relative and without .. (C208_add_inside_partial, C208_rm_inside_partial). An absolute link, as var/run -> /run, leads out: the file is written to, and deleted from, the machine itself (C208_absolute_link)."
 },
 "C209": {
  "status": "partial",
  "note": "C209_as_remove_and_add, C209_others_stay, C209_landed, C209_nothing_else, C207_names_gone. The names of others fail when a link of the package moves (C209_moved_link); and an upgrade whose new version names a file through a link differently is refused for the package's own file (C209_own_file_conflict)."
 },
 "C210": {
  "status": "proved",
  "note": "C210_exact refines the logger to an independent specification (delivered); C210_from_start, C210_bounded, C210_once, C210_not_subscribed, C210_leave, C210_line. The mutex makes each queue operation atomic in the model."
 },
 "C211": {
  "status": "partial",
  "note": "C211_complete_partial: for a window that subscribes and loops, with at most fifty worker lines between two turns, nothing is lost and each of the two kinds keeps its order. Broken: C211_lost_counterexample (the 51st line), C211_order_counterexample (the window's line overtakes), C211_shipped_counterexample (flcards as shipped has the subscription and the loop commented out: nothing is ever shown)."
 },
 "C212": {
  "status": "partial",
  "note": "C212_all_partial: true when no handler is deleted during a loop and none makes the vector grow during one; C212_course: the ordinary course of a box; C212_subscribed: the vector is the list of the history. Broken: C212_grow_counterexample (Sync pressed while the first list is announced: the worker reads the freed buffer), C212_deleted_counterexample (the second thread of a synchronisation calls the deleted box), C212_forgotten_counterexample."
 },
 "C213": {
  "status": "proved",
  "note": "C213_remove, from C16. The flag the code never initialises is an oracle read as false here (C16_uninitialised_flag otherwise); with groups see C16."
 },
 "C214": {
  "status": "proved",
  "note": "C214_resolution, from C22 (InOrder: every listed dependency under its full name, archives as listed)."
 },
 "C215": {
  "status": "proved",
  "note": "C215_conserved, from C186."
 },
 "C216": {
  "status": "proved",
  "note": "C216_other_lines, from C118."
 },
 "C217": {
  "status": "proved",
  "note": "C217_kept, from C187."
 },
 "C218": {
  "status": "proved",
  "note": "C218_remove_links, from C207."
 },
 "C219": {
  "status": "proved",
  "note": "C219_options, from C194."
 },
 "C220": {
  "status": "proved",
  "note": "C220_read (the shipped text is read as these rules), C220_kept (exact set of names), C220_untouched (the effect on the disk, through C06). C220_overwritten shows what the expressions ^etc/ssl and ^etc/rc take besides: etc/sslh.cfg, etc/rcfoo.conf."
 },
 "C221": {
  "status": "partial",
  "note": "C221_left_out: the exact set of names left out; C221_recorded: after a success a package owns exactly the files of its list outside this set. Not only the indexes: C221_counterexample (^usr/share/info/dir without $: usr/share/info/dired-x.info of emacs is never installed)."
 },
 "C222": {
  "status": "proved",
  "note": "C222_exact, C222_ldconfig, C222_icons. That an unmatched file starts the first trigger (C43_spurious_counterexample) means, with this file, only an unneeded ldconfig."
 },
 "C223": {
  "status": "partial",
  "note": "C223_early_partial: true for every moment before the main package is begun, when the reason of the build is a new version or release or a changed Pkgfile; C223_done: a build that was not killed has finished all packages and is not repeated; C223_late: from the moment the old packages are gone, the next run builds exactly if the main package is not there, in whatever state the packages are. Missing, because the code fails: killed after or while the main package is packed, packages without .META or half written are taken for up to date and published (C223_counterexample, C223_counterexample_begun); a forced build killed while old packages are removed loses sub-packages unnoticed (C223_counterexample_force)."
 },
 "C224": {
  "status": "partial",
  "note": "C224_repeat: the next update of the port repairs both files, whatever the packages are then; C224_read_partial: what cards reads of a killed .REPO when it is the last collection. Missing: collections read after it (the variable of the record goes on to the next collection, C26); and, because the code fails, another port updated in between: its record is deleted with the unfinished one (C224_counterexample_other)."
 },
 "C225": {
  "status": "proved",
  "note": "C225_kept, C225_only_asked, C225_stays, C225_status. (That the packages of PKGMK_DEPENDS stay after an interruption is what is missing from C187.)"
 },
 "C226": {
  "status": "partial",
  "note": "C226_others_kept: for any number of runs and any schedule, at every moment the records of ports that are not being built are there, whole and in order; C226_one_after_the_other_partial: updates that do not overlap leave the same records in either order, with those of both ports; race_alone ties the steps to the function of C94. Missing, because the code fails (there is no lock): the records of a run that comes between the reading and the renaming of sed -i are lost (C226_counterexample_lost); lines that come between each other give a package the file of another (C226_counterexample_mixed)."
 },
 "C227": {
  "status": "proved",
  "note": "C227_packages_open, C227_file_installed: the models of the two sides put together (splitPackages, finishAll, openPack, pkgadd). That the description names the package is a hypothesis, met by what pkgmk writes (C227_description_names, from C96)."
 },
 "C228": {
  "status": "proved",
  "note": "C228_no_common_file, C228_not_in_the_way (the first package installed without --force by scripts that do nothing; conflicts in the sense of C02)."
 },
 "C229": {
  "status": "partial",
  "note": "C229_main_undone_partial: the full statement for the main package of a port (the one that keeps every directory above its files listed), on a system where what is recorded is there. C229_files_gone_partial: for every package of the port, the removal succeeds, the database is as before and no regular file of it is left where nothing was. The statement is false for sub-packages: C229_subpackage_counterexample (the archive of tool.devel has no entry for usr/ in its file list, so the directory usr made by extracting it is left behind). The reverse is not lost: nothing of others is removed (C79)."
 },
 "C230": {
  "status": "proved",
  "note": "C230_asked_first, C230_only_asked, C230_as_on_the_server."
 },
 "C231": {
  "status": "partial",
  "note": "C231_nothing_lost_partial: the first half for a whole collection (and nothing is changed when the server is not reached). False for one port: its binaries are deleted before the server is asked for them, and the status is 0 whatever happens: C231_binaries_lost_counterexample."
 },
 "C232": {
  "status": "proved",
  "note": "C232_old_build_gone: the first installation is one onto a system without the package, without --force and by scripts that do nothing; the scripts of the new package do not make the file again. That the files of the new build are on the disk after the upgrade is C227_file_installed (for any system and options)."
 },
 "C233": {
  "status": "partial",
  "note": "C233_files_stay_partial: for the files (content, permissions), installing and removing, in full. False for directories: add_meta_to_archive unpacks an archive that has only the files of the group, so the directories above them are made new with 0755 and are put in the archive; pkgadd (ARCHIVE_EXTRACT_PERM) gives the directory that is there these permissions: C233_directory_counterexample (opt/app 0700 becomes 0755 when tool.devel is installed)."
 },
 "C234": {
  "status": "proved",
  "note": "C234_all_installed (extraction does not fail at the place, no directory was in the place, not below /var/lib/pkg/rejected), C234_nothing_else. InstallsAll says what is assumed of the sequence: each step is a FreshInstall (no --force, success, scripts that do nothing). The package file names of the build differ (C95/C138)."
 },
 "C235": {
  "status": "proved",
  "note": "C235_all_removed (same assumptions on the installations as C234; that directories can stay behind is C229_subpackage_counterexample)."
 },
 "C236": {
  "status": "proved",
  "note": "C236_moved_files. The example beside it shows the other order: installing the receiving package before the losing one is upgraded is refused as a conflict."
 },
 "C237": {
  "status": "proved",
  "note": "C237_all_upgraded. Assumed of the system before: the place of the file is recorded by at most one package, under its plain name, and is no directory; of the port: its packages have different names, none of them empty."
 },
 "C238": {
  "status": "proved",
  "note": "C238_rest_gone. Rejected files apart; directories may stay (C53, C229). The step of the package must then be an upgrade: an installation would be refused."
 },
 "C239": {
  "status": "proved",
  "note": "C239_nothing_else; extracted_src_keep is the extraction loop with a keep list. With C237 and C238: after a whole upgrade the disk holds the new build and what was never the port's."
 },
 "C240": {
  "status": "proved",
  "note": "C240_order_immaterial, C240_others_untouched. That one order succeeds does not mean that another does: see the example of C236. Directories: C233_directory_counterexample shows permissions that depend on the order."
 },
 "C241": {
  "status": "proved",
  "note": "C241_recorded, C241_others_recorded. The packages of the port have different names, none of them empty."
 }
}