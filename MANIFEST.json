{
 "claims": [
  {
   "property": "C01",
   "status": "partial",
   "theorems": [
    "Cards.Props.C01_install_installed_refused",
    "Cards.Props.C01_upgrade_missing_refused",
    "Cards.Props.C01_upgrade_missing_fails",
    "Cards.Props.C01_alias_upgrade_counterexample"
   ],
   "note": "Refusals without effect proved for both modes. The upgrade of a name that is installed only as an alias is not refused (C01_alias_upgrade_counterexample)."
  },
  {
   "property": "C02",
   "status": "partial",
   "theorems": [
    "Cards.Props.C02_conflict_refused_partial",
    "Cards.Props.C02_script_effect_counterexample",
    "Cards.Props.C02_conflict_only_if"
   ],
   "note": "A PRE script runs before the conflict test, so its own effect on the file tree remains (C02_script_effect_counterexample); proved without script."
  },
  {
   "property": "C03",
   "status": "proved",
   "theorems": [
    "Cards.Props.C03_unique_owner_flcards",
    "Cards.Props.C03_unique_owner_history",
    "Cards.Props.C03_unique_owner_life",
    "Cards.Props.C03_unique_owner_cards_install",
    "Cards.Props.C03_unique_owner_all_commands",
    "Cards.Props.C03_unique_owner",
    "Cards.Props.C03_unique_owner_from_empty",
    "Cards.Props.C03_unique_owner_cards_upgrade"
   ],
   "note": ""
  },
  {
   "property": "C04",
   "status": "partial",
   "theorems": [
    "Cards.Props.C04_unlisted_untouched",
    "Cards.Props.C04_shared_untouched",
    "Cards.Props.C04_shared_file_untouched",
    "Cards.Props.C04_other_records_unchanged",
    "Cards.Props.C04_spelling_counterexample"
   ],
   "note": "Frame theorems proved for every tree, database, outcome and path, given that the removed package does not spell a shared path differently; C04_spelling_counterexample shows the code compares spellings only (lib vs lib/)."
  },
  {
   "property": "C05",
   "status": "proved",
   "theorems": [
    "Cards.Props.C05_not_installed",
    "Cards.Props.C05_files_gone",
    "Cards.Props.C05_dirs_gone"
   ],
   "note": "Files and directories, for names spelled as archives spell them; scripts of the package must leave the place alone."
  },
  {
   "property": "C06",
   "status": "partial",
   "theorems": [
    "Cards.Props.C06_protected_untouched",
    "Cards.Props.C06_new_version_rejected",
    "Cards.Props.C06_rejected_place",
    "Cards.Props.C06_directory_rejected",
    "Cards.Props.C06_directory_dropped_counterexample",
    "Cards.Props.C06_empty_dropped_counterexample",
    "Cards.Props.C06_dropped_file_deleted_counterexample"
   ],
   "note": "Content of a protected file proved unchanged for every outcome; the packaged version is rejected or dropped. False parts: an empty packaged file is dropped although different (C06_empty_dropped_counterexample); a protected file the new version no longer ships is deleted (C06_dropped_file_deleted_counterexample)."
  },
  {
   "property": "C07",
   "status": "partial",
   "theorems": [
    "Cards.Props.C07_recorded_iff_not_excluded",
    "Cards.Props.C07_excluded_untouched",
    "Cards.Props.C07_unlisted_entry_counterexample"
   ],
   "note": "Proved for files listed in the MTREE; an entry missing from the MTREE escapes the rules (C07_unlisted_entry_counterexample)."
  },
  {
   "property": "C08",
   "status": "partial",
   "theorems": [
    "Cards.Props.C08_twice_counterexample",
    "Cards.Props.C08_recorded_on_disk",
    "Cards.Props.C08_record_exact",
    "Cards.Props.C08_failed_extraction_counterexample"
   ],
   "note": "Record exactness proved without restriction; existence on disk under the stated archive well-formedness and no failing extraction; failed extractions are still reported as success (C08_failed_extraction_counterexample)."
  },
  {
   "property": "C09",
   "status": "proved",
   "theorems": [
    "Cards.Props.C09_forced_takeover"
   ],
   "note": ""
  },
  {
   "property": "C10",
   "status": "proved",
   "theorems": [
    "Cards.Props.C10_upgrade_keeps_mark",
    "Cards.Props.C10_mark_survives_upgrades",
    "Cards.Props.C10_fresh_install_mark"
   ],
   "note": ""
  },
  {
   "property": "C11",
   "status": "proved",
   "theorems": [
    "Cards.Props.C11_kill_atomic",
    "Cards.Props.C11_power_loss_atomic",
    "Cards.Props.C11_complete",
    "Cards.Props.C11_sets",
    "Cards.Props.C11_history"
   ],
   "note": "Any chunking of the writes, any failing call, any kill point; also power loss with in-order directory updates and arbitrary unsynced data."
  },
  {
   "property": "C12",
   "status": "proved",
   "theorems": [
    "Cards.Props.C12_reader_exact",
    "Cards.Props.C12_roundtrip",
    "Cards.Props.C12_newline_counterexample"
   ],
   "note": "Names without newline and not empty, as the property says; counterexample shows the restriction is needed."
  },
  {
   "property": "C13",
   "status": "proved",
   "theorems": [
    "Cards.Props.C13_roundtrip",
    "Cards.Props.C13_injective",
    "Cards.Props.C13_short_epoch_counterexample"
   ],
   "note": "Ten-digit epochs, as the property says; outside them the record is misread (C13_short_epoch_counterexample)."
  },
  {
   "property": "C14",
   "status": "partial",
   "theorems": [
    "Cards.Props.C14_rm_locked",
    "Cards.Props.C14_add_locked",
    "Cards.Props.C14_mutual_exclusion",
    "Cards.Props.C14_locked_out",
    "Cards.Props.C14_released",
    "Cards.Props.C14_available_after_crash",
    "Cards.Props.C14_only_holder_writes",
    "Cards.Props.C14_section_undisturbed",
    "Cards.Props.C14_create_base_unlocked",
    "Cards.Props.C14_query_consistent"
   ],
   "note": "Proved for any number of pkgadd, pkgrm, pkginfo processes and upgrade deletions under every schedule with crashes. cards create (create::base, create::run) drops the lock at once and writes unlocked: C14_create_base_unlocked proves the violation. The clean-up of meta files that every command does before taking the lock is not part of this model: see C60 and C61."
  },
  {
   "property": "C15",
   "status": "partial",
   "theorems": [
    "Cards.Props.C15_undisturbed_partial",
    "Cards.Props.C15_pkgadd_partial",
    "Cards.Props.C15_pkgrm_partial",
    "Cards.Props.C15_stale_data_deletes",
    "Cards.Props.C15_stale_data_conflict"
   ],
   "note": "The full property is false: C15_stale_data_deletes and C15_stale_data_conflict. Proved: undisturbed executions equal the sequential command."
  },
  {
   "property": "C16",
   "status": "partial",
   "theorems": [
    "Cards.Props.C16_purge_exact",
    "Cards.Props.C16_terminates",
    "Cards.Props.C16_purge_exact_no_groups",
    "Cards.Props.C16_purge_succeeds",
    "Cards.Props.C16_group_counterexample",
    "Cards.Props.C16_uninitialised_flag",
    "Cards.Props.C16_alias_counterexample"
   ],
   "note": "Exact characterisation proved for all graphs and configurations when the uninitialised flag reads false. Full property is false with configured groups (C16_group_counterexample), when the flag reads true (C16_uninitialised_flag), and for dependencies recorded under an alias (C16_alias_counterexample)."
  },
  {
   "property": "C17",
   "status": "partial",
   "theorems": [
    "Cards.Props.C17_base_refused",
    "Cards.Props.C17_dependency_refused",
    "Cards.Props.C17_base_kept_partial",
    "Cards.Props.C17_base_alias_counterexample",
    "Cards.Props.C17_base_orphan_counterexample",
    "Cards.Props.C17_collection_counterexample"
   ],
   "note": "The two refusals are proved in full. That base packages are only removed with --force is false through an alias or the purge (counterexamples proved) and proved otherwise."
  },
  {
   "property": "C18",
   "status": "partial",
   "theorems": [
    "Cards.Props.C18_list",
    "Cards.Props.C18_printed_partial",
    "Cards.Props.C18_printed_exact",
    "Cards.Props.C18_cycle_counterexample",
    "Cards.Props.C18_subpackage_counterexample"
   ],
   "note": "The list is exactly the set of names reachable through declared dependencies (C18_list); C18_printed_exact says for every tree which of them are printed (those of a level below that of the port); all of them for ports whose dependencies reach no cycle and name no sub-package (C18_printed_partial). Otherwise ports are missing from the output (C18_cycle_counterexample, C18_subpackage_counterexample)."
  },
  {
   "property": "C19",
   "status": "partial",
   "theorems": [
    "Cards.Props.C19_levels",
    "Cards.Props.C19_build_order_partial",
    "Cards.Props.C19_level_print",
    "Cards.Props.C19_collection_order",
    "Cards.Props.C19_second_call_counterexample",
    "Cards.Props.C19_dotted_name_counterexample",
    "Cards.Props.C19_same_index_counterexample"
   ],
   "note": "Levels: every port that reaches no cycle gets the level one above its dependencies; ports that reach a cycle keep level 0 (C19_levels). Build order therefore only without cycles. False parts: C19_second_call_counterexample (list accumulates), C19_dotted_name_counterexample, C19_same_index_counterexample."
  },
  {
   "property": "C20",
   "status": "partial",
   "theorems": [
    "Cards.Props.C20_deptree_partial",
    "Cards.Props.C20_exact",
    "Cards.Props.C20_self_counterexample"
   ],
   "note": "Terminates on every tree and expands each port once (C20_deptree_partial); C20_exact says for every tree exactly which names are printed; a port that lists itself hides its later dependencies (C20_self_counterexample)."
  },
  {
   "property": "C21",
   "status": "proved",
   "theorems": [
    "Cards.Props.C21_dependent",
    "Cards.Props.C21_subpackage_counterexample"
   ],
   "note": "Exactly the ports that declare the name (C21_dependent). A user who expects the ports that need a sub-package of the port to be listed too is disappointed: C21_subpackage_counterexample."
  },
  {
   "property": "C22",
   "status": "partial",
   "theorems": [
    "Cards.Props.C22_resolved_partial",
    "Cards.Props.C22_terminates_iff",
    "Cards.Props.C22_cycle_never_ends",
    "Cards.Props.C22_missing",
    "Cards.Props.C22_cycle_counterexample",
    "Cards.Props.C22_short_name_counterexample"
   ],
   "note": "Proved for a repository in order (every listed dependency present under its full name, archive names as listed): the list handed to the installer contains exactly the packages needed, each once, dependencies before dependents; resolution ends iff the reachable dependencies contain no cycle. False in general: C22_cycle_counterexample (a cycle makes resolution run forever), C22_short_name_counterexample. Not modelled: pkgrepo's own database handle always reads the host root, even with --root."
  },
  {
   "property": "C23",
   "status": "partial",
   "theorems": [
    "Cards.Props.C23_verified_partial",
    "Cards.Props.C23_hash_partial",
    "Cards.Props.C23_no_global_url_counterexample",
    "Cards.Props.C23_other_name_counterexample"
   ],
   "note": "Proved for every server and every content on disk, with a global url line, one file per package and archives that carry the name they are listed under. False without them: C23_no_global_url_counterexample, C23_other_name_counterexample."
  },
  {
   "property": "C24",
   "status": "partial",
   "theorems": [
    "Cards.Props.C24_roundtrip",
    "Cards.Props.C24_capitals",
    "Cards.Props.C24_encode_injective",
    "Cards.Props.C24_hash_compare",
    "Cards.Props.C24_even_in_bounds",
    "Cards.Props.C24_odd_out_of_bounds",
    "Cards.Props.C24_odd_counterexample",
    "Cards.Props.C24_sign_counterexample"
   ],
   "note": "Round trip and bounds proved for texts of even length; odd length writes out of bounds (C24_odd_counterexample)."
  },
  {
   "property": "C25",
   "status": "proved",
   "theorems": [
    "Cards.Props.C25_uptodate",
    "Cards.Props.C25_dependency"
   ],
   "note": ""
  },
  {
   "property": "C26",
   "status": "partial",
   "theorems": [
    "Cards.Props.C26_roundtrip_partial",
    "Cards.Props.C26_bytes_partial",
    "Cards.Props.C26_leak_counterexample",
    "Cards.Props.C26_short_name_counterexample",
    "Cards.Props.C26_big_size_counterexample",
    "Cards.Props.C26_release_sign",
    "Cards.Props.C26_size_sign"
   ],
   "note": "Round trip of the repository file proved for well-formed records, any number of collections, last collection wins. False parts: fields missing from a sub-package description leak from the previous record (C26_leak_counterexample), names shorter than four characters are dropped (C26_short_name_counterexample), sizes from 2 GiB wrap (C26_big_size_counterexample)."
  },
  {
   "property": "C27",
   "status": "proved",
   "theorems": [
    "Cards.Props.C27_set_members",
    "Cards.Props.C27_collection_members",
    "Cards.Props.C27_group_members"
   ],
   "note": "Exact membership of sets and collections for any repository with distinct names; the 'c' line, which pkgmk always writes, is required for the collection."
  },
  {
   "property": "C28",
   "status": "proved",
   "theorems": [
    "Cards.Props.C28_class",
    "Cards.Props.C28_counts"
   ],
   "note": "For every database (a map) and repository with releases below 65536 (unsigned short)."
  },
  {
   "property": "C29",
   "status": "partial",
   "theorems": [
    "Cards.Props.C29_selected",
    "Cards.Props.C29_when",
    "Cards.Props.C29_no_repository",
    "Cards.Props.C29_check",
    "Cards.Props.C29_installs_partial",
    "Cards.Props.C29_check_counterexample",
    "Cards.Props.C29_download_only_counterexample"
   ],
   "note": "Selection, the conditions under which anything is done (with the single precision computation of the percentage modelled exactly, up to 2^21 packages) and --check proved. The installation list needs a repository in order (as C22). False: --check/--size do not tell whether upgrade has something to do (C29_check_counterexample); --download-only downloads nothing."
  },
  {
   "property": "C30",
   "status": "proved",
   "theorems": [
    "Cards.Props.C30_rules_exact",
    "Cards.Props.C30_lines",
    "Cards.Props.C30_bad_rules_no_effect"
   ],
   "note": "Exact characterisation of accepted rule files (without NUL characters) and no effect when any line is malformed."
  },
  {
   "property": "C31",
   "status": "proved",
   "theorems": [
    "Cards.Props.C31_install_decision",
    "Cards.Props.C31_upgrade_decision",
    "Cards.Props.C31_governing_rule",
    "Cards.Props.C31_other_events_irrelevant"
   ],
   "note": ""
  },
  {
   "property": "C32",
   "status": "proved",
   "theorems": [
    "Cards.Props.C32_values",
    "Cards.Props.C32_collections",
    "Cards.Props.C32_depot_url",
    "Cards.Props.C32_dir_entry",
    "Cards.Props.C32_dir_twice_counterexample",
    "Cards.Props.C32_local_dir_gets_url"
   ],
   "note": "Exact value of every key for every configuration text. Duplicates are only removed for `collection`; `dir` entries given twice are kept (C32_dir_twice_counterexample)."
  },
  {
   "property": "C33",
   "status": "proved",
   "theorems": [
    "Cards.Props.C33_accepts_iff_partial",
    "Cards.Props.C33_cards_accepts_iff",
    "Cards.Props.C33_cards_help_iff",
    "Cards.Props.C33_unknown_option_refused",
    "Cards.Props.C33_command_as_value_counterexample",
    "Cards.Props.C33_dropped_value_counterexample",
    "Cards.Props.C33_foreign_option_counterexample"
   ],
   "note": "Acceptance is characterised exactly, for the tables of cards without any hypothesis. The counterexamples document what the statement excludes: a value attached to a value-less option is ignored, a command name can be an option value, options are not tied to commands."
  },
  {
   "property": "C34",
   "status": "partial",
   "theorems": [
    "Cards.Props.C34_reads_exactly_partial",
    "Cards.Props.C34_exact_bounds",
    "Cards.Props.C34_unterminated_counterexample",
    "Cards.Props.C34_nul_counterexample",
    "Cards.Props.C34_set_partial"
   ],
   "note": "Exact characterisation (iff) of the files read back line by line; an unterminated last line, over-long lines and NUL bytes are misread (counterexamples proved)."
  },
  {
   "property": "C35",
   "status": "proved",
   "theorems": [
    "Cards.Props.C35_trim_exact",
    "Cards.Props.C35_no_double_slash",
    "Cards.Props.C35_idempotent",
    "Cards.Props.C35_same_components"
   ],
   "note": ""
  },
  {
   "property": "C36",
   "status": "partial",
   "theorems": [
    "Cards.Props.C36_below",
    "Cards.Props.C36_file_removed",
    "Cards.Props.C36_no_empty_parent",
    "Cards.Props.C36_trailing_slash_counterexample"
   ],
   "note": "Nothing outside the base is touched, the file is gone and no empty parent below the base remains, for a base spelled without trailing slash. With a trailing slash the base is not recognised and is deleted with its parents (C36_trailing_slash_counterexample)."
  },
  {
   "property": "C37",
   "status": "partial",
   "theorems": [
    "Cards.Props.C37_split_exact",
    "Cards.Props.C37_strtok_exact",
    "Cards.Props.C37_strip_exact",
    "Cards.Props.C37_replaceAll_none_left",
    "Cards.Props.C37_replaceAll_terminates_shorter",
    "Cards.Props.C37_replaceAll_char",
    "Cards.Props.C37_replaceAll_diverges",
    "Cards.Props.C37_key_value",
    "Cards.Props.C37_splitKeyValue_none",
    "Cards.Props.C37_splitKeyValue",
    "Cards.Props.C37_upper",
    "Cards.Props.C37_lower",
    "Cards.Props.C37_upperString",
    "Cards.Props.C37_lowerString",
    "Cards.Props.C37_startsWithNoCase",
    "Cards.Props.C37_beforeLast"
   ],
   "note": "split and strip are exact on every input; replaceAll is exact where it terminates, but it does not terminate when the replacement contains the searched text (counterexample proved)."
  },
  {
   "property": "C38",
   "status": "partial",
   "theorems": [
    "Cards.Props.C38_vector_partial",
    "Cards.Props.C38_capacity_zero_counterexample",
    "Cards.Props.C38_empty_value_counterexample",
    "Cards.Props.C38_wrap_counterexample",
    "Cards.Props.C38_string_assign_partial",
    "Cards.Props.C38_string_partial",
    "Cards.Props.C38_empty_assign_counterexample",
    "Cards.Props.C38_fresh_read_counterexample",
    "Cards.Props.C38_cstr_allocates",
    "Cards.Props.C38_reserve_counterexample"
   ],
   "note": "Refinement to lists proved inside the documented preconditions; capacity 0, empty values, size wrap, empty assignment, reading a fresh string and reserve break it (counterexamples proved). Implicit copies (double free) are not modelled."
  },
  {
   "property": "C39",
   "status": "proved",
   "theorems": [
    "Cards.Props.C39_mode_string",
    "Cards.Props.C39_only_these"
   ],
   "note": "All twelve permission bits; the type for the seven POSIX types (others all print '?')."
  },
  {
   "property": "C40",
   "status": "proved",
   "theorems": [
    "Cards.Props.C40_children_first",
    "Cards.Props.C40_visits_each_once"
   ],
   "note": ""
  },
  {
   "property": "C41",
   "status": "partial",
   "theorems": [
    "Cards.Props.C41_exited_partial",
    "Cards.Props.C41_reported_as_success",
    "Cards.Props.C41_signal_counterexample"
   ],
   "note": "True for children that exit; death by signal, failed fork and failed wait are all reported as 0 (C41_reported_as_success)."
  },
  {
   "property": "C42",
   "status": "partial",
   "theorems": [
    "Cards.Props.C42_reported",
    "Cards.Props.C42_resolves",
    "Cards.Props.C42_process",
    "Cards.Props.C42_resolves_partial",
    "Cards.Props.C42_deleted_alias_counterexample",
    "Cards.Props.C42_remove_counterexample"
   ],
   "note": "Proved for a loaded database (C42_reported, C42_resolves: which package a name resolves to) and, exactly, for any packages handled by one process (C42_process). False for the aliases of a package the process has deleted (C42_deleted_alias_counterexample, which also shows that a package just installed is not reported), and in cards remove, where looking an argument up creates an entry for it (C42_remove_counterexample)."
  },
  {
   "property": "C43",
   "status": "partial",
   "theorems": [
    "Cards.Props.C43_matched_partial",
    "Cards.Props.C43_list",
    "Cards.Props.C43_unmatched_partial",
    "Cards.Props.C43_spurious_counterexample",
    "Cards.Props.C43_excluded_counterexample",
    "Cards.Props.C43_nodup"
   ],
   "note": "Right for files some trigger rule matches; an unmatched installed file starts the trigger of the first rule (C43_spurious_counterexample), and an excluded file can trigger (C43_excluded_counterexample)."
  },
  {
   "property": "C44",
   "status": "partial",
   "theorems": [
    "Cards.Props.C44_extract_partial",
    "Cards.Props.C44_remove_partial",
    "Cards.Props.C44_record_partial",
    "Cards.Props.C44_dotdot_counterexample",
    "Cards.Props.C44_name_counterexample"
   ],
   "note": "Proved for names without '..' component (no symbolic links); '..' is not refused (C44_dotdot_counterexample)."
  },
  {
   "property": "C45",
   "status": "partial",
   "theorems": [
    "Cards.Props.C45_broken_forever",
    "Cards.Props.C45_readable",
    "Cards.Props.C45_others_intact",
    "Cards.Props.C45_crash_partial",
    "Cards.Props.C45_crash_counterexample",
    "Cards.Props.C45_upgrade_lost_counterexample"
   ],
   "note": "Other packages intact at every crash point and exact outcome per crash point proved; the full property is false (C45_crash_counterexample, C45_upgrade_lost_counterexample), and the damage is permanent (C45_broken_forever)."
  },
  {
   "property": "C46",
   "status": "partial",
   "theorems": [
    "Cards.Props.C46_clamped",
    "Cards.Props.C46_ultos_roundtrip",
    "Cards.Props.C46_ultos_overflow",
    "Cards.Props.C46_itos_partial",
    "Cards.Props.C46_itos_counterexample",
    "Cards.Props.C46_release_sign",
    "Cards.Props.C46_date_sign"
   ],
   "note": "ultos below 10^19, itos below 2^32; overflow and truncation proved otherwise."
  },
  {
   "property": "C47",
   "status": "partial",
   "theorems": [
    "Cards.Props.C47_one_argument_partial",
    "Cards.Props.C47_second_set_counterexample",
    "Cards.Props.C47_empty_argument_counterexample"
   ],
   "note": "Exact for one non-empty argument; false for a second set argument and for the empty argument (counterexamples proved)."
  },
  {
   "property": "C48",
   "status": "partial",
   "theorems": [
    "Cards.Props.C48_scan_partial",
    "Cards.Props.C48_version",
    "Cards.Props.C48_release",
    "Cards.Props.C48_release_default",
    "Cards.Props.C48_comment_counterexample",
    "Cards.Props.C48_tab_counterexample",
    "Cards.Props.C48_inner_comment_counterexample",
    "Cards.Props.C48_open_array_counterexample",
    "Cards.Props.C48_version_counterexample",
    "Cards.Props.C48_unreadable_counterexample"
   ],
   "note": "Proved for readable Pkgfiles whose arrays are closed and carry no text after the closing parenthesis of a one-line array. False otherwise: C48_comment_, C48_inner_comment_, C48_tab_, C48_open_array_, C48_version_, C48_unreadable_counterexample."
  },
  {
   "property": "C49",
   "status": "partial",
   "theorems": [
    "Cards.Props.C49_download",
    "Cards.Props.C49_removed_partial",
    "Cards.Props.C49_obsolete_counterexample"
   ],
   "note": "Download and reinstalled sizes proved; the removed size leaves out obsolete packages (C49_obsolete_counterexample)."
  },
  {
   "property": "C50",
   "status": "proved",
   "theorems": [
    "Cards.Props.C50_installed",
    "Cards.Props.C50_unknown_argument",
    "Cards.Props.C50_resolution_error",
    "Cards.Props.C50_packages",
    "Cards.Props.C50_only_package_files",
    "Cards.Props.C50_one_package",
    "Cards.Props.C50_download_failure"
   ],
   "note": "For any arguments: C50_installed (given what resolution produced), C50_unknown_argument, C50_resolution_error. For one package of a repository in order (C22's conditions), end to end: C50_one_package; for any packages, sets, collections and the configured groups: C50_packages. C50_only_package_files: downloads touch only package files. The environment decides what each extraction, script and download does; rules matched by an arbitrary matcher, the same for the whole process. Not modelled: --root (the resolver reads the host database), signals, locking between processes (C14)."
  },
  {
   "property": "C51",
   "status": "partial",
   "theorems": [
    "Cards.Props.C51_marks",
    "Cards.Props.C51_packages",
    "Cards.Props.C51_one_package",
    "Cards.Props.C51_argument_counterexample",
    "Cards.Props.C51_by_hand_counterexample",
    "Cards.Props.C51_twice_counterexample",
    "Cards.Props.C51_upgrade_counterexample"
   ],
   "note": "Exact characterization for any arguments (C51_marks) and, for one package of a repository in order whose dependencies carry dates, C51_one_package; for packages, sets, collections and groups: C51_packages (marked: those for which the first package asked for that needs them is another one). False in general: a dependency of an earlier argument that is asked for by name too is marked (C51_argument_counterexample); a package installed by hand and upgraded on the way becomes marked (C51_by_hand_counterexample); the mark is lost when two package files of the same package are given (C51_twice_counterexample). cards upgrade never marks the dependencies it newly pulls in (C51_upgrade_counterexample)."
  },
  {
   "property": "C52",
   "status": "proved",
   "theorems": [
    "Cards.Props.C52_done",
    "Cards.Props.C52_nothing",
    "Cards.Props.C52_packages"
   ],
   "note": "End to end for a repository in order: C52_packages says which packages are handled, C52_done what the database and the tree are afterwards, C52_nothing when nothing happens. The database the resolution reads is the host's (InstEnv.net.db), as in the code."
  },
  {
   "property": "C53",
   "status": "proved",
   "theorems": [
    "Cards.Props.C53_untouched",
    "Cards.Props.C53_gone"
   ],
   "note": "Proved for every outcome of the whole command, against names spelled alike (C04_spelling_counterexample shows what differing spellings do). C03_unique_owner_all_commands closes C03 over pkgadd, pkgrm, cards install, upgrade and remove in any order."
  },
  {
   "property": "C54",
   "status": "partial",
   "theorems": [
    "Cards.Props.C54_installed",
    "Cards.Props.C54_by_hand",
    "Cards.Props.C54_number",
    "Cards.Props.C54_files",
    "Cards.Props.C54_files_partial",
    "Cards.Props.C54_bad_pattern",
    "Cards.Props.C54_owner",
    "Cards.Props.C54_build_partial",
    "Cards.Props.C54_build_unknown",
    "Cards.Props.C54_details_partial",
    "Cards.Props.C54_alias_hides_counterexample",
    "Cards.Props.C54_alias_junk_counterexample"
   ],
   "note": "Proved for every database when the argument is a package name that is nobody's alias; which package an alias selects is characterised (C54_files). False for aliases: C54_alias_hides_counterexample, C54_alias_junk_counterexample."
  },
  {
   "property": "C55",
   "status": "partial",
   "theorems": [
    "Cards.Props.C55_files",
    "Cards.Props.C55_query_partial",
    "Cards.Props.C55_first_collection_counterexample",
    "Cards.Props.C55_blank_line_counterexample",
    "Cards.Props.C55_file_sets"
   ],
   "note": "C55_files: the file list of the first package file of the name, exactly; C55_first_collection_counterexample: that is not the one cards install takes when two collections have the package (the last). C55_query_partial: patterns that do not match '/' alone; C55_blank_line_counterexample for the others. C55_file_sets: full."
  },
  {
   "property": "C56",
   "status": "partial",
   "theorems": [
    "Cards.Props.C56_names_partial",
    "Cards.Props.C56_all_partial",
    "Cards.Props.C56_capital_counterexample",
    "Cards.Props.C56_previous_url_counterexample",
    "Cards.Props.C56_names_exact",
    "Cards.Props.C56_all_exact"
   ],
   "note": "Exact result for every repository of complete descriptions: C56_names_exact, C56_all_exact. C56_names_partial, C56_all_partial: names and collections without capital letters, descriptions with URL and packager. C56_capital_counterexample: a name with capitals is never found; C56_previous_url_counterexample: a record without URL is searched with the URL of the record before."
  },
  {
   "property": "C57",
   "status": "proved",
   "theorems": [
    "Cards.Props.C57_binaries",
    "Cards.Props.C57_sets"
   ],
   "note": "descriptions as pkgmk writes them (RecOk, Rec.Complete)"
  },
  {
   "property": "C58",
   "status": "partial",
   "theorems": [
    "Cards.Props.C58_libraries_partial",
    "Cards.Props.C58_other_files",
    "Cards.Props.C58_truncated_counterexample",
    "Cards.Props.C58_late_counterexample",
    "Cards.Props.C58_other_table_counterexample",
    "Cards.Props.C58_last_counterexample",
    "Cards.Props.C58_32bit_counterexample",
    "Cards.Props.C58_no_table_counterexample",
    "Cards.Props.C58_name_at_end"
   ],
   "note": "Proved for 64 bit files of which the linked string table is the first one, not the last section and in the first half of the file, with names that are not empty and do not end with a point. Counterexamples: a string table in the second half of the file, another string table in front, .dynstr as last section (all silently give no or wrong names), 32 bit files on a 64 bit machine and truncated headers (undefined behaviour)."
  },
  {
   "property": "C59",
   "status": "partial",
   "theorems": [
    "Cards.Props.C59_packages_partial",
    "Cards.Props.C59_lines_partial",
    "Cards.Props.C59_longer_counterexample",
    "Cards.Props.C59_alias_counterexample"
   ],
   "note": "Proved when no installed file name goes on behind the name of a needed library and the files are such as C58 covers. Counterexamples: libc.so.60 counts as libc.so.6; an alias as argument finds the package but prints nothing."
  },
  {
   "property": "C60",
   "status": "partial",
   "theorems": [
    "Cards.Props.C60_cleanup_any_root",
    "Cards.Props.C60_recorded_partial",
    "Cards.Props.C60_leftover_counterexample",
    "Cards.Props.C60_root_counterexample",
    "Cards.Props.C60_cleanup_root_counterexample",
    "Cards.Props.C60_cleanup",
    "Cards.Props.C60_mark_reads_back_partial"
   ],
   "note": "Proved for the root / when the root directory holds no .PRER or .POSTR (C60_recorded_partial); the clean-up at the start of a command removes exactly six names, whatever a crash left (C60_cleanup). Broken after a crash: .PRER and .POSTR are not cleaned up, the next package installed is recorded with the removal script of the interrupted one (C60_leftover_counterexample). Broken with --root: .MTREE stays in the alternative root, a /.MTREE of the host is deleted, and the clean-up looks in the alternative root but deletes in / (C60_root_counterexample, C60_cleanup_root_counterexample)."
  },
  {
   "property": "C61",
   "status": "partial",
   "theorems": [
    "Cards.Props.C61_schedule_partial",
    "Cards.Props.C61_query_counterexample",
    "Cards.Props.C61_post_counterexample"
   ],
   "note": "Every command begins with buildDatabase, whose clean-up removes the meta files of the installation in progress, without any lock. C61_schedule_partial tells for every schedule exactly what happens: the installation fails iff another command starts between the extraction and the end of the move (the files are there, nothing is recorded), the pre/post scripts are silently left out iff one starts in their window. C61_query_counterexample and C61_post_counterexample are schedules with one query."
  },
  {
   "property": "C62",
   "status": "partial",
   "theorems": [
    "Cards.Props.C62_root_partial",
    "Cards.Props.C62_nested",
    "Cards.Props.C62_upgrade_counterexample",
    "Cards.Props.C62_create_counterexample",
    "Cards.Props.C62_relative_counterexample"
   ],
   "note": "Proved for absolute names with pkgadd, pkgrm, pkginfo, cards install, cards remove (C62_root_partial; several options are nested, C62_nested). Broken for cards upgrade (no slash is added: for every absolute name without trailing slash another database is read than the one locked, C62_upgrade_counterexample), for cards create (option accepted and ignored, C62_create_counterexample) and for relative names (the working directory is changed and not restored: for every relative name the database written is not the one read, C62_relative_counterexample). Not included: scripts and dependency resolution, which use the host."
  },
  {
   "property": "C63",
   "status": "partial",
   "theorems": [
    "Cards.Props.C63_environment_partial",
    "Cards.Props.C63_order_partial",
    "Cards.Props.C63_counterexample_alias",
    "Cards.Props.C63_counterexample_group",
    "Cards.Props.C63_counterexample_runtime",
    "Cards.Props.C63_core_partial",
    "Cards.Props.C63_base_partial",
    "Cards.Props.C63_group_files"
   ],
   "note": "Proved for ports from which no cycle is reached and whose dependencies are ports of the tree (not sub-packages), when no alias names a package that is not installed. The three counterexamples show each of these gaps is a defect of the program: an alias of a removed package hides a dependency, a dependency on a sub-package of an unconfigured group is not installed, and what the packages of the base sets need is removed again at once."
  },
  {
   "property": "C64",
   "status": "partial",
   "theorems": [
    "Cards.Props.C64_unique_owner",
    "Cards.Props.C64_built_partial",
    "Cards.Props.C64_counterexample_directory",
    "Cards.Props.C64_counterexample_stale"
   ],
   "note": "One owner per file: proved without restriction. Recording: proved when no two package files of the port carry the same name. The last part is false: a package installed by the command itself and then built anew is not taken for an upgrade, and the files of the old version stay without owner (C64_counterexample_stale). When the directory of the port is not found from the directory the command was started in, pkgdbh::treatErrors does nothing and pkgmk is run where the program is: another port may be built and the command succeeds (C64_counterexample_directory)."
  },
  {
   "property": "C65",
   "status": "partial",
   "theorems": [
    "Cards.Props.C65_obsolete",
    "Cards.Props.C65_collection_partial",
    "Cards.Props.C65_idle",
    "Cards.Props.C65_counterexample_subpackages"
   ],
   "note": "Proved under the contract of pkgmk given in MakeOk when no two binaries share a file and the directories of the ports can be entered. False in one point: only main packages without port are removed, their sub-packages stay, and all remain listed (C65_counterexample_subpackages)."
  },
  {
   "property": "C66",
   "status": "partial",
   "theorems": [
    "Cards.Props.C66_dry_collection",
    "Cards.Props.C66_dry_predicts_partial",
    "Cards.Props.C66_counterexample_port",
    "Cards.Props.C66_counterexample_unknown"
   ],
   "note": "Proved for collections (the comparison with the real run under the contract of pkgmk, for a repository in order). False for a single port: --dry only skips the preparation, packages are removed and the port is built (C66_counterexample_port); a name that is no port is no error: packages are removed and pkgmk is run in the directory the program is in (C66_counterexample_unknown)."
  },
  {
   "property": "C67",
   "status": "partial",
   "theorems": [
    "Cards.Props.C67_records_nothing",
    "Cards.Props.C67_no_post",
    "Cards.Props.C67_counterexample_records",
    "Cards.Props.C67_counterexample_lost"
   ],
   "note": "Proved: no record is added or changed, and scripts play no part. False: the files of packages in no base set are deleted while their records stay (C67_counterexample_records), and the record of an installed package that is built anew is lost (C67_counterexample_lost)."
  },
  {
   "property": "C68",
   "status": "partial",
   "theorems": [
    "Cards.Props.C68_only_lists",
    "Cards.Props.C68_only_root",
    "Cards.Props.C68_synced_partial",
    "Cards.Props.C68_succeeds",
    "Cards.Props.C68_failure_reported",
    "Cards.Props.C68_empty_counterexample",
    "Cards.Props.C68_damaged_counterexample"
   ],
   "note": "Proved: exact contents for non-empty answers that can be uncompressed, success/failure, frame for every outcome and stop. False (counterexamples): an empty or damaged compressed list leaves the old list and the command reports success."
  },
  {
   "property": "C69",
   "status": "partial",
   "theorems": [
    "Cards.Props.C69_torn_reads_counterexample",
    "Cards.Props.C69_torn_upgrade_counterexample",
    "Cards.Props.C69_mixed_rejects_counterexample",
    "Cards.Props.C69_failed_keeps_lists",
    "Cards.Props.C69_stopped_partial",
    "Cards.Props.C69_run_again_partial",
    "Cards.Props.C69_mixed_counterexample"
   ],
   "note": "Proved as stated. The ideal property (no torn list, key and list change together) is false: a torn list is read without complaint and the next cards upgrade removes installed dependencies; the key is replaced before the list, after which every package of the old list is refused."
  },
  {
   "property": "C70",
   "status": "partial",
   "theorems": [
    "Cards.Props.C70_arrives_partial",
    "Cards.Props.C70_roundtrip_partial",
    "Cards.Props.C70_sync_read_partial",
    "Cards.Props.C70_no_key",
    "Cards.Props.C70_files_partial",
    "Cards.Props.C70_fetched"
   ],
   "note": "Composition of C68, C26, C34 and C23 through the file system. Missing what C26 and C34 miss (long lines, short dependency names, absent fields). The signature scheme is a hypothesis."
  },
  {
   "property": "C71",
   "status": "partial",
   "theorems": [
    "Cards.Props.C71_purges_exactly",
    "Cards.Props.C71_only_root",
    "Cards.Props.C71_lists_stay",
    "Cards.Props.C71_local_stays",
    "Cards.Props.C71_local_counterexample",
    "Cards.Props.C71_slash_counterexample"
   ],
   "note": "The exact characterisation is proved for every tree and list of collections. False as configured: a global url line gives an address to local directories, which are then purged; a `dir` without a slash and no depot names `/`, and every visible file of the system is deleted."
  },
  {
   "property": "C72",
   "status": "partial",
   "theorems": [
    "Cards.Props.C72_checked_partial",
    "Cards.Props.C72_wrong_noticed",
    "Cards.Props.C72_count_counterexample"
   ],
   "note": "The summary line is false: the loop stops at the first wrong signature and \"All n packages checked\" is printed with the number of all packages."
  },
  {
   "property": "C73",
   "status": "partial",
   "theorems": [
    "Cards.Props.C73_opened_partial",
    "Cards.Props.C73_missing",
    "Cards.Props.C73_no_numbers",
    "Cards.Props.C73_meta_partial",
    "Cards.Props.C73_archive_partial",
    "Cards.Props.C73_before_after_partial",
    "Cards.Props.C73_resolver_partial",
    "Cards.Props.C73_files_partial",
    "Cards.Props.C73_architecture",
    "Cards.Props.C73_unterminated_counterexample",
    "Cards.Props.C73_empty_counterexample",
    "Cards.Props.C73_release_counterexample",
    "Cards.Props.C73_twice_counterexample",
    "Cards.Props.C73_itself_counterexample"
   ],
   "note": "Proved for text files of non-empty lines, each ended by a newline, and fields given once. False otherwise: without a final newline the last character is lost (for every file), an empty .META makes the program write in front of its buffer, a release that is no number ends the program, a field given twice is shown differently before and after, and every package is shown to depend on itself."
  },
  {
   "property": "C74",
   "status": "partial",
   "theorems": [
    "Cards.Props.C74_add_line",
    "Cards.Props.C74_add_refused",
    "Cards.Props.C74_add_runs",
    "Cards.Props.C74_rm_line",
    "Cards.Props.C74_rm_runs",
    "Cards.Props.C74_rm_refused",
    "Cards.Props.C74_rm_user_counterexample",
    "Cards.Props.C74_info_line",
    "Cards.Props.C74_info_accepts",
    "Cards.Props.C74_info_one",
    "Cards.Props.C74_junk_counterexample",
    "Cards.Props.C74_shared_counterexample",
    "Cards.Props.C74_help_counterexample"
   ],
   "note": "Proved: the accepted lines and their meaning for all three tools (C74_add_line, C74_rm_line, C74_info_line, C74_info_accepts, C74_info_one), refusals change nothing (C74_add_refused, C74_rm_refused). The acceptance of pkginfo lines needs clean memory: two counters are not initialised (C74_junk_counterexample). Also false: pkgrm of an ordinary user cleans up before it is refused (C74_rm_user_counterexample), combined modes share an argument (C74_shared_counterexample), -h as the argument of an option (C74_help_counterexample)."
  },
  {
   "property": "C75",
   "status": "partial",
   "theorems": [
    "Cards.Props.C75_user",
    "Cards.Props.C75_user_told",
    "Cards.Props.C75_root_told",
    "Cards.Props.C75_queries",
    "Cards.Props.C75_root_runs",
    "Cards.Props.C75_no_sync_counterexample",
    "Cards.Props.C75_conf",
    "Cards.Props.C75_conf_root_counterexample"
   ],
   "note": "The dispatch and every user test are modelled, the bodies are arbitrary functions. The code breaks two expectations: --no-sync is accepted and never looked at, so diff and upgrade --check given by root always synchronise (C75_no_sync_counterexample), and --root without --conf reads the configuration of the host (C75_conf_root_counterexample)."
  },
  {
   "property": "C76",
   "status": "partial",
   "theorems": [
    "Cards.Props.C76_ready_partial",
    "Cards.Props.C76_up_to_date",
    "Cards.Props.C76_never_counterexample",
    "Cards.Props.C76_refused_counterexample"
   ],
   "note": "Proved: with nothing to update the answer is yes; a yes means nothing to update or a refused upgrade (C76_ready_partial). The code does not do what it promises: the hash compared is that of no file, so with anything to update the answer is no whatever the cache holds (C76_never_counterexample), and a refused upgrade (more than 20 percent) answers yes (C76_refused_counterexample)."
  },
  {
   "property": "C77",
   "status": "partial",
   "theorems": [
    "Cards.Props.C77_protected",
    "Cards.Props.C77_elsewhere",
    "Cards.Props.C77_others",
    "Cards.Props.C77_records",
    "Cards.Props.C77_rerun",
    "Cards.Props.C77_final",
    "Cards.Props.C77_upgrade_again_counterexample",
    "Cards.Props.C77_unreadable_counterexample",
    "Cards.Props.C77_rm_others",
    "Cards.Props.C77_rm_rerun"
   ],
   "note": "Proved: C77_protected, C77_others, C77_elsewhere, C77_records (every moment), C77_rerun, C77_rm_others, C77_rm_rerun (packages without remove scripts and with plainly spelled names), C77_final (the last state is among the moments). What the code does not give: C77_unreadable_counterexample (a package directory without a file list stops every command, see C45) and C77_upgrade_again_counterexample (an upgrade killed after the removal of the old version is refused when repeated, and the forced installation that works overwrites the protected file). Meta files in the root directory are left to C60."
  },
  {
   "property": "C78",
   "status": "partial",
   "theorems": [
    "Cards.Props.C78_report_exact_partial",
    "Cards.Props.C78_names_first",
    "Cards.Props.C78_no_false_alarm",
    "Cards.Props.C78_run",
    "Cards.Props.C78_grounded",
    "Cards.Props.C78_grounded_plain",
    "Cards.Props.C78_prefix_counterexample",
    "Cards.Props.C78_dotlib_counterexample",
    "Cards.Props.C78_empty_dotlib_counterexample",
    "Cards.Props.C78_phantom_counterexample",
    "Cards.Props.C78_lowest_only_counterexample"
   ],
   "note": "Exact for the libraries of the port itself (C78_report_exact_partial, C78_names_first), never a false alarm for them (C78_no_false_alarm), independence (C78_run) and the induction over levels (C78_grounded, C78_grounded_plain). False in the code for the .lib package: only its first library is looked for, one without libraries is always reported with an empty name, an unmet dependency on it creates it; a name that is the beginning of another one passes for it; and only the lowest port needing a vanished library is reported. Counterexamples proved. Repository entries are assumed closed under dependencies where stated."
  },
  {
   "property": "C79",
   "status": "partial",
   "theorems": [
    "Cards.Props.C79_database",
    "Cards.Props.C79_files_kept",
    "Cards.Props.C79_nothing_left",
    "Cards.Props.C79_dirs_kept",
    "Cards.Props.C79_empty_dir_counterexample",
    "Cards.Props.C79_permissions_counterexample",
    "Cards.Props.C79_clash_counterexample",
    "Cards.Props.C79_excluded_dir_counterexample"
   ],
   "note": "Database: C79_database. Files: C79_files_kept (unless the archive has a directory in the place of a file: C79_clash_counterexample). Nothing left: C79_nothing_left for archives that list what they contain and ship the parent directories (C79_excluded_dir_counterexample otherwise). Directories: C79_dirs_kept for directories holding a file; an empty one is removed and permissions become those of the archive (counterexamples)."
  },
  {
   "property": "C80",
   "status": "partial",
   "theorems": [
    "Cards.Props.C80_exact_partial",
    "Cards.Props.C80_only_listed",
    "Cards.Props.C80_refused_early",
    "Cards.Props.C80_ldconfig_first",
    "Cards.Props.C80_once_partial",
    "Cards.Props.C80_twice_counterexample",
    "Cards.Props.C80_blank_counterexample",
    "Cards.Props.C80_refused_counterexample"
   ],
   "note": "Proved: exactly the programs of the YES triggers when each file has a matching rule and names have no blank (C80_exact_partial), in general only programs of listed files (C80_only_listed), nothing for commands refused by the first tests (C80_refused_early), ldconfig first and once (C80_ldconfig_first), no program twice except the four cache programs (C80_once_partial). Refuted: the cache programs are started once per file (C80_twice_counterexample), a blank in a file name cuts it into two arguments (C80_blank_counterexample), a command refused by a conflict still starts the programs (C80_refused_counterexample)."
  },
  {
   "property": "C81",
   "status": "partial",
   "theorems": [
    "Cards.Props.C81_reads_partial",
    "Cards.Props.C81_one_line_each_partial",
    "Cards.Props.C81_refused",
    "Cards.Props.C81_missing_target",
    "Cards.Props.C81_damaged_counterexample",
    "Cards.Props.C81_name_counterexample",
    "Cards.Props.C81_newline_counterexample"
   ],
   "note": "Proved for names without blank, tab and newline (C81_reads_partial, C81_one_line_each_partial); refused archives (C81_refused); hard links to a missing file (C81_missing_target). Refuted: an archive damaged after its first entry prints the readable beginning as if it were complete (C81_damaged_counterexample), names that end in ' (EMPTY)' (C81_name_counterexample) or hold a newline (C81_newline_counterexample)."
  },
  {
   "property": "C82",
   "status": "partial",
   "theorems": [
    "Cards.Props.C82_dependencies_there_partial",
    "Cards.Props.C82_lost_counterexample"
   ],
   "note": "proved up to one package: a package that was installed before, is to be upgraded and whose upgrade fails after the removal of its record is lost (C82_lost_counterexample); a package installed earlier in the run can depend on it"
  },
  {
   "property": "C83",
   "status": "proved",
   "theorems": [
    "Cards.Props.C83_same_system",
    "Cards.Props.C83_mark_counterexample",
    "Cards.Props.C83_alias_counterexample"
   ],
   "note": "for a database in order (one owner per file, plain names are not directories), no other package going by the name (else the installation is refused: C83_alias_counterexample), no --force and a pre-install script that does nothing; the mark: C83_mark_counterexample"
  },
  {
   "property": "C84",
   "status": "partial",
   "theorems": [
    "Cards.Props.C84_only_keys",
    "Cards.Props.C84_refused",
    "Cards.Props.C84_pair_partial",
    "Cards.Props.C84_secret_partial",
    "Cards.Props.C84_exposed_counterexample",
    "Cards.Props.C84_old_key_counterexample",
    "Cards.Props.C84_moments",
    "Cards.Props.C84_full_disk_counterexample"
   ],
   "note": "proved: refusals change nothing, only the two files change at any moment, the pair and the final permissions after a success in which what was written reached the disk, secrecy when the umask or the existing permissions give it, what the files hold at every moment. The code breaks the rest: the key is readable for others with umask 022 until chmod (C84_exposed_counterexample), an old private key is destroyed by a run that fails (C84_old_key_counterexample), errors of fclose are ignored (C84_full_disk_counterexample)"
  },
  {
   "property": "C85",
   "status": "partial",
   "theorems": [
    "Cards.Props.C85_up_to_date",
    "Cards.Props.C85_outdated",
    "Cards.Props.C85_names",
    "Cards.Props.C85_totals",
    "Cards.Props.C85_size",
    "Cards.Props.C85_size_monotone",
    "Cards.Props.C85_amounts",
    "Cards.Props.C85_advice",
    "Cards.Props.C85_percentage_partial",
    "Cards.Props.C85_percentage_counterexample",
    "Cards.Props.C85_space_counterexample",
    "Cards.Props.C85_space_partial"
   ],
   "note": "Everything proved except: the percentage is off by one for some numbers because of single precision arithmetic (C85_percentage_counterexample: 48 % shown for 47 packages of 100; within one per cent always, C85_percentage_partial), and the available space is computed with the block size instead of the fragment size (C85_space_counterexample; right where both agree). The size of removed packages omits obsolete ones, see C49."
  },
  {
   "property": "C86",
   "status": "partial",
   "theorems": [
    "Cards.Props.C86_info_partial",
    "Cards.Props.C86_leak_counterexample",
    "Cards.Props.C86_big_size_counterexample",
    "Cards.Props.C86_sets"
   ],
   "note": "C86_info_partial: every field the package file has. False for fields it lacks (the value of the record before is shown, C86_leak_counterexample), for archives of 2 GiB (C86_big_size_counterexample) and dependencies with names shorter than four characters (C26). Categories are a parameter of the model."
  },
  {
   "property": "C87",
   "status": "partial",
   "theorems": [
    "Cards.Props.C87_markup_partial",
    "Cards.Props.C87_script_counterexample",
    "Cards.Props.C87_attribute_counterexample"
   ],
   "note": "proved for every query without raw markup characters (as browsers encode them): two such requests of the same type and branch with the same rows have the same skeleton of markup; false for raw requests (proved: a script in page=, a quote in searchpkg=)"
  },
  {
   "property": "C88",
   "status": "partial",
   "theorems": [
    "Cards.Props.C88_value",
    "Cards.Props.C88_default",
    "Cards.Props.C88_counterexamples",
    "Cards.Props.C88_exact",
    "Cards.Props.C88_tells_one"
   ],
   "note": "Exact meaning of every request: C88_exact with C88_tells_one. As stated the property holds when no other parameter contains the text `name=` (C88_value, C88_default) and is false otherwise (C88_counterexamples: a parameter given twice, a longer name that ends in a known one)"
  },
  {
   "property": "C89",
   "status": "partial",
   "theorems": [
    "Cards.Props.C89_packages_partial",
    "Cards.Props.C89_exact",
    "Cards.Props.C89_collection_partial",
    "Cards.Props.C89_count",
    "Cards.Props.C89_row",
    "Cards.Props.C89_capital_counterexample",
    "Cards.Props.C89_words_counterexample"
   ],
   "note": "Exact rows for every request and list: C89_exact. As stated proved for every text without + and % and packages with names and collections in lower case; false for names with capitals and for several words (counterexamples)"
  },
  {
   "property": "C90",
   "status": "partial",
   "theorems": [
    "Cards.Props.C90_list_partial",
    "Cards.Props.C90_empty_counterexample",
    "Cards.Props.C90_unterminated_counterexample",
    "Cards.Props.C90_leak_counterexample"
   ],
   "note": "proved for any number of non-empty lists of complete records in directories of known branches with different names per branch; false (proved): an empty or missing list hides all later ones, a list without a final newline is read beyond its end, members leak from one record to the next"
  },
  {
   "property": "C91",
   "status": "partial",
   "theorems": [
    "Cards.Props.C91_page_partial",
    "Cards.Props.C91_plain",
    "Cards.Props.C91_open_counterexample",
    "Cards.Props.C91_lost_counterexample",
    "Cards.Props.C91_request",
    "Cards.Props.C91_missing",
    "Cards.Props.C91_search"
   ],
   "note": "proved for all documents whose headings stand on one line each; false (proved): lines with other tags beginning with <h or headings over two lines vanish, lists stay open when the last heading is below level 2"
  },
  {
   "property": "C92",
   "status": "partial",
   "theorems": [
    "Cards.Props.C92_serial",
    "Cards.Props.C92_old_lines",
    "Cards.Props.C92_lost_counterexample"
   ],
   "note": "proved for requests one after the other, and that old lines are never lost whatever the schedule; false for two at once: one line overwrites the other (proved)"
  },
  {
   "property": "C93",
   "status": "partial",
   "theorems": [
    "Cards.Props.C93_split_exact_partial",
    "Cards.Props.C93_dest_total",
    "Cards.Props.C93_nothing_else",
    "Cards.Props.C93_never_twice",
    "Cards.Props.C93_nothing_lost_partial",
    "Cards.Props.C93_example_as",
    "Cards.Props.C93_counterexample_pkgconfig",
    "Cards.Props.C93_counterexample_dropped"
   ],
   "note": "C93_split_exact_partial says for every file in which package it ends, if in any (Dest, proved total by C93_dest_total, written only in terms of the directory names); C93_never_twice: never in two packages nor twice in one, without condition; C93_nothing_else: nothing else gets in. C93_nothing_lost_partial: no file is lost if it is not hidden at the top of $PKG, no translation into a language not asked for, no libtool archive, and no file of pkg-config beside the libraries. Missing from the ideal, because the code does lose files: with the group lib before devel the files of pkg-config (put aside for devel) are removed before devel sees them (C93_counterexample_pkgconfig); translations and hidden files are dropped (C93_counterexample_dropped); the language as takes the translations into ast (C93_example_as)."
  },
  {
   "property": "C94",
   "status": "partial",
   "theorems": [
    "Cards.Props.C94_update_exact_partial",
    "Cards.Props.C94_in_step_partial",
    "Cards.Props.C94_again_partial",
    "Cards.Props.C94_counterexample_prefix",
    "Cards.Props.C94_counterexample_unbuilt",
    "Cards.Props.C94_counterexample_reader"
   ],
   "note": "C94_update_exact_partial: for records without empty lines, exactly which records go and come; C94_in_step_partial: if the port has a package and the records of the other ports were right, afterwards .REPO and .FILES list exactly the packages of the directory; C94_again_partial: idempotent. Missing from the ideal, because the code fails: names are matched as beginnings, so updating gtk loses a record of gtk-doc that is not in the directory (C94_counterexample_prefix); `pkgmk -ur` without a package adds a record of a package gcc*.cards-* (C94_counterexample_unbuilt) that cards then takes for the package before it (C94_counterexample_reader)."
  },
  {
   "property": "C95",
   "status": "partial",
   "theorems": [
    "Cards.Props.C95_accepted_iff",
    "Cards.Props.C95_no_point",
    "Cards.Props.C95_name_back",
    "Cards.Props.C95_group_back",
    "Cards.Props.C95_distinct",
    "Cards.Props.C95_only_own_partial",
    "Cards.Props.C95_counterexample_brackets",
    "Cards.Props.C95_release_back_partial",
    "Cards.Props.C95_counterexample_release",
    "Cards.Props.C95_counterexample_huge"
   ],
   "note": "C95_accepted_iff: exactly which Pkgfiles check_pkgfile accepts; C95_no_point: an accepted name has no point; C95_name_back and C95_group_back: the name and the group are found again from the file; C95_distinct: no two packages share a file; C95_only_own_partial: the patterns find the packages of this port only, if the name has no bracket; C95_release_back_partial for releases below 65536. Missing from the ideal, because the code accepts them: names with brackets, whose pattern finds packages of other ports (C95_counterexample_brackets); releases up to 99999999 although cards keeps 16 bits (C95_counterexample_release), and a release of 20 digits, because `[ -gt ]` fails, which makes cards fail on the whole repository (C95_counterexample_huge)."
  },
  {
   "property": "C96",
   "status": "partial",
   "theorems": [
    "Cards.Props.C96_meta_exact_partial",
    "Cards.Props.C96_repository_ok_partial",
    "Cards.Props.C96_read_back_partial",
    "Cards.Props.C96_refused",
    "Cards.Props.C96_counterexample_line",
    "Cards.Props.C96_counterexample_devel",
    "Cards.Props.C96_counterexample_alias"
   ],
   "note": "C96_meta_exact_partial: for values of one line, every line of .META characterised, in both directions, letter by letter; C96_repository_ok_partial: such a .META meets the conditions of C26; C96_read_back_partial: through `cards repo` and the reader, cards finds version, release, build, architecture, collection, description, group, base name, aliases, sets, conflicts and dependencies as the Pkgfile says. Missing from the ideal, because the code fails: a line end in the description begins another field, so a package can claim another name (C96_counterexample_line); development packages among what the files need are left out, unless the name has a letter after a dash (C96_counterexample_devel); a language package carries the alias of the main package (C96_counterexample_alias). Dependencies with names below four characters: see C26. C96_refused: a package is refused exactly when a dependency asked for is not installed."
  },
  {
   "property": "C97",
   "status": "proved",
   "theorems": [
    "Cards.Props.C97_failure_seen",
    "Cards.Props.C97_stops",
    "Cards.Props.C97_in_order",
    "Cards.Props.C97_kept"
   ],
   "note": "C97_failure_seen: the status is not 0; C97_stops: nothing but the rest of the same group (and the comparison of the other file lists) follows; C97_kept: a failure before the packing leaves the packages made before; C97_in_order: what is done is a beginning of the planned steps, in order. The steps whose failure is not seen are the subject of C100."
  },
  {
   "property": "C98",
   "status": "proved",
   "theorems": [
    "Cards.Props.C98_needed_iff",
    "Cards.Props.C98_rebuild_iff",
    "Cards.Props.C98_example_compressed",
    "Cards.Props.C98_example_group"
   ],
   "note": "C98_rebuild_iff over directories; C98_needed_iff the decision alone. Consequences shown: a compressed package is never up to date (C98_example_compressed), a missing sub-package is not noticed (C98_example_group)."
  },
  {
   "property": "C99",
   "status": "partial",
   "theorems": [
    "Cards.Props.C99_pages_survive_partial",
    "Cards.Props.C99_same_partial",
    "Cards.Props.C99_counterexample_chain",
    "Cards.Props.C99_counterexample_far",
    "Cards.Props.C99_counterexample_self"
   ],
   "note": "C99_pages_survive_partial and C99_same_partial: for directories with one entry for each page and links to pages of the same directory, the result is as stated and the same for all orders. Missing from the ideal, because the code fails: a link to a link is lost or kept depending on the order (C99_counterexample_chain); a link to a page of another directory is lost (C99_counterexample_far); a compressed page with a link of the uncompressed name to it is replaced by a link to itself, the page is lost (C99_counterexample_self)."
  },
  {
   "property": "C100",
   "status": "partial",
   "theorems": [
    "Cards.Props.C100_exact",
    "Cards.Props.C100_success_partial",
    "Cards.Props.C100_counterexample_locale",
    "Cards.Props.C100_counterexample_tar",
    "Cards.Props.C100_counterexample_abort",
    "Cards.Props.C100_counterexample_end"
   ],
   "note": "C100_exact: the status is 0 exactly if no step failed whose failure is looked at, and all is done if no step failed that ends the run; C100_success_partial: with status 0, without sbin and without translations that cannot be packed, everything was done. Missing from the ideal, because the code fails: the function of a language may fail unseen (C100_counterexample_locale); the main package may not be packed and pkgmk goes on to install (C100_counterexample_tar); abort_on_build ends the run with status 0 after the old packages have been removed (C100_counterexample_abort), which breaks what cards create (C65) expects of pkgmk; packing with .META, compression and .REPO are not looked at (C100_counterexample_end)."
  },
  {
   "property": "C101",
   "status": "partial",
   "theorems": [
    "Cards.Props.C101_complete_partial",
    "Cards.Props.C101_again_partial",
    "Cards.Props.C101_all_there_partial",
    "Cards.Props.C101_final_partial",
    "Cards.Props.C101_name",
    "Cards.Props.C101_no_name",
    "Cards.Props.C101_counterexample_same",
    "Cards.Props.C101_counterexample_git",
    "Cards.Props.C101_counterexample_partial_name"
   ],
   "note": "C101_complete_partial, C101_again_partial, C101_all_there_partial and C101_final_partial hold for sources not fetched with git and whose name is not that of an unfinished download. Where the code breaks it: C101_counterexample_same (two sources of the same last name), C101_counterexample_git (the archive of git is written in place, half of it is taken for the whole by the next run), C101_counterexample_partial_name. C101_name, C101_no_name: the name of a source."
  },
  {
   "property": "C102",
   "status": "proved",
   "theorems": [
    "Cards.Props.C102_in_order",
    "Cards.Props.C102_all_or_nothing",
    "Cards.Props.C102_complete",
    "Cards.Props.C102_waits_for_someone"
   ],
   "note": "C102_in_order, C102_all_or_nothing, C102_complete, C102_waits_for_someone, over all schedules; the failures of the system calls themselves are those of C41. What the user would like in addition is C103."
  },
  {
   "property": "C103",
   "status": "partial",
   "theorems": [
    "Cards.Props.C103_screen_partial",
    "Cards.Props.C103_counterexample_fast",
    "Cards.Props.C103_counterexample_nul",
    "Cards.Props.C103_counterexample_left_behind",
    "Cards.Props.C103_logs_exact",
    "Cards.Props.C103_counterexample_descriptors"
   ],
   "note": "C103_screen_partial: the screen shows the log when nothing printed contains NUL. C103_logs_exact: which ports get a log. False in the code: C103_counterexample_fast (a build that ends before cards first looks leaves an empty log: the message of its error is lost), C103_counterexample_nul, C103_counterexample_left_behind (cards waits for a background process), C103_counterexample_descriptors (the log of each port is opened and never closed: in a collection of more ports than descriptors the command ends in the middle, whatever the limit)."
  },
  {
   "property": "C104",
   "status": "proved",
   "theorems": [
    "Cards.Props.C104_nothing_else",
    "Cards.Props.C104_made_iff",
    "Cards.Props.C104_again",
    "Cards.Props.C104_counterexample_file",
    "Cards.Props.C104_counterexample_root",
    "Cards.Props.C104_counterexample_letter",
    "Cards.Props.C104_counterexample_long"
   ],
   "note": "C104_made_iff, C104_nothing_else, C104_again. Beyond the statement, the reported result is wrong in four cases, all proved: C104_counterexample_file (success although a file is in the way), C104_counterexample_root and C104_counterexample_letter (failure for / and for names of one letter), C104_counterexample_long (names of 4096 characters or more overflow the buffer)."
  },
  {
   "property": "C105",
   "status": "proved",
   "theorems": [
    "Cards.Props.C105_regular",
    "Cards.Props.C105_links",
    "Cards.Props.C105_equal",
    "Cards.Props.C105_copy",
    "Cards.Props.C105_counterexample_device",
    "Cards.Props.C105_counterexample_same_device",
    "Cards.Props.C105_counterexample_special",
    "Cards.Props.C105_counterexample_missing"
   ],
   "note": "C105_equal (files, links, directories, missing files), C105_regular, C105_links, C105_copy. Outside the statement the code is wrong: C105_counterexample_device (different devices of one file system are equal: st_dev is compared instead of st_rdev), C105_counterexample_same_device, C105_counterexample_special, C105_counterexample_missing."
  },
  {
   "property": "C106",
   "status": "proved",
   "theorems": [
    "Cards.Props.C106_marks",
    "Cards.Props.C106_one",
    "Cards.Props.C106_menu"
   ],
   "note": "Proved for all sequences of events by an invariant relating the status bits of every package to the parity of the picks (C106_marks, C106_one, C106_menu). std::sort is used through the contract of the C++ standard."
  },
  {
   "property": "C107",
   "status": "proved",
   "theorems": [
    "Cards.Props.C107_rows"
   ],
   "note": "C107_rows: for every sequence of events."
  },
  {
   "property": "C108",
   "status": "proved",
   "theorems": [
    "Cards.Props.C108_swo",
    "Cards.Props.C108_header"
   ],
   "note": "C108_swo, C108_header. Texts that begin with a digit are compared as numbers with each other and as texts with the rest: that this mixture is transitive needs that the digits are contiguous."
  },
  {
   "property": "C109",
   "status": "partial",
   "theorems": [
    "Cards.Props.C109_exact",
    "Cards.Props.C109_counterexample",
    "Cards.Props.C109_versions"
   ],
   "note": "Does not hold: changing the search text or marking a package puts the rows back in the order of the list while the arrow stays, and the next click on the header sorts the other way round (C109_counterexample). C109_exact says for every event what happens to the order."
  },
  {
   "property": "C110",
   "status": "partial",
   "theorems": [
    "Cards.Props.C110_rows_partial",
    "Cards.Props.C110_exact",
    "Cards.Props.C110_counterexample",
    "Cards.Props.C110_redraw_counterexample"
   ],
   "note": "Does not hold. Marking a package, then \"Sync\", then \"Go !\" reads the freed packages of the job list, without any race (C110_counterexample); drawing the table while a list is being loaded reads freed packages (C110_redraw_counterexample). Proved for every schedule: the rows are valid whenever no list is being loaded (C110_rows_partial), and these two are the only ways to use freed memory (C110_exact)."
  },
  {
   "property": "C111",
   "status": "partial",
   "theorems": [
    "Cards.Props.C111_prompt_partial",
    "Cards.Props.C111_counterexample",
    "Cards.Props.C111_after_go"
   ],
   "note": "Does not hold: the flag is set by the new thread, so a second one can be started before (C111_counterexample). C111_prompt_partial: at most one thread works in every schedule in which a started thread takes its first step at once (the early reset of the flag inside the thread of \"Go !\" does no harm: the progress window is modal)."
  },
  {
   "property": "C112",
   "status": "partial",
   "theorems": [
    "Cards.Props.C112_closes_partial",
    "Cards.Props.C112_stuck"
   ],
   "note": "Does not hold when the button is pressed while a thread runs, e.g. while the list is loaded at the start: nothing is started and the modal window stays open under every schedule (C112_stuck). Otherwise, for every schedule, while the window is open a thread that closes it is alive, and the number of steps threads can take is bounded (C112_closes_partial)."
  },
  {
   "property": "C113",
   "status": "proved",
   "theorems": [
    "Cards.Props.C113_packages",
    "Cards.Props.C113_marks",
    "Cards.Props.C113_removed",
    "Cards.Props.C113_removes"
   ],
   "note": "C113_packages, C113_marks, C113_removed, C113_removes, and C03_unique_owner_flcards (no two owners of a file after any \"Go !\", failed or not). What is needed is computed with the database after the removals, so a package marked for removal comes back when a package to install needs it."
  },
  {
   "property": "C114",
   "status": "partial",
   "theorems": [
    "Cards.Props.C114_as_pkgrm",
    "Cards.Props.C114_scripts_counterexample"
   ],
   "note": "True for packages without remove scripts (C114_as_pkgrm). False with them: flcards runs neither pre-remove nor post-remove (C114_scripts_counterexample)."
  },
  {
   "property": "C115",
   "status": "partial",
   "theorems": [
    "Cards.Props.C115_exact",
    "Cards.Props.C115_counterexample"
   ],
   "note": "False: RemovePackages checks nothing (C115_counterexample: the library of an installed program and a package of base are removed, cards remove refuses both). C115_exact: dependencies stay complete exactly when no selected package is a dependency of one not selected."
  },
  {
   "property": "C116",
   "status": "partial",
   "theorems": [
    "Cards.Props.C116_never_killed",
    "Cards.Props.C116_percentages_partial",
    "Cards.Props.C116_entries_counterexample",
    "Cards.Props.C116_second_counterexample"
   ],
   "note": "The program is never ended (C116_never_killed). The percentages are right for archives with no more entries than lines in .MTREE and one database per process (C116_percentages_partial); they are over 100 otherwise (C116_entries_counterexample, C116_second_counterexample)."
  },
  {
   "property": "C117",
   "status": "partial",
   "theorems": [
    "Cards.Props.C117_killed_exact",
    "Cards.Props.C117_others",
    "Cards.Props.C117_counterexample",
    "Cards.Props.C117_percentages_partial"
   ],
   "note": "False: opening the database divides by (packages / 100), and flcards is ended by the division by zero exactly when 1 to 99 packages are installed (C117_killed_exact); all other operations do not end it (C117_others); with 199 packages the bar goes to 198 (C117_counterexample); right when the number of packages is a multiple of 100 and the counter is fresh (C117_percentages_partial)."
  },
  {
   "property": "C118",
   "status": "partial",
   "theorems": [
    "Cards.Props.C118_version_partial",
    "Cards.Props.C118_release_exact",
    "Cards.Props.C118_release_version_partial",
    "Cards.Props.C118_set_partial",
    "Cards.Props.C118_rest",
    "Cards.Props.C118_deps_partial",
    "Cards.Props.C118_counterexample_quoted",
    "Cards.Props.C118_counterexample_line",
    "Cards.Props.C118_counterexample_variable",
    "Cards.Props.C118_counterexample_prefix",
    "Cards.Props.C118_counterexample_indented"
   ],
   "note": "True for a Pkgfile that sets its version with a plain line (C118_version_partial, C118_release_version_partial, C118_set_partial, C118_deps_partial, C118_rest); C118_release_exact says exactly when the release is raised. False in general: a quoted version is not changed and the release lost (C118_counterexample_quoted), a line of the build with release= is lost (C118_counterexample_line), other variables are changed (C118_counterexample_variable, _prefix), an indented version puts the release back to 1 (C118_counterexample_indented)."
  },
  {
   "property": "C119",
   "status": "partial",
   "theorems": [
    "Cards.Props.C119_safe_partial",
    "Cards.Props.C119_counterexample_project",
    "Cards.Props.C119_counterexample_dot"
   ],
   "note": "Proved by an invariant over all histories started from git projects of the same name (C119_safe_partial). False otherwise: a build killed in project A, then a build of the same version and collection from project B, whose clean up removes the content of project A (C119_counterexample_project); mybld -c . removes the content of everything mounted by a running build (C119_counterexample_dot)."
  },
  {
   "property": "C120",
   "status": "partial",
   "theorems": [
    "Cards.Props.C120_all",
    "Cards.Props.C120_only_clean",
    "Cards.Props.C120_only_build_partial",
    "Cards.Props.C120_recovers",
    "Cards.Props.C120_counterexample_error",
    "Cards.Props.C120_counterexample_other",
    "Cards.Props.C120_counterexample_hidden",
    "Cards.Props.C120_busy"
   ],
   "note": "Proved: nothing is left (C120_all), nothing outside is touched by mybld -c (C120_only_clean), nor by a build but for mounts run, sys, proc, dev directly in $ROOT (C120_only_build_partial); it succeeds on what a killed run left when no directory at its top is hidden (C120_recovers). False: after an error the mounts of the system stay and the files in them are offered for removal one by one (C120_counterexample_error), mounts outside of the tree are unmounted (C120_counterexample_other), a hidden directory stops every clean up (C120_counterexample_hidden)."
  },
  {
   "property": "C121",
   "status": "partial",
   "theorems": [
    "Cards.Props.C121_whole",
    "Cards.Props.C121_complete",
    "Cards.Props.C121_exact",
    "Cards.Props.C121_report_partial",
    "Cards.Props.C121_counterexample_leak",
    "Cards.Props.C121_counterexample_pattern",
    "Cards.Props.C121_counterexample_single",
    "Cards.Props.C121_counterexample_three"
   ],
   "note": "Nothing is missed (C121_complete). C121_exact says which lines are printed; they are the right ones when every broken file belongs to exactly one package and the names can be told apart (C121_report_partial). False otherwise: a library missing for a file of no package is reported for the next broken file (C121_counterexample_leak), the path is used as a pattern (C121_counterexample_pattern, _three), with one package installed a directory is named (C121_counterexample_single)."
  },
  {
   "property": "C122",
   "status": "partial",
   "theorems": [
    "Cards.Props.C122_older",
    "Cards.Props.C122_report_partial",
    "Cards.Props.C122_lost_partial",
    "Cards.Props.C122_letters_counterexample",
    "Cards.Props.C122_plus_counterexample",
    "Cards.Props.C122_zeros_counterexample",
    "Cards.Props.C122_previous_counterexample"
   ],
   "note": "For numbers with points between them the comparison is that of the lists of numbers (C122_older); when every port has its own name and sets its version the list is exact (C122_report_partial, C122_lost_partial). False in general: letters of a version are dropped (C122_letters_counterexample), what follows a + is compared (C122_plus_counterexample), 1.02 is listed beside 1.2 (C122_zeros_counterexample), aspell-dict is compared with the package of the port before it (C122_previous_counterexample). sort -V is modelled for digits and points only."
  },
  {
   "property": "C123",
   "status": "partial",
   "theorems": [
    "Cards.Props.C123_refused",
    "Cards.Props.C123_accepted_partial",
    "Cards.Props.C123_unambiguous_partial",
    "Cards.Props.C123_counterexample"
   ],
   "note": "A port is refused only with a reason (C123_refused). Accepted ports have no clash with a port of at most one alias (C123_accepted_partial), so a collection is unambiguous except between ports that both have several aliases (C123_unambiguous_partial). False there: `[ ! -z $alias ]` is an error for two words, and the aliases of such a port are not looked at (C123_counterexample)."
  },
  {
   "property": "C124",
   "status": "partial",
   "theorems": [
    "Cards.Props.C124_caught_partial",
    "Cards.Props.C124_absent",
    "Cards.Props.C124_kept",
    "Cards.Props.C124_passed",
    "Cards.Props.C124_counterexample_missing",
    "Cards.Props.C124_counterexample_shadow"
   ],
   "note": "Without --ignore-new: a difference in any line with ordinary permissions is caught, whatever the other packages (C124_caught_partial), a package that is not there is caught (C124_absent), a footprint is not changed (C124_kept), packages that agree pass and missing footprints are made (C124_passed). False: --ignore-new, the default, ignores missing files too and overwrites the footprint (C124_counterexample_missing); a missing file whose line begins with \"--\" is taken for a header of diff (C124_counterexample_shadow). diff and sort are parameters with a contract."
  },
  {
   "property": "C125",
   "status": "partial",
   "theorems": [
    "Cards.Props.C125_ten_newest_partial",
    "Cards.Props.C125_counterexample_few",
    "Cards.Props.C125_counterexample_down",
    "Cards.Props.C125_counterexample_guest",
    "Cards.Props.C125_fields_partial"
   ],
   "note": "True with at least ten messages, all by members, and a server that answers (C125_ten_newest_partial; C125_fields_partial: where in the text of a message each field stands). False: with fewer messages the list is read past its end (C125_counterexample_few), so it is when a query fails (C125_counterexample_down), and the name of a guest is not shown (C125_counterexample_guest). The answers of the SQL server (order and limit) are trusted."
  },
  {
   "property": "C126",
   "status": "proved",
   "theorems": [
    "Cards.Props.C126_whole_file",
    "Cards.Props.C126_any_buffer",
    "Cards.Props.C126_unreadable"
   ],
   "note": "The digest of OpenSSL is a parameter with the contract that pieces count as the whole."
  },
  {
   "property": "C127",
   "status": "partial",
   "theorems": [
    "Cards.Props.C127_closed",
    "Cards.Props.C127_no_memory_partial",
    "Cards.Props.C127_other_files",
    "Cards.Props.C127_all_files",
    "Cards.Props.C127_counterexample_cut"
   ],
   "note": "The files are always closed and at most one buffer per file is lost (C127_closed, C127_all_files; the names found are those of C58). Nothing is lost for 64 bit files whose tables lie in the file and for files that are not ELF (C127_no_memory_partial, C127_other_files). False for files cut off: getDatas does not free its buffer on a short read (C127_counterexample_cut). Where the function has undefined behaviour (C58) nothing is claimed."
  },
  {
   "property": "C128",
   "status": "proved",
   "theorems": [
    "Cards.Props.C128_locking"
   ],
   "note": "The part of C14 that the program never breaks, stated whole. cards create is not such a process (C14_create_base_unlocked)."
  },
  {
   "property": "C129",
   "status": "proved",
   "theorems": [
    "Cards.Props.C129_refused"
   ],
   "note": "The part of C17 that the program never breaks, stated whole."
  },
  {
   "property": "C130",
   "status": "proved",
   "theorems": [
    "Cards.Props.C130_recorded"
   ],
   "note": "The part of C01, C08 that the program never breaks, stated whole."
  },
  {
   "property": "C131",
   "status": "proved",
   "theorems": [
    "Cards.Props.C131_only_its_own"
   ],
   "note": "The part of C04 that the program never breaks, stated whole."
  },
  {
   "property": "C132",
   "status": "proved",
   "theorems": [
    "Cards.Props.C132_killed"
   ],
   "note": "The part of C45, C77 that the program never breaks, stated whole. The record of the package being worked on can be damaged (C45, C77)."
  },
  {
   "property": "C133",
   "status": "proved",
   "theorems": [
    "Cards.Props.C133_resolved"
   ],
   "note": "The part of C42, C54 that the program never breaks, stated whole."
  },
  {
   "property": "C134",
   "status": "proved",
   "theorems": [
    "Cards.Props.C134_dependencies"
   ],
   "note": "The part of C18, C20 that the program never breaks, stated whole. What cards depends prints of this list, and the ports missing from the tree when a port lists itself, see C18 and C20."
  },
  {
   "property": "C135",
   "status": "proved",
   "theorems": [
    "Cards.Props.C135_one_owner"
   ],
   "note": "The part of C64 that the program never breaks, stated whole."
  },
  {
   "property": "C136",
   "status": "proved",
   "theorems": [
    "Cards.Props.C136_sync_frame"
   ],
   "note": "The part of C68, C69 that the program never breaks, stated whole."
  },
  {
   "property": "C137",
   "status": "proved",
   "theorems": [
    "Cards.Props.C137_purge"
   ],
   "note": "The part of C71 that the program never breaks, stated whole. Which directories the configuration gives an address is the other part (C71_local_counterexample, C71_slash_counterexample)."
  },
  {
   "property": "C138",
   "status": "proved",
   "theorems": [
    "Cards.Props.C138_file_names"
   ],
   "note": "The part of C95 that the program never breaks, stated whole."
  },
  {
   "property": "C139",
   "status": "proved",
   "theorems": [
    "Cards.Props.C139_packed"
   ],
   "note": "The part of C93 that the program never breaks, stated whole. Files can be lost (C93)."
  },
  {
   "property": "C140",
   "status": "proved",
   "theorems": [
    "Cards.Props.C140_nothing_missed"
   ],
   "note": "The part of C121 that the program never breaks, stated whole. The package named beside it can be wrong (C121)."
  },
  {
   "property": "C141",
   "status": "proved",
   "theorems": [
    "Cards.Props.C141_log_kept"
   ],
   "note": "The part of C92 that the program never breaks, stated whole."
  },
  {
   "property": "C142",
   "status": "proved",
   "theorems": [
    "Cards.Props.C142_keys_frame"
   ],
   "note": "The part of C84 that the program never breaks, stated whole."
  },
  {
   "property": "C143",
   "status": "proved",
   "theorems": [
    "Cards.Props.C143_ldconfig"
   ],
   "note": "The part of C80 that the program never breaks, stated whole."
  },
  {
   "property": "C144",
   "status": "proved",
   "theorems": [
    "Cards.Props.C144_progress"
   ],
   "note": "The part of C116 that the program never breaks, stated whole. A package file without files is refused before anything is shown."
  },
  {
   "property": "C145",
   "status": "proved",
   "theorems": [
    "Cards.Props.C145_lines"
   ],
   "note": "The part of C74 that the program never breaks, stated whole."
  },
  {
   "property": "C146",
   "status": "proved",
   "theorems": [
    "Cards.Props.C146_no_change"
   ],
   "note": "The part of C75 that the program never breaks, stated whole."
  },
  {
   "property": "C147",
   "status": "proved",
   "theorems": [
    "Cards.Props.C147_clean"
   ],
   "note": "The part of C120 that the program never breaks, stated whole."
  },
  {
   "property": "C148",
   "status": "proved",
   "theorems": [
    "Cards.Props.C148_query"
   ],
   "note": "The part of C54 that the program never breaks, stated whole."
  },
  {
   "property": "C149",
   "status": "proved",
   "theorems": [
    "Cards.Props.C149_selected"
   ],
   "note": "The part of C29 that the program never breaks, stated whole."
  },
  {
   "property": "C150",
   "status": "proved",
   "theorems": [
    "Cards.Props.C150_text"
   ],
   "note": "The part of C37 that the program never breaks, stated whole. replaceAll does not end on some texts (C37)."
  },
  {
   "property": "C151",
   "status": "proved",
   "theorems": [
    "Cards.Props.C151_only_lists",
    "Cards.Props.C151_end",
    "Cards.Props.C151_first"
   ],
   "note": "C151_only_lists, C151_first; C151_end: the end of a run is one of the moments."
  },
  {
   "property": "C152",
   "status": "proved",
   "theorems": [
    "Cards.Props.C152_whole_lists"
   ],
   "note": "C152_whole_lists. The compressed list itself can be cut off by a kill; clients see that when they uncompress it."
  },
  {
   "property": "C153",
   "status": "partial",
   "theorems": [
    "Cards.Props.C153_all_partial",
    "Cards.Props.C153_named_partial",
    "Cards.Props.C153_in_depot_partial",
    "Cards.Props.C153_succeeds",
    "Cards.Props.C153_not_a_package_counterexample",
    "Cards.Props.C153_no_key_counterexample",
    "Cards.Props.C153_unknown_counterexample",
    "Cards.Props.C153_missing_counterexample",
    "Cards.Props.C153_subdirectory_counterexample"
   ],
   "note": "True for runs that come to the end (C153_all_partial, C153_named_partial, C153_in_depot_partial: what C70 needs), and they do when nothing is in the way (C153_succeeds). False otherwise: a file that is not a package, or a bad key, leaves a shortened list (C153_not_a_package_counterexample, C153_no_key_counterexample); an unknown collection and a missing directory are reported as success (C153_unknown_counterexample, C153_missing_counterexample); packages in subdirectories are announced at a place where they are not (C153_subdirectory_counterexample)."
  },
  {
   "property": "C154",
   "status": "partial",
   "theorems": [
    "Cards.Props.C154_effect_partial",
    "Cards.Props.C154_no_effect_partial",
    "Cards.Props.C154_last_install_partial",
    "Cards.Props.C154_conf_counterexample",
    "Cards.Props.C154_help_counterexample",
    "Cards.Props.C154_ignore_new_counterexample"
   ],
   "note": "True when the configuration file leaves the variable alone (C154_effect_partial, C154_no_effect_partial, C154_last_install_partial). False otherwise: the configuration file is read after the options and wins (C154_conf_counterexample); the help names -cv, which is refused (C154_help_counterexample); -in changes nothing, it is always on (C154_ignore_new_counterexample)."
  },
  {
   "property": "C155",
   "status": "partial",
   "theorems": [
    "Cards.Props.C155_only_partial",
    "Cards.Props.C155_builds_partial",
    "Cards.Props.C155_environment_counterexample",
    "Cards.Props.C155_empty_word_counterexample"
   ],
   "note": "C155_only_partial and C155_builds_partial, for configuration files and environments that do not set these variables. False otherwise: variables the script does not initialise are taken from the environment (C155_environment_counterexample: a plain pkgmk cleans); nothing is read after an empty word (C155_empty_word_counterexample)."
  },
  {
   "property": "C156",
   "status": "partial",
   "theorems": [
    "Cards.Props.C156_same_options_partial",
    "Cards.Props.C156_repo_counterexample",
    "Cards.Props.C156_space_counterexample"
   ],
   "note": "C156_same_options_partial: true when no word has a space in it and no other word contains \"-r\". False otherwise: --ignore-repo and --update-repo are mutilated and refused, configuration files with -r in their name are not found (C156_repo_counterexample), names with spaces come apart (C156_space_counterexample)."
  },
  {
   "property": "C157",
   "status": "partial",
   "theorems": [
    "Cards.Props.C157_main_partial",
    "Cards.Props.C157_lost",
    "Cards.Props.C157_same_partial",
    "Cards.Props.C157_counterexample"
   ],
   "note": "True of the files of the main package (C157_main_partial), and when there is no sub-package (C157_same_partial). False otherwise: packing removes the files of the sub-packages from the tree, the packages of the first run are removed, and no package of the second run has them (C157_lost for every such file, C157_counterexample)."
  },
  {
   "property": "C158",
   "status": "partial",
   "theorems": [
    "Cards.Props.C158_scripts_partial",
    "Cards.Props.C158_killed_counterexample",
    "Cards.Props.C158_stray_counterexample"
   ],
   "note": "C158_scripts_partial, when the build left no hidden script in the tree and the directory tar is empty at the start. False otherwise: C158_killed_counterexample (--pack-only after a killed run: a script and files of another package), C158_stray_counterexample."
  },
  {
   "property": "C159",
   "status": "partial",
   "theorems": [
    "Cards.Props.C159_finished_partial",
    "Cards.Props.C159_packages",
    "Cards.Props.C159_list_counterexample"
   ],
   "note": "C159_finished_partial, C159_packages: under the conditions of C158, for archives without hidden members at the top; .MTREE is the list of what was packed. False otherwise: .MTREE does not name the directories above, and names hidden files that are not in the package (C159_list_counterexample); stale files of a stopped run come in (C158_killed_counterexample)."
  },
  {
   "property": "C160",
   "status": "proved",
   "theorems": [
    "Cards.Props.C160_installed",
    "Cards.Props.C160_failed",
    "Cards.Props.C160_nothing"
   ],
   "note": "C160_installed, C160_failed (for -i and -u), C160_nothing."
  },
  {
   "property": "C161",
   "status": "partial",
   "theorems": [
    "Cards.Props.C161_upgraded_partial",
    "Cards.Props.C161_new_package_fails",
    "Cards.Props.C161_older_counterexample",
    "Cards.Props.C161_half_counterexample"
   ],
   "note": "C161_upgraded_partial: after success every package file was installed over an installed version, and the last file of a package in the order of the directory decides. Where the code breaks it: C161_new_package_fails (for every port: a package that is not installed yet makes pkgmk -u fail), C161_half_counterexample (the main package is upgraded, then the new group fails), C161_older_counterexample (an older file listed behind the new one wins)."
  },
  {
   "property": "C162",
   "status": "partial",
   "theorems": [
    "Cards.Props.C162_exact",
    "Cards.Props.C162_kept_partial",
    "Cards.Props.C162_footprint_counterexample"
   ],
   "note": "C162_exact says exactly what is removed: regular files at the top of the package directory that look like packages of the port, and every file named *.footprint below the port. C162_kept_partial: packages of other ports without a point in their name stay. Where the code breaks it: C162_footprint_counterexample (the reference footprint of the port is deleted)."
  },
  {
   "property": "C163",
   "status": "partial",
   "theorems": [
    "Cards.Props.C163_updated_partial",
    "Cards.Props.C163_absent",
    "Cards.Props.C163_nothing",
    "Cards.Props.C163_two_versions_counterexample"
   ],
   "note": "C163_updated_partial for packages of different names; C163_absent. Where the code breaks it: C163_two_versions_counterexample (two versions of a package in the directory share a footprint)."
  },
  {
   "property": "C164",
   "status": "partial",
   "theorems": [
    "Cards.Props.C164_frame",
    "Cards.Props.C164_only_work_partial",
    "Cards.Props.C164_port_renamed_counterexample"
   ],
   "note": "C164_only_work_partial and C164_frame hold for ports without a git source (or with PKGMK_IGNORE_UNPACK=yes). Where the code breaks it: C164_port_renamed_counterexample (a failed git clone leaves an empty archive; unpacking it packs the port over the archive of the sources and renames the directory of the port, and counts as a success)."
  },
  {
   "property": "C165",
   "status": "partial",
   "theorems": [
    "Cards.Props.C165_text",
    "Cards.Props.C165_exact_partial",
    "Cards.Props.C165_there",
    "Cards.Props.C165_behind_git",
    "Cards.Props.C165_behind_git_counterexample"
   ],
   "note": "C165_exact_partial and C165_there for ports without a git source; C165_there speaks of the last source. Where the code breaks it: C165_behind_git (for every port: a file of the port listed behind a git source is never found) and C165_behind_git_counterexample."
  },
  {
   "property": "C166",
   "status": "proved",
   "theorems": [
    "Cards.Props.C166_lock"
   ],
   "note": "C166_lock"
  },
  {
   "property": "C167",
   "status": "proved",
   "theorems": [
    "Cards.Props.C167_protected"
   ],
   "note": "C167_protected"
  },
  {
   "property": "C168",
   "status": "proved",
   "theorems": [
    "Cards.Props.C168_undone"
   ],
   "note": "C168_undone"
  },
  {
   "property": "C169",
   "status": "proved",
   "theorems": [
    "Cards.Props.C169_install_rules"
   ],
   "note": "C169_install_rules"
  },
  {
   "property": "C170",
   "status": "proved",
   "theorems": [
    "Cards.Props.C170_levels"
   ],
   "note": "C170_levels"
  },
  {
   "property": "C171",
   "status": "proved",
   "theorems": [
    "Cards.Props.C171_hex"
   ],
   "note": "C171_hex"
  },
  {
   "property": "C172",
   "status": "proved",
   "theorems": [
    "Cards.Props.C172_remove_file"
   ],
   "note": "C172_remove_file"
  },
  {
   "property": "C173",
   "status": "proved",
   "theorems": [
    "Cards.Props.C173_listed"
   ],
   "note": "C173_listed"
  },
  {
   "property": "C174",
   "status": "proved",
   "theorems": [
    "Cards.Props.C174_report"
   ],
   "note": "C174_report"
  },
  {
   "property": "C175",
   "status": "proved",
   "theorems": [
    "Cards.Props.C175_names"
   ],
   "note": "C175_names"
  },
  {
   "property": "C176",
   "status": "proved",
   "theorems": [
    "Cards.Props.C176_pages"
   ],
   "note": "C176_pages"
  },
  {
   "property": "C177",
   "status": "proved",
   "theorems": [
    "Cards.Props.C177_packages"
   ],
   "note": "C177_packages"
  },
  {
   "property": "C178",
   "status": "proved",
   "theorems": [
    "Cards.Props.C178_sync"
   ],
   "note": "C178_sync"
  },
  {
   "property": "C179",
   "status": "proved",
   "theorems": [
    "Cards.Props.C179_again"
   ],
   "note": "C179_again"
  },
  {
   "property": "C180",
   "status": "proved",
   "theorems": [
    "Cards.Props.C180_started"
   ],
   "note": "C180_started"
  },
  {
   "property": "C181",
   "status": "proved",
   "theorems": [
    "Cards.Props.C181_marks"
   ],
   "note": "C181_marks"
  },
  {
   "property": "C182",
   "status": "proved",
   "theorems": [
    "Cards.Props.C182_listed",
    "Cards.Props.C182_own"
   ],
   "note": "C182_listed, C182_own (all cases: the name without -extra is in the list or not)."
  },
  {
   "property": "C183",
   "status": "partial",
   "theorems": [
    "Cards.Props.C183_version_partial",
    "Cards.Props.C183_set_partial",
    "Cards.Props.C183_port_partial",
    "Cards.Props.C183_two_collections_counterexample",
    "Cards.Props.C183_name_of_set_counterexample",
    "Cards.Props.C183_quoted_counterexample"
   ],
   "note": "Proved: exactly the ports of the first collection that has any (C183_version_partial, C183_set_partial), and the port when its name is neither a version nor a set (C183_port_partial). False: ports in a second collection (C183_two_collections_counterexample), a port with the name of a set (C183_name_of_set_counterexample), a quoted name (C183_quoted_counterexample)."
  },
  {
   "property": "C184",
   "status": "partial",
   "theorems": [
    "Cards.Props.C184_refused",
    "Cards.Props.C184_read_partial",
    "Cards.Props.C184_newline_counterexample",
    "Cards.Props.C184_version_counterexample"
   ],
   "note": "C184_refused, C184_read_partial (texts of one line, plain version). False: a description of two lines (C184_newline_counterexample), a version with # (C184_version_counterexample)."
  },
  {
   "property": "C185",
   "status": "partial",
   "theorems": [
    "Cards.Props.C185_commit",
    "Cards.Props.C185_port_partial",
    "Cards.Props.C185_staged_counterexample",
    "Cards.Props.C185_status_counterexample"
   ],
   "note": "C185_commit (exact), C185_port_partial (nothing else staged). False: staged files are committed too (C185_staged_counterexample), the status is always success (C185_status_counterexample)."
  },
  {
   "property": "C186",
   "status": "partial",
   "theorems": [
    "Cards.Props.C186_conserved",
    "Cards.Props.C186_sections_partial",
    "Cards.Props.C186_prefix_counterexample",
    "Cards.Props.C186_capitals_counterexample"
   ],
   "note": "C186_conserved (every file and order), C186_sections_partial (no name begins with another, ports of different names). False: a name that begins with another (C186_prefix_counterexample), names that differ in capitals (C186_capitals_counterexample)."
  },
  {
   "property": "C187",
   "status": "partial",
   "theorems": [
    "Cards.Props.C187_as_before_partial",
    "Cards.Props.C187_kept",
    "Cards.Props.C187_present_partial",
    "Cards.Props.C187_date_counterexample",
    "Cards.Props.C187_missing_counterexample"
   ],
   "note": "Proved: the machine is as before (C187_as_before_partial), what was there stays (C187_kept), and the packages that are in the collections are there (C187_present_partial). False: a package installed with the build date 0 is removed (C187_date_counterexample); a package no collection has is silently missing (C187_missing_counterexample). Not modelled: a build that is interrupted removes nothing."
  },
  {
   "property": "C188",
   "status": "proved",
   "theorems": [
    "Cards.Props.C188_base_first",
    "Cards.Props.C188_own",
    "Cards.Props.C188_below",
    "Cards.Props.C188_all_below"
   ],
   "note": "C188_base_first, C188_own, C188_below, C188_all_below."
  },
  {
   "property": "C189",
   "status": "partial",
   "theorems": [
    "Cards.Props.C189_exact_partial",
    "Cards.Props.C189_glued_counterexample",
    "Cards.Props.C189_lines_counterexample"
   ],
   "note": "Proved for files with one line of categories, each followed by a semicolon, and without white space (C189_exact_partial). False: a file without the last semicolon glues two categories (C189_glued_counterexample); two lines in a file lose all (C189_lines_counterexample)."
  },
  {
   "property": "C190",
   "status": "partial",
   "theorems": [
    "Cards.Props.C190_exact_partial",
    "Cards.Props.C190_named_partial",
    "Cards.Props.C190_part_counterexample",
    "Cards.Props.C190_empty_line",
    "Cards.Props.C190_blank_counterexample",
    "Cards.Props.C190_backslash_counterexample"
   ],
   "note": "Proved, for names that read does not change: exactly the files of the three kinds with no pattern of .nostrip in them (C190_exact_partial, C190_named_partial); an empty line in .nostrip leaves all (C190_empty_line). False: a pattern that is a part of another name (C190_part_counterexample), a blank at the end (C190_blank_counterexample), a backslash (C190_backslash_counterexample: a file of .nostrip is stripped)."
  },
  {
   "property": "C191",
   "status": "proved",
   "theorems": [
    "Cards.Props.C191_go_iff",
    "Cards.Props.C191_stop"
   ],
   "note": "C191_go_iff, C191_stop."
  },
  {
   "property": "C192",
   "status": "proved",
   "theorems": [
    "Cards.Props.C192_known",
    "Cards.Props.C192_all_run",
    "Cards.Props.C192_succeeds",
    "Cards.Props.C192_below",
    "Cards.Props.C192_installs"
   ],
   "note": "C192_known, C192_all_run, C192_succeeds, C192_below, C192_installs. The pipe find | xargs of pip3 is one command."
  },
  {
   "property": "C193",
   "status": "partial",
   "theorems": [
    "Cards.Props.C193_options_partial",
    "Cards.Props.C193_unknown",
    "Cards.Props.C193_no_word",
    "Cards.Props.C193_empty_counterexample",
    "Cards.Props.C193_swallowed_counterexample"
   ],
   "note": "Proved for words without blanks (C193_options_partial, C193_unknown, C193_no_word). False: what follows an empty word is not looked at, not even a wrong option (C193_empty_counterexample); an option without its word takes the next option for it (C193_swallowed_counterexample)."
  },
  {
   "property": "C194",
   "status": "partial",
   "theorems": [
    "Cards.Props.C194_accepted_partial",
    "Cards.Props.C194_names",
    "Cards.Props.C194_all",
    "Cards.Props.C194_options",
    "Cards.Props.C194_unknown",
    "Cards.Props.C194_part_counterexample"
   ],
   "note": "Proved: names are accepted and gone through (C194_names, C194_all), unknown options refused (C194_unknown), and exactly which words are accepted (C194_accepted_partial). False: a part of the text of all names is accepted as well (C194_part_counterexample)."
  },
  {
   "property": "C195",
   "status": "proved",
   "theorems": [
    "Cards.Props.C195_ends"
   ],
   "note": "C195_ends"
  },
  {
   "property": "C196",
   "status": "proved",
   "theorems": [
    "Cards.Props.C196_clean"
   ],
   "note": "C196_clean"
  },
  {
   "property": "C197",
   "status": "proved",
   "theorems": [
    "Cards.Props.C197_rows"
   ],
   "note": "C197_rows"
  },
  {
   "property": "C198",
   "status": "proved",
   "theorems": [
    "Cards.Props.C198_read_back"
   ],
   "note": "C198_read_back"
  },
  {
   "property": "C199",
   "status": "proved",
   "theorems": [
    "Cards.Props.C199_local"
   ],
   "note": "C199_local"
  },
  {
   "property": "C200",
   "status": "proved",
   "theorems": [
    "Cards.Props.C200_parameters"
   ],
   "note": "C200_parameters"
  },
  {
   "property": "C201",
   "status": "proved",
   "theorems": [
    "Cards.Props.C201_go_closed"
   ],
   "note": "C201_go_closed"
  },
  {
   "property": "C202",
   "status": "proved",
   "theorems": [
    "Cards.Props.C202_whole",
    "Cards.Props.C202_otherwise"
   ],
   "note": "C202_whole, C202_otherwise"
  },
  {
   "property": "C203",
   "status": "proved",
   "theorems": [
    "Cards.Props.C203_numbers",
    "Cards.Props.C203_missing",
    "Cards.Props.C203_compared",
    "Cards.Props.C203_twice_counterexample"
   ],
   "note": "C203_numbers, C203_missing, C203_compared; a collection named twice is counted twice (C203_twice_counterexample)."
  },
  {
   "property": "C204",
   "status": "partial",
   "theorems": [
    "Cards.Props.C204_entry",
    "Cards.Props.C204_table_partial",
    "Cards.Props.C204_message",
    "Cards.Props.C204_lost_counterexample",
    "Cards.Props.C204_half_counterexample"
   ],
   "note": "Proved when both parts come (C204_entry, C204_table_partial), and when it is called updated (C204_message). The old table is deleted first, so that a failed update leaves none (C204_lost_counterexample), and one part is enough to be called updated (C204_half_counterexample)."
  },
  {
   "property": "C205",
   "status": "proved",
   "theorems": [
    "Cards.Props.C205_nothing_overwritten",
    "Cards.Props.C205_landed",
    "Cards.Props.C205_link_in_archive"
   ],
   "note": "C205_nothing_overwritten, C205_landed (no two entries at the same place). Without the condition it is false: an archive with a link and an entry below it overwrites a file of another package without a conflict (C205_link_in_archive)."
  },
  {
   "property": "C206",
   "status": "proved",
   "theorems": [
    "Cards.Props.C206_add",
    "Cards.Props.C206_all_there",
    "Cards.Props.C206_remove",
    "Cards.Props.C206_upgrade",
    "Cards.Props.C206_history",
    "Cards.Props.C206_missing_file"
   ],
   "note": "C206_history, C206_add, C206_remove, C206_all_there. When a recorded file is missing, a second package can bring it under another name, and removing the first deletes it (C206_missing_file)."
  },
  {
   "property": "C207",
   "status": "partial",
   "theorems": [
    "Cards.Props.C207_only_own",
    "Cards.Props.C207_others_stay",
    "Cards.Props.C207_names_gone",
    "Cards.Props.C207_link_removed"
   ],
   "note": "C207_only_own; C207_others_stay (when no place has two owners, C206). The names fail: when the package that owns a link is removed, the files of other packages recorded through it are no longer there under their names, and removing those packages leaves them behind (C207_link_removed)."
  },
  {
   "property": "C208",
   "status": "partial",
   "theorems": [
    "Cards.Props.C208_add_inside_partial",
    "Cards.Props.C208_rm_inside_partial",
    "Cards.Props.C208_absolute_link"
   ],
   "note": "Proved when the links below the root, and those of the archive, are relative and without .. (C208_add_inside_partial, C208_rm_inside_partial). An absolute link, as var/run -> /run, leads out: the file is written to, and deleted from, the machine itself (C208_absolute_link)."
  },
  {
   "property": "C209",
   "status": "partial",
   "theorems": [
    "Cards.Props.C209_as_remove_and_add",
    "Cards.Props.C209_others_stay",
    "Cards.Props.C209_landed",
    "Cards.Props.C209_nothing_else",
    "Cards.Props.C209_own_file_conflict",
    "Cards.Props.C209_moved_link"
   ],
   "note": "C209_as_remove_and_add, C209_others_stay, C209_landed, C209_nothing_else, C207_names_gone. The names of others fail when a link of the package moves (C209_moved_link); and an upgrade whose new version names a file through a link differently is refused for the package's own file (C209_own_file_conflict)."
  },
  {
   "property": "C210",
   "status": "proved",
   "theorems": [
    "Cards.Props.C210_exact",
    "Cards.Props.C210_from_start",
    "Cards.Props.C210_bounded",
    "Cards.Props.C210_not_subscribed",
    "Cards.Props.C210_leave",
    "Cards.Props.C210_once",
    "Cards.Props.C210_line"
   ],
   "note": "C210_exact refines the logger to an independent specification (delivered); C210_from_start, C210_bounded, C210_once, C210_not_subscribed, C210_leave, C210_line. The mutex makes each queue operation atomic in the model."
  },
  {
   "property": "C211",
   "status": "partial",
   "theorems": [
    "Cards.Props.C211_complete_partial",
    "Cards.Props.C211_lost_counterexample",
    "Cards.Props.C211_order_counterexample",
    "Cards.Props.C211_shipped_counterexample"
   ],
   "note": "C211_complete_partial: for a window that subscribes and loops, with at most fifty worker lines between two turns, nothing is lost and each of the two kinds keeps its order. Broken: C211_lost_counterexample (the 51st line), C211_order_counterexample (the window's line overtakes), C211_shipped_counterexample (flcards as shipped has the subscription and the loop commented out: nothing is ever shown)."
  },
  {
   "property": "C212",
   "status": "partial",
   "theorems": [
    "Cards.Props.C212_all_partial",
    "Cards.Props.C212_subscribed",
    "Cards.Props.C212_course",
    "Cards.Props.C212_grow_counterexample",
    "Cards.Props.C212_deleted_counterexample",
    "Cards.Props.C212_forgotten_counterexample"
   ],
   "note": "C212_all_partial: true when no handler is deleted during a loop and none makes the vector grow during one; C212_course: the ordinary course of a box; C212_subscribed: the vector is the list of the history. Broken: C212_grow_counterexample (Sync pressed while the first list is announced: the worker reads the freed buffer), C212_deleted_counterexample (the second thread of a synchronisation calls the deleted box), C212_forgotten_counterexample."
  },
  {
   "property": "C213",
   "status": "proved",
   "theorems": [
    "Cards.Props.C213_remove"
   ],
   "note": "C213_remove, from C16. The flag the code never initialises is an oracle read as false here (C16_uninitialised_flag otherwise); with groups see C16."
  },
  {
   "property": "C214",
   "status": "proved",
   "theorems": [
    "Cards.Props.C214_resolution"
   ],
   "note": "C214_resolution, from C22 (InOrder: every listed dependency under its full name, archives as listed)."
  },
  {
   "property": "C215",
   "status": "proved",
   "theorems": [
    "Cards.Props.C215_conserved"
   ],
   "note": "C215_conserved, from C186."
  },
  {
   "property": "C216",
   "status": "proved",
   "theorems": [
    "Cards.Props.C216_other_lines"
   ],
   "note": "C216_other_lines, from C118."
  },
  {
   "property": "C217",
   "status": "proved",
   "theorems": [
    "Cards.Props.C217_kept"
   ],
   "note": "C217_kept, from C187."
  },
  {
   "property": "C218",
   "status": "proved",
   "theorems": [
    "Cards.Props.C218_remove_links"
   ],
   "note": "C218_remove_links, from C207."
  },
  {
   "property": "C219",
   "status": "proved",
   "theorems": [
    "Cards.Props.C219_options"
   ],
   "note": "C219_options, from C194."
  },
  {
   "property": "C220",
   "status": "proved",
   "theorems": [
    "Cards.Props.C220_read",
    "Cards.Props.C220_kept",
    "Cards.Props.C220_protected",
    "Cards.Props.C220_untouched",
    "Cards.Props.C220_overwritten"
   ],
   "note": "C220_read (the shipped text is read as these rules), C220_kept (exact set of names), C220_untouched (the effect on the disk, through C06). C220_overwritten shows what the expressions ^etc/ssl and ^etc/rc take besides: etc/sslh.cfg, etc/rcfoo.conf."
  },
  {
   "property": "C221",
   "status": "partial",
   "theorems": [
    "Cards.Props.C221_left_out",
    "Cards.Props.C221_recorded",
    "Cards.Props.C221_counterexample"
   ],
   "note": "C221_left_out: the exact set of names left out; C221_recorded: after a success a package owns exactly the files of its list outside this set. Not only the indexes: C221_counterexample (^usr/share/info/dir without $: usr/share/info/dired-x.info of emacs is never installed)."
  },
  {
   "property": "C222",
   "status": "proved",
   "theorems": [
    "Cards.Props.C222_exact",
    "Cards.Props.C222_ldconfig",
    "Cards.Props.C222_icons"
   ],
   "note": "C222_exact, C222_ldconfig, C222_icons. That an unmatched file starts the first trigger (C43_spurious_counterexample) means, with this file, only an unneeded ldconfig."
  },
  {
   "property": "C223",
   "status": "partial",
   "theorems": [
    "Cards.Props.C223_early_partial",
    "Cards.Props.C223_late",
    "Cards.Props.C223_done",
    "Cards.Props.C223_counterexample",
    "Cards.Props.C223_counterexample_begun",
    "Cards.Props.C223_counterexample_force"
   ],
   "note": "C223_early_partial: true for every moment before the main package is begun, when the reason of the build is a new version or release or a changed Pkgfile; C223_done: a build that was not killed has finished all packages and is not repeated; C223_late: from the moment the old packages are gone, the next run builds exactly if the main package is not there, in whatever state the packages are. Missing, because the code fails: killed after or while the main package is packed, packages without .META or half written are taken for up to date and published (C223_counterexample, C223_counterexample_begun); a forced build killed while old packages are removed loses sub-packages unnoticed (C223_counterexample_force)."
  },
  {
   "property": "C224",
   "status": "partial",
   "theorems": [
    "Cards.Props.C224_repeat",
    "Cards.Props.C224_read_partial",
    "Cards.Props.C224_counterexample_other"
   ],
   "note": "C224_repeat: the next update of the port repairs both files, whatever the packages are then; C224_read_partial: what cards reads of a killed .REPO when it is the last collection. Missing: collections read after it (the variable of the record goes on to the next collection, C26); and, because the code fails, another port updated in between: its record is deleted with the unfinished one (C224_counterexample_other)."
  },
  {
   "property": "C225",
   "status": "proved",
   "theorems": [
    "Cards.Props.C225_kept",
    "Cards.Props.C225_only_asked",
    "Cards.Props.C225_stays",
    "Cards.Props.C225_status",
    "Cards.Props.C225_example"
   ],
   "note": "C225_kept, C225_only_asked, C225_stays, C225_status. (That the packages of PKGMK_DEPENDS stay after an interruption is what is missing from C187.)"
  },
  {
   "property": "C226",
   "status": "partial",
   "theorems": [
    "Cards.Props.C226_others_kept",
    "Cards.Props.C226_one_after_the_other_partial",
    "Cards.Props.C226_counterexample_lost",
    "Cards.Props.C226_counterexample_mixed"
   ],
   "note": "C226_others_kept: for any number of runs and any schedule, at every moment the records of ports that are not being built are there, whole and in order; C226_one_after_the_other_partial: updates that do not overlap leave the same records in either order, with those of both ports; race_alone ties the steps to the function of C94. Missing, because the code fails (there is no lock): the records of a run that comes between the reading and the renaming of sed -i are lost (C226_counterexample_lost); lines that come between each other give a package the file of another (C226_counterexample_mixed)."
  },
  {
   "property": "C227",
   "status": "proved",
   "theorems": [
    "Cards.Props.C227_packages_open",
    "Cards.Props.C227_file_installed",
    "Cards.Props.C227_description_names"
   ],
   "note": "C227_packages_open, C227_file_installed: the models of the two sides put together (splitPackages, finishAll, openPack, pkgadd). That the description names the package is a hypothesis, met by what pkgmk writes (C227_description_names, from C96)."
  },
  {
   "property": "C228",
   "status": "proved",
   "theorems": [
    "Cards.Props.C228_no_common_file",
    "Cards.Props.C228_not_in_the_way"
   ],
   "note": "C228_no_common_file, C228_not_in_the_way (the first package installed without --force by scripts that do nothing; conflicts in the sense of C02)."
  },
  {
   "property": "C229",
   "status": "partial",
   "theorems": [
    "Cards.Props.C229_main_undone_partial",
    "Cards.Props.C229_files_gone_partial",
    "Cards.Props.C229_subpackage_counterexample"
   ],
   "note": "C229_main_undone_partial: the full statement for the main package of a port (the one that keeps every directory above its files listed), on a system where what is recorded is there. C229_files_gone_partial: for every package of the port, the removal succeeds, the database is as before and no regular file of it is left where nothing was. The statement is false for sub-packages: C229_subpackage_counterexample (the archive of tool.devel has no entry for usr/ in its file list, so the directory usr made by extracting it is left behind). The reverse is not lost: nothing of others is removed (C79)."
  },
  {
   "property": "C230",
   "status": "proved",
   "theorems": [
    "Cards.Props.C230_asked_first",
    "Cards.Props.C230_only_asked",
    "Cards.Props.C230_as_on_the_server"
   ],
   "note": "C230_asked_first, C230_only_asked, C230_as_on_the_server."
  },
  {
   "property": "C231",
   "status": "partial",
   "theorems": [
    "Cards.Props.C231_nothing_lost_partial",
    "Cards.Props.C231_binaries_lost_counterexample"
   ],
   "note": "C231_nothing_lost_partial: the first half for a whole collection (and nothing is changed when the server is not reached). False for one port: its binaries are deleted before the server is asked for them, and the status is 0 whatever happens: C231_binaries_lost_counterexample."
  },
  {
   "property": "C232",
   "status": "proved",
   "theorems": [
    "Cards.Props.C232_old_build_gone"
   ],
   "note": "C232_old_build_gone: the first installation is one onto a system without the package, without --force and by scripts that do nothing; the scripts of the new package do not make the file again. That the files of the new build are on the disk after the upgrade is C227_file_installed (for any system and options)."
  },
  {
   "property": "C233",
   "status": "partial",
   "theorems": [
    "Cards.Props.C233_files_stay_partial",
    "Cards.Props.C233_directory_counterexample"
   ],
   "note": "C233_files_stay_partial: for the files (content, permissions), installing and removing, in full. False for directories: add_meta_to_archive unpacks an archive that has only the files of the group, so the directories above them are made new with 0755 and are put in the archive; pkgadd (ARCHIVE_EXTRACT_PERM) gives the directory that is there these permissions: C233_directory_counterexample (opt/app 0700 becomes 0755 when tool.devel is installed)."
  },
  {
   "property": "C234",
   "status": "proved",
   "theorems": [
    "Cards.Props.C234_all_installed",
    "Cards.Props.C234_nothing_else"
   ],
   "note": "C234_all_installed (extraction does not fail at the place, no directory was in the place, not below /var/lib/pkg/rejected), C234_nothing_else. InstallsAll says what is assumed of the sequence: each step is a FreshInstall (no --force, success, scripts that do nothing). The package file names of the build differ (C95/C138)."
  },
  {
   "property": "C235",
   "status": "proved",
   "theorems": [
    "Cards.Props.C235_all_removed"
   ],
   "note": "C235_all_removed (same assumptions on the installations as C234; that directories can stay behind is C229_subpackage_counterexample)."
  },
  {
   "property": "C236",
   "status": "proved",
   "theorems": [
    "Cards.Props.C236_moved_files"
   ],
   "note": "C236_moved_files. The example beside it shows the other order: installing the receiving package before the losing one is upgraded is refused as a conflict."
  },
  {
   "property": "C237",
   "status": "proved",
   "theorems": [
    "Cards.Props.C237_all_upgraded"
   ],
   "note": "C237_all_upgraded. Assumed of the system before: the place of the file is recorded by at most one package, under its plain name, and is no directory; of the port: its packages have different names, none of them empty."
  },
  {
   "property": "C238",
   "status": "proved",
   "theorems": [
    "Cards.Props.C238_rest_gone"
   ],
   "note": "C238_rest_gone. Rejected files apart; directories may stay (C53, C229). The step of the package must then be an upgrade: an installation would be refused."
  },
  {
   "property": "C239",
   "status": "proved",
   "theorems": [
    "Cards.Props.C239_nothing_else"
   ],
   "note": "C239_nothing_else; extracted_src_keep is the extraction loop with a keep list. With C237 and C238: after a whole upgrade the disk holds the new build and what was never the port's."
  },
  {
   "property": "C240",
   "status": "proved",
   "theorems": [
    "Cards.Props.C240_others_untouched",
    "Cards.Props.C240_order_immaterial"
   ],
   "note": "C240_order_immaterial, C240_others_untouched. That one order succeeds does not mean that another does: see the example of C236. Directories: C233_directory_counterexample shows permissions that depend on the order."
  },
  {
   "property": "C241",
   "status": "proved",
   "theorems": [
    "Cards.Props.C241_others_recorded",
    "Cards.Props.C241_recorded"
   ],
   "note": "C241_recorded, C241_others_recorded. The packages of the port have different names, none of them empty."
  }
 ]
}