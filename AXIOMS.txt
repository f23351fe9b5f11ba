C01_install_installed_refused: propext, Classical.choice, Quot.sound
C01_upgrade_missing_refused: propext, Classical.choice, Quot.sound
C01_upgrade_missing_fails: propext, Classical.choice, Quot.sound
C01_alias_upgrade_counterexample: propext, Classical.choice, Quot.sound
C02_conflict_refused_partial: propext, Classical.choice, Quot.sound
C02_script_effect_counterexample: propext, Classical.choice, Quot.sound
C02_conflict_only_if: propext, Classical.choice, Quot.sound
C03_unique_owner_flcards: propext, Classical.choice, Quot.sound
C03_unique_owner_history: propext, Classical.choice, Quot.sound
C03_unique_owner_life: propext, Classical.choice, Quot.sound
C03_unique_owner_cards_install: propext, Classical.choice, Quot.sound
C03_unique_owner_all_commands: propext, Classical.choice, Quot.sound
C03_unique_owner: propext, Classical.choice, Quot.sound
C03_unique_owner_from_empty: propext, Classical.choice, Quot.sound
C03_unique_owner_cards_upgrade: propext, Classical.choice, Quot.sound
C04_unlisted_untouched: propext, Classical.choice, Quot.sound
C04_shared_untouched: propext, Classical.choice, Quot.sound
C04_shared_file_untouched: propext, Classical.choice, Quot.sound
C04_other_records_unchanged: propext, Classical.choice, Quot.sound
C04_spelling_counterexample: propext, Classical.choice, Quot.sound
C05_not_installed: propext, Classical.choice, Quot.sound
C05_files_gone: propext, Classical.choice, Quot.sound
C05_dirs_gone: propext, Classical.choice, Quot.sound
C06_protected_untouched: propext, Classical.choice, Quot.sound
C06_new_version_rejected: propext, Classical.choice, Quot.sound
C06_rejected_place: propext, Classical.choice, Quot.sound
C06_directory_rejected: propext, Classical.choice, Quot.sound
C06_directory_dropped_counterexample: propext, Classical.choice, Quot.sound
C06_empty_dropped_counterexample: propext, Classical.choice, Quot.sound
C06_dropped_file_deleted_counterexample: propext, Classical.choice, Quot.sound
C07_recorded_iff_not_excluded: propext, Classical.choice, Quot.sound
C07_excluded_untouched: propext, Classical.choice, Quot.sound
C07_unlisted_entry_counterexample: propext, Classical.choice, Quot.sound
C08_twice_counterexample: propext, Classical.choice, Quot.sound
C08_recorded_on_disk: propext, Classical.choice, Quot.sound
C08_record_exact: propext, Classical.choice, Quot.sound
C08_failed_extraction_counterexample: propext, Classical.choice, Quot.sound
C09_forced_takeover: propext, Classical.choice, Quot.sound
C10_upgrade_keeps_mark: propext, Classical.choice, Quot.sound
C10_mark_survives_upgrades: propext, Classical.choice, Quot.sound
C10_fresh_install_mark: propext, Classical.choice, Quot.sound
C11_kill_atomic: propext, Quot.sound
C11_power_loss_atomic: propext, Quot.sound
C11_complete: propext, Quot.sound
C11_sets: propext, Classical.choice, Quot.sound
C11_history: propext, Quot.sound
C12_reader_exact: propext, Classical.choice, Quot.sound
C12_roundtrip: propext, Classical.choice, Quot.sound
C12_newline_counterexample: propext, Classical.choice, Quot.sound
C13_roundtrip: propext, Quot.sound
C13_injective: propext, Quot.sound
C13_short_epoch_counterexample: propext, Classical.choice, Quot.sound
C14_rm_locked: propext
C14_add_locked: propext, Classical.choice, Quot.sound
C14_mutual_exclusion: propext, Quot.sound
C14_locked_out: propext, Quot.sound
C14_released: propext, Quot.sound
C14_available_after_crash: propext, Quot.sound
C14_only_holder_writes: propext, Classical.choice, Quot.sound
C14_section_undisturbed: propext, Classical.choice, Quot.sound
C14_create_base_unlocked: propext, Classical.choice, Quot.sound
C14_query_consistent: propext, Classical.choice, Quot.sound
C15_undisturbed_partial: propext
C15_pkgadd_partial: propext, Classical.choice, Quot.sound
C15_pkgrm_partial: propext
C15_stale_data_deletes: propext, Classical.choice, Quot.sound
C15_stale_data_conflict: propext, Classical.choice, Quot.sound
C16_purge_exact: propext, Classical.choice, Quot.sound
C16_terminates: propext, Classical.choice, Quot.sound
C16_purge_exact_no_groups: propext, Classical.choice, Quot.sound
C16_purge_succeeds: propext, Classical.choice, Quot.sound
C16_group_counterexample: propext, Classical.choice, Quot.sound
C16_uninitialised_flag: propext, Classical.choice, Quot.sound
C16_alias_counterexample: propext, Classical.choice, Quot.sound
C17_base_refused: propext, Classical.choice, Quot.sound
C17_dependency_refused: propext, Classical.choice, Quot.sound
C17_base_kept_partial: propext, Classical.choice, Quot.sound
C17_base_alias_counterexample: propext, Classical.choice, Quot.sound
C17_base_orphan_counterexample: propext, Classical.choice, Quot.sound
C17_collection_counterexample: propext, Classical.choice, Quot.sound
C18_list: propext, Classical.choice, Quot.sound
C18_printed_partial: propext, Classical.choice, Quot.sound
C18_printed_exact: propext, Classical.choice, Quot.sound
C18_cycle_counterexample: propext, Classical.choice, Quot.sound
C18_subpackage_counterexample: propext, Classical.choice, Quot.sound
C19_levels: propext, Classical.choice, Quot.sound
C19_build_order_partial: propext, Classical.choice, Quot.sound
C19_level_print: propext, Classical.choice, Quot.sound
C19_collection_order: propext, Classical.choice, Quot.sound
C19_second_call_counterexample: propext, Quot.sound
C19_dotted_name_counterexample: propext, Classical.choice, Quot.sound
C19_same_index_counterexample: propext, Classical.choice, Quot.sound
C20_deptree_partial: propext, Classical.choice, Quot.sound
C20_exact: propext, Classical.choice, Quot.sound
C20_self_counterexample: propext, Classical.choice, Quot.sound
C21_dependent: propext, Classical.choice, Quot.sound
C21_subpackage_counterexample: propext, Classical.choice, Quot.sound
C22_resolved_partial: propext, Classical.choice, Quot.sound
C22_terminates_iff: propext, Classical.choice, Quot.sound
C22_cycle_never_ends: propext, Classical.choice, Quot.sound
C22_missing: propext, Classical.choice, Quot.sound
C22_cycle_counterexample: propext, Classical.choice, Quot.sound
C22_short_name_counterexample: propext, Classical.choice, Quot.sound
C23_verified_partial: propext, Classical.choice, Quot.sound
C23_hash_partial: none
C23_no_global_url_counterexample: none
C23_other_name_counterexample: propext, Classical.choice, Quot.sound
C24_roundtrip: propext, Quot.sound
C24_capitals: propext
C24_encode_injective: propext, Quot.sound
C24_hash_compare: propext, Quot.sound
C24_even_in_bounds: propext, Quot.sound
C24_odd_out_of_bounds: propext, Quot.sound
C24_odd_counterexample: propext, Classical.choice, Quot.sound
C24_sign_counterexample: none
C25_uptodate: propext, Quot.sound
C25_dependency: propext, Quot.sound
C26_roundtrip_partial: propext, Classical.choice, Quot.sound
C26_bytes_partial: propext, Quot.sound
C26_leak_counterexample: propext, Classical.choice, Quot.sound
C26_short_name_counterexample: propext, Classical.choice, Quot.sound
C26_big_size_counterexample: propext, Quot.sound
C26_release_sign: propext, Classical.choice, Quot.sound
C26_size_sign: propext, Quot.sound
C27_set_members: propext, Classical.choice, Quot.sound
C27_collection_members: propext, Classical.choice, Quot.sound
C27_group_members: propext, Classical.choice, Quot.sound
C28_class: propext, Classical.choice, Quot.sound
C28_counts: propext, Classical.choice, Quot.sound
C29_selected: propext, Classical.choice, Quot.sound
C29_when: propext, Classical.choice, Quot.sound
C29_no_repository: propext, Classical.choice, Quot.sound
C29_check: propext, Classical.choice, Quot.sound
C29_installs_partial: propext, Classical.choice, Quot.sound
C29_check_counterexample: propext, Classical.choice, Quot.sound
C29_download_only_counterexample: propext, Quot.sound
C30_rules_exact: propext, Classical.choice, Quot.sound
C30_lines: propext, Quot.sound
C30_bad_rules_no_effect: propext, Classical.choice, Quot.sound
C31_install_decision: propext, Classical.choice, Quot.sound
C31_upgrade_decision: propext, Classical.choice, Quot.sound
C31_governing_rule: propext, Quot.sound
C31_other_events_irrelevant: none
C32_values: propext, Classical.choice, Quot.sound
C32_collections: propext, Classical.choice, Quot.sound
C32_depot_url: propext, Classical.choice, Quot.sound
C32_dir_entry: propext, Quot.sound
C32_dir_twice_counterexample: propext, Classical.choice, Quot.sound
C32_local_dir_gets_url: propext, Classical.choice, Quot.sound
C33_accepts_iff_partial: propext, Classical.choice, Quot.sound
C33_cards_accepts_iff: propext, Classical.choice, Quot.sound
C33_cards_help_iff: propext, Classical.choice, Quot.sound
C33_unknown_option_refused: propext, Classical.choice, Quot.sound
C33_command_as_value_counterexample: propext, Classical.choice, Quot.sound
C33_dropped_value_counterexample: propext, Classical.choice, Quot.sound
C33_foreign_option_counterexample: propext, Classical.choice, Quot.sound
C34_reads_exactly_partial: propext, Quot.sound
C34_exact_bounds: propext, Quot.sound
C34_unterminated_counterexample: propext, Quot.sound
C34_nul_counterexample: propext, Classical.choice, Quot.sound
C34_set_partial: propext, Classical.choice, Quot.sound
C35_trim_exact: propext, Classical.choice, Quot.sound
C35_no_double_slash: propext, Classical.choice, Quot.sound
C35_idempotent: propext, Classical.choice, Quot.sound
C35_same_components: propext, Classical.choice, Quot.sound
C36_below: propext, Classical.choice, Quot.sound
C36_file_removed: propext, Classical.choice, Quot.sound
C36_no_empty_parent: propext, Classical.choice, Quot.sound
C36_trailing_slash_counterexample: propext, Classical.choice, Quot.sound
C37_split_exact: propext, Quot.sound
C37_strtok_exact: propext, Classical.choice, Quot.sound
C37_strip_exact: propext, Classical.choice, Quot.sound
C37_replaceAll_none_left: propext, Quot.sound
C37_replaceAll_terminates_shorter: propext, Classical.choice, Quot.sound
C37_replaceAll_char: propext, Quot.sound
C37_replaceAll_diverges: propext, Quot.sound
C37_key_value: propext, Quot.sound
C37_splitKeyValue_none: propext
C37_splitKeyValue: propext, Classical.choice, Quot.sound
C37_upper: propext, Classical.choice, Quot.sound
C37_lower: propext, Classical.choice, Quot.sound
C37_upperString: propext, Classical.choice, Quot.sound
C37_lowerString: propext, Classical.choice, Quot.sound
C37_startsWithNoCase: propext, Quot.sound
C37_beforeLast: propext, Classical.choice, Quot.sound
C38_vector_partial: propext, Quot.sound
C38_capacity_zero_counterexample: propext, Quot.sound
C38_empty_value_counterexample: propext, Quot.sound
C38_wrap_counterexample: propext, Quot.sound
C38_string_assign_partial: propext, Quot.sound
C38_string_partial: propext, Quot.sound
C38_empty_assign_counterexample: propext, Classical.choice, Quot.sound
C38_fresh_read_counterexample: none
C38_cstr_allocates: propext
C38_reserve_counterexample: propext, Classical.choice, Quot.sound
C39_mode_string: propext, Classical.choice, Quot.sound
C39_only_these: propext, Quot.sound
C40_children_first: propext, Quot.sound
C40_visits_each_once: propext, Quot.sound
C41_exited_partial: propext, Classical.choice, Quot.sound
C41_reported_as_success: propext, Quot.sound
C41_signal_counterexample: none
C42_reported: propext, Classical.choice, Quot.sound
C42_resolves: propext, Classical.choice, Quot.sound
C42_process: propext, Classical.choice, Quot.sound
C42_resolves_partial: propext, Classical.choice, Quot.sound
C42_deleted_alias_counterexample: propext, Classical.choice, Quot.sound
C42_remove_counterexample: propext, Classical.choice, Quot.sound
C43_matched_partial: propext, Quot.sound
C43_list: propext, Quot.sound
C43_unmatched_partial: propext, Quot.sound
C43_spurious_counterexample: propext, Classical.choice, Quot.sound
C43_excluded_counterexample: propext, Classical.choice, Quot.sound
C43_nodup: propext, Quot.sound
C44_extract_partial: propext, Classical.choice, Quot.sound
C44_remove_partial: propext, Classical.choice, Quot.sound
C44_record_partial: propext, Classical.choice, Quot.sound
C44_dotdot_counterexample: propext, Classical.choice, Quot.sound
C44_name_counterexample: propext, Classical.choice, Quot.sound
C45_broken_forever: propext, Classical.choice, Quot.sound
C45_readable: propext
C45_others_intact: propext, Classical.choice, Quot.sound
C45_crash_partial: propext, Classical.choice, Quot.sound
C45_crash_counterexample: propext, Classical.choice, Quot.sound
C45_upgrade_lost_counterexample: propext, Classical.choice, Quot.sound
C46_clamped: propext, Quot.sound
C46_ultos_roundtrip: propext, Quot.sound
C46_ultos_overflow: propext, Quot.sound
C46_itos_partial: propext, Quot.sound
C46_itos_counterexample: propext, Quot.sound
C46_release_sign: propext, Quot.sound
C46_date_sign: propext, Quot.sound
C47_one_argument_partial: propext, Classical.choice, Quot.sound
C47_second_set_counterexample: propext, Classical.choice, Quot.sound
C47_empty_argument_counterexample: propext, Classical.choice, Quot.sound
C48_scan_partial: propext, Classical.choice, Quot.sound
C48_version: propext, Classical.choice, Quot.sound
C48_release: propext, Classical.choice, Quot.sound
C48_release_default: propext, Classical.choice, Quot.sound
C48_comment_counterexample: propext, Classical.choice, Quot.sound
C48_tab_counterexample: propext, Classical.choice, Quot.sound
C48_inner_comment_counterexample: propext, Classical.choice, Quot.sound
C48_open_array_counterexample: propext, Classical.choice, Quot.sound
C48_version_counterexample: propext, Classical.choice, Quot.sound
C48_unreadable_counterexample: propext, Classical.choice, Quot.sound
C49_download: propext, Classical.choice, Quot.sound
C49_removed_partial: propext, Classical.choice, Quot.sound
C49_obsolete_counterexample: propext, Classical.choice, Quot.sound
C50_installed: propext, Classical.choice, Quot.sound
C50_unknown_argument: propext, Classical.choice, Quot.sound
C50_resolution_error: propext, Classical.choice, Quot.sound
C50_packages: propext, Classical.choice, Quot.sound
C50_only_package_files: propext, Classical.choice, Quot.sound
C50_one_package: propext, Classical.choice, Quot.sound
C50_download_failure: propext
C51_marks: propext, Classical.choice, Quot.sound
C51_packages: propext, Classical.choice, Quot.sound
C51_one_package: propext, Classical.choice, Quot.sound
C51_argument_counterexample: propext, Classical.choice, Quot.sound
C51_by_hand_counterexample: propext, Classical.choice, Quot.sound
C51_twice_counterexample: propext, Classical.choice, Quot.sound
C51_upgrade_counterexample: propext, Classical.choice, Quot.sound
C52_done: propext, Classical.choice, Quot.sound
C52_nothing: propext, Classical.choice, Quot.sound
C52_packages: propext, Classical.choice, Quot.sound
C53_untouched: propext, Classical.choice, Quot.sound
C53_gone: propext, Classical.choice, Quot.sound
C54_installed: propext, Classical.choice, Quot.sound
C54_by_hand: propext, Classical.choice, Quot.sound
C54_number: propext, Classical.choice, Quot.sound
C54_files: propext, Classical.choice, Quot.sound
C54_files_partial: propext, Classical.choice, Quot.sound
C54_bad_pattern: none
C54_owner: propext, Classical.choice, Quot.sound
C54_build_partial: propext, Classical.choice, Quot.sound
C54_build_unknown: propext, Classical.choice, Quot.sound
C54_details_partial: propext, Classical.choice, Quot.sound
C54_alias_hides_counterexample: propext, Classical.choice, Quot.sound
C54_alias_junk_counterexample: propext, Classical.choice, Quot.sound
C55_files: propext, Classical.choice, Quot.sound
C55_query_partial: propext, Classical.choice, Quot.sound
C55_first_collection_counterexample: propext, Classical.choice, Quot.sound
C55_blank_line_counterexample: propext, Classical.choice, Quot.sound
C55_file_sets: propext, Classical.choice, Quot.sound
C56_names_partial: propext, Classical.choice, Quot.sound
C56_all_partial: propext, Classical.choice, Quot.sound
C56_capital_counterexample: propext, Classical.choice, Quot.sound
C56_previous_url_counterexample: propext, Classical.choice, Quot.sound
C56_names_exact: propext, Classical.choice, Quot.sound
C56_all_exact: propext, Classical.choice, Quot.sound
C57_binaries: propext, Classical.choice, Quot.sound
C57_sets: propext, Classical.choice, Quot.sound
C58_libraries_partial: propext, Classical.choice, Quot.sound
C58_other_files: propext
C58_truncated_counterexample: propext, Classical.choice, Quot.sound
C58_late_counterexample: propext, Classical.choice, Quot.sound
C58_other_table_counterexample: propext, Classical.choice, Quot.sound
C58_last_counterexample: propext, Classical.choice, Quot.sound
C58_32bit_counterexample: propext, Classical.choice, Quot.sound
C58_no_table_counterexample: propext, Classical.choice, Quot.sound
C58_name_at_end: propext, Quot.sound
C59_packages_partial: propext, Classical.choice, Quot.sound
C59_lines_partial: propext, Classical.choice, Quot.sound
C59_longer_counterexample: propext, Classical.choice, Quot.sound
C59_alias_counterexample: propext, Classical.choice, Quot.sound
C60_cleanup_any_root: propext, Classical.choice, Quot.sound
C60_recorded_partial: propext, Classical.choice, Quot.sound
C60_leftover_counterexample: propext, Classical.choice, Quot.sound
C60_root_counterexample: propext, Classical.choice, Quot.sound
C60_cleanup_root_counterexample: propext, Classical.choice, Quot.sound
C60_cleanup: propext, Classical.choice, Quot.sound
C60_mark_reads_back_partial: propext, Classical.choice, Quot.sound
C61_schedule_partial: propext, Classical.choice, Quot.sound
C61_query_counterexample: propext, Classical.choice, Quot.sound
C61_post_counterexample: propext, Classical.choice, Quot.sound
C62_root_partial: propext, Classical.choice, Quot.sound
C62_nested: propext, Classical.choice, Quot.sound
C62_upgrade_counterexample: propext, Classical.choice, Quot.sound
C62_create_counterexample: propext, Classical.choice, Quot.sound
C62_relative_counterexample: propext, Classical.choice, Quot.sound
C63_environment_partial: propext, Classical.choice, Quot.sound
C63_order_partial: propext, Classical.choice, Quot.sound
C63_counterexample_alias: propext, Classical.choice, Quot.sound
C63_counterexample_group: propext, Classical.choice, Quot.sound
C63_counterexample_runtime: propext, Classical.choice, Quot.sound
C63_core_partial: propext, Classical.choice, Quot.sound
C63_base_partial: propext, Classical.choice, Quot.sound
C63_group_files: propext, Quot.sound
C64_unique_owner: propext, Classical.choice, Quot.sound
C64_built_partial: propext, Classical.choice, Quot.sound
C64_counterexample_directory: propext, Classical.choice, Quot.sound
C64_counterexample_stale: propext, Classical.choice, Quot.sound
C65_obsolete: propext, Classical.choice, Quot.sound
C65_collection_partial: propext, Classical.choice, Quot.sound
C65_idle: propext, Classical.choice, Quot.sound
C65_counterexample_subpackages: propext, Classical.choice, Quot.sound
C66_dry_collection: propext, Classical.choice, Quot.sound
C66_dry_predicts_partial: propext, Classical.choice, Quot.sound
C66_counterexample_port: propext, Classical.choice, Quot.sound
C66_counterexample_unknown: propext, Classical.choice, Quot.sound
C67_records_nothing: propext, Classical.choice, Quot.sound
C67_no_post: propext, Classical.choice, Quot.sound
C67_counterexample_records: propext, Classical.choice, Quot.sound
C67_counterexample_lost: propext, Classical.choice, Quot.sound
C68_only_lists: propext, Classical.choice, Quot.sound
C68_only_root: propext, Classical.choice, Quot.sound
C68_synced_partial: propext, Classical.choice, Quot.sound
C68_succeeds: propext, Classical.choice, Quot.sound
C68_failure_reported: propext, Classical.choice, Quot.sound
C68_empty_counterexample: propext, Classical.choice, Quot.sound
C68_damaged_counterexample: propext, Classical.choice, Quot.sound
C69_torn_reads_counterexample: propext, Quot.sound
C69_torn_upgrade_counterexample: propext, Classical.choice, Quot.sound
C69_mixed_rejects_counterexample: propext, Classical.choice, Quot.sound
C69_failed_keeps_lists: propext, Classical.choice, Quot.sound
C69_stopped_partial: propext, Classical.choice, Quot.sound
C69_run_again_partial: propext, Classical.choice, Quot.sound
C69_mixed_counterexample: propext, Classical.choice, Quot.sound
C70_arrives_partial: propext, Classical.choice, Quot.sound
C70_roundtrip_partial: propext, Classical.choice, Quot.sound
C70_sync_read_partial: propext, Classical.choice, Quot.sound
C70_no_key: propext, Classical.choice, Quot.sound
C70_files_partial: propext, Classical.choice, Quot.sound
C70_fetched: propext, Classical.choice, Quot.sound
C71_purges_exactly: propext, Classical.choice, Quot.sound
C71_only_root: propext, Classical.choice, Quot.sound
C71_lists_stay: propext, Classical.choice, Quot.sound
C71_local_stays: propext, Classical.choice, Quot.sound
C71_local_counterexample: propext, Classical.choice, Quot.sound
C71_slash_counterexample: propext, Classical.choice, Quot.sound
C72_checked_partial: propext, Quot.sound
C72_wrong_noticed: propext, Quot.sound
C72_count_counterexample: propext
C73_opened_partial: propext, Classical.choice, Quot.sound
C73_missing: propext, Classical.choice, Quot.sound
C73_no_numbers: propext, Quot.sound
C73_meta_partial: propext, Classical.choice, Quot.sound
C73_archive_partial: propext, Classical.choice, Quot.sound
C73_before_after_partial: propext, Classical.choice, Quot.sound
C73_resolver_partial: propext, Classical.choice, Quot.sound
C73_files_partial: propext, Classical.choice, Quot.sound
C73_architecture: propext, Classical.choice, Quot.sound
C73_unterminated_counterexample: propext, Quot.sound
C73_empty_counterexample: propext, Classical.choice, Quot.sound
C73_release_counterexample: propext, Classical.choice, Quot.sound
C73_twice_counterexample: propext, Classical.choice, Quot.sound
C73_itself_counterexample: propext, Classical.choice, Quot.sound
C74_add_line: propext, Classical.choice, Quot.sound
C74_add_refused: propext, Classical.choice, Quot.sound
C74_add_runs: propext, Classical.choice, Quot.sound
C74_rm_line: propext, Classical.choice, Quot.sound
C74_rm_runs: propext, Classical.choice, Quot.sound
C74_rm_refused: propext, Classical.choice, Quot.sound
C74_rm_user_counterexample: propext, Classical.choice, Quot.sound
C74_info_line: propext, Classical.choice, Quot.sound
C74_info_accepts: propext, Classical.choice, Quot.sound
C74_info_one: propext, Classical.choice, Quot.sound
C74_junk_counterexample: propext, Classical.choice, Quot.sound
C74_shared_counterexample: propext, Classical.choice, Quot.sound
C74_help_counterexample: propext, Classical.choice, Quot.sound
C75_user: propext, Classical.choice, Quot.sound
C75_user_told: propext, Classical.choice, Quot.sound
C75_root_told: propext, Classical.choice, Quot.sound
C75_queries: propext, Classical.choice, Quot.sound
C75_root_runs: propext, Classical.choice, Quot.sound
C75_no_sync_counterexample: propext, Classical.choice, Quot.sound
C75_conf: propext, Classical.choice, Quot.sound
C75_conf_root_counterexample: propext, Classical.choice, Quot.sound
C76_ready_partial: propext, Classical.choice, Quot.sound
C76_up_to_date: propext, Classical.choice, Quot.sound
C76_never_counterexample: propext, Classical.choice, Quot.sound
C76_refused_counterexample: propext, Classical.choice, Quot.sound
C77_protected: propext, Classical.choice, Quot.sound
C77_elsewhere: propext, Classical.choice, Quot.sound
C77_others: propext, Classical.choice, Quot.sound
C77_records: propext, Classical.choice, Quot.sound
C77_rerun: propext, Classical.choice, Quot.sound
C77_final: propext, Classical.choice, Quot.sound
C77_upgrade_again_counterexample: propext, Classical.choice, Quot.sound
C77_unreadable_counterexample: propext, Classical.choice, Quot.sound
C77_rm_others: propext, Classical.choice, Quot.sound
C77_rm_rerun: propext, Classical.choice, Quot.sound
C78_report_exact_partial: propext, Classical.choice, Quot.sound
C78_names_first: propext, Classical.choice, Quot.sound
C78_no_false_alarm: propext, Classical.choice, Quot.sound
C78_run: propext, Classical.choice, Quot.sound
C78_grounded: propext, Classical.choice, Quot.sound
C78_grounded_plain: propext, Classical.choice, Quot.sound
C78_prefix_counterexample: propext, Classical.choice, Quot.sound
C78_dotlib_counterexample: propext, Classical.choice, Quot.sound
C78_empty_dotlib_counterexample: propext, Classical.choice, Quot.sound
C78_phantom_counterexample: propext, Classical.choice, Quot.sound
C78_lowest_only_counterexample: propext, Classical.choice, Quot.sound
C79_database: propext, Classical.choice, Quot.sound
C79_files_kept: propext, Classical.choice, Quot.sound
C79_nothing_left: propext, Classical.choice, Quot.sound
C79_dirs_kept: propext, Classical.choice, Quot.sound
C79_empty_dir_counterexample: propext, Classical.choice, Quot.sound
C79_permissions_counterexample: propext, Classical.choice, Quot.sound
C79_clash_counterexample: propext, Classical.choice, Quot.sound
C79_excluded_dir_counterexample: propext, Classical.choice, Quot.sound
C80_exact_partial: propext, Classical.choice, Quot.sound
C80_only_listed: propext, Classical.choice, Quot.sound
C80_refused_early: propext, Classical.choice, Quot.sound
C80_ldconfig_first: propext, Classical.choice, Quot.sound
C80_once_partial: propext, Classical.choice, Quot.sound
C80_twice_counterexample: propext, Classical.choice, Quot.sound
C80_blank_counterexample: propext, Classical.choice, Quot.sound
C80_refused_counterexample: propext, Classical.choice, Quot.sound
C81_reads_partial: propext, Classical.choice, Quot.sound
C81_one_line_each_partial: propext, Classical.choice, Quot.sound
C81_refused: propext, Classical.choice, Quot.sound
C81_missing_target: propext, Classical.choice, Quot.sound
C81_damaged_counterexample: propext, Classical.choice, Quot.sound
C81_name_counterexample: propext, Classical.choice, Quot.sound
C81_newline_counterexample: propext, Classical.choice, Quot.sound
C82_dependencies_there_partial: propext, Classical.choice, Quot.sound
C82_lost_counterexample: propext, Classical.choice, Quot.sound
C83_same_system: propext, Classical.choice, Quot.sound
C83_mark_counterexample: propext, Classical.choice, Quot.sound
C83_alias_counterexample: propext, Classical.choice, Quot.sound
C84_only_keys: propext, Classical.choice, Quot.sound
C84_refused: propext, Classical.choice, Quot.sound
C84_pair_partial: propext, Classical.choice, Quot.sound
C84_secret_partial: propext, Classical.choice, Quot.sound
C84_exposed_counterexample: propext, Classical.choice, Quot.sound
C84_old_key_counterexample: propext, Classical.choice, Quot.sound
C84_moments: propext, Classical.choice, Quot.sound
C84_full_disk_counterexample: propext, Classical.choice, Quot.sound
C85_up_to_date: propext, Classical.choice, Quot.sound
C85_outdated: propext, Classical.choice, Quot.sound
C85_names: propext, Classical.choice, Quot.sound
C85_totals: propext, Classical.choice, Quot.sound
C85_size: propext, Classical.choice, Quot.sound
C85_size_monotone: propext, Classical.choice, Quot.sound
C85_amounts: propext, Classical.choice, Quot.sound
C85_advice: propext, Classical.choice, Quot.sound
C85_percentage_partial: propext, Classical.choice, Quot.sound
C85_percentage_counterexample: propext, Classical.choice, Quot.sound
C85_space_counterexample: none
C85_space_partial: propext
C86_info_partial: propext, Classical.choice, Quot.sound
C86_leak_counterexample: propext, Classical.choice, Quot.sound
C86_big_size_counterexample: propext, Classical.choice, Quot.sound
C86_sets: propext, Classical.choice, Quot.sound
C87_markup_partial: propext, Classical.choice, Quot.sound
C87_script_counterexample: propext, Classical.choice, Quot.sound
C87_attribute_counterexample: propext, Classical.choice, Quot.sound
C88_value: propext, Classical.choice, Quot.sound
C88_default: propext, Classical.choice, Quot.sound
C88_counterexamples: propext, Classical.choice, Quot.sound
C88_exact: propext, Classical.choice, Quot.sound
C88_tells_one: propext, Classical.choice, Quot.sound
C89_packages_partial: propext, Classical.choice, Quot.sound
C89_exact: propext, Classical.choice, Quot.sound
C89_collection_partial: propext, Classical.choice, Quot.sound
C89_count: propext, Classical.choice, Quot.sound
C89_row: propext, Classical.choice, Quot.sound
C89_capital_counterexample: propext, Classical.choice, Quot.sound
C89_words_counterexample: propext, Classical.choice, Quot.sound
C90_list_partial: propext, Classical.choice, Quot.sound
C90_empty_counterexample: propext, Classical.choice, Quot.sound
C90_unterminated_counterexample: propext, Classical.choice, Quot.sound
C90_leak_counterexample: propext, Classical.choice, Quot.sound
C91_page_partial: propext, Classical.choice, Quot.sound
C91_plain: propext, Classical.choice, Quot.sound
C91_open_counterexample: propext, Classical.choice, Quot.sound
C91_lost_counterexample: propext, Classical.choice, Quot.sound
C91_request: propext, Classical.choice, Quot.sound
C91_missing: propext, Classical.choice, Quot.sound
C91_search: propext, Classical.choice, Quot.sound
C92_serial: propext, Quot.sound
C92_old_lines: propext, Quot.sound
C92_lost_counterexample: propext, Classical.choice, Quot.sound
C93_split_exact_partial: propext, Classical.choice, Quot.sound
C93_dest_total: propext, Classical.choice, Quot.sound
C93_nothing_else: propext, Classical.choice, Quot.sound
C93_never_twice: propext, Classical.choice, Quot.sound
C93_nothing_lost_partial: propext, Classical.choice, Quot.sound
C93_example_as: propext, Classical.choice, Quot.sound
C93_counterexample_pkgconfig: propext, Classical.choice, Quot.sound
C93_counterexample_dropped: propext, Classical.choice, Quot.sound
C94_update_exact_partial: propext, Classical.choice, Quot.sound
C94_in_step_partial: propext, Classical.choice, Quot.sound
C94_again_partial: propext, Classical.choice, Quot.sound
C94_counterexample_prefix: propext, Classical.choice, Quot.sound
C94_counterexample_unbuilt: propext, Classical.choice, Quot.sound
C94_counterexample_reader: propext, Classical.choice, Quot.sound
C95_accepted_iff: propext, Classical.choice, Quot.sound
C95_no_point: propext, Classical.choice, Quot.sound
C95_name_back: propext, Classical.choice, Quot.sound
C95_group_back: propext, Classical.choice, Quot.sound
C95_distinct: propext, Classical.choice, Quot.sound
C95_only_own_partial: propext, Classical.choice, Quot.sound
C95_counterexample_brackets: propext, Classical.choice, Quot.sound
C95_release_back_partial: propext, Quot.sound
C95_counterexample_release: propext, Classical.choice, Quot.sound
C95_counterexample_huge: propext, Classical.choice, Quot.sound
C96_meta_exact_partial: propext, Classical.choice, Quot.sound
C96_repository_ok_partial: propext, Classical.choice, Quot.sound
C96_read_back_partial: propext, Classical.choice, Quot.sound
C96_refused: propext, Classical.choice, Quot.sound
C96_counterexample_line: propext, Classical.choice, Quot.sound
C96_counterexample_devel: propext, Classical.choice, Quot.sound
C96_counterexample_alias: propext, Classical.choice, Quot.sound
C97_failure_seen: propext, Classical.choice, Quot.sound
C97_stops: propext, Classical.choice, Quot.sound
C97_in_order: propext, Classical.choice, Quot.sound
C97_kept: propext, Classical.choice, Quot.sound
C98_needed_iff: propext, Quot.sound
C98_rebuild_iff: propext, Classical.choice, Quot.sound
C98_example_compressed: propext, Classical.choice, Quot.sound
C98_example_group: propext, Classical.choice, Quot.sound
C99_pages_survive_partial: propext, Classical.choice, Quot.sound
C99_same_partial: propext, Classical.choice, Quot.sound
C99_counterexample_chain: propext, Classical.choice, Quot.sound
C99_counterexample_far: propext, Classical.choice, Quot.sound
C99_counterexample_self: propext, Classical.choice, Quot.sound
C100_exact: propext, Classical.choice, Quot.sound
C100_success_partial: propext, Classical.choice, Quot.sound
C100_counterexample_locale: propext
C100_counterexample_tar: propext
C100_counterexample_abort: propext
C100_counterexample_end: propext
C101_complete_partial: propext, Classical.choice, Quot.sound
C101_again_partial: propext, Classical.choice, Quot.sound
C101_all_there_partial: propext, Classical.choice, Quot.sound
C101_final_partial: propext, Classical.choice, Quot.sound
C101_name: propext, Classical.choice, Quot.sound
C101_no_name: propext, Classical.choice, Quot.sound
C101_counterexample_same: propext, Classical.choice, Quot.sound
C101_counterexample_git: propext, Classical.choice, Quot.sound
C101_counterexample_partial_name: propext, Classical.choice, Quot.sound
C102_in_order: propext, Classical.choice, Quot.sound
C102_all_or_nothing: propext, Classical.choice, Quot.sound
C102_complete: propext, Classical.choice, Quot.sound
C102_waits_for_someone: propext
C103_screen_partial: propext, Classical.choice, Quot.sound
C103_counterexample_fast: propext, Classical.choice, Quot.sound
C103_counterexample_nul: none
C103_counterexample_left_behind: none
C103_logs_exact: propext, Quot.sound
C103_counterexample_descriptors: propext, Quot.sound
C104_nothing_else: propext, Classical.choice, Quot.sound
C104_made_iff: propext, Classical.choice, Quot.sound
C104_again: propext, Classical.choice, Quot.sound
C104_counterexample_file: propext, Classical.choice, Quot.sound
C104_counterexample_root: propext, Classical.choice, Quot.sound
C104_counterexample_letter: propext
C104_counterexample_long: propext
C105_regular: propext, Classical.choice, Quot.sound
C105_links: propext, Quot.sound
C105_equal: propext, Classical.choice, Quot.sound
C105_copy: propext, Quot.sound
C105_counterexample_device: propext, Quot.sound
C105_counterexample_same_device: propext, Quot.sound
C105_counterexample_special: propext, Quot.sound
C105_counterexample_missing: propext, Quot.sound
C106_marks: propext, Classical.choice, Quot.sound
C106_one: propext, Classical.choice, Quot.sound
C106_menu: propext, Classical.choice, Quot.sound
C107_rows: propext, Classical.choice, Quot.sound
C108_swo: propext, Classical.choice, Quot.sound
C108_header: propext, Classical.choice, Quot.sound
C109_exact: propext, Classical.choice, Quot.sound
C109_counterexample: propext, Classical.choice, Quot.sound
C109_versions: propext, Classical.choice, Quot.sound
C110_rows_partial: propext, Classical.choice, Quot.sound
C110_exact: propext, Classical.choice, Quot.sound
C110_counterexample: propext
C110_redraw_counterexample: propext
C111_prompt_partial: propext, Classical.choice, Quot.sound
C111_counterexample: propext
C111_after_go: propext, Classical.choice, Quot.sound
C112_closes_partial: propext, Classical.choice, Quot.sound
C112_stuck: propext, Classical.choice, Quot.sound
C113_packages: propext, Classical.choice, Quot.sound
C113_marks: propext, Classical.choice, Quot.sound
C113_removed: propext, Classical.choice, Quot.sound
C113_removes: propext, Classical.choice, Quot.sound
C114_as_pkgrm: propext, Classical.choice, Quot.sound
C114_scripts_counterexample: propext, Classical.choice, Quot.sound
C115_exact: propext, Classical.choice, Quot.sound
C115_counterexample: propext, Classical.choice, Quot.sound
C116_never_killed: propext, Quot.sound
C116_percentages_partial: propext, Classical.choice, Quot.sound
C116_entries_counterexample: none
C116_second_counterexample: none
C117_killed_exact: propext, Quot.sound
C117_others: propext, Quot.sound
C117_counterexample: propext, Quot.sound
C117_percentages_partial: propext, Quot.sound
C118_version_partial: propext, Classical.choice, Quot.sound
C118_release_exact: propext, Classical.choice, Quot.sound
C118_release_version_partial: propext, Classical.choice, Quot.sound
C118_set_partial: propext, Classical.choice, Quot.sound
C118_rest: propext, Classical.choice, Quot.sound
C118_deps_partial: propext, Classical.choice, Quot.sound
C118_counterexample_quoted: propext, Classical.choice, Quot.sound
C118_counterexample_line: propext, Classical.choice, Quot.sound
C118_counterexample_variable: propext, Classical.choice, Quot.sound
C118_counterexample_prefix: propext, Classical.choice, Quot.sound
C118_counterexample_indented: propext, Classical.choice, Quot.sound
C119_safe_partial: propext, Classical.choice, Quot.sound
C119_counterexample_project: propext, Classical.choice, Quot.sound
C119_counterexample_dot: propext, Classical.choice, Quot.sound
C120_all: propext, Classical.choice, Quot.sound
C120_only_clean: propext, Classical.choice, Quot.sound
C120_only_build_partial: propext, Classical.choice, Quot.sound
C120_recovers: propext, Classical.choice, Quot.sound
C120_counterexample_error: propext, Classical.choice, Quot.sound
C120_counterexample_other: propext, Classical.choice, Quot.sound
C120_counterexample_hidden: propext, Classical.choice, Quot.sound
C120_busy: propext, Classical.choice, Quot.sound
C121_whole: propext, Classical.choice, Quot.sound
C121_complete: propext, Classical.choice, Quot.sound
C121_exact: propext, Classical.choice, Quot.sound
C121_report_partial: propext, Classical.choice, Quot.sound
C121_counterexample_leak: propext, Classical.choice, Quot.sound
C121_counterexample_pattern: propext, Classical.choice, Quot.sound
C121_counterexample_single: propext, Classical.choice, Quot.sound
C121_counterexample_three: propext, Classical.choice, Quot.sound
C122_older: propext, Classical.choice, Quot.sound
C122_report_partial: propext, Classical.choice, Quot.sound
C122_lost_partial: propext, Quot.sound
C122_letters_counterexample: propext, Classical.choice, Quot.sound
C122_plus_counterexample: propext, Classical.choice, Quot.sound
C122_zeros_counterexample: propext, Classical.choice, Quot.sound
C122_previous_counterexample: propext, Classical.choice, Quot.sound
C123_refused: propext, Quot.sound
C123_accepted_partial: propext, Quot.sound
C123_unambiguous_partial: propext, Quot.sound
C123_counterexample: propext, Classical.choice, Quot.sound
C124_caught_partial: propext, Classical.choice, Quot.sound
C124_absent: propext, Classical.choice, Quot.sound
C124_kept: propext, Classical.choice, Quot.sound
C124_passed: propext, Classical.choice, Quot.sound
C124_counterexample_missing: propext, Classical.choice, Quot.sound
C124_counterexample_shadow: propext, Classical.choice, Quot.sound
C125_ten_newest_partial: propext, Classical.choice, Quot.sound
C125_counterexample_few: propext, Classical.choice, Quot.sound
C125_counterexample_down: propext, Classical.choice, Quot.sound
C125_counterexample_guest: propext, Classical.choice, Quot.sound
C125_fields_partial: propext, Classical.choice, Quot.sound
C126_whole_file: propext, Classical.choice, Quot.sound
C126_any_buffer: propext, Classical.choice, Quot.sound
C126_unreadable: propext, Classical.choice, Quot.sound
C127_closed: propext, Classical.choice, Quot.sound
C127_no_memory_partial: propext, Classical.choice, Quot.sound
C127_other_files: propext, Quot.sound
C127_all_files: propext, Classical.choice, Quot.sound
C127_counterexample_cut: propext, Classical.choice, Quot.sound
C128_locking: propext, Classical.choice, Quot.sound
C129_refused: propext, Classical.choice, Quot.sound
C130_recorded: propext, Classical.choice, Quot.sound
C131_only_its_own: propext, Classical.choice, Quot.sound
C132_killed: propext, Classical.choice, Quot.sound
C133_resolved: propext, Classical.choice, Quot.sound
C134_dependencies: propext, Classical.choice, Quot.sound
C135_one_owner: propext, Classical.choice, Quot.sound
C136_sync_frame: propext, Classical.choice, Quot.sound
C137_purge: propext, Classical.choice, Quot.sound
C138_file_names: propext, Classical.choice, Quot.sound
C139_packed: propext, Classical.choice, Quot.sound
C140_nothing_missed: propext, Classical.choice, Quot.sound
C141_log_kept: propext, Quot.sound
C142_keys_frame: propext, Classical.choice, Quot.sound
C143_ldconfig: propext, Classical.choice, Quot.sound
C144_progress: propext, Quot.sound
C145_lines: propext, Classical.choice, Quot.sound
C146_no_change: propext, Classical.choice, Quot.sound
C147_clean: propext, Classical.choice, Quot.sound
C148_query: propext, Classical.choice, Quot.sound
C149_selected: propext, Classical.choice, Quot.sound
C150_text: propext, Classical.choice, Quot.sound
C151_only_lists: propext, Classical.choice, Quot.sound
C151_end: propext, Classical.choice, Quot.sound
C151_first: propext, Classical.choice, Quot.sound
C152_whole_lists: propext, Classical.choice, Quot.sound
C153_all_partial: propext, Classical.choice, Quot.sound
C153_named_partial: propext, Classical.choice, Quot.sound
C153_in_depot_partial: propext, Classical.choice, Quot.sound
C153_succeeds: propext, Classical.choice, Quot.sound
C153_not_a_package_counterexample: propext, Classical.choice, Quot.sound
C153_no_key_counterexample: propext, Classical.choice, Quot.sound
C153_unknown_counterexample: propext, Classical.choice, Quot.sound
C153_missing_counterexample: propext, Classical.choice, Quot.sound
C153_subdirectory_counterexample: propext, Classical.choice, Quot.sound
C154_effect_partial: propext, Classical.choice, Quot.sound
C154_no_effect_partial: propext, Classical.choice, Quot.sound
C154_last_install_partial: propext, Classical.choice, Quot.sound
C154_conf_counterexample: propext, Classical.choice, Quot.sound
C154_help_counterexample: propext, Classical.choice, Quot.sound
C154_ignore_new_counterexample: propext, Classical.choice, Quot.sound
C155_only_partial: propext, Classical.choice, Quot.sound
C155_builds_partial: propext, Classical.choice, Quot.sound
C155_environment_counterexample: propext, Classical.choice, Quot.sound
C155_empty_word_counterexample: propext, Classical.choice, Quot.sound
C156_same_options_partial: propext, Classical.choice, Quot.sound
C156_repo_counterexample: propext, Classical.choice, Quot.sound
C156_space_counterexample: propext, Classical.choice, Quot.sound
C157_main_partial: propext, Classical.choice, Quot.sound
C157_lost: propext, Classical.choice, Quot.sound
C157_same_partial: propext, Classical.choice, Quot.sound
C157_counterexample: propext, Classical.choice, Quot.sound
C158_scripts_partial: propext, Classical.choice, Quot.sound
C158_killed_counterexample: propext, Classical.choice, Quot.sound
C158_stray_counterexample: propext, Classical.choice, Quot.sound
C159_finished_partial: propext, Classical.choice, Quot.sound
C159_packages: propext, Classical.choice, Quot.sound
C159_list_counterexample: propext, Classical.choice, Quot.sound
C160_installed: propext, Classical.choice, Quot.sound
C160_failed: propext, Classical.choice, Quot.sound
C160_nothing: propext, Classical.choice, Quot.sound
C161_upgraded_partial: propext, Classical.choice, Quot.sound
C161_new_package_fails: propext, Classical.choice, Quot.sound
C161_older_counterexample: propext, Classical.choice, Quot.sound
C161_half_counterexample: propext, Classical.choice, Quot.sound
C162_exact: propext, Classical.choice, Quot.sound
C162_kept_partial: propext, Classical.choice, Quot.sound
C162_footprint_counterexample: propext, Classical.choice, Quot.sound
C163_updated_partial: propext, Classical.choice, Quot.sound
C163_absent: propext, Classical.choice, Quot.sound
C163_nothing: propext, Classical.choice, Quot.sound
C163_two_versions_counterexample: propext, Classical.choice, Quot.sound
C164_frame: propext, Classical.choice, Quot.sound
C164_only_work_partial: propext, Classical.choice, Quot.sound
C164_port_renamed_counterexample: propext, Classical.choice, Quot.sound
C165_text: propext, Classical.choice, Quot.sound
C165_exact_partial: propext, Classical.choice, Quot.sound
C165_there: propext, Classical.choice, Quot.sound
C165_behind_git: propext, Classical.choice, Quot.sound
C165_behind_git_counterexample: propext, Classical.choice, Quot.sound
C166_lock: propext, Classical.choice, Quot.sound
C167_protected: propext, Classical.choice, Quot.sound
C168_undone: propext, Classical.choice, Quot.sound
C169_install_rules: propext, Classical.choice, Quot.sound
C170_levels: propext, Classical.choice, Quot.sound
C171_hex: propext, Quot.sound
C172_remove_file: propext, Classical.choice, Quot.sound
C173_listed: propext, Classical.choice, Quot.sound
C174_report: propext, Classical.choice, Quot.sound
C175_names: propext, Classical.choice, Quot.sound
C176_pages: propext, Classical.choice, Quot.sound
C177_packages: propext, Classical.choice, Quot.sound
C178_sync: propext, Classical.choice, Quot.sound
C179_again: propext, Classical.choice, Quot.sound
C180_started: propext, Classical.choice, Quot.sound
C181_marks: propext, Classical.choice, Quot.sound
C182_listed: propext, Classical.choice, Quot.sound
C182_own: propext, Classical.choice, Quot.sound
C183_version_partial: propext, Classical.choice, Quot.sound
C183_set_partial: propext, Classical.choice, Quot.sound
C183_port_partial: propext, Classical.choice, Quot.sound
C183_two_collections_counterexample: propext, Classical.choice, Quot.sound
C183_name_of_set_counterexample: propext, Classical.choice, Quot.sound
C183_quoted_counterexample: propext, Classical.choice, Quot.sound
C184_refused: propext, Classical.choice, Quot.sound
C184_read_partial: propext, Classical.choice, Quot.sound
C184_newline_counterexample: propext, Classical.choice, Quot.sound
C184_version_counterexample: propext, Classical.choice, Quot.sound
C185_commit: propext, Quot.sound
C185_port_partial: propext, Quot.sound
C185_staged_counterexample: propext, Classical.choice, Quot.sound
C185_status_counterexample: none
C186_conserved: propext, Classical.choice, Quot.sound
C186_sections_partial: propext, Classical.choice, Quot.sound
C186_prefix_counterexample: propext, Classical.choice, Quot.sound
C186_capitals_counterexample: propext, Classical.choice, Quot.sound
C187_as_before_partial: propext, Classical.choice, Quot.sound
C187_kept: propext, Classical.choice, Quot.sound
C187_present_partial: propext, Classical.choice, Quot.sound
C187_date_counterexample: propext, Classical.choice, Quot.sound
C187_missing_counterexample: propext, Classical.choice, Quot.sound
C188_base_first: propext, Classical.choice, Quot.sound
C188_own: propext, Classical.choice, Quot.sound
C188_below: propext, Classical.choice, Quot.sound
C188_all_below: propext, Classical.choice, Quot.sound
C189_exact_partial: propext, Classical.choice, Quot.sound
C189_glued_counterexample: propext, Classical.choice, Quot.sound
C189_lines_counterexample: propext, Classical.choice, Quot.sound
C190_exact_partial: propext, Classical.choice, Quot.sound
C190_named_partial: propext, Classical.choice, Quot.sound
C190_part_counterexample: propext, Classical.choice, Quot.sound
C190_empty_line: propext, Classical.choice, Quot.sound
C190_blank_counterexample: propext, Classical.choice, Quot.sound
C190_backslash_counterexample: propext, Classical.choice, Quot.sound
C191_go_iff: propext, Classical.choice, Quot.sound
C191_stop: propext, Classical.choice, Quot.sound
C192_known: propext, Classical.choice, Quot.sound
C192_all_run: propext, Classical.choice, Quot.sound
C192_succeeds: propext, Classical.choice, Quot.sound
C192_below: propext, Classical.choice, Quot.sound
C192_installs: propext, Classical.choice, Quot.sound
C193_options_partial: propext, Classical.choice, Quot.sound
C193_unknown: propext, Classical.choice, Quot.sound
C193_no_word: propext, Classical.choice, Quot.sound
C193_empty_counterexample: propext, Classical.choice, Quot.sound
C193_swallowed_counterexample: propext, Classical.choice, Quot.sound
C194_accepted_partial: propext, Classical.choice, Quot.sound
C194_names: propext, Classical.choice, Quot.sound
C194_all: propext, Classical.choice, Quot.sound
C194_options: propext, Classical.choice, Quot.sound
C194_unknown: propext, Classical.choice, Quot.sound
C194_part_counterexample: propext, Classical.choice, Quot.sound
C195_ends: propext, Classical.choice, Quot.sound
C196_clean: propext, Classical.choice, Quot.sound
C197_rows: propext, Classical.choice, Quot.sound
C198_read_back: propext, Quot.sound
C199_local: propext, Classical.choice, Quot.sound
C200_parameters: propext, Classical.choice, Quot.sound
C201_go_closed: propext, Classical.choice, Quot.sound
C202_whole: propext, Classical.choice, Quot.sound
C202_otherwise: propext, Classical.choice, Quot.sound
C203_numbers: propext, Classical.choice, Quot.sound
C203_missing: propext, Classical.choice, Quot.sound
C203_compared: propext, Classical.choice, Quot.sound
C203_twice_counterexample: propext, Classical.choice, Quot.sound
C204_entry: propext, Quot.sound
C204_table_partial: propext, Classical.choice, Quot.sound
C204_message: propext
C204_lost_counterexample: none
C204_half_counterexample: propext, Classical.choice, Quot.sound
C205_nothing_overwritten: propext, Classical.choice, Quot.sound
C205_landed: propext, Classical.choice, Quot.sound
C205_link_in_archive: propext, Classical.choice, Quot.sound
C206_add: propext, Classical.choice, Quot.sound
C206_all_there: propext, Classical.choice, Quot.sound
C206_remove: propext, Quot.sound
C206_upgrade: propext, Classical.choice, Quot.sound
C206_history: propext, Classical.choice, Quot.sound
C206_missing_file: propext, Classical.choice, Quot.sound
C207_only_own: propext, Quot.sound
C207_others_stay: propext, Quot.sound
C207_names_gone: propext, Quot.sound
C207_link_removed: propext, Classical.choice, Quot.sound
C208_add_inside_partial: propext, Classical.choice, Quot.sound
C208_rm_inside_partial: propext, Classical.choice, Quot.sound
C208_absolute_link: propext, Classical.choice, Quot.sound
C209_as_remove_and_add: propext, Classical.choice, Quot.sound
C209_others_stay: propext, Classical.choice, Quot.sound
C209_landed: propext, Classical.choice, Quot.sound
C209_nothing_else: propext, Classical.choice, Quot.sound
C209_own_file_conflict: propext, Classical.choice, Quot.sound
C209_moved_link: propext, Classical.choice, Quot.sound
C210_exact: propext, Classical.choice, Quot.sound
C210_from_start: propext, Classical.choice, Quot.sound
C210_bounded: propext, Classical.choice, Quot.sound
C210_not_subscribed: propext, Classical.choice, Quot.sound
C210_leave: propext, Classical.choice, Quot.sound
C210_once: propext, Classical.choice, Quot.sound
C210_line: propext, Classical.choice, Quot.sound
C211_complete_partial: propext, Classical.choice, Quot.sound
C211_lost_counterexample: propext, Classical.choice, Quot.sound
C211_order_counterexample: propext, Classical.choice, Quot.sound
C211_shipped_counterexample: propext, Classical.choice, Quot.sound
C212_all_partial: propext, Classical.choice, Quot.sound
C212_subscribed: propext, Classical.choice, Quot.sound
C212_course: propext, Classical.choice, Quot.sound
C212_grow_counterexample: propext, Quot.sound
C212_deleted_counterexample: propext, Quot.sound
C212_forgotten_counterexample: propext, Quot.sound
C213_remove: propext, Classical.choice, Quot.sound
C214_resolution: propext, Classical.choice, Quot.sound
C215_conserved: propext, Classical.choice, Quot.sound
C216_other_lines: propext, Classical.choice, Quot.sound
C217_kept: propext, Classical.choice, Quot.sound
C218_remove_links: propext, Quot.sound
C219_options: propext, Classical.choice, Quot.sound
C220_read: propext, Classical.choice, Quot.sound
C220_kept: propext, Classical.choice, Quot.sound
C220_protected: propext, Classical.choice, Quot.sound
C220_untouched: propext, Classical.choice, Quot.sound
C220_overwritten: propext, Classical.choice, Quot.sound
C221_left_out: propext, Classical.choice, Quot.sound
C221_recorded: propext, Classical.choice, Quot.sound
C221_counterexample: propext, Classical.choice, Quot.sound
C222_exact: propext, Classical.choice, Quot.sound
C222_ldconfig: propext, Classical.choice, Quot.sound
C222_icons: propext, Classical.choice, Quot.sound
C223_early_partial: propext, Classical.choice, Quot.sound
C223_late: propext, Classical.choice, Quot.sound
C223_done: propext, Classical.choice, Quot.sound
C223_counterexample: propext, Classical.choice, Quot.sound
C223_counterexample_begun: propext, Classical.choice, Quot.sound
C223_counterexample_force: propext, Classical.choice, Quot.sound
C224_repeat: propext, Classical.choice, Quot.sound
C224_read_partial: propext, Classical.choice, Quot.sound
C224_counterexample_other: propext, Classical.choice, Quot.sound
C225_kept: propext, Classical.choice, Quot.sound
C225_only_asked: propext, Classical.choice, Quot.sound
C225_stays: propext, Classical.choice, Quot.sound
C225_status: propext
C225_example: propext, Classical.choice, Quot.sound
C226_others_kept: propext, Classical.choice, Quot.sound
C226_one_after_the_other_partial: propext, Classical.choice, Quot.sound
C226_counterexample_lost: propext, Classical.choice, Quot.sound
C226_counterexample_mixed: propext, Classical.choice, Quot.sound
C227_packages_open: propext, Classical.choice, Quot.sound
C227_file_installed: propext, Classical.choice, Quot.sound
C227_description_names: propext, Classical.choice, Quot.sound
C228_no_common_file: propext, Classical.choice, Quot.sound
C228_not_in_the_way: propext, Classical.choice, Quot.sound
C229_main_undone_partial: propext, Classical.choice, Quot.sound
C229_files_gone_partial: propext, Classical.choice, Quot.sound
C229_subpackage_counterexample: propext, Classical.choice, Quot.sound
C230_asked_first: propext, Classical.choice, Quot.sound
C230_only_asked: propext, Classical.choice, Quot.sound
C230_as_on_the_server: propext, Classical.choice, Quot.sound
C231_nothing_lost_partial: propext, Classical.choice, Quot.sound
C231_binaries_lost_counterexample: propext, Classical.choice, Quot.sound
C232_old_build_gone: propext, Classical.choice, Quot.sound
C233_files_stay_partial: propext, Classical.choice, Quot.sound
C233_directory_counterexample: propext, Classical.choice, Quot.sound
C234_all_installed: propext, Classical.choice, Quot.sound
C234_nothing_else: propext, Classical.choice, Quot.sound
C235_all_removed: propext, Classical.choice, Quot.sound
C236_moved_files: propext, Classical.choice, Quot.sound
C237_all_upgraded: propext, Classical.choice, Quot.sound
C238_rest_gone: propext, Classical.choice, Quot.sound
C239_nothing_else: propext, Classical.choice, Quot.sound
C240_others_untouched: propext, Classical.choice, Quot.sound
C240_order_immaterial: propext, Classical.choice, Quot.sound
C241_others_recorded: propext, Classical.choice, Quot.sound
C241_recorded: propext, Classical.choice, Quot.sound
