# Axioms of the theorems in MANIFEST.json

Printed by `#print axioms` (`tools/axioms.py`). Definitions in the list are the full statements that are refuted.

| property | theorem | axioms |
|---|---|---|
| C01 | `C01_strlen` | propext Classical.choice Quot.sound |
| C02 | `C02_strcmp_zero_exact` | propext Classical.choice Quot.sound |
| C02 | `C02_strcmp_partial` | propext Classical.choice Quot.sound |
| C02 | `C02_strcmp_sameLength` | propext Classical.choice Quot.sound |
| C02 | `C02_full_false` | propext Quot.sound |
| C02 | `C02_is_str_eq_exact` | propext Classical.choice Quot.sound |
| C02 | `C02_is_str_empty_exact` | propext Classical.choice Quot.sound |
| C03 | `C03_memchr_long_partial` | propext Classical.choice Quot.sound |
| C03 | `C03_memchr_variants` | propext Classical.choice Quot.sound |
| C03 | `C03_memchr_absent_not_null` | propext Classical.choice Quot.sound |
| C03 | `C03_memchr_noninterference` | propext Classical.choice Quot.sound |
| C03 | `C03_memchr_eight_found` | propext Classical.choice Quot.sound |
| C03 | `C03_memchr_short_wrong` | propext Classical.choice Quot.sound |
| C03 | `C03_memchr_eight_absent_diverges` | propext Classical.choice Quot.sound |
| C03 | `C03_full_false` | propext Classical.choice Quot.sound |
| C04 | `C04_memrchr_offset_partial` | propext Classical.choice Quot.sound |
| C04 | `C04_memrchr_wrong` | propext Classical.choice Quot.sound |
| C04 | `C04_memrchr_first_block_missed` | propext Classical.choice Quot.sound |
| C04 | `C04_full_false` | propext Classical.choice Quot.sound |
| C05 | `C05_haszero` | propext Classical.choice Quot.sound |
| C05 | `C05_hasbyte` | propext Classical.choice Quot.sound |
| C05 | `C05_memchr8` | propext Classical.choice Quot.sound |
| C05 | `C05_printable_needs_ascii` | propext Quot.sound |
| C06 | `C06_full_false` | propext Quot.sound |
| C06 | `C06_atou` | propext Classical.choice Quot.sound |
| C06 | `C06_atou_fits` | propext Classical.choice Quot.sound |
| C06 | `C06_atou8` | propext Classical.choice Quot.sound |
| C06 | `C06_atoi_partial` | propext Classical.choice Quot.sound |
| C06 | `C06_atoi_least` | propext Classical.choice Quot.sound |
| C07 | `C07_htou` | propext Classical.choice Quot.sound |
| C08 | `C08_itoa_partial` | propext Classical.choice Quot.sound |
| C08 | `C08_exact` | propext Classical.choice Quot.sound |
| C08 | `C08_wrong` | propext Classical.choice Quot.sound |
| C08 | `C08_full_false` | propext Classical.choice Quot.sound |
| C08 | `C08_itoa8` | propext Classical.choice Quot.sound |
| C09 | `C09_roundtrip_partial` | propext Classical.choice Quot.sound |
| C09 | `C09_roundtrip_iff` | propext Classical.choice Quot.sound |
| C09 | `C09_full_false` | propext Classical.choice Quot.sound |
| C10 | `C10_utoap` | propext Quot.sound |
| C10 | `C10_padText_value` | propext Classical.choice Quot.sound |
| C100 | `C100_patient_partial` | propext Classical.choice Quot.sound |
| C100 | `C100_patient_alive` | propext Classical.choice Quot.sound |
| C100 | `C100_patient_ends` | propext Classical.choice Quot.sound |
| C100 | `C100_early` | propext Quot.sound |
| C100 | `C100_orphan` | propext Quot.sound |
| C100 | `C100_leak` | propext Quot.sound |
| C100 | `C100_full_false` | propext Quot.sound |
| C100 | `C100_full_false_nested` | propext Quot.sound |
| C101 | `C101_tame_partial` | propext Quot.sound |
| C101 | `C101_section` | propext |
| C101 | `C101_lost` | propext Quot.sound |
| C101 | `C101_handler` | propext Classical.choice Quot.sound |
| C101 | `C101_nested` | none |
| C101 | `C101_init` | none |
| C101 | `C101_own` | propext |
| C101 | `C101_own_once` | Quot.sound |
| C101 | `C101_own_flag` | propext |
| C101 | `C101_restored` | propext |
| C101 | `C101_inside` | propext Quot.sound |
| C101 | `C101_full_false` | propext |
| C102 | `C102_tame_partial` | propext Quot.sound |
| C102 | `C102_full_false` | propext Quot.sound |
| C102 | `C102_refused` | propext Quot.sound |
| C102 | `C102_refused_iff` | propext Quot.sound |
| C102 | `C102_throw_undef` | propext Quot.sound |
| C102 | `C102_outside` | propext |
| C102 | `C102_restored` | propext Quot.sound |
| C102 | `C102_older` | propext Quot.sound |
| C102 | `C102_null` | propext Quot.sound |
| C102 | `C102_dangling` | propext Quot.sound |
| C103 | `C103_exact_partial` | propext Classical.choice Quot.sound |
| C103 | `C103_full_false` | propext Quot.sound |
| C103 | `C103_first` | propext Classical.choice Quot.sound |
| C103 | `C103_apart` | propext Classical.choice Quot.sound |
| C103 | `C103_begun` | propext Classical.choice Quot.sound |
| C104 | `C104_full_false` | propext Quot.sound |
| C104 | `C104_signed_partial` | propext Classical.choice Quot.sound |
| C104 | `C104_determined` | propext Classical.choice Quot.sound |
| C104 | `C104_exact` | propext Classical.choice Quot.sound |
| C104 | `C104_tcc_add` | propext Classical.choice Quot.sound |
| C105 | `C105_full_false` | propext Quot.sound |
| C105 | `C105_reading` | propext Quot.sound |
| C105 | `C105_borrow` | propext Quot.sound |
| C105 | `C105_half` | propext Quot.sound |
| C105 | `C105_overflow` | propext Quot.sound |
| C105 | `C105_piece_partial` | propext Quot.sound |
| C105 | `C105_parentheses` | propext Quot.sound |
| C105 | `C105_modular_partial` | propext Classical.choice Quot.sound |
| C105 | `C105_modular64_partial` | propext Classical.choice Quot.sound |
| C105 | `C105_address` | propext Quot.sound |
| C105 | `C105_or` | propext Quot.sound |
| C106 | `C106_full_false` | propext Quot.sound |
| C106 | `C106_exact_partial` | propext Classical.choice Quot.sound |
| C106 | `C106_volatile` | propext Classical.choice Quot.sound |
| C106 | `C106_outside` | propext Classical.choice Quot.sound |
| C106 | `C106_callers` | propext Classical.choice Quot.sound |
| C106 | `C106_worker` | propext Quot.sound |
| C107 | `C107_full_false` | propext Quot.sound |
| C107 | `C107_passed_partial` | propext Classical.choice Quot.sound |
| C107 | `C107_somebody` | propext Classical.choice Quot.sound |
| C107 | `C107_finite_partial` | propext Classical.choice Quot.sound |
| C108 | `C108_full_false` | propext |
| C108 | `C108_exact_partial` | propext Quot.sound |
| C108 | `C108_zero` | propext Classical.choice Quot.sound |
| C108 | `C108_count` | propext Quot.sound |
| C108 | `C108_room` | propext Quot.sound |
| C108 | `C108_unknown` | propext Quot.sound |
| C108 | `C108_returns` | propext Classical.choice Quot.sound |
| C109 | `C109_full_false` | propext Quot.sound |
| C109 | `C109_exact_partial` | propext Quot.sound |
| C109 | `C109_string` | propext Quot.sound |
| C109 | `C109_runs_on` | propext Quot.sound |
| C109 | `C109_measure` | propext Quot.sound |
| C109 | `C109_inside` | propext Quot.sound |
| C11 | `C11_atod_exact` | propext Classical.choice Quot.sound |
| C11 | `C11_atod_right_iff_partial` | propext Classical.choice Quot.sound |
| C11 | `C11_atod_integer` | propext Classical.choice Quot.sound |
| C11 | `C11_copySign_reversed` | propext Classical.choice Quot.sound |
| C11 | `C11_full_false` | propext Classical.choice Quot.sound |
| C110 | `C110_full_false` | propext |
| C110 | `C110_truncate_exact` | propext Classical.choice Quot.sound |
| C110 | `C110_cut` | propext Quot.sound |
| C110 | `C110_seek_exact` | propext Classical.choice Quot.sound |
| C110 | `C110_small_partial` | propext Quot.sound |
| C111 | `C111_full_false` | propext |
| C111 | `C111_arg_exact` | propext Classical.choice Quot.sound |
| C111 | `C111_zero` | propext Quot.sound |
| C111 | `C111_little_partial` | propext Classical.choice Quot.sound |
| C111 | `C111_big_exact` | propext Classical.choice Quot.sound |
| C111 | `C111_word_partial` | propext Classical.choice Quot.sound |
| C111 | `C111_wide_exact` | propext Classical.choice Quot.sound |
| C111 | `C111_wide_big` | propext Classical.choice Quot.sound |
| C111 | `C111_forty_three` | propext Classical.choice Quot.sound |
| C111 | `C111_plain` | propext Classical.choice Quot.sound |
| C111 | `C111_short` | none |
| C112 | `C112_full_false` | propext |
| C112 | `C112_exact_partial` | propext Quot.sound |
| C112 | `C112_right_iff` | propext Quot.sound |
| C112 | `C112_level_partial` | propext Quot.sound |
| C112 | `C112_uncaught_empty` | propext Quot.sound |
| C112 | `C112_beyond` | propext Quot.sound |
| C12 | `C12_roundtrip_partial` | propext Classical.choice Quot.sound |
| C12 | `C12_empty` | propext Classical.choice Quot.sound |
| C12 | `C12_full_false` | propext Classical.choice Quot.sound |
| C13 | `C13_encode` | propext Classical.choice Quot.sound |
| C13 | `C13_encode_refuses` | propext Classical.choice Quot.sound |
| C13 | `C13_length` | propext Quot.sound |
| C14 | `C14_decode_inbounds` | propext Classical.choice Quot.sound |
| C15 | `C15_is_base64_exact` | propext Classical.choice Quot.sound |
| C15 | `C15_accepts_partial` | propext Classical.choice Quot.sound |
| C15 | `C15_full_false` | propext Quot.sound |
| C16 | `C16_split_partial` | propext Classical.choice Quot.sound |
| C16 | `C16_split_default_partial` | propext Classical.choice Quot.sound |
| C16 | `C16_eight` | propext Classical.choice Quot.sound |
| C16 | `C16_spec_meaning` | propext Quot.sound |
| C16 | `C16_full_false` | propext Classical.choice Quot.sound |
| C17 | `C17_concat` | propext Classical.choice Quot.sound |
| C18 | `C18_replace` | propext Classical.choice Quot.sound |
| C18 | `C18_pieces` | propext Classical.choice Quot.sound |
| C18 | `C18_empty_needle_diverges` | propext |
| C19 | `C19_strpos` | propext Classical.choice Quot.sound |
| C19 | `C19_total` | propext Classical.choice Quot.sound |
| C19 | `C19_beyond_2GiB` | propext Classical.choice Quot.sound |
| C20 | `C20_history` | propext Classical.choice Quot.sound |
| C20 | `C20_append` | propext Classical.choice Quot.sound |
| C20 | `C20_size_arithmetic` | propext Classical.choice Quot.sound |
| C20 | `C20_init_reset` | none |
| C21 | `C21_lifo` | propext Classical.choice Quot.sound |
| C21 | `C21_defined` | propext Classical.choice Quot.sound |
| C21 | `C21_reverse` | propext Classical.choice Quot.sound |
| C22 | `C22_full_false` | propext Classical.choice Quot.sound |
| C22 | `C22_idempotent_partial` | propext Classical.choice Quot.sound |
| C23 | `C23_full_false` | propext Classical.choice Quot.sound |
| C23 | `C23_full_false_reuse` | propext |
| C23 | `C23_full_false_nested` | propext |
| C23 | `C23_nested_wild` | propext |
| C23 | `C23_none_dropped_partial` | propext Classical.choice Quot.sound |
| C24 | `C24_full_false` | propext Classical.choice Quot.sound |
| C24 | `C24_unaligned` | propext Classical.choice Quot.sound |
| C24 | `C24_cancel_partial` | propext Classical.choice Quot.sound |
| C24 | `C24_standard_partial` | propext Classical.choice Quot.sound |
| C25 | `C25_full_false` | propext Classical.choice Quot.sound |
| C25 | `C25_unaligned` | propext Classical.choice Quot.sound |
| C25 | `C25_fire_partial` | propext Classical.choice Quot.sound |
| C26 | `C26_full_false` | propext Classical.choice Quot.sound |
| C26 | `C26_freed_once_partial` | propext Classical.choice Quot.sound |
| C26 | `C26_mid` | propext |
| C27 | `C27_program` | propext Quot.sound |
| C27 | `C27_first_handler` | propext Quot.sound |
| C27 | `C27_no_handler` | propext Quot.sound |
| C27 | `C27_release_throws` | propext Quot.sound |
| C28 | `C28_finally_once` | propext Quot.sound |
| C28 | `C28_finally_any` | propext Quot.sound |
| C29 | `C29_propagates` | propext Quot.sound |
| C29 | `C29_which` | propext |
| C29 | `C27_program` | propext Quot.sound |
| C30 | `C30_full_false` | propext |
| C30 | `C30_dangling` | propext |
| C30 | `C30_balanced_partial` | propext Quot.sound |
| C31 | `C31_full_false` | propext Quot.sound |
| C31 | `C31_equal_values` | propext |
| C31 | `C31_unprotect_older` | propext |
| C31 | `C31_uninitialised` | propext |
| C31 | `C31_released_partial` | propext Quot.sound |
| C32 | `C32_full_false` | propext |
| C32 | `C32_full_false_by_return` | propext |
| C32 | `C32_try_inside` | propext |
| C32 | `C32_return_nested` | propext |
| C32 | `C32_deferrals_partial` | propext Quot.sound |
| C32 | `C32_section_partial` | propext Quot.sound |
| C33 | `C33_full_false` | propext Classical.choice Quot.sound |
| C33 | `C33_full_false_by_message` | propext Quot.sound |
| C33 | `C33_memory` | propext Quot.sound |
| C33 | `C33_wrong_message` | propext Quot.sound |
| C33 | `C33_strEq` | propext Classical.choice Quot.sound |
| C33 | `C33_recover_partial` | propext Quot.sound |
| C33 | `C33_section_partial` | propext Quot.sound |
| C34 | `C34_refines` | propext Classical.choice Quot.sound |
| C34 | `C34_latest` | propext Classical.choice Quot.sound |
| C34 | `C34_limit` | propext Classical.choice Quot.sound |
| C34 | `C34_window` | propext Quot.sound |
| C35 | `C35_blocks_partial` | propext Classical.choice Quot.sound |
| C35 | `C35_full_false` | propext Quot.sound |
| C35 | `C35_long_max` | propext Quot.sound |
| C35 | `C35_total_wraps` | propext Quot.sound |
| C35 | `C35_calloc_refused` | propext Quot.sound |
| C35 | `C35_calloc_overflow` | propext Quot.sound |
| C36 | `C36_capacity_partial` | propext Classical.choice Quot.sound |
| C36 | `C36_total_latest` | propext Classical.choice Quot.sound |
| C36 | `C36_total_partial` | propext Classical.choice Quot.sound |
| C36 | `C36_total_full_false` | propext Classical.choice Quot.sound |
| C36 | `C36_total_two_chunks` | propext Quot.sound |
| C36 | `C36_not_an_arena` | propext |
| C37 | `C37_clear_partial` | propext Classical.choice Quot.sound |
| C37 | `C37_full_false` | propext Quot.sound |
| C37 | `C37_two_arenas` | propext Quot.sound |
| C37 | `C37_one_arena` | propext Quot.sound |
| C37 | `C37_free_reads_freed` | propext Quot.sound |
| C37 | `C37_clear_twice` | propext Quot.sound |
| C37 | `C37_free_spoils_clear` | propext Quot.sound |
| C37 | `C37_leak` | propext Quot.sound |
| C38 | `C38_Full` | propext Quot.sound |
| C38 | `C38_full_false` | propext Quot.sound |
| C38 | `C38_null_crashes` | propext Quot.sound |
| C38 | `C38_done_waits` | propext Quot.sound |
| C38 | `C38_value_partial` | propext Quot.sound |
| C38 | `C38_ends_partial` | propext Quot.sound |
| C38 | `C38_completes` | propext Classical.choice Quot.sound |
| C38 | `C38_null_argument` | propext Quot.sound |
| C38 | `C38_done` | propext Quot.sound |
| C39 | `C39_Full` | propext Quot.sound |
| C39 | `C39_full_false` | propext Quot.sound |
| C39 | `C39_lost` | propext Quot.sound |
| C39 | `C39_misattributed` | propext Quot.sound |
| C39 | `C39_own_again` | propext Quot.sound |
| C39 | `C39_sync_crashes` | propext Quot.sound |
| C39 | `C39_get_partial` | propext Classical.choice Quot.sound |
| C40 | `C40_Full` | propext Quot.sound |
| C40 | `C40_full_false` | propext Quot.sound |
| C40 | `C40_null_crashes` | propext Quot.sound |
| C40 | `C40_results_partial` | propext Quot.sound |
| C40 | `C40_entries` | propext Quot.sound |
| C40 | `C40_then_partial` | propext Quot.sound |
| C40 | `C40_room` | propext Quot.sound |
| C40 | `C40_completes` | propext Classical.choice Quot.sound |
| C40 | `C40_crash_partial` | propext Quot.sound |
| C41 | `C41_Full` | propext Quot.sound |
| C41 | `C41_full_false` | propext Quot.sound |
| C41 | `C41_get_reads_freed` | propext Classical.choice Quot.sound |
| C41 | `C41_sync_reads_freed` | propext Classical.choice Quot.sound |
| C41 | `C41_parent_throws` | propext Quot.sound |
| C41 | `C41_released_once` | propext Classical.choice Quot.sound |
| C41 | `C41_partial` | propext Quot.sound |
| C42 | `C42_mutual_exclusion` | propext Quot.sound |
| C42 | `C42_kept` | propext Quot.sound |
| C42 | `C42_available` | propext Quot.sound |
| C42 | `C42_released` | propext Quot.sound |
| C43 | `C43_full_false` | propext |
| C43 | `C43_values_partial` | propext Classical.choice Quot.sound |
| C43 | `C43_pointer_wild` | propext Classical.choice Quot.sound |
| C43 | `C43_long_string_wild` | propext Classical.choice Quot.sound |
| C43 | `C43_out_of_range` | propext Classical.choice Quot.sound |
| C43 | `C43_pointer_copies` | propext Quot.sound |
| C44 | `C44_never_twice` | propext Quot.sound |
| C44 | `C44_freed_once` | propext Classical.choice Quot.sound |
| C44 | `C44_unread_not_freed` | propext Classical.choice Quot.sound |
| C45 | `C45_values` | propext Classical.choice Quot.sound |
| C45 | `C45_instances` | propext Classical.choice Quot.sound |
| C45 | `C45_partition` | propext Classical.choice Quot.sound |
| C45 | `C45_neither` | propext |
| C45 | `C45_is_type` | propext |
| C46 | `C46_fair_partial` | propext Classical.choice Quot.sound |
| C46 | `C46_calm_exact` | propext Classical.choice Quot.sound |
| C46 | `C46_only_pushed_partial` | propext Classical.choice Quot.sound |
| C46 | `C46_empty_take` | propext Quot.sound |
| C46 | `C46_empty_steal` | propext Quot.sound |
| C46 | `C46_ends` | propext Quot.sound |
| C46 | `C46_taken_twice` | propext |
| C46 | `C46_fresh_take` | propext |
| C46 | `C46_full_false` | propext Quot.sound |
| C47 | `C47_full_false` | none |
| C47 | `C47_recovery_lost` | none |
| C47 | `C47_crash` | none |
| C47 | `C47_left_behind` | none |
| C47 | `C47_serial_partial` | propext Classical.choice Quot.sound |
| C48 | `C48_mmap_rights` | propext Quot.sound |
| C48 | `C48_mmap32_rights` | propext Quot.sound |
| C48 | `C48_mmap_served` | propext Classical.choice Quot.sound |
| C48 | `C48_mprotect_rights` | propext Quot.sound |
| C48 | `C48_mprotect_refused` | propext Quot.sound |
| C49 | `C49_sequences` | propext Classical.choice Quot.sound |
| C49 | `C49_remove_while_walking` | propext Classical.choice Quot.sound |
| C49 | `C49_remove_while_walking_back` | propext Classical.choice Quot.sound |
| C50 | `C50_calls` | propext Classical.choice Quot.sound |
| C50 | `C50_sorted` | propext Classical.choice Quot.sound |
| C50 | `C50_height` | propext Classical.choice Quot.sound |
| C50 | `C50_balance` | propext Classical.choice Quot.sound |
| C50 | `C50_traversal` | propext Classical.choice Quot.sound |
| C50 | `C50_traversal_removing` | propext Classical.choice Quot.sound |
| C50 | `C50_splay_calls` | propext Classical.choice Quot.sound |
| C50 | `C50_splay_sorted` | propext Classical.choice Quot.sound |
| C50 | `C50_splay_traversal` | propext Classical.choice Quot.sound |
| C51 | `C51_memdup` | propext Quot.sound |
| C51 | `C51_copy` | propext Classical.choice Quot.sound |
| C52 | `C52_full_false` | propext |
| C52 | `C52_loops` | propext |
| C52 | `C52_memory` | propext |
| C52 | `C52_terminates_partial` | propext Quot.sound |
| C53 | `C53_own_signals_partial` | propext Classical.choice Quot.sound |
| C53 | `C53_no_reset_partial` | propext Classical.choice Quot.sound |
| C53 | `C53_full_false` | propext Classical.choice Quot.sound |
| C53 | `C53_reset_undone` | none |
| C53 | `C53_name_lost` | none |
| C53 | `C53_default` | propext Quot.sound |
| C53 | `C53_default_undone` | propext Quot.sound |
| C54 | `C54_full_false` | propext Quot.sound |
| C54 | `C54_private_ignored` | propext Quot.sound |
| C54 | `C54_readonly_partial` | propext Classical.choice Quot.sound |
| C54 | `C54_extends` | propext Classical.choice Quot.sound |
| C55 | `C55_range` | propext Classical.choice Quot.sound |
| C55 | `C55_range32` | propext Quot.sound |
| C55 | `C55_wrap32` | propext Quot.sound |
| C55 | `C55_fixed` | propext Quot.sound |
| C55 | `C55_fixed32` | propext Quot.sound |
| C55 | `C55_refused` | propext Quot.sound |
| C55 | `C55_refused32` | propext Quot.sound |
| C56 | `C56_serial_partial` | propext Quot.sound |
| C56 | `C56_lost` | propext |
| C56 | `C56_freed` | propext |
| C56 | `C56_full_false` | propext |
| C56 | `C56_outside` | propext |
| C57 | `C57_full_false` | propext Quot.sound |
| C57 | `C57_content_released` | propext |
| C57 | `C57_zeroed_hides` | propext |
| C57 | `C57_two_blocks_hide` | propext |
| C57 | `C57_reads_freed` | propext |
| C57 | `C57_reads_freed_nested` | propext |
| C57 | `C57_enclosing_released` | propext |
| C57 | `C57_later_lost` | propext |
| C57 | `C57_outer_freed` | propext |
| C57 | `C57_root_hides` | propext |
| C57 | `C57_released_partial` | propext Quot.sound |
| C57 | `C57_ends` | propext Classical.choice Quot.sound |
| C57 | `C57_delete` | propext Quot.sound |
| C57 | `C57_thread_cleaned` | propext Quot.sound |
| C58 | `C58_full_false` | propext Classical.choice Quot.sound |
| C58 | `C58_atomic_partial` | propext Quot.sound |
| C58 | `C58_retries` | propext Quot.sound |
| C58 | `C58_alone` | propext Quot.sound |
| C58 | `C58_tcc_load` | propext Quot.sound |
| C58 | `C58_tcc_add` | propext Quot.sound |
| C58 | `C58_tcc_load_never` | propext Quot.sound |
| C58 | `C58_tcc_exchange` | propext Quot.sound |
| C58 | `C58_tcc_loop` | propext Quot.sound |
| C59 | `C59_full_false` | propext |
| C59 | `C59_same_width_partial` | propext Classical.choice Quot.sound |
| C59 | `C59_own` | propext Classical.choice Quot.sound |
| C59 | `C59_store_clears` | propext Quot.sound |
| C59 | `C59_gentle` | propext Classical.choice Quot.sound |
| C59 | `C59_borrow` | propext |
| C59 | `C59_mask` | propext |
| C59 | `C59_load_mixes` | propext |
| C59 | `C59_exchange_fails` | propext |
| C59 | `C59_wide_lost` | propext Quot.sound |
| C59 | `C59_exchange` | propext Classical.choice Quot.sound |
| C59 | `C59_types` | propext Quot.sound |
| C60 | `C60_full_false` | propext Quot.sound |
| C60 | `C60_one_and_one` | propext Quot.sound |
| C60 | `C60_three_less_one` | propext Quot.sound |
| C60 | `C60_tiny_partial` | propext Quot.sound |
| C60 | `C60_zero` | propext Quot.sound |
| C60 | `C60_minus_zero` | propext Quot.sound |
| C60 | `C60_moves` | propext Quot.sound |
| C60 | `C60_zeros_differ` | propext Quot.sound |
| C60 | `C60_formats` | none |
| C61 | `C61_full_false` | propext Quot.sound |
| C61 | `C61_native` | propext Classical.choice Quot.sound |
| C61 | `C61_emulated_partial` | propext Classical.choice Quot.sound |
| C61 | `C61_not_empty` | propext Classical.choice Quot.sound |
| C61 | `C61_junk` | propext Quot.sound |
| C61 | `C61_wrong_object` | propext Quot.sound |
| C61 | `C61_null` | propext Quot.sound |
| C62 | `C62_full_false` | propext Quot.sound |
| C62 | `C62_right_partial` | propext Classical.choice Quot.sound |
| C62 | `C62_shipped` | propext Classical.choice Quot.sound |
| C62 | `C62_ends` | propext Classical.choice Quot.sound |
| C62 | `C62_bounded` | propext Classical.choice Quot.sound |
| C62 | `C62_too_many` | propext |
| C62 | `C62_twice` | propext |
| C62 | `C62_no_tasks` | propext |
| C63 | `C63_full_false` | propext |
| C63 | `C63_exit_partial` | propext Quot.sound |
| C63 | `C63_throw_partial` | propext Classical.choice Quot.sound |
| C63 | `C63_flags` | propext |
| C63 | `C63_due` | propext Classical.choice Quot.sound |
| C63 | `C63_plain` | propext Classical.choice Quot.sound |
| C63 | `C63_never` | propext Classical.choice Quot.sound |
| C63 | `C63_null_again` | propext |
| C63 | `C63_exits` | propext |
| C63 | `C63_stale` | propext |
| C63 | `C63_dropped` | propext |
| C63 | `C63_unique` | propext |
| C64 | `C64_full_false` | propext Classical.choice Quot.sound |
| C64 | `C64_deferrals_partial` | propext Classical.choice Quot.sound |
| C64 | `C64_used` | propext Classical.choice Quot.sound |
| C64 | `C64_unused` | propext Classical.choice Quot.sound |
| C64 | `C64_unused_spoils` | propext Classical.choice Quot.sound |
| C64 | `C64_delete` | propext Classical.choice Quot.sound |
| C64 | `C64_no_arena` | propext Classical.choice Quot.sound |
| C64 | `C64_huge` | propext Quot.sound |
| C65 | `C65_full_false` | propext Quot.sound |
| C65 | `C65_mild_partial` | propext Classical.choice Quot.sound |
| C65 | `C65_uncaught` | propext Classical.choice Quot.sound |
| C65 | `C65_eq` | propext Classical.choice Quot.sound |
| C65 | `C65_setup` | propext |
| C65 | `C65_match` | propext Classical.choice Quot.sound |
| C65 | `C65_lost` | propext Quot.sound |
| C65 | `C65_handler_throw` | propext Quot.sound |
| C65 | `C65_rethrow_any` | propext Quot.sound |
| C65 | `C65_rethrow_any_works` | propext Quot.sound |
| C65 | `C65_fault` | propext Quot.sound |
| C65 | `C65_signal_name` | propext Quot.sound |
| C65 | `C65_signal_lost` | propext Quot.sound |
| C66 | `C66_full_false` | propext Quot.sound |
| C66 | `C66_sequences_partial` | propext Classical.choice Quot.sound |
| C66 | `C66_lp64` | propext Classical.choice Quot.sound |
| C66 | `C66_high` | propext Classical.choice Quot.sound |
| C67 | `C67_full_false` | propext Quot.sound |
| C67 | `C67_no_scope` | propext Quot.sound |
| C67 | `C67_arms_partial` | propext Quot.sound |
| C67 | `C67_exact` | propext Quot.sound |
| C67 | `C67_names` | propext Classical.choice Quot.sound |
| C67 | `C67_stale` | propext Quot.sound |
| C67 | `C67_junk` | propext Quot.sound |
| C67 | `C67_panic` | propext Quot.sound |
| C67 | `C67_else_throws` | propext Quot.sound |
| C67 | `C67_nothing_thrown` | propext |
| C68 | `C68_full_false` | propext |
| C68 | `C68_root` | propext |
| C68 | `C68_handler_skipped` | propext Quot.sound |
| C68 | `C68_runs_partial` | propext Quot.sound |
| C68 | `C68_no_scope` | propext Quot.sound |
| C69 | `C69_full_false` | propext Quot.sound |
| C69 | `C69_other_future` | propext Quot.sound |
| C69 | `C69_other_scope` | propext Quot.sound |
| C69 | `C69_empty_scope` | propext Quot.sound |
| C69 | `C69_fault_iff` | propext Classical.choice Quot.sound |
| C69 | `C69_released_iff` | propext Classical.choice Quot.sound |
| C69 | `C69_deferrals` | propext Classical.choice Quot.sound |
| C69 | `C69_once` | propext Classical.choice Quot.sound |
| C69 | `C69_joins_last_partial` | propext Classical.choice Quot.sound |
| C69 | `C69_futures_only_partial` | propext Classical.choice Quot.sound |
| C69 | `C69_waits` | propext Quot.sound |
| C69 | `C69_get_waits` | propext Quot.sound |
| C70 | `C70_full_false` | propext Quot.sound |
| C70 | `C70_done_iff_partial` | propext Quot.sound |
| C70 | `C70_done_sound` | propext Quot.sound |
| C70 | `C70_stays_partial` | propext Classical.choice Quot.sound |
| C70 | `C70_becomes_partial` | propext Classical.choice Quot.sound |
| C70 | `C70_finish_iff_partial` | propext Quot.sound |
| C70 | `C70_after_get` | propext Classical.choice Quot.sound |
| C70 | `C70_after_sync` | propext Classical.choice Quot.sound |
| C71 | `C71_full_false` | propext |
| C71 | `C71_mark_accepted` | propext |
| C71 | `C71_mark_missing` | propext |
| C71 | `C71_W_crashes` | propext |
| C71 | `C71_letter_255` | propext |
| C71 | `C71_unique` | propext |
| C71 | `C71_reads_partial` | propext Classical.choice Quot.sound |
| C71 | `C71_marked_partial` | propext Classical.choice Quot.sound |
| C71 | `C71_words` | propext Quot.sound |
| C71 | `C71_argv` | propext Classical.choice Quot.sound |
| C71 | `C71_restart` | propext Quot.sound |
| C71 | `C71_char` | none |
| C71 | `C71_no_words` | propext |
| C72 | `C72_full_false` | propext Classical.choice Quot.sound |
| C72 | `C72_result_released` | propext |
| C72 | `C72_others_pointer` | propext |
| C72 | `C72_reads_freed` | propext |
| C72 | `C72_apart` | propext Classical.choice Quot.sound |
| C72 | `C72_released_partial` | propext Classical.choice Quot.sound |
| C73 | `C73_balance_partial` | propext Classical.choice Quot.sound |
| C73 | `C73_traversal` | propext Classical.choice Quot.sound |
| C73 | `C73_histories` | propext Classical.choice Quot.sound |
| C73 | `C73_next_walks` | propext Classical.choice Quot.sound |
| C73 | `C73_full_false` | propext Classical.choice Quot.sound |
| C74 | `C74_lock_exclusive` | propext Classical.choice Quot.sound |
| C74 | `C74_race_free_partial` | propext Classical.choice Quot.sound |
| C74 | `C74_get_value` | propext Classical.choice Quot.sound |
| C74 | `C74_wait_then_get` | propext Classical.choice Quot.sound |
| C74 | `C74_not_stuck` | propext Quot.sound |
| C74 | `C74_lock_available` | propext Classical.choice Quot.sound |
| C74 | `C74_get_available` | propext Classical.choice Quot.sound |
| C74 | `C74_full_false` | propext |
| C75 | `C75_Full` | propext |
| C75 | `C75_calls_partial` | propext Classical.choice Quot.sound |
| C75 | `C75_balance` | propext Classical.choice Quot.sound |
| C75 | `C75_path_changes` | propext Classical.choice Quot.sound |
| C75 | `C75_full_false` | propext Classical.choice Quot.sound |
| C75 | `C75_error_silent` | propext Classical.choice Quot.sound |
| C75 | `C75_error_wrong` | propext |
| C75 | `C75_wide_names` | propext Quot.sound |
| C75 | `C75_misuse_seen` | propext Quot.sound |
| C76 | `C76_status` | propext Classical.choice Quot.sound |
| C76 | `C76_parent` | propext Quot.sound |
| C76 | `C76_full_false` | propext Quot.sound |
| C76 | `C76_handles` | propext Classical.choice Quot.sound |
| C76 | `C76_failure` | propext Quot.sound |
| C76 | `C76_options` | propext Quot.sound |
| C76 | `C76_one_partial` | propext Classical.choice Quot.sound |
| C76 | `C76_first_child` | propext Quot.sound |
| C76 | `C76_stranger` | propext Quot.sound |
| C76 | `C76_aborts` | propext Quot.sound |
| C76 | `C76_waitid_refuses` | propext Quot.sound |
| C76 | `C76_unknown_code` | propext Quot.sound |
| C76 | `C76_words` | propext Classical.choice Quot.sound |
| C76 | `C76_same` | propext Quot.sound |
| C77 | `C77_big_first` | propext Classical.choice Quot.sound |
| C77 | `C77_inverse` | propext Classical.choice Quot.sound |
| C77 | `C77_difference` | propext Quot.sound |
| C77 | `C77_difference_nanos` | propext Quot.sound |
| C78 | `C78_delivers_partial` | propext Classical.choice Quot.sound |
| C78 | `C78_freed_partial` | propext Classical.choice Quot.sound |
| C78 | `C78_roundtrip` | propext Classical.choice Quot.sound |
| C78 | `C78_first_decode` | propext Classical.choice Quot.sound |
| C78 | `C78_full_false` | propext Classical.choice Quot.sound |
| C78 | `C78_lost` | propext Quot.sound |
| C78 | `C78_padding` | propext Quot.sound |
| C78 | `C78_frees_needs_memory` | propext Quot.sound |
| C79 | `C79_good_partial` | propext Classical.choice Quot.sound |
| C79 | `C79_count_partial` | propext Classical.choice Quot.sound |
| C79 | `C79_few` | propext Classical.choice Quot.sound |
| C79 | `C79_solo` | propext Classical.choice Quot.sound |
| C79 | `C79_not_stuck_partial` | propext Classical.choice Quot.sound |
| C79 | `C79_stale` | propext |
| C79 | `C79_garbage` | propext |
| C79 | `C79_full_false` | propext |
| C79 | `C79_lowered` | propext Quot.sound |
| C80 | `C80_full_false` | propext Quot.sound |
| C80 | `C80_operand_lost` | propext Classical.choice Quot.sound |
| C80 | `C80_cas64_partial` | propext Classical.choice Quot.sound |
| C80 | `C80_cas64_ebx` | propext Classical.choice Quot.sound |
| C80 | `C80_stack_operand` | propext Classical.choice Quot.sound |
| C80 | `C80_ebx_operand` | propext Classical.choice Quot.sound |
| C80 | `C80_retry` | propext Classical.choice Quot.sound |
| C80 | `C80_cas` | propext Classical.choice Quot.sound |
| C80 | `C80_exchange` | propext Classical.choice Quot.sound |
| C80 | `C80_fetch_add` | propext Classical.choice Quot.sound |
| C80 | `C80_fence` | propext Quot.sound |
| C80 | `C80_ms_cas` | propext Classical.choice Quot.sound |
| C80 | `C80_ms_cas64` | propext Classical.choice Quot.sound |
| C80 | `C80_ms_exchange` | propext Classical.choice Quot.sound |
| C80 | `C80_ms_fetch_add` | propext Classical.choice Quot.sound |
| C80 | `C80_ms_fence` | propext Quot.sound |
| C81 | `C81_sc` | propext Quot.sound |
| C81 | `C81_converse` | Quot.sound |
| C81 | `C81_atomics_only` | propext Quot.sound |
| C81 | `C81_plain_stores` | propext Classical.choice Quot.sound |
| C81 | `C81_atomic_stores` | propext Classical.choice Quot.sound |
| C81 | `C81_lock_disciplined` | propext Classical.choice Quot.sound |
| C81 | `C81_lock_exclusive` | propext Classical.choice Quot.sound |
| C81 | `C81_lock_serial` | propext Classical.choice Quot.sound |
| C81 | `C81_lock_through` | propext Classical.choice Quot.sound |
| C81 | `C81_count` | propext Classical.choice Quot.sound |
| C82 | `C82_lost_partial` | propext Classical.choice Quot.sound |
| C82 | `C82_lost_all` | propext Classical.choice Quot.sound |
| C82 | `C82_end_partial` | propext Classical.choice Quot.sound |
| C82 | `C82_iff` | propext Classical.choice Quot.sound |
| C82 | `C82_told` | propext Quot.sound |
| C82 | `C82_undefined` | propext Quot.sound |
| C82 | `C82_plenty` | propext Classical.choice Quot.sound |
| C82 | `C82_full_false` | propext Quot.sound |
| C82 | `C82_guard_false` | propext Quot.sound |
| C82 | `C82_released` | propext Quot.sound |
| C82 | `C82_each` | propext Quot.sound |
| C83 | `C83_pages_partial` | propext Classical.choice Quot.sound |
| C83 | `C83_munmap` | propext Classical.choice Quot.sound |
| C83 | `C83_others` | propext Classical.choice Quot.sound |
| C83 | `C83_failed` | propext Quot.sound |
| C83 | `C83_full_false` | propext Quot.sound |
| C83 | `C83_more_false` | propext Quot.sound |
| C84 | `C84_Full` | propext Quot.sound |
| C84 | `C84_full_false` | propext Quot.sound |
| C84 | `C84_wild_false` | propext Quot.sound |
| C84 | `C84_lost_false` | propext Quot.sound |
| C84 | `C84_skipped_false` | propext Quot.sound |
| C84 | `C84_nosave_false` | propext Quot.sound |
| C84 | `C84_masks_partial` | propext Classical.choice Quot.sound |
| C84 | `C84_raised_partial` | propext Classical.choice Quot.sound |
| C84 | `C84_defined_partial` | propext Classical.choice Quot.sound |
| C84 | `C84_flight_partial` | propext Classical.choice Quot.sound |
| C84 | `C84_quiet_partial` | propext Classical.choice Quot.sound |
| C85 | `C85_Full` | propext |
| C85 | `C85_full_false` | propext Quot.sound |
| C85 | `C85_catch_false` | propext Quot.sound |
| C85 | `C85_first_throw_ends` | propext Quot.sound |
| C85 | `C85_no_throw_partial` | propext Quot.sound |
| C85 | `C85_same_object` | propext Quot.sound |
| C85 | `C85_objects_false` | propext Quot.sound |
| C85 | `C85_foreign_false` | propext |
| C85 | `C85_objects_partial` | propext Quot.sound |
| C86 | `C86_full_false` | propext Quot.sound |
| C86 | `C86_unix_partial` | propext Classical.choice Quot.sound |
| C86 | `C86_trailing_partial` | propext Classical.choice Quot.sound |
| C86 | `C86_known_partial` | propext Classical.choice Quot.sound |
| C86 | `C86_windows_leading` | propext Classical.choice Quot.sound |
| C86 | `C86_windows_never_right` | propext Classical.choice Quot.sound |
| C86 | `C86_windows_block` | propext Classical.choice Quot.sound |
| C86 | `C86_windows_memrchr` | propext Classical.choice Quot.sound |
| C86 | `C86_windows_simd_memrchr` | propext Classical.choice Quot.sound |
| C86 | `C86_windows_memrchrk` | propext Classical.choice Quot.sound |
| C87 | `C87_full_false` | none |
| C87 | `C87_thread_undefined` | propext Quot.sound |
| C87 | `C87_isFinish_undefined` | propext Quot.sound |
| C87 | `C87_otherwise_defined` | none |
| C87 | `C87_sync_refuses` | propext |
| C87 | `C87_destroy_leaks` | propext Quot.sound |
| C87 | `C87_never_returned` | none |
| C87 | `C87_empty_partial` | propext Quot.sound |
| C88 | `C88_full_false` | propext Quot.sound |
| C88 | `C88_first_half_false` | propext Quot.sound |
| C88 | `C88_W_overruns` | propext |
| C88 | `C88_W_swallows` | propext |
| C88 | `C88_middle_of_word` | propext Quot.sound |
| C88 | `C88_unique` | propext |
| C88 | `C88_reads_partial` | propext Classical.choice Quot.sound |
| C88 | `C88_marked_partial` | propext Classical.choice Quot.sound |
| C88 | `C88_pick` | propext Classical.choice Quot.sound |
| C88 | `C88_synonyms` | propext Classical.choice Quot.sound |
| C88 | `C88_W_like_long` | propext Quot.sound |
| C88 | `C88_W_otherwise` | propext Quot.sound |
| C88 | `C88_words` | propext Quot.sound |
| C88 | `C88_argv` | propext Classical.choice Quot.sound |
| C88 | `C88_characters` | none |
| C88 | `C88_value` | propext Quot.sound |
| C88 | `C88_no_words` | propext |
| C88 | `C88_W_missing` | propext |
| C89 | `C89_full_false` | propext Quot.sound |
| C89 | `C89_wrong` | propext Quot.sound |
| C89 | `C89_silent` | propext Quot.sound |
| C89 | `C89_mmap_partial` | propext Quot.sound |
| C89 | `C89_other_partial` | propext |
| C89 | `C89_told` | propext Classical.choice Quot.sound |
| C89 | `C89_handles` | propext Classical.choice Quot.sound |
| C89 | `C89_page` | propext Quot.sound |
| C90 | `C90_full_false` | none |
| C90 | `C90_durable_false` | none |
| C90 | `C90_locks_false` | none |
| C90 | `C90_lost` | none |
| C90 | `C90_unlock_fails` | propext Classical.choice Quot.sound |
| C90 | `C90_crash` | propext Quot.sound |
| C90 | `C90_durable_partial` | propext Classical.choice Quot.sound |
| C90 | `C90_msync` | propext Classical.choice Quot.sound |
| C90 | `C90_locks_partial` | propext Quot.sound |
| C91 | `C91_full_false` | propext Classical.choice Quot.sound |
| C91 | `C91_native` | propext Classical.choice Quot.sound |
| C91 | `C91_native_partial` | propext Classical.choice Quot.sound |
| C91 | `C91_stale` | propext Classical.choice Quot.sound |
| C91 | `C91_emulated_partial` | propext Classical.choice Quot.sound |
| C91 | `C91_copy` | propext Classical.choice Quot.sound |
| C91 | `C91_others` | propext Classical.choice Quot.sound |
| C91 | `C91_lost` | propext Quot.sound |
| C91 | `C91_freed` | propext Quot.sound |
| C91 | `C91_emulated_false` | propext Classical.choice Quot.sound |
| C91 | `C91_plain_partial` | none |
| C91 | `C91_plain_never` | propext |
| C91 | `C91_plain_wrong` | propext |
| C92 | `C92_full_false` | none |
| C92 | `C92_cas_partial` | propext |
| C92 | `C92_strong` | propext Quot.sound |
| C92 | `C92_tcc` | propext Quot.sound |
| C92 | `C92_tcc_swap` | propext |
| C92 | `C92_threads` | propext Classical.choice Quot.sound |
| C92 | `C92_alone` | propext Classical.choice Quot.sound |
| C92 | `C92_tcc_forever` | none |
| C93 | `C93_full_false` | propext Quot.sound |
| C93 | `C93_three` | propext Classical.choice Quot.sound |
| C93 | `C93_kind_partial` | propext Classical.choice Quot.sound |
| C93 | `C93_kinds` | propext Quot.sound |
| C93 | `C93_unknown` | none |
| C94 | `C94_full_false` | propext Quot.sound |
| C94 | `C94_align_false` | propext Classical.choice Quot.sound |
| C94 | `C94_align_partial` | propext Classical.choice Quot.sound |
| C94 | `C94_int` | propext Classical.choice Quot.sound |
| C94 | `C94_upper_half` | propext Quot.sound |
| C94 | `C94_wraps` | propext Classical.choice Quot.sound |
| C94 | `C94_size_partial` | propext Quot.sound |
| C94 | `C94_gb` | propext Quot.sound |
| C94 | `C94_sum` | propext Quot.sound |
| C95 | `C95_cxx` | propext |
| C95 | `C95_c` | propext |
| C95 | `C95_seh_partial` | propext |
| C95 | `C95_seh_straight` | propext Quot.sound |
| C95 | `C95_once` | propext Quot.sound |
| C95 | `C95_exit` | propext |
| C95 | `C95_seh_cond` | propext |
| C95 | `C95_full_false` | propext |
| C95 | `C95_leave` | propext |
| C95 | `C95_c_leave` | propext |
| C96 | `C96_finality_partial` | propext Quot.sound |
| C96 | `C96_any` | propext Quot.sound |
| C96 | `C96_swallowed` | propext |
| C96 | `C96_full_false` | propext Quot.sound |
| C97 | `C97_posix` | propext |
| C97 | `C97_windows_partial` | propext Quot.sound |
| C97 | `C97_windows_only` | propext Quot.sound |
| C97 | `C97_windows_not` | propext Quot.sound |
| C97 | `C97_out_of_scope` | propext Quot.sound |
| C97 | `C97_test` | propext |
| C97 | `C97_full_false` | propext |
| C98 | `C98_value_partial` | propext Quot.sound |
| C98 | `C98_all_ran` | propext |
| C98 | `C98_freed` | propext Quot.sound |
| C98 | `C98_freed_example` | propext Quot.sound |
| C98 | `C98_changed` | propext Quot.sound |
| C98 | `C98_if` | propext |
| C98 | `C98_full_false` | propext |
| C98 | `C98_value_false` | propext |
| C99 | `C99_report_partial` | propext Quot.sound |
| C99 | `C99_garbage` | propext Quot.sound |
| C99 | `C99_scoped` | propext Quot.sound |
| C99 | `C99_signal` | propext |
| C99 | `C99_second` | propext Quot.sound |
| C99 | `C99_heading` | propext |
| C99 | `C99_stale` | propext |
| C99 | `C99_full_false` | propext |
| C99 | `C99_full_false_heading` | propext |
| C99 | `C99_heard_partial` | propext Quot.sound |
