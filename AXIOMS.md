# Axioms of each theorem

As reported by `#print axioms`, for the theorems in `MANIFEST.json`.

| Property | Theorem | Axioms |
|---|---|---|
| C01 | `Tm.U128.C01_add` | propext, Quot.sound |
| C01 | `Tm.U128.C01_sub` | propext, Quot.sound |
| C02 | `Tm.U128.C02_mul` | propext, Classical.choice, Quot.sound |
| C03 | `Tm.U128.C03_divmod` | propext, Classical.choice, Quot.sound |
| C03 | `Tm.U128.C03_divmod_u64` | propext, Classical.choice, Quot.sound |
| C03 | `Tm.U128.C03_zero_divisor` | propext, Quot.sound |
| C04 | `Tm.U128.C04_shifts` | propext, Quot.sound |
| C04 | `Tm.U128.C04_shifts128` | propext, Classical.choice, Quot.sound |
| C04 | `Tm.U128.C04_bitwise` | propext, Classical.choice, Quot.sound |
| C04 | `Tm.U128.C04_single_bit` | propext, Classical.choice, Quot.sound |
| C04 | `Tm.U128.C04_to_bytes` | propext, Classical.choice, Quot.sound |
| C05 | `Tm.U128.C05_compare` | propext, Classical.choice, Quot.sound |
| C05 | `Tm.U128.C05_injective` | propext, Quot.sound |
| C06 | `Tm.U128.C06_fls` | propext, Classical.choice, Quot.sound |
| C06 | `Tm.U128.C06_ffs` | propext, Classical.choice, Quot.sound |
| C06 | `Tm.U128.C06_zero` | propext, Quot.sound |
| C06 | `Tm.U128.C06_safe_forms` | propext, Classical.choice, Quot.sound |
| C06 | `Tm.U128.C06_popcount` | propext, Quot.sound |
| C07 | `Tm.U128.C07_print` | propext, Classical.choice, Quot.sound |
| C07 | `Tm.U128.C07_digits_count` | propext, Classical.choice, Quot.sound |
| C07 | `Tm.U128.C07_scan` | propext, Classical.choice, Quot.sound |
| C07 | `Tm.U128.C07_scan_null` | propext, Classical.choice, Quot.sound |
| C07 | `Tm.U128.C07_print_scan` | propext, Classical.choice, Quot.sound |
| C07 | `Tm.U128.C07_print_width` | propext, Classical.choice, Quot.sound |
| C07 | `Tm.U128.C07_print_too_wide` | propext, Quot.sound |
| C08 | `Tm.U128.C08_rounding_unique` | propext, Classical.choice, Quot.sound |
| C08 | `Tm.U128.C08_toward_zero` | propext, Classical.choice, Quot.sound |
| C08 | `Tm.U128.C08_double_partial` | propext, Classical.choice, Quot.sound |
| C08 | `Tm.U128.C08_double_carry` | propext, Classical.choice, Quot.sound |
| C08 | `Tm.U128.C08_float_partial` | propext, Classical.choice, Quot.sound |
| C08 | `Tm.U128.C08_float_carry` | propext, Classical.choice, Quot.sound |
| C08 | `Tm.U128.C08_float_upward_exact` | propext, Classical.choice, Quot.sound |
| C08 | `Tm.U128.C08_exact` | propext, Classical.choice, Quot.sound |
| C09 | `Tm.U128.C09_from_double` | propext, Classical.choice, Quot.sound |
| C09 | `Tm.U128.C09_from_float_partial` | propext, Classical.choice, Quot.sound |
| C09 | `Tm.U128.C09_from_float_negative` | propext, Classical.choice, Quot.sound |
| C09 | `Tm.U128.C09_from_float_negative_zero` | propext, Classical.choice, Quot.sound |
| C09 | `Tm.U128.C09_checked_partial` | propext, Classical.choice, Quot.sound |
| C09 | `Tm.U128.C09_checked_accepts_out_of_range` | propext, Classical.choice, Quot.sound |
| C10 | `Tm.Conv.C10_numeral_exists_unique` | propext, Classical.choice, Quot.sound |
| C10 | `Tm.Conv.C10_scan_unsigned` | propext, Classical.choice, Quot.sound |
| C10 | `Tm.Conv.C10_scan_null` | propext, Classical.choice, Quot.sound |
| C10 | `Tm.Conv.C10_scan_signed_wrapping` | propext, Classical.choice, Quot.sound |
| C10 | `Tm.Conv.C10_scan_signed_partial` | propext, Classical.choice, Quot.sound |
| C10 | `Tm.Conv.C10_signed_exists` | propext, Classical.choice, Quot.sound |
| C10 | `Tm.Conv.C10_least_value_overflows` | propext, Classical.choice, Quot.sound |
| C11 | `Tm.Conv.C11_forms_agree` | propext, Classical.choice, Quot.sound |
| C12 | `Tm.Conv.C12_canonical_exists_unique` | propext, Quot.sound |
| C12 | `Tm.Conv.C12_print_unsigned` | propext, Classical.choice, Quot.sound |
| C12 | `Tm.Conv.C12_print_unsigned_dec_hex` | propext, Classical.choice, Quot.sound |
| C12 | `Tm.Conv.C12_print_signed` | propext, Classical.choice, Quot.sound |
| C12 | `Tm.Conv.C12_print_signed_dec_hex` | propext, Classical.choice, Quot.sound |
| C13 | `Tm.Conv.C13_print_bounds` | propext, Classical.choice, Quot.sound |
| C14 | `Tm.Conv.C14_print_scan_unsigned` | propext, Classical.choice, Quot.sound |
| C14 | `Tm.Conv.C14_print_scan_signed_wrapping` | propext, Classical.choice, Quot.sound |
| C14 | `Tm.Conv.C14_print_scan_signed_partial` | propext, Classical.choice, Quot.sound |
| C15 | `Tm.Conv.C15_wrong_width_asserts` | propext, Classical.choice, Quot.sound |
| C15 | `Tm.Conv.C15_checked_decimal` | propext, Classical.choice, Quot.sound |
| C15 | `Tm.Conv.C15_checked_partial` | propext, Classical.choice, Quot.sound |
| C15 | `Tm.Conv.C15_checked_hex_zero_width` | propext, Quot.sound |
| C15 | `Tm.Conv.C15_checked_too_wide` | propext, Quot.sound |
| C16 | `Tm.Conv.C16_hex_bytes` | propext, Classical.choice, Quot.sound |
| C16 | `Tm.Conv.C16_hex_bytes_injective` | propext, Classical.choice, Quot.sound |
| C17 | `Tm.Conv.C17_scan_bool_partial` | propext, Classical.choice, Quot.sound |
| C17 | `Tm.Conv.C17_scan_bool_wrong_last_letter` | propext, Classical.choice, Quot.sound |
| C17 | `Tm.Conv.C17_scan_bool_n_partial` | propext, Classical.choice, Quot.sound |
| C17 | `Tm.Conv.C17_scan_bool_n_reads_past_end` | propext |
| C17 | `Tm.Conv.C17_scan_bool_n_accepts_garbage` | propext |
| C17 | `Tm.Conv.C17_print_bool` | propext, Classical.choice, Quot.sound |
| C18 | `Tm.Hash.C18_finite_map_partial` | propext, Classical.choice, Quot.sound |
| C18 | `Tm.Hash.C18_not_tombstone` | propext, Quot.sound |
| C19 | `Tm.Hash.C19_count_partial` | propext, Classical.choice, Quot.sound |
| C19 | `Tm.Hash.C19_not_tombstone` | propext, Quot.sound |
| C20 | `Tm.Hash.C20_grow_partial` | propext, Classical.choice, Quot.sound |
| C20 | `Tm.Hash.C20_not_kept` | propext, Quot.sound |
| C21 | `Tm.Hash.C21_returns` | propext, Classical.choice, Quot.sound |
| C21 | `Tm.Hash.C21_crowded` | propext, Classical.choice, Quot.sound |
| C22 | `Tm.Hash.C22_kept_partial` | propext, Classical.choice, Quot.sound |
| C22 | `Tm.Hash.C22_not_kept` | propext, Quot.sound |
| C23 | `Tm.Hash.C23_fnv1a` | propext, Quot.sound |
| C23 | `Tm.Hash.C23_concat` | propext, Quot.sound |
| C23 | `Tm.Hash.C23_string` | propext, Quot.sound |
| C23 | `Tm.Hash.C23_string_hash` | propext, Quot.sound |
| C24 | `Tm.Alloc.C24_padding` | propext, Classical.choice, Quot.sound |
| C24 | `Tm.Alloc.C24_other_alignments` | propext, Classical.choice, Quot.sound |
| C24 | `Tm.Alloc.C24_power_of_two` | propext, Classical.choice, Quot.sound |
| C25 | `Tm.Alloc.C25_allocate` | propext, Classical.choice, Quot.sound |
| C25 | `Tm.Alloc.C25_blocks_partial` | propext, Classical.choice, Quot.sound |
| C25 | `Tm.Alloc.C25_not_inside` | propext, Quot.sound |
| C25 | `Tm.Alloc.C25_not_disjoint` | propext, Quot.sound |
| C26 | `Tm.Alloc.C26_reverse_partial` | propext, Classical.choice, Quot.sound |
| C26 | `Tm.Alloc.C26_reverse_aligned` | propext, Classical.choice, Quot.sound |
| C26 | `Tm.Alloc.C26_interleaved_uniform` | propext, Classical.choice, Quot.sound |
| C26 | `Tm.Alloc.C26_not_restored` | propext, Quot.sound |
| C26 | `Tm.Alloc.C26_not_interleaved` | propext, Quot.sound |
| C26 | `Tm.Alloc.C26_not_after_realloc` | propext, Quot.sound |
| C27 | `Tm.Alloc.C27_guard_restores` | propext, Quot.sound |
| C27 | `Tm.Alloc.C27_outer_blocks_partial` | propext, Classical.choice, Quot.sound |
| C27 | `Tm.Alloc.C27_not_outer_blocks` | propext, Quot.sound |
| C27 | `Tm.Alloc.C27_dismissed` | none |
| C28 | `Tm.Alloc.C28_recent_partial` | propext, Quot.sound |
| C28 | `Tm.Alloc.C28_newest_is_recent_partial` | propext, Classical.choice, Quot.sound |
| C28 | `Tm.Alloc.C28_contents_partial` | propext, Classical.choice, Quot.sound |
| C28 | `Tm.Alloc.C28_not_bounded` | propext, Quot.sound |
| C28 | `Tm.Alloc.C28_not_fresh` | propext, Classical.choice, Quot.sound |
| C29 | `Tm.Alloc.C29_live_partial` | propext, Classical.choice, Quot.sound |
| C29 | `Tm.Alloc.C29_create_partial` | propext, Classical.choice, Quot.sound |
| C29 | `Tm.Alloc.C29_no_fault_partial` | propext, Classical.choice, Quot.sound |
| C29 | `Tm.Alloc.C29_not_own_slot` | propext |
| C30 | `Tm.Alloc.C30_stale_partial` | propext, Classical.choice, Quot.sound |
| C31 | `Tm.Alloc.C31_distinct_partial` | propext, Classical.choice, Quot.sound |
| C31 | `Tm.Alloc.C31_first_use_partial` | propext, Classical.choice, Quot.sound |
| C31 | `Tm.Alloc.C31_not_reused` | propext, Classical.choice, Quot.sound |
| C31 | `Tm.Alloc.C31_not_create` | propext, Quot.sound |
| C32 | `Tm.Uni.C32_encode` | propext, Classical.choice, Quot.sound |
| C32 | `Tm.Uni.C32_encode_short` | propext, Classical.choice, Quot.sound |
| C32 | `Tm.Uni.C32_extract` | propext, Classical.choice, Quot.sound |
| C32 | `Tm.Uni.C32_round_trip` | propext, Classical.choice, Quot.sound |
| C33 | `Tm.Uni.C33_encode` | propext, Classical.choice, Quot.sound |
| C33 | `Tm.Uni.C33_encode_short` | propext, Classical.choice, Quot.sound |
| C33 | `Tm.Uni.C33_extract` | propext, Classical.choice, Quot.sound |
| C33 | `Tm.Uni.C33_round_trip` | propext, Classical.choice, Quot.sound |
| C34 | `Tm.Uni.C34_extract_partial` | propext, Classical.choice, Quot.sound |
| C34 | `Tm.Uni.C34_not_overlong` | propext, Classical.choice, Quot.sound |
| C34 | `Tm.Uni.C34_not_continuation` | propext |
| C35 | `Tm.Uni.C35_utf8` | propext, Classical.choice, Quot.sound |
| C35 | `Tm.Uni.C35_utf16` | propext, Classical.choice, Quot.sound |
| C35 | `Tm.Uni.C35_utf8_iff` | propext, Classical.choice, Quot.sound |
| C35 | `Tm.Uni.C35_utf16_iff` | propext, Classical.choice, Quot.sound |
| C36 | `Tm.Uni.C36_copy_truncated` | propext, Classical.choice, Quot.sound |
| C37 | `Tm.Uni.C37_utf8_from_utf16` | propext, Classical.choice, Quot.sound |
| C37 | `Tm.Uni.C37_utf16_from_utf8` | propext, Classical.choice, Quot.sound |
| C37 | `Tm.Uni.C37_round_trip` | propext, Classical.choice, Quot.sound |
| C37 | `Tm.Uni.C37_round_trip16` | propext, Classical.choice, Quot.sound |
| C37 | `Tm.Uni.C37_ill_formed_utf16` | propext, Classical.choice, Quot.sound |
| C37 | `Tm.Uni.C37_not_ill_formed_utf8` | propext, Classical.choice, Quot.sound |
| C38 | `Tm.Uni.C38_utf8_from_utf16` | propext, Classical.choice, Quot.sound |
| C38 | `Tm.Uni.C38_ill_formed_utf16` | propext, Classical.choice, Quot.sound |
| C38 | `Tm.Uni.C38_utf16_from_utf8` | propext, Classical.choice, Quot.sound |
| C38 | `Tm.Uni.C38_utf8_append` | propext, Classical.choice, Quot.sound |
| C38 | `Tm.Uni.C38_utf16_append` | propext, Classical.choice, Quot.sound |
| C39 | `Tm.Uni.C39_terminates_partial` | propext, Classical.choice, Quot.sound |
| C39 | `Tm.Uni.C39_terminates_utf8_partial` | propext, Classical.choice, Quot.sound |
| C39 | `Tm.Uni.C39_not_terminating_utf16` | propext, Classical.choice, Quot.sound |
| C39 | `Tm.Uni.C39_not_terminating_utf8` | propext, Classical.choice, Quot.sound |
| C40 | `Tm.Uni.C40_utf8_partial` | propext, Classical.choice, Quot.sound |
| C40 | `Tm.Uni.C40_utf16_partial` | propext, Classical.choice, Quot.sound |
| C40 | `Tm.Uni.C40_not_utf8` | propext, Classical.choice, Quot.sound |
| C40 | `Tm.Uni.C40_not_utf16` | propext, Classical.choice, Quot.sound |
| C41 | `Tm.Uni.C41_compare` | propext, Classical.choice, Quot.sound |
| C41 | `Tm.Uni.C41_equals` | propext, Classical.choice, Quot.sound |
| C41 | `Tm.Uni.C41_equals_text` | propext, Classical.choice, Quot.sound |
| C42 | `Tm.Uni.C42_count` | propext, Classical.choice, Quot.sound |
| C42 | `Tm.Uni.C42_count_any` | propext, Classical.choice, Quot.sound |
| C43 | `Tm.Uni.C43_mark_partial` | propext, Classical.choice, Quot.sound |
| C43 | `Tm.Uni.C43_missing` | propext, Classical.choice, Quot.sound |
| C43 | `Tm.Uni.C43_not_alone` | propext |
| C43 | `Tm.Uni.C43_not_alone_wide` | propext |
| C43 | `Tm.Uni.C43_not_alone_declared` | propext |
| C43 | `Tm.Uni.C43_not_utf16` | propext |
| C44 | `Tm.Str.C44_memrchr` | propext, Quot.sound |
| C44 | `Tm.Str.C44_find_char` | propext, Classical.choice, Quot.sound |
| C44 | `Tm.Str.C44_find_char2` | propext, Classical.choice, Quot.sound |
| C44 | `Tm.Str.C44_find_last_char` | propext, Quot.sound |
| C44 | `Tm.Str.C44_find_char_n` | propext, Quot.sound |
| C44 | `Tm.Str.C44_find_char2_n` | propext, Quot.sound |
| C44 | `Tm.Str.C44_find_last_char_n_ex` | propext, Quot.sound |
| C44 | `Tm.Str.C44_find_last_char_n` | propext, Quot.sound |
| C44 | `Tm.Str.C44_find_char_ignore_case` | propext, Classical.choice, Quot.sound |
| C44 | `Tm.Str.C44_find_char_ignore_case_n` | propext, Classical.choice, Quot.sound |
| C44 | `Tm.Str.C44_find_n` | propext, Classical.choice, Quot.sound |
| C44 | `Tm.Str.C44_find` | propext, Classical.choice, Quot.sound |
| C44 | `Tm.Str.C44_find_ignore_case_n` | propext, Classical.choice, Quot.sound |
| C44 | `Tm.Str.C44_find_ignore_case` | propext, Classical.choice, Quot.sound |
| C44 | `Tm.Str.C44_stristr` | propext, Classical.choice, Quot.sound |
| C44 | `Tm.Str.C44_find_last_n_ex_partial` | propext, Classical.choice, Quot.sound |
| C44 | `Tm.Str.C44_find_last_n_partial` | propext, Classical.choice, Quot.sound |
| C44 | `Tm.Str.C44_find_last_partial` | propext, Classical.choice, Quot.sound |
| C44 | `Tm.Str.C44_not_find_last_empty` | propext, Quot.sound |
| C44 | `Tm.Str.C44_find_first_of` | propext, Classical.choice, Quot.sound |
| C44 | `Tm.Str.C44_find_first_not_of` | propext, Classical.choice, Quot.sound |
| C44 | `Tm.Str.C44_find_first_not_of_n` | propext, Quot.sound |
| C44 | `Tm.Str.C44_find_first_of_n_partial` | propext, Quot.sound |
| C44 | `Tm.Str.C44_not_find_first_of_n_empty` | propext |
| C44 | `Tm.Str.C44_find_last_of_n_ex` | propext, Classical.choice, Quot.sound |
| C44 | `Tm.Str.C44_find_last_of_n` | propext, Classical.choice, Quot.sound |
| C44 | `Tm.Str.C44_find_last_not_of_n_ex` | propext, Classical.choice, Quot.sound |
| C44 | `Tm.Str.C44_find_last_not_of_n` | propext, Classical.choice, Quot.sound |
| C44 | `Tm.Str.C44_find_last_of_partial` | propext, Classical.choice, Quot.sound |
| C44 | `Tm.Str.C44_find_last_not_of_partial` | propext, Classical.choice, Quot.sound |
| C44 | `Tm.Str.C44_not_find_last_of` | propext |
| C44 | `Tm.Str.C44_not_find_last_of_empty_string` | propext |
| C45 | `Tm.Str.C45_find_char_unescaped_n` | propext, Classical.choice, Quot.sound |
| C45 | `Tm.Str.C45_find_first_of_unescaped_n_partial` | propext, Classical.choice, Quot.sound |
| C45 | `Tm.Str.C45_not_first_of_empty` | propext |
| C45 | `Tm.Str.C45_find_char_unescaped_partial` | propext, Classical.choice, Quot.sound |
| C45 | `Tm.Str.C45_not_find_char_unescaped_empty` | propext |
| C45 | `Tm.Str.C45_find_first_of_unescaped_partial` | propext, Classical.choice, Quot.sound |
| C46 | `Tm.Str.C46_next_token` | propext, Classical.choice, Quot.sound |
| C46 | `Tm.Str.C46_next_token_n_partial` | propext, Classical.choice, Quot.sound |
| C46 | `Tm.Str.C46_not_next_token_n_empty` | propext |
| C46 | `Tm.Str.C46_while_next_token_partial` | propext, Classical.choice, Quot.sound |
| C46 | `Tm.Str.C46_not_while_next_token` | propext, Classical.choice, Quot.sound |
| C46 | `Tm.Str.C46_next_token_skip_empty` | propext, Classical.choice, Quot.sound |
| C46 | `Tm.Str.C46_next_token_skip_empty_n_partial` | propext, Classical.choice, Quot.sound |
| C46 | `Tm.Str.C46_not_skip_empty_n_empty` | propext, Quot.sound |
| C47 | `Tm.Str.C47_trim_left_n` | propext, Classical.choice, Quot.sound |
| C47 | `Tm.Str.C47_trim_left` | propext, Classical.choice, Quot.sound |
| C47 | `Tm.Str.C47_trim_right_n` | propext, Classical.choice, Quot.sound |
| C47 | `Tm.Str.C47_trim_n_partial` | propext, Classical.choice, Quot.sound |
| C47 | `Tm.Str.C47_not_trim_n` | propext, Classical.choice, Quot.sound |
| C48 | `Tm.Str.C48_compare_n` | propext, Classical.choice, Quot.sound |
| C48 | `Tm.Str.C48_compare` | propext, Classical.choice, Quot.sound |
| C48 | `Tm.Str.C48_compare_n_total_order` | propext, Classical.choice, Quot.sound |
| C48 | `Tm.Str.C48_equals_n` | propext, Classical.choice, Quot.sound |
| C48 | `Tm.Str.C48_starts_with_n` | propext, Classical.choice, Quot.sound |
| C48 | `Tm.Str.C48_ends_with_n` | propext, Classical.choice, Quot.sound |
| C48 | `Tm.Str.C48_starts_with` | propext, Classical.choice, Quot.sound |
| C48 | `Tm.Str.C48_ends_with` | propext, Classical.choice, Quot.sound |
| C49 | `Tm.Str.C49_antisymmetric` | propext, Classical.choice, Quot.sound |
| C49 | `Tm.Str.C49_not_transitive` | propext |
| C49 | `Tm.Str.C49_not_overflow` | propext |
| C49 | `Tm.Str.C49_human_compare_partial` | propext, Classical.choice, Quot.sound |
| C49 | `Tm.Str.C49_transitive_partial` | propext, Classical.choice, Quot.sound |
| C50 | `Tm.Str.C50_compare_ignore_case_n` | propext, Classical.choice, Quot.sound |
| C50 | `Tm.Str.C50_stricmp` | propext, Classical.choice, Quot.sound |
| C50 | `Tm.Str.C50_equals_ignore_case_n` | propext, Classical.choice, Quot.sound |
| C50 | `Tm.Str.C50_starts_with_ignore_case_n` | propext, Classical.choice, Quot.sound |
| C50 | `Tm.Str.C50_ends_with_ignore_case_n` | propext, Classical.choice, Quot.sound |
| C50 | `Tm.Str.C50_ends_with_ignore_case` | propext, Classical.choice, Quot.sound |
| C50 | `Tm.Str.C50_compare_ignore_case_partial` | propext, Classical.choice, Quot.sound |
| C50 | `Tm.Str.C50_not_compare_ignore_case` | propext, Classical.choice, Quot.sound |
| C50 | `Tm.Str.C50_strnicmp_agree_partial` | propext, Quot.sound |
| C50 | `Tm.Str.C50_strnicmp_differ_partial` | propext, Classical.choice, Quot.sound |
| C50 | `Tm.Str.C50_not_strnicmp` | propext |
| C50 | `Tm.Str.C50_starts_with_ignore_case_partial` | propext, Classical.choice, Quot.sound |
| C50 | `Tm.Str.C50_not_starts_with_ignore_case` | propext, Quot.sound |
| C51 | `Tm.Str.C51_encode` | propext, Classical.choice, Quot.sound |
| C51 | `Tm.Str.C51_encode_url` | propext, Classical.choice, Quot.sound |
| C51 | `Tm.Str.C51_decode` | propext, Classical.choice, Quot.sound |
| C51 | `Tm.Str.C51_decode_url` | propext, Classical.choice, Quot.sound |
| C51 | `Tm.Str.C51_round_trip` | propext, Classical.choice, Quot.sound |
| C51 | `Tm.Str.C51_round_trip_url` | propext, Classical.choice, Quot.sound |
| C52 | `Tm.Str.C52_encode_size` | propext, Classical.choice, Quot.sound |
| C52 | `Tm.Str.C52_encode_url_size` | propext, Classical.choice, Quot.sound |
| C52 | `Tm.Str.C52_encode_partial` | propext, Classical.choice, Quot.sound |
| C52 | `Tm.Str.C52_not_encode_exact` | propext, Classical.choice, Quot.sound |
| C52 | `Tm.Str.C52_not_encode_size` | propext |
| C52 | `Tm.Str.C52_not_encode_protocol` | propext, Quot.sound |
| C52 | `Tm.Str.C52_not_encode_url_protocol` | propext, Quot.sound |
| C52 | `Tm.Str.C52_decode_partial` | propext, Classical.choice, Quot.sound |
| C52 | `Tm.Str.C52_decode_url_partial` | propext, Classical.choice, Quot.sound |
| C52 | `Tm.Str.C52_not_decode_exact` | propext |
| C52 | `Tm.Str.C52_not_decode_strict` | propext |
| C53 | `Tm.Str.C53_url_text` | propext, Classical.choice, Quot.sound |
| C53 | `Tm.Str.C53_url_round_trip` | propext, Classical.choice, Quot.sound |
| C54 | `Tm.Str.C54_url_encode` | propext, Classical.choice, Quot.sound |
| C54 | `Tm.Str.C54_url_decode` | propext, Classical.choice, Quot.sound |
| C54 | `Tm.Str.C54_url_decode_malformed` | propext, Classical.choice, Quot.sound |
| C55 | `Tm.Str.C55_strnrev` | propext, Classical.choice, Quot.sound |
| C55 | `Tm.Str.C55_strnrev_twice` | propext, Classical.choice, Quot.sound |
| C55 | `Tm.Str.C55_strrev` | propext, Classical.choice, Quot.sound |
| C56 | `Tm.Str.C56_find_word_end_partial` | propext, Classical.choice, Quot.sound |
| C56 | `Tm.Str.C56_not_find_word_end_empty` | propext, Quot.sound |
| C56 | `Tm.Str.C56_find_word_start` | propext, Classical.choice, Quot.sound |
| C57 | `Tm.Uni.C57_skip_utf16` | propext, Classical.choice, Quot.sound |
| C58 | `Tm.Alloc.C58_remaining_partial` | propext, Classical.choice, Quot.sound |
| C58 | `Tm.Alloc.C58_not_huge` | propext, Quot.sound |
| C59 | `Tm.Alloc.C59_layout_partial` | propext, Classical.choice, Quot.sound |
| C59 | `Tm.Alloc.C59_not_small` | propext, Quot.sound |
| C60 | `Tm.Alloc.C60_next_partial` | propext, Quot.sound |
| C60 | `Tm.Alloc.C60_not_end` | propext, Quot.sound |
| C61 | `Tm.Hash.C61_iterate` | propext, Classical.choice, Quot.sound |
| C61 | `Tm.Hash.C61_remove_index` | propext, Classical.choice, Quot.sound |
| C62 | `Tm.Uni.C62_declared_partial` | propext, Classical.choice, Quot.sound |
| C62 | `Tm.Uni.C62_undeclared` | propext, Classical.choice, Quot.sound |
| C62 | `Tm.Uni.C62_every_string` | propext, Classical.choice, Quot.sound |
| C62 | `Tm.Uni.C62_empty` | propext, Classical.choice, Quot.sound |
| C62 | `Tm.Uni.C62_incomplete_partial` | propext, Classical.choice, Quot.sound |
| C62 | `Tm.Uni.C62_not_lone_lead` | propext, Classical.choice, Quot.sound |
| C62 | `Tm.Uni.C62_not_incomplete` | propext |
| C63 | `Tm.Uni.C63_mark_partial` | propext, Classical.choice, Quot.sound |
| C63 | `Tm.Uni.C63_declared_partial` | propext, Classical.choice, Quot.sound |
| C63 | `Tm.Uni.C63_utf8_partial` | propext, Classical.choice, Quot.sound |
| C63 | `Tm.Uni.C63_refused` | propext, Classical.choice, Quot.sound |
| C63 | `Tm.Uni.C63_not_skip` | propext |
| C63 | `Tm.Uni.C63_not_replace` | propext |
| C63 | `Tm.Uni.C63_not_replace_last` | propext, Quot.sound |
| C63 | `Tm.Uni.C63_not_owned` | propext |
| C64 | `Tm.Uni.C64_text` | propext, Classical.choice, Quot.sound |
| C64 | `Tm.Uni.C64_ill_formed_partial` | propext, Classical.choice, Quot.sound |
| C65 | `Tm.Json.C65_accepted_iff_json` | propext, Classical.choice, Quot.sound |
| C65 | `Tm.Json.C65_accepted_in_any_memory` | propext, Classical.choice, Quot.sound |
| C66 | `Tm.Json.C66_structure` | propext, Classical.choice, Quot.sound |
| C66 | `Tm.Json.C66_memory` | propext, Classical.choice, Quot.sound |
| C67 | `Tm.Json.C67_content_partial` | propext, Classical.choice, Quot.sound |
| C67 | `Tm.Json.C67_numbers_partial` | propext, Classical.choice, Quot.sound |
| C67 | `Tm.Json.C67_strings_partial` | propext, Classical.choice, Quot.sound |
| C67 | `Tm.Json.C67_not_strings` | propext, Classical.choice, Quot.sound |
| C67 | `Tm.Json.C67_not_numbers` | propext, Classical.choice, Quot.sound |
| C67 | `Tm.Json.C67_not_names` | propext, Classical.choice, Quot.sound |
| C68 | `Tm.Json.C68_safe_partial` | propext, Classical.choice, Quot.sound |
| C68 | `Tm.Json.C68_not_safe` | propext, Classical.choice, Quot.sound |
| C68 | `Tm.Json.C68_not_safe_comments` | propext, Classical.choice, Quot.sound |
| C68 | `Tm.Json.C68_not_safe_single_quotes` | propext, Classical.choice, Quot.sound |
| C68 | `Tm.Json.C68_not_written` | propext, Classical.choice, Quot.sound |
| C68 | `Tm.Json.C68_not_readable` | propext, Classical.choice, Quot.sound |
| C69 | `Tm.Json.C69_document_ends` | propext, Classical.choice, Quot.sound |
| C69 | `Tm.Json.C69_tokens_end` | propext, Classical.choice, Quot.sound |
| C69 | `Tm.Json.C69_skipping_ends` | propext, Classical.choice, Quot.sound |
| C70 | `Tm.Json.C70_unescape_partial` | propext, Classical.choice, Quot.sound |
| C70 | `Tm.Json.C70_inside_the_buffer_partial` | propext, Classical.choice, Quot.sound |
| C70 | `Tm.Json.C70_not_last_escape` | propext, Classical.choice, Quot.sound |
| C70 | `Tm.Json.C70_not_inside_the_buffer` | propext, Classical.choice, Quot.sound |
| C71 | `Tm.Json.C71_blocks` | propext, Classical.choice, Quot.sound |
| C72 | `Tm.Json.C72_given_back_partial` | propext, Classical.choice, Quot.sound |
| C72 | `Tm.Json.C72_not_given_back` | propext, Classical.choice, Quot.sound |
| C73 | `Tm.Json.C73_memory_partial` | propext, Classical.choice, Quot.sound |
| C73 | `Tm.Json.C73_not_reported` | propext, Classical.choice, Quot.sound |
| C73 | `Tm.Json.C73_not_out_of_memory` | propext, Classical.choice, Quot.sound |
| C74 | `Tm.Json.C74_events` | propext, Classical.choice, Quot.sound |
| C74 | `Tm.Json.C74_depth` | propext, Classical.choice, Quot.sound |
| C75 | `Tm.Json.C75_json_is_accepted` | propext, Classical.choice, Quot.sound |
| C75 | `Tm.Json.C75_accepted_partial` | propext, Classical.choice, Quot.sound |
| C75 | `Tm.Json.C75_one_value_partial` | propext, Classical.choice, Quot.sound |
| C75 | `Tm.Json.C75_not_strings` | propext, Classical.choice, Quot.sound |
| C75 | `Tm.Json.C75_not_array_and_string` | propext, Classical.choice, Quot.sound |
| C75 | `Tm.Json.C75_not_empty` | propext, Classical.choice, Quot.sound |
| C76 | `Tm.Json.C76_memory` | propext, Classical.choice, Quot.sound |
| C76 | `Tm.Json.C76_needs_an_entry_per_255` | propext, Quot.sound |
| C77 | `Tm.Json.C77_brackets` | propext, Classical.choice, Quot.sound |
| C77 | `Tm.Json.C77_ends` | propext, Classical.choice, Quot.sound |
| C78 | `Tm.Json.C78_safe_partial` | propext, Classical.choice, Quot.sound |
| C78 | `Tm.Json.C78_not_safe` | propext, Classical.choice, Quot.sound |
| C79 | `Tm.Pack.C79_placed_inside_and_apart` | propext, Classical.choice, Quot.sound |
| C79 | `Tm.Pack.C79_insert` | propext, Classical.choice, Quot.sound |
| C80 | `Tm.Pack.C80_tiling` | propext, Classical.choice, Quot.sound |
| C80 | `Tm.Pack.C80_area` | propext, Classical.choice, Quot.sound |
| C81 | `Tm.Pack.C81_finds` | propext, Classical.choice, Quot.sound |
| C81 | `Tm.Pack.C81_best` | propext, Classical.choice, Quot.sound |
| C82 | `Tm.Pack.C82_static_memory` | propext, Classical.choice, Quot.sound |
| C82 | `Tm.Pack.C82_dynamic_memory` | propext, Classical.choice, Quot.sound |
| C83 | `Tm.Pack.C83_batch` | propext, Classical.choice, Quot.sound |
| C84 | `Tm.Pack.C84_clear` | propext, Classical.choice, Quot.sound |
| C84 | `Tm.Pack.C84_reset_partial` | propext, Classical.choice, Quot.sound |
| C84 | `Tm.Pack.C84_not_noted_by_reset` | propext |
| C85 | `Tm.Pack.C85_not_any_size` | propext |
| C85 | `Tm.Pack.C85_no_fault_partial` | propext, Classical.choice, Quot.sound |
| C86 | `Tm.Pack.C86_inside` | propext, Classical.choice, Quot.sound |
| C86 | `Tm.Pack.C86_insert` | propext, Classical.choice, Quot.sound |
| C87 | `Tm.Pack.C87_apart_partial` | propext, Classical.choice, Quot.sound |
| C87 | `Tm.Pack.C87_not_apart` | propext |
| C88 | `Tm.Pack.C88_finds_partial` | propext, Classical.choice, Quot.sound |
| C88 | `Tm.Pack.C88_maximal_partial` | propext, Classical.choice, Quot.sound |
| C88 | `Tm.Pack.C88_not_finds` | propext, Classical.choice, Quot.sound |
| C89 | `Tm.Pack.C89_best` | propext, Classical.choice, Quot.sound |
| C90 | `Tm.Pack.C90_not_enough` | propext |
| C90 | `Tm.Pack.C90_not_growing` | propext |
| C90 | `Tm.Pack.C90_no_fault_partial` | propext, Classical.choice, Quot.sound |
| C91 | `Tm.Pack.C91_batch_partial` | propext, Classical.choice, Quot.sound |
| C91 | `Tm.Pack.C91_not_best` | propext |
| C92 | `Tm.Pack.C92_not_any_area` | propext |
| C92 | `Tm.Pack.C92_not_any_outline` | propext |
| C92 | `Tm.Pack.C92_choice_partial` | propext, Classical.choice, Quot.sound |
| C93 | `Tm.Pack.C93_split` | propext, Classical.choice, Quot.sound |
| C94 | `Tm.Pack.C94_merge` | propext, Classical.choice, Quot.sound |
| C95 | `Tm.Pack.C95_not_all_joined` | propext, Classical.choice, Quot.sound |
| C95 | `Tm.Pack.C95_repeated_partial` | propext, Classical.choice, Quot.sound |
| C96 | `Tm.Vec.C96_no_fault` | propext, Classical.choice, Quot.sound |
| C96 | `Tm.Vec.C96_elements` | propext, Classical.choice, Quot.sound |
| C97 | `Tm.Vec.C97_memory` | propext, Classical.choice, Quot.sound |
| C97 | `Tm.Vec.C97_room` | propext, Classical.choice, Quot.sound |
| C98 | `Tm.Vec.C98_static` | propext, Classical.choice, Quot.sound |
| C99 | `Tm.Vec.C99_released` | propext, Classical.choice, Quot.sound |
| C100 | `Tm.Vec.C100_kept_partial` | propext, Classical.choice, Quot.sound |
| C100 | `Tm.Vec.C100_not_moved` | propext |
| C101 | `Tm.Vec.C101_full_partial` | propext, Classical.choice, Quot.sound |
| C101 | `Tm.Vec.C101_not_reserved` | propext |
| C102 | `Tm.Vec.C102_requests` | propext, Classical.choice, Quot.sound |
| C103 | `Tm.Vec.C103_copy` | propext, Classical.choice, Quot.sound |
| C103 | `Tm.Vec.C103_assign` | propext, Classical.choice, Quot.sound |
| C104 | `Tm.Vec.C104_move` | propext, Classical.choice, Quot.sound |
| C104 | `Tm.Vec.C104_assign` | propext, Classical.choice, Quot.sound |
| C105 | `Tm.Vec.C105_swap_partial` | propext, Classical.choice, Quot.sound |
| C105 | `Tm.Vec.C105_not_exchanged` | propext |
| C105 | `Tm.Vec.C105_not_capacity` | propext |
| C106 | `Tm.Vec.C106_trivial_partial` | propext, Classical.choice, Quot.sound |
| C106 | `Tm.Vec.C106_not_kept` | propext |
| C106 | `Tm.Vec.C106_not_assign` | none |
| C106 | `Tm.Vec.C106_not_range` | propext |
| C107 | `Tm.Vec.C107_room_partial` | propext, Classical.choice, Quot.sound |
| C107 | `Tm.Vec.C107_not_grown` | propext |
| C107 | `Tm.Vec.C107_not_shifted` | propext |
| C108 | `Tm.Vec.C108_not_refused` | propext |
| C108 | `Tm.Vec.C108_capacity_partial` | propext, Classical.choice, Quot.sound |
| C109 | `Tm.Vec.C109_capacity_partial` | propext, Classical.choice, Quot.sound |
| C109 | `Tm.Vec.C109_not_capacity` | propext |
| C110 | `Tm.Json.C110_signed` | propext, Classical.choice, Quot.sound |
| C110 | `Tm.Json.C110_unsigned` | propext, Classical.choice, Quot.sound |
| C111 | `Tm.Json.C111_not_range` | propext, Classical.choice, Quot.sound |
| C111 | `Tm.Json.C111_signed_partial` | propext, Classical.choice, Quot.sound |
| C111 | `Tm.Json.C111_unsigned_partial` | propext, Classical.choice, Quot.sound |
| C112 | `Tm.Json.C112_not_value` | propext, Classical.choice, Quot.sound |
| C112 | `Tm.Json.C112_not_faultless` | propext, Classical.choice, Quot.sound |
| C112 | `Tm.Json.C112_cut_partial` | propext, Classical.choice, Quot.sound |
| C113 | `Tm.Json.C113_written` | propext, Classical.choice, Quot.sound |
| C113 | `Tm.Json.C113_types` | propext, Classical.choice, Quot.sound |
| C114 | `Tm.Json.C114_lookups` | propext, Classical.choice, Quot.sound |
| C114 | `Tm.Json.C114_value` | propext, Classical.choice, Quot.sound |
| C115 | `Tm.Json.C115_not_history` | propext, Classical.choice, Quot.sound |
| C115 | `Tm.Json.C115_history_partial` | propext, Classical.choice, Quot.sound |
| C116 | `Tm.Json.C116_refers_partial` | propext, Classical.choice, Quot.sound |
| C116 | `Tm.Json.C116_not_digits` | propext, Classical.choice, Quot.sound |
| C116 | `Tm.Json.C116_not_index` | propext, Classical.choice, Quot.sound |
| C116 | `Tm.Json.C116_not_percent` | propext, Classical.choice, Quot.sound |
| C116 | `Tm.Json.C116_not_pointer` | propext, Classical.choice, Quot.sound |
| C117 | `Tm.Json.C117_safe` | propext, Classical.choice, Quot.sound |
| C118 | `Tm.Async.C118_once_partial` | propext, Classical.choice, Quot.sound |
| C118 | `Tm.Async.C118_not_once` | propext, Quot.sound |
| C119 | `Tm.Async.C119_finished_partial` | propext, Classical.choice, Quot.sound |
| C119 | `Tm.Async.C119_not_timeout` | propext |
| C119 | `Tm.Async.C119_not_signal` | propext |
| C120 | `Tm.Async.C120_runs_partial` | propext, Classical.choice, Quot.sound |
| C120 | `Tm.Async.C120_few_partial` | propext, Classical.choice, Quot.sound |
| C120 | `Tm.Async.C120_not_runs` | propext, Quot.sound |
| C121 | `Tm.Async.C121_returns_partial` | propext, Classical.choice, Quot.sound |
| C121 | `Tm.Async.C121_not_deferred` | propext |
| C122 | `Tm.Async.C122_push_partial` | propext, Classical.choice, Quot.sound |
| C122 | `Tm.Async.C122_not_reuse` | propext, Classical.choice, Quot.sound |
| C123 | `Tm.Async.C123_fresh` | propext, Classical.choice, Quot.sound |
| C123 | `Tm.Async.C123_one` | propext, Classical.choice, Quot.sound |
| C124 | `Tm.Async.C124_free_partial` | propext, Classical.choice, Quot.sound |
| C124 | `Tm.Async.C124_not_free` | propext |
| C124 | `Tm.Async.C124_not_queued` | propext |
| C125 | `Tm.Async.C125_progress_partial` | propext, Classical.choice, Quot.sound |
| C125 | `Tm.Async.C125_cancel_partial` | propext, Classical.choice, Quot.sound |
| C125 | `Tm.Async.C125_not_progress` | propext |
| C125 | `Tm.Async.C125_not_cancel` | propext |
| C126 | `Tm.Async.C126_index` | propext, Quot.sound |
| C126 | `Tm.Async.C126_error` | propext, Quot.sound |
| C127 | `Tm.Async.C127_no_fault_partial` | propext, Classical.choice, Quot.sound |
| C127 | `Tm.Async.C127_not_procedure` | propext |
| C128 | `Tm.Xml.C128_denotes` | propext, Classical.choice, Quot.sound |
| C128 | `Tm.Xml.C128_terminated_partial` | propext, Quot.sound |
| C128 | `Tm.Xml.C128_not_terminated` | propext, Quot.sound |
| C129 | `Tm.Xml.C129_accepted_partial` | propext, Classical.choice, Quot.sound |
| C129 | `Tm.Xml.C129_not_wrap` | propext, Classical.choice, Quot.sound |
| C129 | `Tm.Xml.C129_not_utf8` | propext, Quot.sound |
| C130 | `Tm.Xml.C130_fits` | propext, Quot.sound |
| C130 | `Tm.Xml.C130_needed_partial` | propext, Classical.choice, Quot.sound |
| C130 | `Tm.Xml.C130_not_needed` | propext, Quot.sound |
| C131 | `Tm.Xml.C131_writes` | propext, Quot.sound |
| C131 | `Tm.Xml.C131_reads_partial` | propext, Classical.choice, Quot.sound |
| C131 | `Tm.Xml.C131_not_reads` | propext, Quot.sound |
| C132 | `Tm.Xml.C132_reduce_partial` | propext, Classical.choice, Quot.sound |
| C132 | `Tm.Xml.C132_not_reduce` | propext, Classical.choice, Quot.sound |
| C132 | `Tm.Xml.C132_newlines_partial` | propext, Classical.choice, Quot.sound |
| C132 | `Tm.Xml.C132_not_newlines` | propext, Classical.choice, Quot.sound |
| C132 | `Tm.Xml.C132_trim` | propext, Classical.choice, Quot.sound |
| C133 | `Tm.Xml.C133_final` | propext, Classical.choice, Quot.sound |
| C133 | `Tm.Xml.C133_eof` | propext, Classical.choice, Quot.sound |
| C133 | `Tm.Xml.C133_error_partial` | propext, Classical.choice, Quot.sound |
| C133 | `Tm.Xml.C133_not_error` | propext, Classical.choice, Quot.sound |
| C134 | `Tm.Xml.C134_ends_partial` | propext, Classical.choice, Quot.sound |
| C134 | `Tm.Xml.C134_not_ends` | propext, Classical.choice, Quot.sound |
| C135 | `Tm.Xml.C135_nested_partial` | propext, Classical.choice, Quot.sound |
| C135 | `Tm.Xml.C135_not_names` | propext, Classical.choice, Quot.sound |
| C136 | `Tm.Xml.C136_prolog` | propext, Classical.choice, Quot.sound |
| C136 | `Tm.Xml.C136_safe_partial` | propext, Classical.choice, Quot.sound |
| C136 | `Tm.Xml.C136_not_asserts` | propext, Classical.choice, Quot.sound |
| C137 | `Tm.Xml.C137_lines_partial` | propext, Classical.choice, Quot.sound |
| C137 | `Tm.Xml.C137_not_offset` | propext, Classical.choice, Quot.sound |
| C137 | `Tm.Xml.C137_not_column` | propext, Classical.choice, Quot.sound |
| C138 | `Tm.Xml.C138_reads_partial` | propext, Classical.choice, Quot.sound |
| C138 | `Tm.Xml.C138_not_empty` | propext, Classical.choice, Quot.sound |
| C138 | `Tm.Xml.C138_not_compact` | propext, Classical.choice, Quot.sound |
| C138 | `Tm.Xml.C138_not_comment` | propext, Classical.choice, Quot.sound |
| C138 | `Tm.Xml.C138_not_instructions` | propext, Classical.choice, Quot.sound |
| C139 | `Tm.Xml.C139_declaration_partial` | propext, Classical.choice, Quot.sound |
| C139 | `Tm.Xml.C139_not_standalone` | propext, Classical.choice, Quot.sound |
| C139 | `Tm.Xml.C139_not_rejected` | propext, Classical.choice, Quot.sound |
| C140 | `Tm.Xml.C140_doctype_partial` | propext, Classical.choice, Quot.sound |
| C140 | `Tm.Xml.C140_not_literal` | propext, Classical.choice, Quot.sound |
| C141 | `Tm.Xml.C141_copy_partial` | propext, Quot.sound |
| C141 | `Tm.Xml.C141_not_terminated` | propext, Classical.choice, Quot.sound |
| C142 | `Tm.Cli.C142_delivered_partial` | propext, Classical.choice, Quot.sound |
| C142 | `Tm.Cli.C142_not_delivered` | propext, Quot.sound |
| C143 | `Tm.Cli.C143_accepted_partial` | propext, Classical.choice, Quot.sound |
| C143 | `Tm.Cli.C143_rejected_partial` | propext, Classical.choice, Quot.sound |
| C143 | `Tm.Cli.C143_not_flag` | propext, Quot.sound |
| C143 | `Tm.Cli.C143_not_glued` | propext, Quot.sound |
| C144 | `Tm.Cli.C144_obeys` | propext, Classical.choice, Quot.sound |
| C145 | `Tm.Cli.C145_limit_partial` | propext, Classical.choice, Quot.sound |
| C145 | `Tm.Cli.C145_not_limit` | propext, Quot.sound |
| C146 | `Tm.Cli.C146_outputs` | propext, Classical.choice, Quot.sound |
| C147 | `Tm.Cli.C147_validate` | propext, Classical.choice, Quot.sound |
| C148 | `Tm.Cli.C148_make` | propext, Quot.sound |
| C148 | `Tm.Cli.C148_safe_partial` | propext, Classical.choice, Quot.sound |
| C148 | `Tm.Cli.C148_not_null` | propext, Quot.sound |
| C148 | `Tm.Cli.C148_not_empty` | propext, Quot.sound |
| C148 | `Tm.Cli.C148_not_printed` | propext, Quot.sound |
| C149 | `Tm.Cli.C149_ends` | propext, Classical.choice, Quot.sound |
| C150 | `Tm.Cli.C150_reported` | propext, Classical.choice, Quot.sound |
| C151 | `Tm.Cli.C151_uint` | propext |
| C151 | `Tm.Cli.C151_int` | propext, Quot.sound |
| C151 | `Tm.Cli.C151_float` | propext, Classical.choice, Quot.sound |
| C152 | `Tm.Util.C152_min_max` | propext, Quot.sound |
| C152 | `Tm.Util.C152_minmax` | propext, Quot.sound |
| C152 | `Tm.Util.C152_minmax_functor_partial` | propext, Quot.sound |
| C152 | `Tm.Util.C152_not_functor` | propext, Quot.sound |
| C153 | `Tm.Util.C153_median` | propext, Quot.sound |
| C153 | `Tm.Util.C153_clamp` | propext |
| C154 | `Tm.Util.C154_power_of_two` | propext, Classical.choice, Quot.sound |
| C154 | `Tm.Util.C154_alignment_offset` | propext, Classical.choice, Quot.sound |
| C154 | `Tm.Util.C154_alignment_rejected` | propext, Classical.choice, Quot.sound |
| C155 | `Tm.Util.C155_range_partial` | propext, Classical.choice, Quot.sound |
| C155 | `Tm.Util.C155_fair_partial` | propext, Classical.choice, Quot.sound |
| C155 | `Tm.Util.C155_not_wide` | propext |
| C155 | `Tm.Util.C155_not_narrow` | none |
| C156 | `Tm.Util.C156_reversed` | propext, Classical.choice, Quot.sound |
| C156 | `Tm.Util.C156_twice` | propext, Classical.choice, Quot.sound |
| C157 | `Tm.Util.C157_memory_zero` | propext, Quot.sound |
| C157 | `Tm.Util.C157_fill` | propext, Quot.sound |
| C158 | `Tm.Util.C158_letters` | propext, Classical.choice, Quot.sound |
| C158 | `Tm.Util.C158_insensitive` | propext, Classical.choice, Quot.sound |
| C159 | `Tm.View.C159_push_back` | propext, Quot.sound |
| C159 | `Tm.View.C159_try_push_back` | propext, Quot.sound |
| C159 | `Tm.View.C159_pop_back_partial` | propext, Quot.sound |
| C159 | `Tm.View.C159_not_pop_back` | propext |
| C159 | `Tm.View.C159_try_pop_back` | propext, Quot.sound |
| C159 | `Tm.View.C159_access` | propext, Quot.sound |
| C160 | `Tm.View.C160_insert_copies_partial` | propext, Classical.choice, Quot.sound |
| C160 | `Tm.View.C160_insert_range_partial` | propext, Classical.choice, Quot.sound |
| C160 | `Tm.View.C160_not_own` | none |
| C161 | `Tm.View.C161_erase_partial` | propext, Classical.choice, Quot.sound |
| C161 | `Tm.View.C161_not_end` | none |
| C161 | `Tm.View.C161_erase_range` | propext, Classical.choice, Quot.sound |
| C162 | `Tm.View.C162_assign_range_partial` | propext, Classical.choice, Quot.sound |
| C162 | `Tm.View.C162_not_front` | none |
| C162 | `Tm.View.C162_assign_copies` | propext, Quot.sound |
| C162 | `Tm.View.C162_resize` | propext, Quot.sound |
| C163 | `Tm.View.C163_bounds_partial` | propext, Classical.choice, Quot.sound |
| C163 | `Tm.View.C163_not_pop_back` | propext |
| C164 | `Tm.View.C164_index` | propext, Quot.sound |
| C164 | `Tm.View.C164_access` | propext, Classical.choice, Quot.sound |
| C165 | `Tm.View.C165_range` | propext, Classical.choice, Quot.sound |
| C166 | `Tm.Dbl.C166_longest_exists` | propext, Classical.choice, Quot.sound |
| C166 | `Tm.Dbl.C166_none_partial` | propext, Classical.choice, Quot.sound |
| C166 | `Tm.Dbl.C166_size` | propext, Classical.choice, Quot.sound |
| C166 | `Tm.Dbl.C166_accepts_partial` | propext, Classical.choice, Quot.sound |
| C166 | `Tm.Dbl.C166_range` | propext, Classical.choice, Quot.sound |
| C166 | `Tm.Dbl.C166_not_dot` | propext, Classical.choice, Quot.sound |
| C167 | `Tm.Dbl.C167_value_partial` | propext, Classical.choice, Quot.sound |
| C167 | `Tm.Dbl.C167_not_below_one` | propext, Classical.choice, Quot.sound |
| C167 | `Tm.Dbl.C167_not_nineteen_digits` | propext, Classical.choice, Quot.sound |
| C167 | `Tm.Dbl.C167_not_long_fraction` | propext, Classical.choice, Quot.sound |
| C167 | `Tm.Dbl.C167_not_zero` | propext, Classical.choice, Quot.sound |
| C168 | `Tm.Dbl.C168_integers` | propext, Classical.choice, Quot.sound |
| C169 | `Tm.Dbl.C169_length` | propext, Classical.choice, Quot.sound |
| C169 | `Tm.Dbl.C169_null` | propext, Classical.choice, Quot.sound |
| C170 | `Tm.Dbl.C170_safe_partial` | propext, Classical.choice, Quot.sound |
| C170 | `Tm.Dbl.C170_safe_null` | propext, Classical.choice, Quot.sound |
| C170 | `Tm.Dbl.C170_not_assertion` | propext, Classical.choice, Quot.sound |
| C170 | `Tm.Dbl.C170_not_table` | propext, Classical.choice, Quot.sound |
| C171 | `Tm.Dbl.C171_whole_partial` | propext, Classical.choice, Quot.sound |
| C171 | `Tm.Dbl.C171_not_odd` | propext, Classical.choice, Quot.sound |
| C171 | `Tm.Dbl.C171_not_great` | propext, Classical.choice, Quot.sound |
| C172 | `Tm.Dbl.C172_accuracy_partial` | propext, Classical.choice, Quot.sound |
| C172 | `Tm.Dbl.C172_rounded_partial` | propext, Classical.choice, Quot.sound |
| C172 | `Tm.Dbl.C172_not_carry` | propext, Classical.choice, Quot.sound |
| C172 | `Tm.Dbl.C172_not_just_below` | propext, Classical.choice, Quot.sound |
| C172 | `Tm.Dbl.C172_not_below_one` | propext, Classical.choice, Quot.sound |
| C173 | `Tm.Dbl.C173_room_partial` | propext, Classical.choice, Quot.sound |
| C173 | `Tm.Dbl.C173_not_great` | propext, Classical.choice, Quot.sound |
| C174 | `Tm.Dbl.C174_infinity` | propext, Classical.choice, Quot.sound |
| C174 | `Tm.Dbl.C174_nan` | propext, Classical.choice, Quot.sound |
| C175 | `Tm.Dbl.C175_whole_partial` | propext, Classical.choice, Quot.sound |
| C175 | `Tm.Dbl.C175_value_partial` | propext, Classical.choice, Quot.sound |
| C176 | `Tm.Fmt.C176_snprint_partial` | propext, Classical.choice, Quot.sound |
| C176 | `Tm.Fmt.C176_not_escaped_brace` | propext, Classical.choice, Quot.sound |
| C176 | `Tm.Fmt.C176_not_string_width` | propext, Classical.choice, Quot.sound |
| C176 | `Tm.Fmt.C176_not_bool_width` | propext, Classical.choice, Quot.sound |
| C176 | `Tm.Fmt.C176_not_least` | propext, Classical.choice, Quot.sound |
| C176 | `Tm.Fmt.C176_not_two_signs` | propext, Classical.choice, Quot.sound |
| C177 | `Tm.Fmt.C177_size_partial` | propext, Classical.choice, Quot.sound |
| C177 | `Tm.Fmt.C177_twice_partial` | propext, Classical.choice, Quot.sound |
| C177 | `Tm.Fmt.C177_not_bool_width` | propext, Classical.choice, Quot.sound |
| C178 | `Tm.Fmt.C178_inside_partial` | propext, Classical.choice, Quot.sound |
| C178 | `Tm.Fmt.C178_not_inside` | propext, Classical.choice, Quot.sound |
| C179 | `Tm.Fmt.C179_closing_partial` | propext, Classical.choice, Quot.sound |
| C179 | `Tm.Fmt.C179_opening_partial` | propext, Classical.choice, Quot.sound |
| C179 | `Tm.Fmt.C179_index_partial` | propext, Classical.choice, Quot.sound |
| C179 | `Tm.Fmt.C179_not_terminated` | propext, Classical.choice, Quot.sound |
| C180 | `Tm.Fmt.C180_file_partial` | propext, Classical.choice, Quot.sound |
| C180 | `Tm.Fmt.C180_string_partial` | propext, Classical.choice, Quot.sound |
| C180 | `Tm.Fmt.C180_not_string_width` | propext, Classical.choice, Quot.sound |
| C181 | `Tm.Fmt.C181_unsigned` | propext, Classical.choice, Quot.sound |
| C181 | `Tm.Fmt.C181_signed_partial` | propext, Classical.choice, Quot.sound |
| C181 | `Tm.Fmt.C181_not_least` | propext, Classical.choice, Quot.sound |
| C182 | `Tm.Fmt.C182_accuracy_partial` | propext, Classical.choice, Quot.sound |
| C182 | `Tm.Fmt.C182_not_scientific` | propext, Classical.choice, Quot.sound |
| C182 | `Tm.Fmt.C182_not_hexadecimal` | propext, Classical.choice, Quot.sound |
| C182 | `Tm.Fmt.C182_not_great` | propext, Classical.choice, Quot.sound |
| C183 | `Tm.Fmt.C183_specifier` | propext, Classical.choice, Quot.sound |
| C184 | `Tm.Poly.C184_limit` | propext, Quot.sound |
| C184 | `Tm.Poly.C184_inside` | propext, Classical.choice, Quot.sound |
| C185 | `Tm.Poly.C185_cuts` | propext, Classical.choice, Quot.sound |
| C185 | `Tm.Poly.C185_corners` | propext, Classical.choice, Quot.sound |
| C185 | `Tm.Poly.C185_once` | propext, Classical.choice, Quot.sound |
| C186 | `Tm.Poly.C186_area` | propext, Classical.choice, Quot.sound |
| C186 | `Tm.Poly.C186_sides` | propext, Classical.choice, Quot.sound |
| C187 | `Tm.Poly.C187_float` | propext, Classical.choice, Quot.sound |
| C187 | `Tm.Poly.C187_clockwise` | propext, Classical.choice, Quot.sound |
| C188 | `Tm.Poly.C188_empty` | propext, Classical.choice, Quot.sound |
| C189 | `Tm.Poly.C189_not_flat_float` | propext, Classical.choice, Quot.sound |
| C189 | `Tm.Poly.C189_convex_partial` | propext, Classical.choice, Quot.sound |
| C189 | `Tm.Poly.C189_not_flat` | propext, Classical.choice, Quot.sound |
| C190 | `Tm.Poly.C190_float` | propext, Classical.choice, Quot.sound |
| C190 | `Tm.Poly.C190_sign` | propext, Classical.choice, Quot.sound |
| C190 | `Tm.Poly.C190_inside` | propext, Quot.sound |
| C191 | `Tm.Res.C191_defined` | propext, Classical.choice, Quot.sound |
| C191 | `Tm.Res.C191_one_owner` | propext, Classical.choice, Quot.sound |
| C191 | `Tm.Res.C191_no_leak` | propext, Classical.choice, Quot.sound |
| C192 | `Tm.Res.C192_contents_partial` | propext, Classical.choice, Quot.sound |
| C192 | `Tm.Res.C192_not_result` | none |
| C193 | `Tm.Bez.C193_grid` | propext, Classical.choice, Quot.sound |
| C194 | `Tm.Bez.C194_grid_partial` | propext, Classical.choice, Quot.sound |
| C194 | `Tm.Bez.C194_not_between` | propext, Classical.choice, Quot.sound |
| C194 | `Tm.Bez.C194_not_end` | propext, Classical.choice, Quot.sound |
| C195 | `Tm.Bez.C195_interpolates` | propext, Classical.choice, Quot.sound |
| C195 | `Tm.Bez.C195_ends` | propext, Classical.choice, Quot.sound |
| C195 | `Tm.Bez.C195_beyond` | propext, Classical.choice, Quot.sound |
| C196 | `Tm.Poly.C196_prepared` | propext, Classical.choice, Quot.sound |
| C197 | `Tm.Poly.C197_exact_partial` | propext, Classical.choice, Quot.sound |
| C197 | `Tm.Poly.C197_not_ending` | propext, Classical.choice, Quot.sound |
| C197 | `Tm.Poly.C197_not_all` | propext, Classical.choice, Quot.sound |
| C198 | `Tm.Poly.C198_alternate` | propext, Classical.choice, Quot.sound |
| C198 | `Tm.Poly.C198_inside` | propext, Classical.choice, Quot.sound |
| C198 | `Tm.Poly.C198_exits_partial` | propext, Classical.choice, Quot.sound |
| C199 | `Tm.Poly.C199_emitted_partial` | propext, Classical.choice, Quot.sound |
| C199 | `Tm.Poly.C199_one_partial` | propext, Classical.choice, Quot.sound |
| C199 | `Tm.Poly.C199_even` | propext, Classical.choice, Quot.sound |
| C200 | `Tm.Poly.C200_whole` | propext, Classical.choice, Quot.sound |
| C201 | `Tm.Poly.C201_clipped_partial` | propext, Classical.choice, Quot.sound |
| C202 | `Tm.Alloc.C202_blocks_partial` | propext, Classical.choice, Quot.sound |
| C202 | `Tm.Alloc.C202_not_first` | propext, Quot.sound |
| C203 | `Tm.Alloc.C203_met_partial` | propext, Classical.choice, Quot.sound |
| C203 | `Tm.Alloc.C203_not_zero` | propext, Quot.sound |
| C204 | `Tm.Alloc.C204_array_partial` | propext |
| C204 | `Tm.Alloc.C204_not_pages` | propext, Quot.sound |
| C205 | `Tm.Alloc.C205_owns_partial` | propext, Classical.choice, Quot.sound |
| C206 | `Tm.Uni.C206_total` | propext, Quot.sound |
| C206 | `Tm.Uni.C206_refused` | propext, Quot.sound |
| C207 | `Tm.Uni.C207_simple` | propext, Quot.sound |
| C207 | `Tm.Uni.C207_full` | propext, Classical.choice, Quot.sound |
| C208 | `Tm.Uni.C208_ascii_partial` | propext, Quot.sound |
| C208 | `Tm.Uni.C208_not_letters` | propext |
| C208 | `Tm.Uni.C208_not_whitespace` | propext |
| C209 | `Tm.Uni.C209_simple` | propext, Classical.choice, Quot.sound |
| C209 | `Tm.Uni.C209_full` | propext, Classical.choice, Quot.sound |
| C209 | `Tm.Uni.C209_twice` | propext, Classical.choice, Quot.sound |
| C210 | `Tm.Uni.C210_every_string` | propext, Classical.choice, Quot.sound |
| C210 | `Tm.Uni.C210_reported_partial` | propext, Classical.choice, Quot.sound |
| C210 | `Tm.Uni.C210_not_overlong` | propext, Classical.choice, Quot.sound |
| C211 | `Tm.Uni.C211_simple_partial` | propext, Classical.choice, Quot.sound |
| C211 | `Tm.Uni.C211_full_partial` | propext, Classical.choice, Quot.sound |
| C211 | `Tm.Uni.C211_not_simple` | propext, Classical.choice, Quot.sound |
| C211 | `Tm.Uni.C211_not_full` | propext, Classical.choice, Quot.sound |
| C211 | `Tm.Uni.C211_not_example` | propext |
| C212 | `Tm.Uni.C212_simple_partial` | propext, Classical.choice, Quot.sound |
| C212 | `Tm.Uni.C212_full_partial` | propext, Classical.choice, Quot.sound |
| C212 | `Tm.Uni.C212_not_simple` | propext, Classical.choice, Quot.sound |
| C212 | `Tm.Uni.C212_not_full` | propext, Classical.choice, Quot.sound |
| C212 | `Tm.Uni.C212_not_example` | propext |
| C213 | `Tm.Uni.C213_simple_partial` | propext, Classical.choice, Quot.sound |
| C213 | `Tm.Uni.C213_full_partial` | propext, Classical.choice, Quot.sound |
| C213 | `Tm.Uni.C213_not_large` | propext |
| C213 | `Tm.Uni.C213_not_letter` | propext |
| C213 | `Tm.Uni.C213_not_longer` | propext |
| C213 | `Tm.Uni.C213_not_same` | propext |
| C213 | `Tm.Uni.C213_not_ending` | propext |
| C214 | `Tm.File.C214_memory` | propext, Classical.choice, Quot.sound |
| C214 | `Tm.File.C214_exact` | propext, Classical.choice, Quot.sound |
| C214 | `Tm.File.C214_result` | propext, Classical.choice, Quot.sound |
| C215 | `Tm.File.C215_text_partial` | propext, Classical.choice, Quot.sound |
| C215 | `Tm.File.C215_refused` | propext, Classical.choice, Quot.sound |
| C215 | `Tm.File.C215_not_leaked` | propext, Quot.sound |
| C215 | `Tm.File.C215_not_freed` | propext, Quot.sound |
| C216 | `Tm.File.C216_memory` | propext, Classical.choice, Quot.sound |
| C216 | `Tm.File.C216_prefix` | propext, Classical.choice, Quot.sound |
| C216 | `Tm.File.C216_exact_partial` | propext, Classical.choice, Quot.sound |
| C216 | `Tm.File.C216_not_written` | propext, Quot.sound |
| C216 | `Tm.File.C216_succeeds` | propext, Classical.choice, Quot.sound |
| C217 | `Tm.File.C217_kept_partial` | propext, Classical.choice, Quot.sound |
| C217 | `Tm.File.C217_not_raced` | propext, Quot.sound |
| C218 | `Tm.File.C218_not_marked` | propext, Quot.sound |
| C218 | `Tm.File.C218_bytes_partial` | propext, Classical.choice, Quot.sound |
| C219 | `Tm.File.C219_atomic` | propext, Quot.sound |
| C219 | `Tm.File.C219_plain_torn` | propext, Quot.sound |
| C220 | `Tm.File.C220_memory` | propext, Classical.choice, Quot.sound |
| C220 | `Tm.File.C220_created_partial` | propext, Classical.choice, Quot.sound |
| C220 | `Tm.File.C220_not_absolute` | propext, Quot.sound |
| C220 | `Tm.File.C220_not_file` | propext, Quot.sound |
| C220 | `Tm.File.C220_not_home` | propext, Quot.sound |
| C221 | `Tm.File.C221_written_partial` | propext, Classical.choice, Quot.sound |
| C221 | `Tm.File.C221_not_tilde` | propext, Quot.sound |
| C222 | `Tm.File.C222_file` | propext |
| C222 | `Tm.File.C222_directory` | propext |
| C222 | `Tm.File.C222_failed` | propext |
| C223 | `Tm.File.C223_deleted` | propext, Classical.choice, Quot.sound |
| C223 | `Tm.File.C223_succeeds` | propext, Classical.choice, Quot.sound |
| C223 | `Tm.File.C223_not_directory` | propext, Classical.choice, Quot.sound |
| C223 | `Tm.File.C223_file_partial` | propext, Classical.choice, Quot.sound |
| C223 | `Tm.File.C223_directory` | propext, Classical.choice, Quot.sound |
| C224 | `Tm.File.C224_memory` | propext, Classical.choice, Quot.sound |
| C224 | `Tm.File.C224_moved` | propext, Classical.choice, Quot.sound |
| C224 | `Tm.File.C224_succeeds` | propext, Classical.choice, Quot.sound |
| C224 | `Tm.File.C224_guarded` | propext, Classical.choice, Quot.sound |
| C224 | `Tm.File.C224_kept_partial` | propext, Classical.choice, Quot.sound |
| C224 | `Tm.File.C224_not_kept` | propext, Classical.choice, Quot.sound |
| C224 | `Tm.File.C224_not_same` | propext, Classical.choice, Quot.sound |
| C225 | `Tm.File.C225_path_partial` | propext, Classical.choice, Quot.sound |
| C225 | `Tm.File.C225_not_room` | propext, Quot.sound |
| C226 | `Tm.File.C226_filename_partial` | propext, Classical.choice, Quot.sound |
| C226 | `Tm.File.C226_not_failed` | propext, Quot.sound |
| C226 | `Tm.File.C226_directory_partial` | propext, Classical.choice, Quot.sound |
| C227 | `Tm.File.C227_names` | propext, Classical.choice, Quot.sound |
| C227 | `Tm.File.C227_succeeds` | propext, Classical.choice, Quot.sound |
| C227 | `Tm.File.C227_types_partial` | propext, Classical.choice, Quot.sound |
| C227 | `Tm.File.C227_not_types` | propext |
| C228 | `Tm.File.C228_order_partial` | propext, Classical.choice, Quot.sound |
| C228 | `Tm.File.C228_not_order` | none |
| C229 | `Tm.File.C229_view` | propext, Classical.choice, Quot.sound |
| C229 | `Tm.File.C229_views` | propext, Classical.choice, Quot.sound |
| C230 | `Tm.File.C230_text_partial` | propext, Classical.choice, Quot.sound |
| C230 | `Tm.File.C230_not_null` | propext, Classical.choice, Quot.sound |
| C231 | `Tm.File.C231_bytes_partial` | propext, Classical.choice, Quot.sound |
| C231 | `Tm.File.C231_text_partial` | propext, Classical.choice, Quot.sound |
| C231 | `Tm.File.C231_not_marked` | propext, Quot.sound |
| C232 | `Tm.Json.C232_same` | propext, Quot.sound |
| C233 | `Tm.Json.C233_content_partial` | propext, Classical.choice, Quot.sound |
| C233 | `Tm.Json.C233_not_delimiter` | propext, Classical.choice, Quot.sound |
| C233 | `Tm.Json.C233_not_inside` | propext, Classical.choice, Quot.sound |
| C233 | `Tm.Json.C233_not_refused` | propext, Classical.choice, Quot.sound |
| C234 | `Tm.Json.C234_content_partial` | propext, Classical.choice, Quot.sound |
| C234 | `Tm.Json.C234_escapes_partial` | propext, Classical.choice, Quot.sound |
| C234 | `Tm.Json.C234_not_raw` | propext, Classical.choice, Quot.sound |
| C234 | `Tm.Json.C234_not_both` | propext, Classical.choice, Quot.sound |
| C234 | `Tm.Json.C234_not_refused` | propext, Classical.choice, Quot.sound |
| C235 | `Tm.Json.C235_name` | propext, Classical.choice, Quot.sound |
| C235 | `Tm.Json.C235_only` | propext, Classical.choice, Quot.sound |
| C236 | `Tm.Json.C236_token_partial` | propext, Classical.choice, Quot.sound |
| C236 | `Tm.Json.C236_not_three` | propext, Classical.choice, Quot.sound |
| C236 | `Tm.Json.C236_not_inside` | propext, Classical.choice, Quot.sound |
| C236 | `Tm.Json.C236_copy_partial` | propext, Classical.choice, Quot.sound |
| C236 | `Tm.Json.C236_not_unescaped` | propext, Classical.choice, Quot.sound |
| C236 | `Tm.Json.C236_not_room` | propext, Classical.choice, Quot.sound |
| C237 | `Tm.Json.C237_floats` | propext, Classical.choice, Quot.sound |
| C237 | `Tm.Json.C237_keywords` | propext, Classical.choice, Quot.sound |
| C238 | `Tm.Json.C238_block_partial` | propext, Classical.choice, Quot.sound |
| C238 | `Tm.Json.C238_not_closed` | propext, Classical.choice, Quot.sound |
| C238 | `Tm.Json.C238_python` | propext, Classical.choice, Quot.sound |
| C238 | `Tm.Json.C238_python_end` | propext, Quot.sound |
| C239 | `Tm.Json.C239_ends` | propext, Classical.choice, Quot.sound |
| C239 | `Tm.Json.C239_takes` | propext, Classical.choice, Quot.sound |
| C240 | `Tm.Xml.C240_same` | propext, Quot.sound |
| C241 | `Tm.Hash.Owned.C241_memory` | propext, Classical.choice, Quot.sound |
| C242 | `Tm.Hash.Owned.C242_memory_partial` | propext, Classical.choice, Quot.sound |
| C242 | `Tm.Hash.Owned.C242_not_grow` | propext, Quot.sound |
| C242 | `Tm.Hash.Owned.C242_not_null` | propext, Quot.sound |
| C243 | `Tm.Hash.Owned.C243_destroy_partial` | propext, Quot.sound |
| C243 | `Tm.Hash.Owned.C243_not_create` | propext |
| C244 | `Tm.Hash.Owned.C244_equals` | propext, Quot.sound |
| C244 | `Tm.Hash.Owned.C244_copy` | propext, Quot.sound |
| C245 | `Tm.Json.C245_ends` | propext, Classical.choice, Quot.sound |
| C245 | `Tm.Json.C245_allocated_ends` | propext, Classical.choice, Quot.sound |
| C246 | `Tm.Json.C246_structure` | propext, Classical.choice, Quot.sound |
| C246 | `Tm.Json.C246_memory` | propext, Classical.choice, Quot.sound |
| C247 | `Tm.Json.C247_content_partial` | propext, Classical.choice, Quot.sound |
| C247 | `Tm.Json.C247_not_strings` | propext, Classical.choice, Quot.sound |
| C247 | `Tm.Json.C247_not_numbers` | propext, Classical.choice, Quot.sound |
| C248 | `Tm.Json.C248_json_partial` | propext, Classical.choice, Quot.sound |
| C248 | `Tm.Json.C248_same_partial` | propext, Classical.choice, Quot.sound |
| C248 | `Tm.Json.C248_not_json` | propext, Classical.choice, Quot.sound |
| C249 | `Tm.Json.C249_plain_partial` | propext, Classical.choice, Quot.sound |
| C249 | `Tm.Json.C249_json_partial` | propext, Classical.choice, Quot.sound |
| C249 | `Tm.Json.C249_not_inside` | propext, Classical.choice, Quot.sound |
| C249 | `Tm.Json.C249_not_asserted` | propext, Classical.choice, Quot.sound |
| C250 | `Tm.Alloc.C250_create_partial` | propext, Classical.choice, Quot.sound |
| C250 | `Tm.Alloc.C250_destroy_partial` | propext, Classical.choice, Quot.sound |
| C250 | `Tm.Alloc.C250_destroy_null` | propext, Quot.sound |
| C250 | `Tm.Alloc.C250_create_nothing` | propext, Quot.sound |
| C250 | `Tm.Alloc.C250_not_inside` | propext, Quot.sound |
| C250 | `Tm.Alloc.C250_not_pointers` | propext, Quot.sound |
| C251 | `Tm.Alloc.C251_not_freed_twice` | propext, Classical.choice, Quot.sound |
| C251 | `Tm.Alloc.C251_owned` | propext, Classical.choice, Quot.sound |
| C251 | `Tm.Alloc.C251_all_given_back` | propext, Classical.choice, Quot.sound |
| C252 | `Tm.Alloc.C252_moved` | propext, Quot.sound |
| C252 | `Tm.Alloc.C252_self` | propext, Quot.sound |
| C252 | `Tm.Alloc.C252_without_memory` | propext, Classical.choice, Quot.sound |
| C253 | `Tm.Async.C253_all_partial` | propext, Classical.choice, Quot.sound |
| C253 | `Tm.Async.C253_not_polled` | propext, Quot.sound |
| C253 | `Tm.Async.C253_not_after_timeout` | propext |
| C254 | `Tm.Async.C254_any_partial` | propext, Classical.choice, Quot.sound |
| C255 | `Tm.Async.C255_once_partial` | propext, Classical.choice, Quot.sound |
| C255 | `Tm.Async.C255_not_once` | propext |
| C256 | `Tm.Async.C256_no_fault_partial` | propext, Classical.choice, Quot.sound |
| C256 | `Tm.Async.C256_polls_partial` | propext, Classical.choice, Quot.sound |
| C256 | `Tm.Async.C256_not_inside` | propext |
| C256 | `Tm.Async.C256_not_asserted` | propext |
| C256 | `Tm.Async.C256_not_twice` | propext |
| C257 | `Tm.Lock.C257_one_at_a_time` | propext, Classical.choice, Quot.sound |
| C257 | `Tm.Lock.C257_fault` | propext, Classical.choice, Quot.sound |
| C258 | `Tm.Lock.C258_goes_on` | propext, Classical.choice, Quot.sound |
| C259 | `Tm.Lock.C259_blocks` | propext, Classical.choice, Quot.sound |
| C260 | `Tm.Dbl.C260_same_partial` | propext, Classical.choice, Quot.sound |
| C260 | `Tm.Dbl.C260_not_small` | propext, Classical.choice, Quot.sound |
| C260 | `Tm.Dbl.C260_not_great` | propext, Classical.choice, Quot.sound |
| C260 | `Tm.Dbl.C260_not_printed` | propext, Classical.choice, Quot.sound |
| C261 | `Tm.Dbl.C261_value_partial` | propext, Classical.choice, Quot.sound |
| C261 | `Tm.Dbl.C261_not_range` | propext, Classical.choice, Quot.sound |
| C262 | `Tm.Dbl.C262_initialised` | propext, Classical.choice, Quot.sound |
| C262 | `Tm.Dbl.C262_result` | propext, Classical.choice, Quot.sound |
| C262 | `Tm.Dbl.C262_length` | propext, Classical.choice, Quot.sound |
| C263 | `Tm.Json.C263_structure` | propext, Classical.choice, Quot.sound |
| C263 | `Tm.Json.C263_memory` | propext, Classical.choice, Quot.sound |
| C264 | `Tm.Json.C264_content_partial` | propext, Classical.choice, Quot.sound |
| C264 | `Tm.Json.C264_not_strings` | propext, Classical.choice, Quot.sound |
| C265 | `Tm.Json.C265_same` | propext, Classical.choice, Quot.sound |
| C265 | `Tm.Json.C265_json` | propext, Classical.choice, Quot.sound |
| C266 | `Tm.Json.C266_nearest_partial` | propext, Classical.choice, Quot.sound |
| C266 | `Tm.Json.C266_not_long` | propext, Classical.choice, Quot.sound |
| C267 | `Tm.Json.C267_exact_partial` | propext, Classical.choice, Quot.sound |
| C267 | `Tm.Json.C267_close_partial` | propext, Classical.choice, Quot.sound |
| C267 | `Tm.Json.C267_not_nearest` | propext, Classical.choice, Quot.sound |
| C267 | `Tm.Json.C267_not_range` | propext, Classical.choice, Quot.sound |
| C268 | `Tm.Json.C268_special` | propext, Classical.choice, Quot.sound |
| C269 | `Tm.Json.C269_default_partial` | propext, Classical.choice, Quot.sound |
| C269 | `Tm.Json.C269_not_default` | propext, Classical.choice, Quot.sound |
| C270 | `Tm.Util.C270_symmetric` | propext, Classical.choice, Quot.sound |
| C270 | `Tm.Util.C270_same` | propext, Classical.choice, Quot.sound |
| C270 | `Tm.Util.C270_finite_partial` | propext, Classical.choice, Quot.sound |
| C270 | `Tm.Util.C270_not_infinite` | propext, Classical.choice, Quot.sound |
| C271 | `Tm.Util.C271_between_partial` | propext, Classical.choice, Quot.sound |
| C271 | `Tm.Util.C271_not_between` | propext, Classical.choice, Quot.sound |
| C272 | `Tm.Util.C272_between_partial` | propext, Classical.choice, Quot.sound |
| C272 | `Tm.Util.C272_not_between` | propext, Classical.choice, Quot.sound |
| C273 | `Tm.Util.C273_divide` | propext, Classical.choice, Quot.sound |
| C274 | `Tm.Util.C274_clamp` | propext, Classical.choice, Quot.sound |
| C274 | `Tm.Util.C274_special` | propext, Classical.choice, Quot.sound |
| C275 | `Tm.Util.C275_exclusive_partial` | propext, Classical.choice, Quot.sound |
| C275 | `Tm.Util.C275_not_one` | propext, Classical.choice, Quot.sound |
| C276 | `Tm.Util.C276_equal` | propext, Classical.choice, Quot.sound |
| C276 | `Tm.Util.C276_value` | propext, Classical.choice, Quot.sound |
| C276 | `Tm.Util.C276_special` | propext, Classical.choice, Quot.sound |
| C276 | `Tm.Util.C276_clamp` | propext, Classical.choice, Quot.sound |
| C277 | `Tm.Bez.C277_ends_partial` | propext, Classical.choice, Quot.sound |
| C277 | `Tm.Bez.C277_not_ends` | propext, Classical.choice, Quot.sound |
| C278 | `Tm.Pack.C278_guillotine_partial` | propext, Classical.choice, Quot.sound |
| C278 | `Tm.Pack.C278_maxRects_partial` | propext, Classical.choice, Quot.sound |
| C278 | `Tm.Pack.C278_not_maxRects` | propext, Classical.choice, Quot.sound |
| C278 | `Tm.Pack.C278_not_faultless` | propext, Classical.choice, Quot.sound |
