# Axioms of each theorem of MANIFEST.json

As printed by `#print axioms`, regenerated after each change.

| theorem | axioms |
|---|---|
| Props.C01_base64_roundtrip | propext, Classical.choice, Quot.sound |
| Props.C02_base64_is_rfc4648 | propext, Classical.choice, Quot.sound |
| Props.C03_output | propext, Classical.choice, Quot.sound |
| Props.C03_output_chunk_invariant | propext, Classical.choice, Quot.sound |
| Props.C03_whitespace | propext, Classical.choice, Quot.sound |
| Props.C03_status_one_call | propext, Quot.sound |
| Props.C03_garbage_rejected | propext, Quot.sound |
| Props.C03_accepts | propext, Quot.sound |
| Props.C03_status_chunk_dependent_fails | propext |
| Props.C03_incomplete_reported | propext, Classical.choice, Quot.sound |
| Props.C04_hex_encodes | propext, Quot.sound |
| Props.C04_hex_roundtrip | propext, Classical.choice, Quot.sound |
| Props.C04_hex_decodes | propext, Classical.choice, Quot.sound |
| Props.C04_hex_odd_reported | propext, Classical.choice, Quot.sound |
| Props.C05_backslash_roundtrip_partial | propext, Quot.sound |
| Props.C05_backslash_printable | propext, Quot.sound |
| Props.C05_decoder_chunk_invariant | propext, Quot.sound |
| Props.C05_backslash_roundtrip_fails | propext |
| Props.C06_inactive_forever | propext, Quot.sound |
| Props.C06_finish_at_most_once | propext, Classical.choice, Quot.sound |
| Props.C06_reset_like_new | propext |
| Props.C06_reset_unsupported | propext, Quot.sound |
| Props.C06_reset_chain | propext |
| Props.C07_xor_spec | propext, Classical.choice, Quot.sound |
| Props.C07_xor_involution | propext, Classical.choice, Quot.sound |
| Props.C08_ctr_spec | propext, Classical.choice, Quot.sound |
| Props.C08_ctr_involution | propext, Classical.choice, Quot.sound |
| Props.C08_counter_no_repeat | propext, Classical.choice, Quot.sound |
| Props.C09_chain_composes | propext, Quot.sound |
| Props.C09_encoders_then_decoders | propext, Classical.choice, Quot.sound |
| Props.C09_finish_reports | propext |
| Props.C09_passthrough_counts | propext, Quot.sound |
| Props.C10_buffers_are_queues_partial | propext, Classical.choice, Quot.sound |
| Props.C10_dynamic_peek_across_pieces_fails | propext, Quot.sound |
| Props.C10_circular_normalize | propext, Classical.choice, Quot.sound |
| Props.C10_inplace_peek_checked | propext, Quot.sound |
| Props.C10_dynamic_peek_behind_fails | propext, Quot.sound |
| Props.C10_circular_poke_behind_past_end_fails | propext, Quot.sound |
| Props.C10_circular_empty_memory_fails | propext, Quot.sound |
| Props.C11_unget_restores | propext, Classical.choice, Quot.sound |
| Props.C11_get_unget | propext, Classical.choice, Quot.sound |
| Props.C12_merge_conserves | propext, Classical.choice, Quot.sound |
| Props.C12_merge_after_peek_behind_fails | propext, Quot.sound |
| Props.C13_bounded_fifo | propext, Classical.choice, Quot.sound |
| Props.C14_every_schedule | propext, Quot.sound |
| Props.C14_nothing_lost | propext, Quot.sound |
| Props.C14_put_fills | propext, Quot.sound |
| Props.C15_unescape_escape | propext, Classical.choice, Quot.sound |
| Props.C15_escape_size | propext, Quot.sound |
| Props.C15_getword_escape | propext, Classical.choice, Quot.sound |
| Props.C15_getword_takes_prefix | propext, Quot.sound |
| Props.C15_getword_unescape_defined | propext, Classical.choice, Quot.sound |
| Props.C15_unescape_total_fails | none |
| Props.C15_quoted_words_fails | propext, Classical.choice, Quot.sound |
| Props.C16_list_roundtrip_partial | propext, Classical.choice, Quot.sound |
| Props.C16_list_last_word_lost | propext, Classical.choice, Quot.sound |
| Props.C16_list_roundtrip_fails | propext, Classical.choice, Quot.sound |
| Props.C17_scatter_hash_partial | propext, Classical.choice, Quot.sound |
| Props.C17_few_adds_partial | propext, Classical.choice, Quot.sound |
| Props.C17_find_added_partial | propext, Classical.choice, Quot.sound |
| Props.C17_probing_ends_fails | propext, Quot.sound |
| Props.C18_dictionary | propext, Classical.choice, Quot.sound |
| Props.C18_find | propext, Classical.choice, Quot.sound |
| Props.C19_parse_printable | propext, Classical.choice, Quot.sound |
| Props.C19_printable | propext, Classical.choice, Quot.sound |
| Props.C19_parse_same | propext, Classical.choice, Quot.sound |
| Props.C19_join_text | propext, Classical.choice, Quot.sound |
| Props.C19_join_assoc | propext, Classical.choice, Quot.sound |
| Props.C19_join_empty | propext, Classical.choice, Quot.sound |
| Props.C19_join_right_unit_fails | propext, Classical.choice, Quot.sound |
| Props.C19_range | propext, Classical.choice, Quot.sound |
| Props.C19_range_join | propext, Classical.choice, Quot.sound |
| Props.C19_first_removefirst | propext, Classical.choice, Quot.sound |
| Props.C19_removelast_last | propext, Classical.choice, Quot.sound |
| Props.C19_pop | propext, Classical.choice, Quot.sound |
| Props.C19_append_prepend | propext, Classical.choice, Quot.sound |
| Props.C19_append_fails | propext, Classical.choice, Quot.sound |
| Props.C19_numsegments_partial | propext, Classical.choice, Quot.sound |
| Props.C19_numsegments_fails | propext, Classical.choice, Quot.sound |
| Props.C20_order | propext, Classical.choice, Quot.sound |
| Props.C20_total_order | propext, Classical.choice, Quot.sound |
| Props.C20_hash | propext, Classical.choice, Quot.sound |
| Props.C20_suborsame | propext, Classical.choice, Quot.sound |
| Props.C20_subkey_join | propext, Classical.choice, Quot.sound |
| Props.C20_join_subkey | propext, Classical.choice, Quot.sound |
| Props.C21_matches_sound | propext, Classical.choice, Quot.sound |
| Props.C21_matches_partial | propext, Classical.choice, Quot.sound |
| Props.C21_matches_fails | propext, Classical.choice, Quot.sound |
| Props.C22_get | propext, Classical.choice, Quot.sound |
| Props.C22_exists | propext, Classical.choice, Quot.sound |
| Props.C22_haschildren | propext, Classical.choice, Quot.sound |
| Props.C22_iterator | propext, Classical.choice, Quot.sound |
| Props.C23_mirror | propext, Classical.choice, Quot.sound |
| Props.C23_exact | propext, Classical.choice, Quot.sound |
| Props.C23_silent | propext, Classical.choice, Quot.sound |
| Props.C23_delivered | propext, Classical.choice, Quot.sound |
| Props.C24_deliveries | propext, Classical.choice, Quot.sound |
| Props.C24_reentrant | propext, Quot.sound |
| Props.C24_unhold_checked | propext, Quot.sound |
| Props.C25_readonly_partial | propext |
| Props.C25_readonly_reads | none |
| Props.C25_readonly_setv_fails | none |
| Props.C25_subtree_partial | propext, Classical.choice, Quot.sound |
| Props.C25_subtree_setv_fails | none |
| Props.C25_subtree_slash_fails | none |
| Props.C25_secure_get | propext, Classical.choice, Quot.sound |
| Props.C25_secure_set | propext, Classical.choice, Quot.sound |
| Props.C25_secure_exists | propext, Classical.choice, Quot.sound |
| Props.C25_secure_haschildren | propext, Classical.choice, Quot.sound |
| Props.C25_secure_iterator | propext, Classical.choice, Quot.sound |
| Props.C25_secure_setv_fails | propext, Classical.choice, Quot.sound |
| Props.C26_reads | propext, Classical.choice, Quot.sound |
| Props.C26_get | propext, Quot.sound |
| Props.C26_set | propext, Quot.sound |
| Props.C26_setv | propext, Quot.sound |
| Props.C26_set_get | propext, Classical.choice, Quot.sound |
| Props.C27_routes | propext, Classical.choice, Quot.sound |
| Props.C27_nowhere | propext, Classical.choice, Quot.sound |
| Props.C27_longest_partial | propext, Quot.sound |
| Props.C27_longest_fails | propext, Quot.sound |
| Props.C27_slash_fails | propext, Quot.sound |
| Props.C27_mounts | propext, Quot.sound |
| Props.C27_tidy | propext |
| Props.C27_unmount_fails | propext |
| Props.C27_mountpoint | propext, Classical.choice, Quot.sound |
| Props.C27_setv | propext, Classical.choice, Quot.sound |
| Props.C27_commit | propext, Quot.sound |
| Props.C27_refresh | propext, Quot.sound |
| Props.C27_exists_fails | none |
| Props.C27_refresh_fails | propext |
| Props.C27_iterator_value_fails | propext |
| Props.C27_notify_fails | none |
| Props.C27_notify | propext, Classical.choice, Quot.sound |
| Props.C28_transactions_partial | propext, Classical.choice, Quot.sound |
| Props.C28_isolated | propext |
| Props.C28_get_slash_fails | propext, Quot.sound |
| Props.C28_set_slash_fails | propext, Quot.sound |
| Props.C28_commit_slash_fails | propext |
| Props.C29_in_order | propext, Classical.choice, Quot.sound |
| Props.C29_prefix_partial | propext, Classical.choice, Quot.sound |
| Props.C29_count | propext, Classical.choice, Quot.sound |
| Props.C29_flush | propext, Classical.choice, Quot.sound |
| Props.C29_flush_all | propext, Classical.choice, Quot.sound |
| Props.C29_limit | propext, Classical.choice, Quot.sound |
| Props.C29_limit_fails | none |
| Props.C29_gap_fails | propext, Quot.sound |
| Props.C30_queue | propext, Classical.choice, Quot.sound |
| Props.C30_order | propext, Classical.choice, Quot.sound |
| Props.C30_read | propext, Classical.choice, Quot.sound |
| Props.C30_queuemin | propext, Classical.choice, Quot.sound |
| Props.C30_getline | propext, Classical.choice, Quot.sound |
| Props.C31_dead | propext, Classical.choice, Quot.sound |
| Props.C31_close | propext, Classical.choice, Quot.sound |
| Props.C31_seterr | propext, Classical.choice, Quot.sound |
| Props.C31_once | propext, Classical.choice, Quot.sound |
| Props.C31_set | propext, Quot.sound |
| Props.C32_print_unsigned | propext, Classical.choice, Quot.sound |
| Props.C32_print_signed_partial | propext, Classical.choice, Quot.sound |
| Props.C32_print_smallest_short_fails | propext, Quot.sound |
| Props.C32_print_smallest_undefined | propext, Quot.sound |
| Props.C32_print_fits | propext, Classical.choice, Quot.sound |
| Props.C32_parse_signed_partial | propext, Classical.choice, Quot.sound |
| Props.C32_parse_unsigned | propext, Classical.choice, Quot.sound |
| Props.C32_num | propext, Classical.choice, Quot.sound |
| Props.C32_is_int | propext, Classical.choice, Quot.sound |
| Props.C32_parse_only_numbers_fails | none |
| Props.C32_parse_accepts_only | propext, Classical.choice, Quot.sound |
| Props.C32_parse_accepts_only_unsigned | propext, Classical.choice, Quot.sound |
| Props.C32_is_int_exact | propext, Classical.choice, Quot.sound |
| Props.C33_url_roundtrip | propext, Classical.choice, Quot.sound |
| Props.C33_url_roundtrip_unsafe | propext, Classical.choice, Quot.sound |
| Props.C33_url_roundtrip_any_set_fails | propext, Quot.sound |
| Props.C33_url_safe_output | propext, Quot.sound |
| Props.C34_cstr_roundtrip | propext, Classical.choice, Quot.sound |
| Props.C34_cstr_roundtrip_one | propext, Classical.choice, Quot.sound |
| Props.C34_cstr_memory | propext, Classical.choice, Quot.sound |
| Props.C34_tclstr_no_braces | propext, Quot.sound |
| Props.C34_escape_printable | propext, Classical.choice, Quot.sound |
| Props.C35_splitstrict_pieces | propext, Quot.sound |
| Props.C35_join_spec | propext |
| Props.C35_join_size | propext, Quot.sound |
| Props.C35_splitstrict_join | propext, Quot.sound |
| Props.C35_join_splitstrict | propext, Quot.sound |
| Props.C35_splitstrict_limit | propext, Quot.sound |
| Props.C35_split_words | propext, Quot.sound |
| Props.C35_split_only_words_fails | none |
| Props.C35_split_limit | propext, Classical.choice, Quot.sound |
| Props.C36_normalize_partial | propext, Classical.choice, Quot.sound |
| Props.C36_normalize_fails | none |
| Props.C36_msecadd | propext, Classical.choice, Quot.sound |
| Props.C36_tvdiff | propext, Classical.choice, Quot.sound |
| Props.C36_msecdiff_partial | propext, Classical.choice, Quot.sound |
| Props.C36_msecdiff_truncates_fails | none |
| Props.C36_micro_roundtrip | propext, Quot.sound |
| Props.C36_sync_forward | propext, Quot.sound |
| Props.C37_ver_roundtrip | propext, Classical.choice, Quot.sound |
| Props.C37_ver_fits | propext, Classical.choice, Quot.sound |
| Props.C38_print | propext, Classical.choice, Quot.sound |
| Props.C38_roundtrip | propext, Classical.choice, Quot.sound |
| Props.C38_bitwise | propext, Classical.choice, Quot.sound |
| Props.C38_add | propext, Classical.choice, Quot.sound |
| Props.C38_add_sub | propext, Classical.choice, Quot.sound |
| Props.C38_port_roundtrip | propext, Classical.choice, Quot.sound |
| Props.C38_equality | propext, Classical.choice, Quot.sound |
| Props.C38_equality_fails | propext |
| Props.C38_hash_fails | propext, Quot.sound |
| Props.C39_includes | propext, Classical.choice, Quot.sound |
| Props.C39_include | propext, Classical.choice, Quot.sound |
| Props.C39_mask | propext, Classical.choice, Quot.sound |
| Props.C39_normalize_partial | propext, Classical.choice, Quot.sound |
| Props.C39_roundtrip | propext, Classical.choice, Quot.sound |
| Props.C39_ends | propext, Classical.choice, Quot.sound |
| Props.C39_bits_fails | propext, Quot.sound |
| Props.C39_normalize_fails | propext, Quot.sound |
| Props.C39_mask_fails | propext, Quot.sound |
| Props.C40_scalar_bytes | propext, Classical.choice, Quot.sound |
| Props.C40_scalar | propext, Classical.choice, Quot.sound |
| Props.C40_truncated | propext |
| Props.C40_scalar_read | propext, Classical.choice, Quot.sound |
| Props.C40_string_partial | propext, Quot.sound |
| Props.C40_values_partial | propext, Classical.choice, Quot.sound |
| Props.C40_format | propext, Classical.choice, Quot.sound |
| Props.C40_injective | propext, Classical.choice, Quot.sound |
| Props.C40_null_fails | propext, Quot.sound |
| Props.C40_unterminated_fails | propext |
| Props.C40_unterminated | propext |
| Props.C40_long_fails | propext, Quot.sound |
| Props.C40_buffer_fails | propext |
| Props.C41_map | propext, Classical.choice, Quot.sound |
| Props.C41_memory | propext, Classical.choice, Quot.sound |
| Props.C41_copy | propext, Classical.choice, Quot.sound |
| Props.C41_null_fails | propext |
| Props.C42_crash | propext, Quot.sound |
| Props.C42_others | propext, Quot.sound |
| Props.C42_sessions | propext, Quot.sound |
| Props.C42_atomic_partial | propext, Classical.choice, Quot.sound |
| Props.C42_write_error_fails | propext |
| Props.C42_power_fails | none |
| Props.C43_exclusive_partial | propext, Quot.sound |
| Props.C43_available | propext, Quot.sound |
| Props.C43_blank_fails | propext, Quot.sound |
| Props.C43_missing_fails | propext, Quot.sound |
| Props.C43_stale_fails | propext, Quot.sound |
| Props.C43_unlock_fails | propext, Quot.sound |
| Props.C44_limit | propext, Classical.choice, Quot.sound |
| Props.C44_order | propext, Classical.choice, Quot.sound |
| Props.C44_sync | propext, Classical.choice, Quot.sound |
| Props.C44_running | propext, Classical.choice, Quot.sound |
| Props.C44_starts | propext, Classical.choice, Quot.sound |
| Props.C44_request | propext, Classical.choice, Quot.sound |
| Props.C44_redo_order_fails | none |
| Props.C44_twice_fails | none |
| Props.C45_width | propext, Classical.choice, Quot.sound |
| Props.C45_line_in_bounds | propext, Classical.choice, Quot.sound |
| Props.C45_words_kept | propext, Classical.choice, Quot.sound |
| Props.C45_zero_width_fails | none |
| Props.C46_keeps | propext, Classical.choice, Quot.sound |
| Props.C46_last | propext, Classical.choice, Quot.sound |
| Props.C46_feed_fails | propext, Classical.choice, Quot.sound |
| Props.C47_hash_ignores_case | propext, Quot.sound |
| Props.C47_hash_empty | propext, Quot.sound |
| Props.C48_stack | propext, Classical.choice, Quot.sound |
| Props.C48_newest_partial | propext, Classical.choice, Quot.sound |
| Props.C48_no_override | propext, Classical.choice, Quot.sound |
| Props.C48_registry | propext, Classical.choice, Quot.sound |
| Props.C48_newest_fails | propext, Classical.choice, Quot.sound |
| Props.C48_rest_fails | propext |
| Props.C49_roundtrip_partial | propext, Classical.choice, Quot.sound |
| Props.C49_values_partial | propext, Classical.choice, Quot.sound |
| Props.C49_plain_value | propext, Classical.choice, Quot.sound |
| Props.C49_backslash_fails | propext |
| Props.C49_braces_fails | propext |
| Props.C49_quotes_fails | propext |
| Props.C49_quote_fails | propext |
| Props.C49_injection_fails | propext |
| Props.C49_space_fails | propext |
| Props.C49_empty_fails | propext |
| Props.C50_messages | propext, Classical.choice, Quot.sound |
| Props.C50_framing_partial | propext, Classical.choice, Quot.sound |
| Props.C50_any_case | propext, Classical.choice, Quot.sound |
| Props.C50_newline_fails | propext, Classical.choice, Quot.sound |
| Props.C50_cut_fails | propext, Quot.sound |
| Props.C50_reply_fails | propext, Classical.choice, Quot.sound |
| Props.C51_list_is_sequence | propext, Classical.choice, Quot.sound |
| Props.C51_append_last | propext, Classical.choice, Quot.sound |
| Props.C51_find_next_fails | propext, Classical.choice, Quot.sound |
| Props.C52_calls | propext, Quot.sound |
| Props.C52_all_called | propext, Quot.sound |
| Props.C52_at_most_once | propext, Quot.sound |
| Props.C52_exactly | propext, Quot.sound |
| Props.C52_ready | propext, Quot.sound |
| Props.C52_pruned_partial | propext, Classical.choice, Quot.sound |
| Props.C52_prepend_fails | propext |
| Props.C52_twice_fails | propext |
| Props.C53_calls_partial | propext, Classical.choice, Quot.sound |
| Props.C53_watch_partial | propext, Classical.choice, Quot.sound |
| Props.C53_set | propext, Classical.choice, Quot.sound |
| Props.C53_destructor | propext, Classical.choice, Quot.sound |
| Props.C53_forgotten | propext, Classical.choice, Quot.sound |
| Props.C53_mounted_fails | none |
| Props.C53_changed_fails | propext, Quot.sound |
| Props.C53_once_fails | propext |
| Props.C54_preorder | propext, Classical.choice, Quot.sound |
| Props.C54_complete | propext, Classical.choice, Quot.sound |
| Props.C54_temp | propext, Classical.choice, Quot.sound |
| Props.C55_sound | propext, Classical.choice, Quot.sound |
| Props.C55_patterns_partial | propext, Classical.choice, Quot.sound |
| Props.C55_temp_partial | propext, Classical.choice, Quot.sound |
| Props.C55_here_fails | propext, Classical.choice, Quot.sound |
| Props.C55_once_fails | propext, Classical.choice, Quot.sound |
| Props.C56_linearizable_partial | propext, Classical.choice, Quot.sound |
| Props.C56_order | propext, Quot.sound |
| Props.C56_answered_partial | propext, Classical.choice, Quot.sound |
| Props.C56_setv_fails | propext, Classical.choice, Quot.sound |
| Props.C56_set_fails | propext, Quot.sound |
| Props.C56_get_fails | propext, Quot.sound |
| Props.C56_remove_space_fails | propext, Quot.sound |
| Props.C56_remove_dot_fails | propext, Quot.sound |
| Props.C56_iterator_fails | propext, Quot.sound |
| Props.C57_values_partial | propext, Classical.choice, Quot.sound |
| Props.C57_coherent_partial | propext, Classical.choice, Quot.sound |
| Props.C57_temp | propext, Classical.choice, Quot.sound |
| Props.C57_empty_fails | propext |
| Props.C57_root_fails | propext |
| Props.C57_refresh_fails | propext |
| Props.C58_get | propext, Classical.choice, Quot.sound |
| Props.C58_exists | propext, Classical.choice, Quot.sound |
| Props.C58_haschildren | propext, Classical.choice, Quot.sound |
| Props.C58_once | propext, Classical.choice, Quot.sound |
| Props.C59_copies_partial | propext, Classical.choice, Quot.sound |
| Props.C59_get_partial | propext, Classical.choice, Quot.sound |
| Props.C59_set_partial | propext, Classical.choice, Quot.sound |
| Props.C59_same_partial | propext, Classical.choice, Quot.sound |
| Props.C59_iterator_partial | propext, Classical.choice, Quot.sound |
| Props.C59_tidy | propext, Classical.choice, Quot.sound |
| Props.C59_append_partial | propext, Classical.choice, Quot.sound |
| Props.C59_prepend_partial | propext, Classical.choice, Quot.sound |
| Props.C59_temp | propext, Classical.choice, Quot.sound |
| Props.C59_root_fails | propext |
| Props.C59_isok_fails | propext |
| Props.C59_change_fails | propext |
| Props.C59_unseen_fails | propext |
| Props.C59_removed_returns | propext |
| Props.C60_best_unique | propext |
| Props.C60_best_exists | propext, Classical.choice, Quot.sound |
| Props.C60_get_plain | propext, Classical.choice, Quot.sound |
| Props.C60_get_reference | propext, Classical.choice, Quot.sound |
| Props.C60_get_decimal | propext, Classical.choice, Quot.sound |
| Props.C60_get_none | propext, Classical.choice, Quot.sound |
| Props.C60_get_root | propext, Classical.choice, Quot.sound |
| Props.C60_exists | propext, Classical.choice, Quot.sound |
| Props.C60_haschildren | propext, Classical.choice, Quot.sound |
| Props.C60_iterator | propext, Classical.choice, Quot.sound |
| Props.C60_defined | propext, Classical.choice, Quot.sound |
| Props.C60_set_get | propext, Classical.choice, Quot.sound |
| Props.C60_root_hidden | propext |
| Props.C60_slash_answered | propext |
| Props.C60_reference_lost | propext |
| Props.C60_number_undefined | propext |
| Props.C61_format_partial | propext, Classical.choice, Quot.sound |
| Props.C61_literal | propext, Classical.choice, Quot.sound |
| Props.C61_append | propext, Classical.choice, Quot.sound |
| Props.C61_overflow | propext, Classical.choice, Quot.sound |
| Props.C61_fits | propext, Classical.choice, Quot.sound |
| Props.C61_documented_example_fails | propext, Classical.choice, Quot.sound |
| Props.C61_blank_character_fails | propext, Classical.choice, Quot.sound |
| Props.C61_precision_after_number_fails | propext, Classical.choice, Quot.sound |
| Props.C62_values_partial | propext, Classical.choice, Quot.sound |
| Props.C62_no_leak_partial | propext, Classical.choice, Quot.sound |
| Props.C62_copy_shares_partial | propext, Classical.choice, Quot.sound |
| Props.C62_offset_tail_fails | propext |
| Props.C62_neighbour_fails | propext, Quot.sound |
| Props.C63_values_partial | propext, Classical.choice, Quot.sound |
| Props.C63_no_leak_partial | propext, Classical.choice, Quot.sound |
| Props.C63_shares | propext, Quot.sound |
| Props.C63_same_as_values | propext, Classical.choice, Quot.sound |
| Props.C63_append_fails | propext |
| Props.C63_prepend_fails | propext |
| Props.C63_self_assign_fails | propext, Classical.choice, Quot.sound |
| Props.C63_self_append_fails | propext |
| Props.C63_prepend_empty_segment_fails | propext |
| Props.C64_match_partial | propext, Quot.sound |
| Props.C64_errors | propext, Quot.sound |
| Props.C64_enough_steps | propext, Classical.choice, Quot.sound |
| Props.C64_slash_fails | propext, Quot.sound |
| Props.C64_caret_fails | propext, Quot.sound |
| Props.C64_bracket_fails | propext |
| Props.C65_coroutines | propext, Classical.choice, Quot.sound |
| Props.C65_asserts | propext, Classical.choice, Quot.sound |
| Props.C65_lives | propext, Classical.choice, Quot.sound |
| Props.C66_answers_partial | propext, Classical.choice, Quot.sound |
| Props.C66_completes_partial | propext, Classical.choice, Quot.sound |
| Props.C66_truncated_fails | propext |
| Props.C66_colon_fails | propext |
| Props.C66_peek_fails | propext |
| Props.C67_routing_partial | propext, Classical.choice, Quot.sound |
| Props.C67_nothing_else | propext, Classical.choice, Quot.sound |
| Props.C67_answered_partial | propext, Classical.choice, Quot.sound |
| Props.C67_way_back_partial | propext, Classical.choice, Quot.sound |
| Props.C67_stops_exactly | propext, Classical.choice, Quot.sound |
| Props.C67_release_fails | propext, Classical.choice, Quot.sound |
| Props.C67_hijack_fails | propext, Classical.choice, Quot.sound |
| Props.C67_sender_fails | propext, Classical.choice, Quot.sound |
| Props.C67_lost_fails | propext, Classical.choice, Quot.sound |
| Props.C68_once_partial | propext, Classical.choice, Quot.sound |
| Props.C68_answered_partial | propext, Classical.choice, Quot.sound |
| Props.C68_filters | propext, Classical.choice, Quot.sound |
| Props.C68_stops_exactly | propext, Classical.choice, Quot.sound |
| Props.C68_timeout_fails | propext |
| Props.C68_resend_fails | propext |
| Props.C68_wait_fails | propext |
| Props.C68_close_fails | propext |
| Props.C69_parse_partial | propext, Classical.choice, Quot.sound |
| Props.C69_reparse_partial | propext, Classical.choice, Quot.sound |
| Props.C69_at_fails | propext, Classical.choice, Quot.sound |
| Props.C69_file_fails | propext, Classical.choice, Quot.sound |
| Props.C69_short_fails | propext, Classical.choice, Quot.sound |
| Props.C69_protocol_fails | propext, Classical.choice, Quot.sound |
| Props.C69_port_fails | propext, Classical.choice, Quot.sound |
| Props.C69_password_fails | propext, Classical.choice, Quot.sound |
| Props.C69_noname_fails | propext, Classical.choice, Quot.sound |
| Props.C69_feed_fails | propext, Classical.choice, Quot.sound |
| Props.C70_read_partial | propext, Quot.sound |
| Props.C70_write_partial | propext, Quot.sound |
| Props.C70_flush | propext, Quot.sound |
| Props.C70_queuemin_fails | propext, Classical.choice, Quot.sound |
| Props.C70_eof_fails | propext, Classical.choice, Quot.sound |
| Props.C70_limit_fails | propext, Classical.choice, Quot.sound |
| Props.C70_nowrite_fails | propext, Classical.choice, Quot.sound |
| Props.C70_order_fails | propext, Classical.choice, Quot.sound |
| Props.C71_tree_partial | propext, Classical.choice, Quot.sound |
| Props.C71_confined_partial | propext, Classical.choice, Quot.sound |
| Props.C71_null_fails | propext, Classical.choice, Quot.sound |
| Props.C71_case_fails | propext, Classical.choice, Quot.sound |
| Props.C71_link_fails | propext, Classical.choice, Quot.sound |
| Props.C72_values_partial | propext, Classical.choice, Quot.sound |
| Props.C72_get | propext, Classical.choice, Quot.sound |
| Props.C72_fuzzy_partial | propext, Classical.choice, Quot.sound |
| Props.C72_callbacks | propext, Classical.choice, Quot.sound |
| Props.C72_saved_partial | propext, Classical.choice, Quot.sound |
| Props.C72_flush | propext, Classical.choice, Quot.sound |
| Props.C72_crash_partial | propext, Classical.choice, Quot.sound |
| Props.C72_error_keeps | propext, Classical.choice, Quot.sound |
| Props.C72_unwritable | propext, Classical.choice, Quot.sound |
| Props.C72_append | propext, Classical.choice, Quot.sound |
| Props.C72_trim_fails | propext, Classical.choice, Quot.sound |
| Props.C72_empty_fails | propext, Classical.choice, Quot.sound |
| Props.C72_twice_fails | propext, Classical.choice, Quot.sound |
| Props.C72_fuzzy_fails | propext, Classical.choice, Quot.sound |
| Props.C72_names_fails | propext, Classical.choice, Quot.sound |
| Props.C72_nodir_fails | propext, Classical.choice, Quot.sound |
| Props.C72_window_fails | propext, Classical.choice, Quot.sound |
| Props.C72_stuck_fails | propext, Classical.choice, Quot.sound |
| Props.C73_sent_partial | propext, Classical.choice, Quot.sound |
| Props.C73_flush | propext, Classical.choice, Quot.sound |
| Props.C73_received | propext, Quot.sound |
| Props.C73_ready | propext, Classical.choice, Quot.sound |
| Props.C73_verified | propext, Quot.sound |
| Props.C73_delay_fails | propext |
| Props.C73_limit_fails | propext |
| Props.C73_close_fails | propext, Quot.sound |
| Props.C73_early_fails | propext |
| Props.C73_zero_fails | propext |
| Props.C73_nowrite_fails | propext |
| Props.C74_console | propext, Quot.sound |
| Props.C74_force | propext, Quot.sound |
| Props.C74_rules | propext, Classical.choice, Quot.sound |
| Props.C74_bad_rules | propext, Classical.choice, Quot.sound |
| Props.C74_space_fails | propext |
| Props.C74_overlap_fails | propext |
| Props.C74_heard | propext, Classical.choice, Quot.sound |
| Props.C74_fork_fails | none |
| Props.C75_size_partial | propext, Classical.choice, Quot.sound |
| Props.C75_size_iec_partial | propext, Classical.choice, Quot.sound |
| Props.C75_kilobytes_partial | propext, Classical.choice, Quot.sound |
| Props.C75_size_fails | propext, Classical.choice, Quot.sound |
| Props.C75_duration | propext, Classical.choice, Quot.sound |
| Props.C75_grouped_partial | propext, Classical.choice, Quot.sound |
| Props.C75_zero_fails | none |
| Props.C76_replace | propext, Classical.choice, Quot.sound |
| Props.C76_replace_same | propext, Classical.choice, Quot.sound |
| Props.C76_replace_empty_fails | none |
| Props.C76_undupe | propext, Classical.choice, Quot.sound |
| Props.C76_around | propext, Quot.sound |
| Props.C76_around_empty_fails | propext |
| Props.C76_substr_partial | propext, Quot.sound |
| Props.C76_substr_fails | none |
| Props.C76_spacecat_partial | propext, Classical.choice, Quot.sound |
| Props.C76_spacecat_fails | propext, Classical.choice, Quot.sound |
| Props.C76_path | propext, Classical.choice, Quot.sound |
| Props.C76_path_root_fails | propext, Quot.sound |
| Props.C76_depunctuate_partial | propext |
| Props.C76_depunctuate_fails | none |
| Props.C76_backslash | propext, Quot.sound |
| Props.C76_strcount_partial | propext, Quot.sound |
| Props.C76_strcount_fails | none |
| Props.C76_lookup | propext, Quot.sound |
| Props.C76_in_place | propext, Quot.sound |
| Props.C76_hexdump | propext, Classical.choice, Quot.sound |
| Props.C76_hostname | propext, Classical.choice, Quot.sound |
| Props.C76_hostname_text | propext, Classical.choice, Quot.sound |
| Props.C76_distinguished | propext, Quot.sound |
| Props.C77_alarm_partial | propext, Classical.choice, Quot.sound |
| Props.C77_alarm_fails | none |
| Props.C77_no_alarm | propext, Quot.sound |
| Props.C77_alarm_wait | propext, Classical.choice, Quot.sound |
| Props.C77_tick_rate | propext, Classical.choice, Quot.sound |
| Props.C77_tick_steady_partial | propext, Classical.choice, Quot.sound |
| Props.C77_tick_lost_fails | propext |
| Props.C77_tick_dropped_partial | propext, Classical.choice, Quot.sound |
| Props.C77_tick_dropped_fails | none |
| Props.C77_tick_compensate_fails | none |
| Props.C77_tick_clock | propext, Classical.choice, Quot.sound |
| Props.C77_tick_wait | propext, Classical.choice, Quot.sound |
| Props.C77_tick_off | propext, Quot.sound |
| Props.C77_daily_next_partial | propext, Classical.choice, Quot.sound |
| Props.C77_daily_even_partial | propext, Classical.choice, Quot.sound |
| Props.C77_daily_new_partial | propext, Classical.choice, Quot.sound |
| Props.C77_daily_configure_partial | propext, Classical.choice, Quot.sound |
| Props.C77_daily_not_early | propext, Quot.sound |
| Props.C77_daily_rings | propext, Quot.sound |
| Props.C77_daily_even_fails | none |
| Props.C77_daily_wait_fails | none |
| Props.C77_daily_once_fails | none |
| Props.C77_daily_again_fails | none |
| Props.C77_daily_zero_fails | none |
| Props.C77_resample_partial | propext, Quot.sound |
| Props.C77_rate_new | propext, Quot.sound |
| Props.C77_rate_estimate | propext, Classical.choice, Quot.sound |
| Props.C77_rate_forgets | propext, Classical.choice, Quot.sound |
| Props.C77_resample_fails | none |
| Props.C78_walk | propext, Classical.choice, Quot.sound |
| Props.C78_end | propext, Classical.choice, Quot.sound |
| Props.C78_unreadable | propext, Quot.sound |
| Props.C78_root_fails | propext |
| Props.C78_same_device_partial | propext, Classical.choice, Quot.sound |
| Props.C78_same_device_fails | propext |
| Props.C78_rewind_partial | propext, Classical.choice, Quot.sound |
| Props.C78_rewind_names | propext, Classical.choice, Quot.sound |
| Props.C78_rewind_fails | propext |
| Props.C78_up_where | propext, Quot.sound |
| Props.C78_up_partial | propext, Classical.choice, Quot.sound |
| Props.C78_up_fails | propext |
| Props.C78_up_top | propext |
| Props.C79_copy_partial | propext, Classical.choice, Quot.sound |
| Props.C79_copy_keep | propext, Classical.choice, Quot.sound |
| Props.C79_copy_missing | propext, Classical.choice, Quot.sound |
| Props.C79_copy_two_partial | propext, Classical.choice, Quot.sound |
| Props.C79_move | propext, Classical.choice, Quot.sound |
| Props.C79_move_missing | propext, Classical.choice, Quot.sound |
| Props.C79_move_above | propext, Classical.choice, Quot.sound |
| Props.C79_copy_keep_fails | propext, Quot.sound |
| Props.C79_copy_missing_fails | propext, Quot.sound |
| Props.C79_move_fails | propext, Quot.sound |
| Props.C80_number_partial | propext, Classical.choice, Quot.sound |
| Props.C80_number_fails | propext, Classical.choice, Quot.sound |
| Props.C80_yes | propext, Classical.choice, Quot.sound |
| Props.C80_no | propext, Classical.choice, Quot.sound |
| Props.C80_default | propext, Classical.choice, Quot.sound |
| Props.C80_roundtrip_partial | propext, Classical.choice, Quot.sound |
| Props.C80_octal | propext, Classical.choice, Quot.sound |
| Props.C81_values | propext, Classical.choice, Quot.sound |
| Props.C81_fuzzy | propext, Classical.choice, Quot.sound |
| Props.C81_request | propext, Quot.sound |
| Props.C81_request_error | propext, Classical.choice, Quot.sound |
| Props.C81_raw | propext, Classical.choice, Quot.sound |
| Props.C81_clean_partial | propext |
| Props.C81_load | propext, Classical.choice, Quot.sound |
| Props.C81_values_fails | propext |
| Props.C81_maybeset_fails | propext |
| Props.C81_request_fails | propext |
| Props.C81_clean_fails | propext, Quot.sound |
| Props.C81_section_fails | propext |
| Props.C81_inherit_fails | propext, Quot.sound |
| Props.C82_calls_partial | propext, Classical.choice, Quot.sound |
| Props.C82_flag | propext, Classical.choice, Quot.sound |
| Props.C82_asked | propext, Quot.sound |
| Props.C82_hold | propext, Quot.sound |
| Props.C82_added | propext, Quot.sound |
| Props.C82_value_fails | propext, Quot.sound |
| Props.C82_added_fails | none |
| Props.C82_del_fails | none |
| Props.C82_entry_fails | propext |
| Props.C83_getperm | propext, Classical.choice, Quot.sound |
| Props.C83_names | propext, Classical.choice, Quot.sound |
| Props.C83_secure | propext, Classical.choice, Quot.sound |
| Props.C83_clear_fails | propext, Classical.choice, Quot.sound |
| Props.C84_reads | propext, Classical.choice, Quot.sound |
| Props.C84_prints | propext, Quot.sound |
| Props.C84_roundtrip | propext, Classical.choice, Quot.sound |
| Props.C84_rejects_partial | propext, Quot.sound |
| Props.C84_cut_fails | propext |
| Props.C84_digits_fails | propext |
| Props.C85_get | propext, Classical.choice, Quot.sound |
| Props.C85_handler_refs | propext, Classical.choice, Quot.sound |
| Props.C85_static_get | propext, Classical.choice, Quot.sound |
| Props.C85_static_refs | propext, Classical.choice, Quot.sound |
| Props.C85_category | propext, Classical.choice, Quot.sound |
| Props.C85_category_later | propext, Classical.choice, Quot.sound |
| Props.C85_resolve | propext, Classical.choice, Quot.sound |
| Props.C85_resolve_refs | propext, Quot.sound |
| Props.C85_colon_fails | propext |
| Props.C86_weak_partial | propext, Quot.sound |
| Props.C86_weak_fails | propext |
| Props.C86_destructor | propext, Quot.sound |
| Props.C86_ptr | propext, Classical.choice, Quot.sound |
| Props.C86_copy_fails | none |
| Props.C87_date | propext, Classical.choice, Quot.sound |
| Props.C87_year | propext, Classical.choice, Quot.sound |
| Props.C87_guess_first | propext, Classical.choice, Quot.sound |
| Props.C87_guess | propext, Classical.choice, Quot.sound |
| Props.C87_eplf | propext, Classical.choice, Quot.sound |
| Props.C87_unix | propext, Classical.choice, Quot.sound |
| Props.C87_msdos | propext, Classical.choice, Quot.sound |
| Props.C87_vms | propext, Classical.choice, Quot.sound |
| Props.C87_safe | propext, Quot.sound |
| Props.C87_short | propext, Quot.sound |
| Props.C87_overflow_fails | propext |
| Props.C87_leap_fails | propext, Classical.choice, Quot.sound |
| Props.C88_connected | propext |
| Props.C88_waiting | propext, Classical.choice, Quot.sound |
| Props.C88_attempt | propext, Quot.sound |
| Props.C88_lost | propext |
| Props.C88_pace_partial | propext, Classical.choice, Quot.sound |
| Props.C88_refs | propext, Classical.choice, Quot.sound |
| Props.C88_spacing_fails | propext |
| Props.C88_null_fails | propext, Quot.sound |
| Props.C88_setv_fails | propext |
| Props.C88_recursive | propext |
| Props.C89_build_partial | propext, Quot.sound |
| Props.C89_char_partial | propext, Classical.choice, Quot.sound |
| Props.C89_char_fails | propext, Quot.sound |
| Props.C89_varray | propext, Quot.sound |
| Props.C89_nesting | propext, Quot.sound |
| Props.C89_abort | propext, Classical.choice, Quot.sound |
| Props.C89_walk | propext, Quot.sound |
| Props.C89_rewind | propext, Quot.sound |
| Props.C89_int_partial | propext, Quot.sound |
| Props.C89_int_fails | propext |
| Props.C89_uint | propext, Quot.sound |
| Props.C89_text_number | propext, Classical.choice, Quot.sound |
| Props.C89_text_partial | propext, Classical.choice, Quot.sound |
| Props.C89_all_partial | propext, Classical.choice, Quot.sound |
| Props.C89_all_fails | propext, Classical.choice, Quot.sound |
| Props.C89_text_fails | propext, Quot.sound |
| Props.C90_number_partial | propext, Classical.choice, Quot.sound |
| Props.C90_number_fails | none |
| Props.C90_process_partial | propext, Classical.choice, Quot.sound |
| Props.C90_removed_partial | propext, Classical.choice, Quot.sound |
| Props.C90_removed_long_partial | propext, Classical.choice, Quot.sound |
| Props.C90_count_fails | propext |
| Props.C90_again_fails | propext |
| Props.C90_late_fails | propext |
| Props.C90_rebuild_fails | propext |
| Props.C90_remove_fails | propext |
| Props.C90_dangling_fails | propext |
| Props.C90_description_fails | propext |
| Props.C91_name | propext, Quot.sound |
| Props.C91_text | propext, Classical.choice, Quot.sound |
| Props.C91_exclusive_partial | propext, Classical.choice, Quot.sound |
| Props.C91_sequential_partial | propext, Classical.choice, Quot.sound |
| Props.C91_available | propext, Quot.sound |
| Props.C91_refused | propext, Quot.sound |
| Props.C91_nested | propext, Quot.sound |
| Props.C91_stale_fails | propext, Classical.choice, Quot.sound |
| Props.C91_recreate_fails | propext, Classical.choice, Quot.sound |
| Props.C91_exit_fails | propext, Classical.choice, Quot.sound |
| Props.C91_crash_fails | propext, Quot.sound |
| Props.C92_users | propext, Classical.choice, Quot.sound |
| Props.C92_up_partial | propext, Classical.choice, Quot.sound |
| Props.C92_down_partial | propext, Classical.choice, Quot.sound |
| Props.C92_kept_partial | propext, Classical.choice, Quot.sound |
| Props.C92_result_partial | propext, Classical.choice, Quot.sound |
| Props.C92_created_fails | none |
| Props.C92_temporary_fails | propext |
| Props.C92_foreign_fails | none |
| Props.C93_first_partial | propext, Quot.sound |
| Props.C93_leftover_fails | none |
| Props.C93_self_fails | propext, Quot.sound |
| Props.C93_negative_fails | propext, Quot.sound |
| Props.C93_empty_fails | propext |
| Props.C94_walk_partial | propext, Quot.sound |
| Props.C94_after_fails | propext, Quot.sound |
| Props.C94_fresh_fails | propext |
| Props.C94_null_fails | propext |
| Props.C95_received_partial | propext, Classical.choice, Quot.sound |
| Props.C95_progress | propext, Quot.sound |
| Props.C95_sent | propext |
| Props.C95_quiet | propext |
| Props.C95_corrupt_fails | propext |
| Props.C95_garbage_fails | propext |
| Props.C96_stop_partial | propext, Quot.sound |
| Props.C96_running_partial | propext, Quot.sound |
| Props.C96_noabort | propext, Quot.sound |
| Props.C96_signals_partial | propext, Quot.sound |
| Props.C96_returns_partial | propext, Quot.sound |
| Props.C96_restart_fails | propext |
| Props.C96_leftover_fails | propext |
| Props.C96_escape_fails | propext |
| Props.C96_stranger_fails | propext |
| Props.C97_order_partial | propext, Quot.sound |
| Props.C97_run | propext |
| Props.C97_restart | propext |
| Props.C97_die | propext, Quot.sound |
| Props.C97_sticky | none |
| Props.C97_signals | propext |
| Props.C97_refused | propext |
| Props.C97_pidfile | propext |
| Props.C97_hup_fails | propext |
| Props.C97_unload_fails | none |
| Props.C97_race_fails | none |
| Props.C98_conserve | propext, Quot.sound |
| Props.C98_compress | propext, Quot.sound |
| Props.C98_roundtrip | propext, Quot.sound |
| Props.C98_prefix | propext, Quot.sound |
| Props.C98_error | propext |
| Props.C98_limit_fails | none |
| Props.C98_truncated_fails | none |
| Props.C99_retained | propext, Classical.choice, Quot.sound |
| Props.C99_size | propext, Quot.sound |
| Props.C99_noappend | propext, Quot.sound |
| Props.C99_current | propext, Quot.sound |
| Props.C99_old | propext, Quot.sound |
| Props.C99_unrelated_fails | propext, Quot.sound |
| Props.C99_midline_fails | none |
| Props.C100_validate_partial | propext, Quot.sound |
| Props.C100_dates_partial | propext, Quot.sound |
| Props.C100_forged | propext, Quot.sound |
| Props.C100_peer_partial | propext, Quot.sound |
| Props.C100_issue | propext, Quot.sound |
| Props.C100_noauthority | propext, Quot.sound |
| Props.C100_self | propext, Quot.sound |
| Props.C100_date_fails | propext |
| Props.C100_match_fails | propext, Quot.sound |
| Props.C100_serial_fails | propext |
| Props.C100_request_fails | propext |
| Props.C100_signs | propext, Quot.sound |
| Props.C101_revoked | propext, Classical.choice, Quot.sound |
| Props.C101_text | propext, Classical.choice, Quot.sound |
| Props.C101_list_partial | propext, Quot.sound |
| Props.C101_forged | propext, Quot.sound |
| Props.C101_life | propext, Classical.choice, Quot.sound |
| Props.C101_ocsp | propext, Quot.sound |
| Props.C101_critical_fails | propext |
| Props.C101_date_fails | propext |
| Props.C101_subordinate_fails | propext, Quot.sound |
| Props.C101_blank_fails | propext, Quot.sound |
| Props.C101_ocsp_fails | none |
| Props.C101_signs | propext, Quot.sound |
| Props.C102_found | propext, Classical.choice, Quot.sound |
| Props.C102_notfound | propext, Classical.choice, Quot.sound |
| Props.C102_timeout | propext, Classical.choice, Quot.sound |
| Props.C102_once | propext, Classical.choice, Quot.sound |
| Props.C102_cached | propext, Classical.choice, Quot.sound |
| Props.C102_clear | propext, Classical.choice, Quot.sound |
| Props.C102_ready | propext, Classical.choice, Quot.sound |
| Props.C102_children_partial | propext, Classical.choice, Quot.sound |
| Props.C102_ready_known | propext, Classical.choice, Quot.sound |
| Props.C102_count_fails | propext, Quot.sound |
| Props.C102_children_fails | propext, Quot.sound |
| Props.C103_life | propext, Classical.choice, Quot.sound |
| Props.C103_first | propext, Classical.choice, Quot.sound |
| Props.C103_help | propext, Classical.choice, Quot.sound |
| Props.C103_uses | propext, Classical.choice, Quot.sound |
| Props.C103_wire_partial | propext, Classical.choice, Quot.sound |
| Props.C103_reply | propext, Classical.choice, Quot.sound |
| Props.C103_wire_fails | propext |
| Props.C103_auth_fails | propext, Quot.sound |
| Props.C103_auth_partial | propext, Quot.sound |
| Props.C104_data | propext, Classical.choice, Quot.sound |
| Props.C104_state | propext, Classical.choice, Quot.sound |
| Props.C104_connecting | propext, Classical.choice, Quot.sound |
| Props.C104_target | propext, Classical.choice, Quot.sound |
| Props.C104_target_address | propext, Classical.choice, Quot.sound |
| Props.C104_address | propext, Classical.choice, Quot.sound |
| Props.C104_close_partial | propext, Classical.choice, Quot.sound |
| Props.C104_taken | propext |
| Props.C104_flush | propext, Quot.sound |
| Props.C104_close_fails | none |
| Props.C104_name_fails | propext |
| Props.C104_clear_fails | propext, Quot.sound |
| Props.C105_unix | propext, Classical.choice, Quot.sound |
| Props.C105_unix_taken | propext, Classical.choice, Quot.sound |
| Props.C105_unix_turn | propext, Classical.choice, Quot.sound |
| Props.C105_unix_wakes | propext, Quot.sound |
| Props.C105_unix_close_fails | propext |
| Props.C105_unix_delay_fails | none |
| Props.C105_unix_bytes | propext, Quot.sound |
| Props.C105_udp_partial | propext, Quot.sound |
| Props.C105_udp_bytes | propext, Quot.sound |
| Props.C105_udp_errors | propext, Quot.sound |
| Props.C105_udp_merge_fails | none |
| Props.C106_none_left | propext, Classical.choice, Quot.sound |
| Props.C106_rules_partial | propext, Classical.choice, Quot.sound |
| Props.C106_add | propext, Classical.choice, Quot.sound |
| Props.C106_del | propext, Classical.choice, Quot.sound |
| Props.C106_disabled | propext, Quot.sound |
| Props.C106_coop_fails | propext, Quot.sound |
| Props.C106_forward_fails | propext, Quot.sound |
| Props.C106_enable_fails | propext, Quot.sound |
| Props.C106_lines | propext, Classical.choice, Quot.sound |
| Props.C106_forward_lines | propext, Classical.choice, Quot.sound |
| Props.C107_set_partial | propext, Classical.choice, Quot.sound |
| Props.C107_untouched_partial | propext, Classical.choice, Quot.sound |
| Props.C107_nothing | propext, Classical.choice, Quot.sound |
| Props.C107_again_partial | propext, Classical.choice, Quot.sound |
| Props.C107_find | propext, Classical.choice, Quot.sound |
| Props.C107_proc | propext, Classical.choice, Quot.sound |
| Props.C107_ip_partial | propext, Quot.sound |
| Props.C107_src_fails | propext, Quot.sound |
| Props.C107_find_fails | propext, Quot.sound |
| Props.C107_newsrc_fails | propext, Quot.sound |
| Props.C107_table_fails | propext, Quot.sound |
| Props.C107_main_fails | propext, Quot.sound |
| Props.C107_metric_fails | propext, Quot.sound |
| Props.C108_defined_partial | propext, Quot.sound |
| Props.C108_commands | propext, Quot.sound |
| Props.C108_order | propext, Quot.sound |
| Props.C108_url | propext, Quot.sound |
| Props.C108_one_line | propext, Quot.sound |
| Props.C108_pasv | propext, Classical.choice, Quot.sound |
| Props.C108_fetch_partial | propext, Classical.choice, Quot.sound |
| Props.C108_list | propext, Classical.choice, Quot.sound |
| Props.C108_store_partial | propext, Classical.choice, Quot.sound |
| Props.C108_truncated_fails | propext, Classical.choice, Quot.sound |
| Props.C108_missing_fails | propext, Classical.choice, Quot.sound |
| Props.C108_put_fails | propext, Classical.choice, Quot.sound |
| Props.C108_short_fails | propext, Classical.choice, Quot.sound |
| Props.C108_multiline_fails | propext, Classical.choice, Quot.sound |
| Props.C108_hangup_fails | propext, Classical.choice, Quot.sound |
| Props.C108_pasv_fails | propext, Classical.choice, Quot.sound |
| Props.C108_pasv_range_fails | propext, Classical.choice, Quot.sound |
| Props.C108_mkdir_fails | propext, Classical.choice, Quot.sound |
| Props.C109_safe | propext, Classical.choice, Quot.sound |
| Props.C109_one_connection | propext, Classical.choice, Quot.sound |
| Props.C109_ends | propext, Classical.choice, Quot.sound |
| Props.C109_protocols | propext |
| Props.C109_unknown | propext, Classical.choice, Quot.sound |
| Props.C109_retried | propext, Classical.choice, Quot.sound |
| Props.C109_served | propext, Classical.choice, Quot.sound |
| Props.C109_defined_partial | propext, Quot.sound |
| Props.C109_password_fails | propext, Classical.choice, Quot.sound |
| Props.C109_https_fails | propext, Classical.choice, Quot.sound |
| Props.C109_protocol_fails | propext, Classical.choice, Quot.sound |
| Props.C109_address_fails | propext, Classical.choice, Quot.sound |
| Props.C110_view_partial | propext, Classical.choice, Quot.sound |
| Props.C110_told | propext, Classical.choice, Quot.sound |
| Props.C110_setv_fails | propext |
| Props.C110_recursive_fails | propext |
| Props.C110_auto | propext, Classical.choice, Quot.sound |
| Props.C111_pipe_partial | propext, Quot.sound |
| Props.C111_end | propext, Quot.sound |
| Props.C111_closed_fails | none |
| Props.C111_swapped_fails | none |
| Props.C111_shared_fails | none |
| Props.C111_nofork_fails | none |
| Props.C111_redirect | propext, Classical.choice, Quot.sound |
| Props.C111_overwritten_fails | none |
| Props.C111_once | none |
| Props.C111_status_fails | propext |
| Props.C111_env_partial | propext, Quot.sound |
| Props.C111_twice_fails | propext, Quot.sound |
| Props.C112_make | propext, Classical.choice, Quot.sound |
| Props.C112_outside | propext, Quot.sound |
| Props.C112_write | propext, Classical.choice, Quot.sound |
| Props.C112_copy | propext, Classical.choice, Quot.sound |
| Props.C112_assign_partial | propext, Classical.choice, Quot.sound |
| Props.C112_assign_fails | propext, Quot.sound |
| Props.C112_self_fails | none |
| Props.C112_sum | propext, Classical.choice, Quot.sound |
| Props.C112_sum_sizes | propext, Classical.choice, Quot.sound |
| Props.C112_product | propext, Classical.choice, Quot.sound |
| Props.C112_product_sizes | propext, Classical.choice, Quot.sound |
| Props.C112_product_fails | propext, Quot.sound |
| Props.C113_sorted | propext, Classical.choice, Quot.sound |
| Props.C113_all | propext, Quot.sound |
| Props.C113_changes_partial | propext, Classical.choice, Quot.sound |
| Props.C113_self_fails | propext, Quot.sound |
| Props.C113_delayed | propext, Classical.choice, Quot.sound |
| Props.C113_next | propext, Classical.choice, Quot.sound |
| Props.C113_later | propext, Classical.choice, Quot.sound |
| Props.C113_gone | propext |
| Props.C113_both_fails | propext |
| Props.C114_words_exist | propext, Quot.sound |
| Props.C114_tokens | propext, Classical.choice, Quot.sound |
| Props.C114_words_unique | propext, Classical.choice, Quot.sound |
| Props.C114_remaining | propext, Classical.choice, Quot.sound |
| Props.C114_lookup | propext, Quot.sound |
| Props.C114_machine | propext, Classical.choice, Quot.sound |
| Props.C114_rest_fails | propext |
| Props.C115_sent | propext, Quot.sound |
| Props.C115_force | propext, Quot.sound |
| Props.C115_debug_fails | propext |
| Props.C116_values | propext, Quot.sound |
| Props.C116_shared | propext, Quot.sound |
| Props.C116_clean_partial | propext, Quot.sound |
| Props.C116_caches | propext, Quot.sound |
| Props.C116_clean_fails | propext, Quot.sound |
| Props.C117_mask_partial | propext, Quot.sound |
| Props.C117_first_partial | propext, Quot.sound |
| Props.C117_string_partial | propext, Quot.sound |
| Props.C117_char_partial | propext, Quot.sound |
| Props.C117_mask_fails | propext, Quot.sound |
| Props.C117_first_fails | propext |
| Props.C118_open_partial | propext, Quot.sound |
| Props.C118_destroy_partial | propext, Quot.sound |
| Props.C118_reopen_partial | propext, Classical.choice, Quot.sound |
| Props.C118_ended_partial | propext, Quot.sound |
| Props.C118_stays | propext, Quot.sound |
| Props.C118_modes_partial | propext, Quot.sound |
| Props.C118_open_fails | propext, Quot.sound |
| Props.C118_reopen_fails | propext, Quot.sound |
| Props.C118_output_fails | propext |
| Props.C118_input_fails | none |
| Props.C118_nowrite_fails | none |
| Props.C118_ended_fails | none |
| Props.C118_modes_fails | none |
| Props.C118_callback_fails | none |
| Props.C119_digest | propext, Classical.choice, Quot.sound |
| Props.C119_hmac | propext, Classical.choice, Quot.sound |
| Props.C119_crc32 | propext, Classical.choice, Quot.sound |
| Props.C119_adler32 | propext, Classical.choice, Quot.sound |
| Props.C120_values_partial | propext, Classical.choice, Quot.sound |
| Props.C120_inherits | propext, Classical.choice, Quot.sound |
| Props.C120_told_partial | propext, Classical.choice, Quot.sound |
| Props.C120_during | propext, Classical.choice, Quot.sound |
| Props.C120_iter_partial | propext, Classical.choice, Quot.sound |
| Props.C120_remove_fails | propext, Classical.choice, Quot.sound |
| Props.C120_empty_fails | propext, Classical.choice, Quot.sound |
| Props.C120_silent_fails | propext, Classical.choice, Quot.sound |
| Props.C120_root_fails | propext, Classical.choice, Quot.sound |
| Props.C120_nested_fails | propext, Classical.choice, Quot.sound |
| Props.C120_children_fails | propext, Classical.choice, Quot.sound |
| Props.C121_queue | propext, Quot.sound |
| Props.C121_accept | propext |
| Props.C121_function | propext, Quot.sound |
| Props.C121_sockets | propext, Quot.sound |
| Props.C121_reachable_partial | propext, Quot.sound |
| Props.C121_taken | propext |
| Props.C121_create | propext, Classical.choice, Quot.sound |
| Props.C121_wrap_partial | propext, Classical.choice, Quot.sound |
| Props.C121_twice_fails | propext |
| Props.C121_busy_fails | propext |
| Props.C121_file_fails | propext |
| Props.C121_wrap_fails | propext |
| Props.C122_order | propext |
| Props.C122_kept_partial | propext |
| Props.C122_open_partial | propext, Quot.sound |
| Props.C122_read_partial | propext, Quot.sound |
| Props.C122_lines | propext, Quot.sound |
| Props.C122_lines_total | propext, Quot.sound |
| Props.C122_itself | propext |
| Props.C122_close_fails | none |
| Props.C122_delayed_fails | none |
| Props.C122_queuemin_fails | none |
| Props.C122_mixed_fails | none |
| Props.C123_spared | propext, Classical.choice, Quot.sound |
| Props.C123_stop | propext, Classical.choice, Quot.sound |
| Props.C123_idle | propext, Classical.choice, Quot.sound |
| Props.C123_add | propext |
| Props.C123_close | propext, Quot.sound |
| Props.C123_next | propext, Classical.choice, Quot.sound |
| Props.C123_keeps_partial | propext, Classical.choice, Quot.sound |
| Props.C123_reuse_fails | propext, Quot.sound |
| Props.C124_auth | propext, Classical.choice, Quot.sound |
| Props.C124_valid | propext, Classical.choice, Quot.sound |
| Props.C124_groups_partial | propext |
| Props.C124_stale_fails | propext |
| Props.C124_nobody_fails | propext, Classical.choice, Quot.sound |
| Props.C124_why_fails | none |
| Props.C124_end_partial | propext, Classical.choice, Quot.sound |
| Props.C124_session_fails | propext |
| Props.C124_token_fails | propext, Classical.choice, Quot.sound |
| Props.C124_conv | propext, Quot.sound |
| Props.C124_conn | propext, Classical.choice, Quot.sound |
| Props.C124_name_partial | propext |
| Props.C124_name_fails | propext |
| Props.C124_uid_fails | propext |
| Props.C124_salt | propext, Quot.sound |
| Props.C124_differ | propext, Quot.sound |
| Props.C124_passwd | propext, Quot.sound |
| Props.C124_same_fails | propext, Quot.sound |
| Props.C125_open | propext, Classical.choice, Quot.sound |
| Props.C125_make | propext, Classical.choice, Quot.sound |
| Props.C125_leak_fails | propext, Classical.choice, Quot.sound |
| Props.C125_parent_fails | propext |
| Props.C125_names_fails | propext |
| Props.C125_exec | propext, Quot.sound |
| Props.C125_exit | Quot.sound |
| Props.C125_runs | propext, Quot.sound |
| Props.C125_status_partial | propext, Quot.sound |
| Props.C125_finish_fails | propext, Quot.sound |
| Props.C125_unstarted_fails | propext, Quot.sound |
| Props.C125_kill | propext, Quot.sound |
| Props.C125_sent | propext, Quot.sound |
| Props.C126_match_partial | propext, Classical.choice, Quot.sound |
| Props.C126_set | propext, Quot.sound |
| Props.C126_empty | none |
| Props.C126_alias_fails | propext, Quot.sound |
| Props.C126_nosub_fails | propext, Quot.sound |
| Props.C126_message_fails | propext, Classical.choice, Quot.sound |
| Props.C126_stuck_fails | none |
| Props.C126_loop_partial | propext, Classical.choice, Quot.sound |
| Props.C126_endless_fails | propext |
| Props.C127_public | propext, Classical.choice, Quot.sound |
| Props.C127_secret_partial | propext, Classical.choice, Quot.sound |
| Props.C127_agree_partial | propext, Classical.choice, Quot.sound |
| Props.C127_groups | none |
| Props.C127_primes | none |
| Props.C127_oakley_partial | propext, Classical.choice, Quot.sound |
| Props.C127_peer_fails | propext, Classical.choice, Quot.sound |
| Props.C127_short_fails | none |
| Props.C127_truncated_fails | none |
| Props.C127_length_fails | none |
| Props.C127_logged_fails | propext, Quot.sound |
| Props.C127_generator_fails | propext |
| Props.C127_unsupported_fails | none |
| Props.C127_again_fails | none |
| Props.C128_roundtrip_partial | propext, Classical.choice, Quot.sound |
| Props.C128_public_partial | propext, Classical.choice, Quot.sound |
| Props.C128_reads | propext, Classical.choice, Quot.sound |
| Props.C128_isok | propext |
| Props.C128_secret | propext |
| Props.C128_defined | propext, Quot.sound |
| Props.C128_ofText | propext |
| Props.C128_replaces | propext |
| Props.C128_pem_fails | propext |
| Props.C128_copy_fails | none |
| Props.C128_form_fails | propext |
| Props.C128_mark_fails | propext |
| Props.C128_empty_fails | propext |
| Props.C129_answers_partial | propext, Classical.choice, Quot.sound |
| Props.C129_recent | propext, Classical.choice, Quot.sound |
| Props.C129_before_fails | none |
| Props.C129_iterate_fails | none |
| Props.C129_after_fails | none |
| Props.C130_walk_partial | propext, Quot.sound |
| Props.C130_autofill | propext, Quot.sound |
| Props.C130_mixed_fails | propext |
| Props.C130_end_fails | propext |
| Props.C131_text_partial | propext, Quot.sound |
| Props.C131_colours_partial | propext, Quot.sound |
| Props.C131_plain | propext, Quot.sound |
| Props.C131_marked | propext, Classical.choice, Quot.sound |
| Props.C131_source_fails | propext |
| Props.C131_below_fails | propext |
| Props.C131_destroy_fails | propext |
| Props.C132_enter_partial | propext, Classical.choice, Quot.sound |
| Props.C132_restores_partial | propext, Classical.choice, Quot.sound |
| Props.C132_nested | propext, Classical.choice, Quot.sound |
| Props.C132_renamed_fails | propext |
| Props.C132_replaced_fails | propext |
| Props.C132_unreadable_fails | propext |
| Props.C132_unnamed_fails | propext |
| Props.C133_speed_partial | propext, Quot.sound |
| Props.C133_real | propext, Quot.sound |
| Props.C133_close | propext, Quot.sound |
| Props.C133_hangup_partial | propext, Quot.sound |
| Props.C133_slow_fails | none |
| Props.C133_wait_fails | none |
| Props.C133_refused_fails | propext, Quot.sound |
| Props.C133_base_fails | none |
| Props.C134_lists_partial | propext, Classical.choice, Quot.sound |
| Props.C134_killall_partial | propext, Classical.choice, Quot.sound |
| Props.C134_blank_fails | propext, Classical.choice, Quot.sound |
| Props.C134_name_fails | propext |
| Props.C134_taken_fails | propext |
| Props.C135_calls_partial | propext, Classical.choice, Quot.sound |
| Props.C135_set | propext, Classical.choice, Quot.sound |
| Props.C135_forgotten | propext, Classical.choice, Quot.sound |
| Props.C135_gone | propext, Classical.choice, Quot.sound |
| Props.C135_copy_fails | propext, Classical.choice, Quot.sound |
| Props.C135_assign_fails | none |
| Props.C136_shows_partial | propext, Classical.choice, Quot.sound |
| Props.C136_null | propext, Classical.choice, Quot.sound |
| Props.C136_same_device_partial | propext, Classical.choice, Quot.sound |
| Props.C136_error_fails | propext, Classical.choice, Quot.sound |
| Props.C136_rewind_fails | propext, Quot.sound |
| Props.C137_ring_partial | propext, Classical.choice, Quot.sound |
| Props.C137_dump_partial | propext, Classical.choice, Quot.sound |
| Props.C137_nul_fails | propext |
| Props.C137_keep_fails | propext |
| Props.C137_number_partial | propext, Classical.choice, Quot.sound |
| Props.C137_zero_fails | none |
| Props.C137_large_fails | none |
| Props.C137_address | propext, Classical.choice, Quot.sound |
| Props.C137_will | propext, Quot.sound |
| Props.C138_keeps_partial | propext, Quot.sound |
| Props.C138_close | propext, Quot.sound |
| Props.C138_order_partial | propext, Quot.sound |
| Props.C138_closed | propext, Quot.sound |
| Props.C138_lost_fails | propext |
| Props.C138_stop_fails | propext |
| Props.C139_rules | propext, Classical.choice, Quot.sound |
| Props.C139_second | propext, Classical.choice, Quot.sound |
| Props.C139_busy | propext, Classical.choice, Quot.sound |
| Props.C139_starts | propext, Classical.choice, Quot.sound |
| Props.C139_timeout | propext, Quot.sound |
| Props.C140_values_partial | propext, Classical.choice, Quot.sound |
| Props.C140_first_fails | propext |
| Props.C140_above_fails | propext |
| Props.C141_bachelor | propext |
| Props.C141_null | propext |
| Props.C141_slow_partial | propext |
| Props.C141_count | propext, Quot.sound |
| Props.C141_flush_fails | none |
| Props.C142_zone_partial | propext, Classical.choice, Quot.sound |
| Props.C142_clean | propext, Quot.sound |
| Props.C142_ok | propext, Quot.sound |
| Props.C142_large_fails | none |
| Props.C142_stop_fails | none |
| Props.C143_loop_partial | propext, Quot.sound |
| Props.C143_pair_partial | propext, Quot.sound |
| Props.C143_broken | propext, Quot.sound |
| Props.C144_order | propext, Quot.sound |
| Props.C144_woken_partial | propext, Quot.sound |
| Props.C144_ready | propext, Quot.sound |
| Props.C144_quiet | propext, Quot.sound |
| Props.C144_stolen_fails | none |
| Props.C145_inside | propext, Classical.choice, Quot.sound |
| Props.C145_made_partial | propext, Quot.sound |
| Props.C145_clean | propext, Quot.sound |
| Props.C145_broken_fails | propext, Quot.sound |
| Props.C145_large_fails | none |
| Props.C146_packets_partial | propext |
| Props.C146_bytes | propext |
| Props.C146_errors | propext |
| Props.C146_merge_fails | none |
