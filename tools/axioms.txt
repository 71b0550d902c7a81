Verif.Base64.C01_base64_decode_any_wrapping	PCQ
Verif.Base64.C01_base64_roundtrip	PCQ
Verif.Base64.C01_base64_decode_rfc4648	PCQ
Verif.Base64.C02_base64_encode_is_rfc4648	PCQ
Verif.Crc.C03_crc32_is_bit_serial	PQ
Verif.Crc.C03_crc32_incremental	PCQ
Verif.Hex.C04_digest_hex_partial	PCQ
Verif.Hex.C04_hexStr_refuted	PCQ
Verif.Hex.C04_hexStr_never_decodes	PQ
Verif.Hex.C04_hexStr_decode_overflows	PQ
Verif.Uri.C05_component_refuted	PCQ
Verif.Uri.C05_uri_refuted	PCQ
Verif.Uri.C05_component_roundtrip_partial	PCQ
Verif.Uri.C05_uri_roundtrip_partial	PCQ
Verif.Uri.C05_component_no_reserved	PCQ
Verif.Uri.C05_decode_escape	PCQ
Verif.Utf8.C06_encode_is_utf8	PCQ
Verif.Utf8.C06_decode_encode	PCQ
Verif.Utf8.C06_decode_safe	PCQ
Verif.Utf8.C07_refuted	PQ
Verif.Utf8.C07_charAt_refuted	PQ
Verif.Utf8.C07_substr_partial	PCQ
Verif.Utf8.C07_substr_to_end	PCQ
Verif.Utf8.C07_substr_from_end	PCQ
Verif.Utf8.C07_charCodeAt	PCQ
Verif.Utf8.C07_empty_negative_hangs	PQ
Verif.Crypto.Sha256.C08_sha256_is_fips180	PCQ
Verif.Crypto.Sha256.C08_chunking	PQ
Verif.Crypto.Sha256.C08_length	PQ
Verif.Crypto.Sha1.C09_sha1_is_fips180	PCQ
Verif.Crypto.Sha1.C09_chunking	PQ
Verif.Crypto.Md5.C10_md5_is_rfc1321	PCQ
Verif.Crypto.Md5.C10_chunking	PCQ
Verif.Crypto.Sha3.C11_exact	PCQ
Verif.Crypto.Sha3.C11_sha3_partial	PCQ
Verif.Crypto.Sha3.C11_single_block	PCQ
Verif.Crypto.Sha3.C11_sha3_224_partial	PCQ
Verif.Crypto.Sha3.C11_variant_swap	PCQ
Verif.Crypto.Sha3.C11_variant_refuted	PCQ
Verif.Crypto.Sha3.C11_uninitialised_refuted	PCQ
Verif.Crypto.Sha3.C11_multiblock_refuted	PCQ
Verif.Crypto.Encrypt.C12_decrypt_encrypt	PCQ
Verif.Crypto.Encrypt.C12_injective	PCQ
Verif.Crypto.Encrypt.C12_length	PQ
Verif.Crypto.Encrypt.C13_short_plaintext_leaks	PQ
Verif.Crypto.Encrypt.C13_refuted	PQ
Verif.Crypto.Encrypt.C13_pad_in_clear	PQ
Verif.Crypto.Encrypt.C13_permutation_partial	PQ
Verif.Hash.C14_map_word	PCQ
Verif.Hash.C14_map_string	PCQ
Verif.Hash.C14_map_struct	PCQ
Verif.Hash.C14_unset_result	PCQ
Verif.Hash.C14_no_overflow	PQ
Verif.Hash.C14_in_bounds	PCQ
Verif.Hash.C15_unset_refuted	P
Verif.Hash.C15_map_partial	PCQ
Verif.Hash.C15_unset_crash_partial	PCQ
Verif.Hash.C15_rebuild_loses	PCQ
Verif.Hash.C15_lookup_refuted	PCQ
Verif.Tree.C16_objects	PCQ
Verif.Tree.C16_struct_refuted	PQ
Verif.Tree.C16_map	PCQ
Verif.Tree.C16_unset_result	PCQ
Verif.Dict.C16_string_refuted	PCQ
Verif.Dict.C16_string_plain_partial	PCQ
Verif.Tree.C17_redblack	PCQ
Verif.Tree.C17_height	PCQ
Verif.Tree.C18_equal_iff_partial	PCQ
Verif.Tree.C18_refuted	PQ
Verif.Tree.C18_small_partial	PCQ
Verif.DString.C19_setlength_refuted	K
Verif.DString.C19_printf_lost	PQ
Verif.DString.C19_refuted	P
Verif.DString.C19_dstring_is_sequence_partial	PCQ
Verif.LList.C20_pop_head_refuted	PQ
Verif.LList.C20_delete_only_entry_uaf	P
Verif.LList.C20_reverse_after_delete_uaf	P
Verif.LList.C20_clear_uaf	P
Verif.LList.C20_list_forward_partial	PCQ
Verif.LList.C20_list_backward_partial	PCQ
Verif.Stack.C21_stack_is_sequence	PQ
Verif.Dict.C22_antisymmetric	PCQ
Verif.Dict.C22_reflexive	PCQ
Verif.Dict.C22_zero_refuted	PCQ
Verif.Dict.C22_transitive_refuted	PCQ
Verif.Dict.C22_is_dictionary_order_partial	PCQ
Verif.Dict.C22_transitive_partial	PCQ
Verif.Dict.C22_zero_partial	PCQ
Verif.Str.C23_join_partial	PQ
Verif.Str.C23_split_join	PQ
Verif.Str.C23_join_split	PQ
Verif.Str.C23_join_split_char	PQ
Verif.Str.C23_overlap_refuted	PQ
Verif.Str.C23_join_default_refuted	PQ
Verif.Str.C23_join_hole_refuted	PCQ
Verif.Str.C23_nul_refuted	PQ
Verif.Str.C23_split_omitted_refuted	PCQ
Verif.Str.C23_split_null	PQ
Verif.Str.C23_split_bytes	PQ
Verif.Glob.C24_glob_partial	PCQ
Verif.Glob.C24_overrun_refuted	PQ
Verif.Glob.C24_negation_refuted	PCQ
Verif.Glob.C24_set_escape_refuted	PQ
Verif.Glob.C24_safe_partial	PQ
Verif.Array.C25_history_partial	PCQ
Verif.Array.C25_push_partial	PCQ
Verif.Array.C25_pop	PCQ
Verif.Array.C25_shift_partial	PCQ
Verif.Array.C25_unshift_partial	PCQ
Verif.Array.C25_shift_hole_refuted	PQ
Verif.Array.C25_unshift_none_refuted	P
Verif.Array.C25_push_limit_refuted	PCQ
Verif.Array.C26_slice_partial	PCQ
Verif.Array.C26_slice_to_end	PCQ
Verif.Array.C26_splice_partial	PCQ
Verif.Array.C26_concat_partial	PCQ
Verif.Array.C26_reverse	PCQ
Verif.Array.C26_fill_partial	PCQ
Verif.Array.C26_end_refuted	P
Verif.Array.C26_far_start_refuted	PQ
Verif.Array.C26_far_start_js	PQ
Verif.Array.C26_splice_refuted	P
Verif.Array.C26_concat_chain_refuted	PQ
Verif.Array.C26_concat_chain_js	PQ
Verif.Array.C26_splice_error_refuted	P
Verif.Json.C27_round_trip_partial	PCQ
Verif.Json.C27_output_is_json	PCQ
Verif.Json.C27_key_refuted	PCQ
Verif.Json.C27_emoji_refuted	PCQ
Verif.Json.C27_bytes_refuted	PCQ
Verif.Json.C27_undefined_refuted	PCQ
Verif.Json.C27_depth_refuted	PCQ
Verif.Json.C28_printable	PCQ
Verif.Json.C28_ends_at_quote	PCQ
Verif.Json.C28_no_bare_quote	PCQ
Verif.Json.C28_keys_refuted	PCQ
Verif.Vm.C29_expr_code	PCQ
Verif.Vm.C29_expr_code_in_try	PCQ
Verif.Vm.C29_ecma_partial	PCQ
Verif.Vm.C29_ecma_refuted	P
Verif.Vm.C30_program_partial	PCQ
Verif.Vm.C30_no_bug_partial	PCQ
Verif.Vm.C30_balanced_partial	PCQ
Verif.Vm.C30_crossing_refuted	P
Verif.Vm.C30_stray_break_refuted	P
Verif.Vm.C31_finally_runs_partial	PCQ
Verif.Vm.C31_return_refuted	P
Verif.Vm.C31_throw_in_catch_refuted	P
Verif.Vm.C32_value_kept_partial	P
Verif.Vm.C32_thrown_value_partial	P
Verif.Vm.C32_value_lost_refuted	P
Verif.Vm.C33_depth	PQ
Verif.Vm.C33_recorded	PQ
Verif.Vm.C33_catch_stack_partial	PCQ
Verif.Vm.C33_contents_refuted	P
Verif.Path.C34_mkdir_partial	PCQ
Verif.Path.C34_remove_partial	PCQ
Verif.Path.C34_mkdir_refuted	PCQ
Verif.Path.C34_create_refuted	PCQ
Verif.Path.C34_remove_refuted	PCQ
Verif.Path.C34_home_refuted	PCQ
Verif.Path.C34_check_existing	PCQ
Verif.Path.C34_open_existing	PQ
Verif.Path.C34_create_partial	PQ
Verif.Path.C35_normalize_location	PQ
Verif.Path.C35_normalize_location_rel	PQ
Verif.Path.C35_normalize_idempotent	PQ
Verif.Path.C35_normalize_dots_partial	PQ
Verif.Path.C35_dotdot_refuted	PQ
Verif.Path.C35_slashes_refuted	P
Verif.Path.C35_dot_refuted	PCQ
Verif.Path.C35_realpath_location_partial	PQ
Verif.Path.C35_realpath_clean	PQ
Verif.Path.C35_realpath_refuted	PCQ
Verif.Path.C35_realpath_in_place	PQ
Verif.Timer.C36_not_early_partial	PCQ
Verif.Timer.C36_ids	PCQ
Verif.Timer.C36_once	PCQ
Verif.Timer.C36_cleared	PCQ
Verif.Timer.C36_not_early_refuted	PCQ
Verif.Timer.C36_clear_self_refuted	PCQ
Verif.Timer.C36_clear_other_refuted	PCQ
Verif.Timer.C36_nested_refuted	PCQ
Verif.Timer.C36_safe_partial	PCQ
Verif.Timer.C37_update_partial	PQ
Verif.Timer.C37_update_ends	PQ
Verif.Timer.C37_update_refuted	PQ
Verif.Value.C38_far_not_equal	PCQ
Verif.Value.C38_close_refuted	PCQ
Verif.Value.C38_refuted	PCQ
Verif.Value.C38_whole_partial	PCQ
Verif.Value.C38_inf_refuted	P
Verif.Value.C39_refl	PCQ
Verif.Value.C39_symm	PCQ
Verif.Value.C39_trans	PCQ
Verif.Value.C39_operator	PCQ
Verif.Value.C39_checked_refuted	P
Verif.Ref.C40_count_is_references_partial	PCQ
Verif.Ref.C40_referenced_is_live_partial	PCQ
Verif.Ref.C40_unreferenced_is_freed_partial	PCQ
Verif.Ref.C40_allowed_call_is_safe_partial	PCQ
Verif.Ref.C40_fresh_iff_zero_partial	PCQ
Verif.Ref.C40_decr_frees_last_partial	PCQ
Verif.Ref.C40_decr_keeps_reachable_partial	PCQ
Verif.Ref.C40_no_leak_partial	PCQ
Verif.Ref.C40_copy_of_uncounted_refuted	P
Verif.Ref.C40_copy_of_own_element_refuted	P
Verif.Ref.C40_replace_by_own_element_refuted	PQ
Verif.Ref.C40_arraySet_of_own_element_refuted	P
Verif.Ref.C40_copy_over_cycle_refuted	PQ
Verif.Ref.C40_pushVar_twice_refuted	P
Verif.Ref.C40_cycle_leaks_refuted	PQ
Verif.Crypto.Encrypt.C41_decrypt_total	PCQ
Verif.Crypto.Hashcash.C42_proof_of_work	PCQ
Verif.Crypto.Hashcash.C42_complete	PCQ
Verif.Crypto.Hashcash.C42_sha256	PCQ
Verif.Hash.C43_clear_size_refuted	PQ
Verif.Hash.C43_clear_partial	PCQ
Verif.Tree.C44_string_partial	PCQ
Verif.Tree.C44_word_refuted	PQ
Verif.Tree.C45_word_refuted	PQ
Verif.Tree.C45_string_partial	PCQ
Verif.Tree.C46_in_order	PCQ
Verif.Tree.C46_in_order_space	PCQ
Verif.Tree.C46_post_order	PCQ
Verif.Tree.C46_pre_never_ends	P
Verif.Tree.C46_pre_refuted	P
Verif.Tree.C46_level_partial	PCQ
Verif.Tree.C46_level_refuted	P
Verif.Value.C47_object_refuted	P
Verif.Value.C47_undefined	PQ
Verif.Value.C47_null_refuted	PCQ
Verif.Value.C48_numbers	P
Verif.Value.C48_extended	P
Verif.Value.C48_strings	PQ
Verif.Value.C48_trichotomy	PCQ
Verif.Value.C48_mixed_refuted	PCQ
Verif.Value.C49_strings_partial	PCQ
Verif.Value.C49_nul_refuted	PCQ
Verif.Json.C50_parse_partial	PCQ
Verif.Json.C50_solidus_refuted	PCQ
Verif.Json.C50_trailing_space_refuted	PCQ
Verif.Json.C50_keys_refuted	PCQ
Verif.Json.C50_surrogates_refuted	PCQ
Verif.Json.C50_long_array_refuted	PCQ
Verif.Json.C50_last_value_counts	PQ
Verif.Json.C50_keys_once	PQ
Verif.Json.C51_complete_partial	PCQ
Verif.Json.C51_scalar_refuted	PCQ
Verif.Json.C51_sound_refuted	PCQ
Verif.Json.C51_more	PCQ
Verif.Json.C51_brackets_match_partial	PCQ
Verif.Json.C51_word_refuted	PCQ
Verif.Json.C52_strict_partial	PCQ
Verif.Json.C52_loose_partial	PCQ
Verif.Json.C52_refuted	PCQ
Verif.Json.C52_comma_refuted	PCQ
Verif.Array.C53_no_undefined_behaviour	PCQ
Verif.Array.C54_forEach	PQ
Verif.Array.C54_find	PQ
Verif.Array.C54_findIndex	PQ
Verif.Array.C54_some	PQ
Verif.Array.C54_every_partial	PQ
Verif.Array.C54_every_empty_refuted	PQ
Verif.Array.C54_map	PQ
Verif.Array.C54_filter	PQ
Verif.Array.C54_reduce_partial	PCQ
Verif.Array.C54_indexOf_partial	PQ
Verif.Array.C54_indexOf_refuted	PQ
Verif.Array.C54_lastIndexOf_partial	PQ
Verif.Array.C54_lastIndexOf_start_refuted	P
Verif.Array.C54_find_pop_refuted	PQ
Verif.Array.C54_param_refuted	PQ
Verif.Array.C54_filter_shares_refuted	P
Verif.Array.C54_reduce_hole_refuted	PQ
Verif.Array.C54_forEach_push_refuted	P
Verif.Array.C54_flat_partial	PQ
Verif.Array.C54_flat_refuted	P
Verif.Array.C55_push_partial	PQ
Verif.Array.C55_pop_partial	PQ
Verif.Array.C55_shift_partial	PCQ
Verif.Array.C55_shift_refuted	P
Verif.Array.C55_shift_full_refuted	PQ
Verif.Array.C55_shift_assign_refuted	P
Verif.Array.C55_unshift_refuted	PQ
Verif.Array.C55_push_refuted	PCQ
Verif.Str.C56_trim	PCQ
Verif.Str.C56_utf8_refuted	P
Verif.Str.C56_trim_chars	PCQ
Verif.Str.C57_case_partial	PCQ
Verif.Str.C57_last_char_refuted	PCQ
Verif.Str.C57_accents_refuted	PQ
Verif.Str.C58_indexOf_partial	PQ
Verif.Str.C58_search_partial	PQ
Verif.Str.C58_indexOf_empty_refuted	PQ
Verif.Str.C58_indexOf_text_partial	PCQ
Verif.Str.C58_offset_refuted	PQ
Verif.Str.C58_lastIndexOf_partial	PCQ
Verif.Str.C58_lastIndexOf_start_refuted	PCQ
Verif.Str.C58_lastIndexOf_empty_refuted	PQ
Verif.Str.C59_substring_to_end_partial	PCQ
Verif.Str.C59_substring_partial	PCQ
Verif.Str.C59_substring_end_refuted	PCQ
Verif.Str.C59_substring_swap_refuted	PQ
Verif.Str.C59_substring_negative_refuted	PCQ
Verif.Str.C59_slice_to_end_partial	PCQ
Verif.Str.C59_slice_partial	PCQ
Verif.Str.C59_slice_end_refuted	PCQ
Verif.Str.C59_slice_beyond_refuted	PCQ
Verif.Str.C60_replace_partial	PQ
Verif.Str.C60_replace_fn_refuted	PQ
Verif.Str.C60_repeat_partial	PQ
Verif.Str.C60_repeat_empty_refuted	P
Verif.Str.C60_concat_partial	PQ
Verif.Str.C60_concat_nul_refuted	K
Verif.Str.C60_map	PQ
Verif.Str.C60_map_total	PQ
Verif.Str.C60_map_identity	PQ
Verif.Str.C60_map_empty_refuted	K
Verif.Opt.C61_unique	PQ
Verif.Opt.C61_exact	PCQ
Verif.Opt.C61_message_refuted	PCQ
Verif.Opt.C61_sound	PCQ
Verif.Opt.C61_full_name_partial	PCQ
Verif.Opt.C61_full_name_refuted	PCQ
Verif.Ref.C62_nothing_else_changes	PQ
Verif.Ref.C62_copy_copies	PQ
Verif.Ref.C62_move_moves	PQ
Verif.Ref.C62_value_set	PCQ
Verif.Ref.C62_arraySet_sets	PCQ
Verif.Ref.C62_arrayAdd_adds	PQ
Verif.Ref.C62_insert_sets	PCQ
Verif.Ref.C62_names_are_unique	PCQ
Verif.Lex.C63_tokens_partial	PCQ
Verif.Lex.C63_glue_refuted	PCQ
Verif.Lex.C63_empty_comment_refuted	PCQ
Verif.Lex.C63_newline_in_string_refuted	PCQ
Verif.Lex.C63_zero_exponent_refuted	PCQ
Verif.Lex.C63_hex_minus_refuted	PCQ
Verif.Lex.C63_regex_after_return_refuted	PCQ
Verif.Lex.C63_form_feed_refuted	PCQ
Verif.Lex.C63_long_name_refuted	PCQ
Verif.Lex.C64_first_token_partial	PCQ
Verif.Lex.C64_name_partial	PCQ
Verif.Lex.C64_operator_partial	PCQ
Verif.Lex.C65_string_partial	PCQ
Verif.Lex.C65_quote_roundtrip_partial	PCQ
Verif.Lex.C65_ff_refuted	PCQ
Verif.Lex.C65_continuation_refuted	PCQ
Verif.Lex.C65_hex_escape_refuted	PCQ
Verif.Lex.C65_vtab_refuted	PCQ
Verif.Lex.C65_surrogates_refuted	PCQ
Verif.Lex.C66_safe	PCQ
Verif.Lex.C66_no_bound	PCQ
Verif.Lex.C66_getchar_fuel	PQ
Verif.Lex.C67_all_read_partial	PCQ
Verif.Lex.C67_high_byte_refuted	PCQ
Verif.Lex.C67_comment_byte_refuted	PCQ
Verif.Lex.C68_lines_partial	PCQ
Verif.Lex.C68_not_before_partial	PCQ
Verif.Lex.C68_line_refuted	PCQ
Verif.Interp.C69_limits	PCQ
Verif.Interp.C69_noSubs	PCQ
Verif.Interp.C69_others_refuted	PCQ
Verif.Interp.C70_access	PQ
Verif.Interp.C70_confined_partial	PCQ
Verif.Interp.C70_sourced_partial	PCQ
Verif.Interp.C70_lockDown_refuted	PCQ
Verif.Interp.C70_source_refuted	PCQ
Verif.Interp.C70_selfSource_refuted	P
Verif.Interp.C70_selfSource_case	PCQ
Verif.Interp.C70_edit_refuted	PCQ
Verif.Interp.C70_conf_refuted	PCQ
Verif.Interp.C70_load_refuted	PCQ
Verif.Interp.C71_conf_fixed	PCQ
Verif.Interp.C71_conf_unnamed	PCQ
Verif.Interp.C71_process	PCQ
Verif.Interp.C71_noConfig	PCQ
Verif.Interp.C71_noConfig_stays	PCQ
Verif.Interp.C72_find	PCQ
Verif.Interp.C73_depth	PCQ
Verif.Interp.C74_none	PCQ
Verif.Interp.C74_exec	PCQ
Verif.Interp.C74_newline_refuted	PCQ
Verif.Obj.C75_objects_agree_partial	PCQ
Verif.Obj.C75_refuted	PCQ
Verif.Obj.C76_inherited_refuted	PCQ
Verif.Obj.C76_assigned_refuted	PCQ
Verif.Obj.C76_merged_refuted	PCQ
Verif.Obj.C76_created_refuted	PCQ
Verif.Obj.C76_filtered_refuted	PCQ
Verif.Obj.C76_values_refuted	PCQ
Verif.Obj.C76_put_one_place_partial	PCQ
Verif.Obj.C76_inc_one_place_partial	PCQ
Verif.Obj.C77_array_put_partial	PCQ
Verif.Obj.C77_string_index_refuted	PCQ
Verif.Obj.C77_notation_refuted	PCQ
Verif.Obj.C77_delete_refuted	PCQ
Verif.Obj.C77_length_refuted	PCQ
Verif.Obj.C78_array_refuted	PCQ
Verif.Obj.C78_values_refuted	PCQ
Verif.Obj.C78_shared_refuted	PCQ
Verif.Obj.C78_travels_refuted	PCQ
Verif.Obj.C78_frozen_keys_partial	PCQ
Verif.Obj.C78_frozen_values_partial	PCQ
Verif.Obj.C79_once	PCQ
Verif.Obj.C79_ends_partial	PCQ
Verif.Obj.C79_all_partial	PCQ
Verif.Obj.C79_names_partial	PCQ
Verif.Obj.C79_elements_once	PCQ
Verif.Obj.C79_elements_partial	PCQ
Verif.Obj.C79_variable_name_partial	PCQ
Verif.Obj.C79_variable_element_partial	PCQ
Verif.Obj.C79_order_refuted	PCQ
Verif.Obj.C79_array_names_refuted	PCQ
Verif.Obj.C79_cycle_refuted	PCQ
Verif.Obj.C80_hasOwn_partial	PCQ
Verif.Obj.C80_in_partial	PCQ
Verif.Obj.C80_array_keys_partial	PCQ
Verif.Obj.C80_keys_partial	PCQ
Verif.Obj.C80_in_inherited_refuted	PCQ
Verif.Obj.C80_in_array_refuted	PCQ
Verif.Obj.C80_hasOwn_refuted	PCQ
Verif.Obj.C80_keys_refuted	PCQ
Verif.Obj.C81_lookups_end_partial	PCQ
Verif.Obj.C81_cycle_refuted	PCQ
Verif.Obj.C81_empty_prototype_refuted	PCQ
Verif.Obj.C82_each_refuted	PCQ
Verif.Obj.C82_apply_refuted	PCQ
Verif.Obj.C82_assignment_local_partial	PCQ
Verif.Obj.C83_parameter_refuted	PCQ
Verif.Obj.C83_array_refuted	PCQ
Verif.Obj.C83_assign_all_partial	PCQ
Verif.Fmt.C84_format_partial	PCQ
Verif.Fmt.C84_plain_text	PCQ
Verif.Fmt.C84_libc_satisfiable	PCQ
Verif.Fmt.C84_example	PCQ
Verif.Fmt.C84_zero_left_refuted	PCQ
Verif.Fmt.C84_q_precision_refuted	PCQ
Verif.Fmt.C84_nul_refuted	PCQ
Verif.Fmt.C84_width_characters_refuted	PCQ
Verif.Fmt.C84_char_byte_refuted	PCQ
Verif.Fmt.C85_format_safe_partial	PCQ
Verif.Fmt.C85_unknown_conversion_refuted	PCQ
Verif.Fmt.C85_flags_width_refuted	PCQ
Verif.Fmt.C85_refuted	PCQ
Verif.Fmt.C85_example	PCQ
Verif.Fmt.C86_terminates	PCQ
Verif.Fmt.C86_no_missing_argument	PQ
Verif.Fmt.C86_extra_arguments	PQ
Verif.Fmt.C86_example	PCQ
Verif.Fmt.C87_integers_read_back	PCQ
Verif.Fmt.C87_different_integers	PCQ
Verif.Fmt.C87_example	PCQ
Verif.Queue.C88_memory_partial	PCQ
Verif.Queue.C88_in_order_partial	PCQ
Verif.Queue.C88_one_at_a_time_partial	PCQ
Verif.Queue.C88_emptied_partial	PCQ
Verif.Queue.C88_nested_refuted	P
Verif.Queue.C88_timeout_refuted	P
Verif.Queue.C88_timeout_freed_refuted	P
Verif.Queue.C89_own_result_partial	PCQ
Verif.Queue.C89_all_answered_partial	PCQ
Verif.Queue.C89_deleted_refuted	P
Verif.Queue.C90_texts_partial	PCQ
Verif.Queue.C90_emptied_partial	PCQ
Verif.Queue.C90_overtakes_refuted	PCQ
Verif.Queue.C90_comment_refuted	PCQ
Verif.Queue.C91_no_deadlock_partial	PCQ
Verif.Queue.C91_lock_given_back_partial	PCQ
Verif.Queue.C91_bounded_partial	PCQ
Verif.Queue.C91_call_ends_partial	PCQ
Verif.Web.Files.C92_file_in_root_partial	PQ
Verif.Web.Files.C92_file_exists	PQ
Verif.Web.Files.C92_file_below_partial	PQ
Verif.Web.Files.C92_dotdot_refuted	PCQ
Verif.Web.Files.C92_prefix_refuted	PCQ
Verif.Web.Files.C92_alias_refuted	PCQ
Verif.Web.Files.C92_read_check_partial	PQ
Verif.Web.Files.C92_read_check_refuted	PCQ
Verif.Web.C93_page_means_partial	PCQ
Verif.Web.C93_unclosed	PCQ
Verif.Web.C93_required	PCQ
Verif.Web.C93_left_out_echo_refuted	PCQ
Verif.Web.C93_left_out_set_refuted	PCQ
Verif.Web.C93_left_out_condition_refuted	PCQ
Verif.Web.C93_two_parts_refuted	PCQ
Verif.Web.C93_lax_mark_refuted	PCQ
Verif.Web.C94_own_text_partial	PCQ
Verif.Web.C94_own_text_refuted	PCQ
Verif.Web.C94_self_include	PCQ
Verif.Web.C94_depth	PCQ
Verif.Web.Head.C95_all_headers	P
Verif.Web.Head.C95_names	PCQ
Verif.Web.Head.C95_header_by_name	PQ
Verif.Web.Head.C96_parameter_partial	PQ
Verif.Web.Head.C96_absent	P
Verif.Web.Head.C96_second_refuted	P
Verif.Web.Head.C97_right_password	PCQ
Verif.Web.Head.C97_only_right_password	PCQ
Verif.Web.Head.C97_one_password	PCQ
Verif.Sql.C98_scripts_partial	PCQ
Verif.Sql.C98_all_or_nothing_partial	PCQ
Verif.Sql.C98_crash_partial	PCQ
Verif.Sql.C98_own_begin_refuted	K
Verif.Sql.C98_own_begin_commits_refuted	K
Verif.Sql.C98_or_rollback_refuted	K
Verif.Sql.Cache.C99_same_text_refuted	PCQ
Verif.Sql.Cache.C99_trailing_blank_refuted	PCQ
Verif.Sql.Cache.C99_conf_inside_refuted	PCQ
Verif.Sql.Cache.C99_bindWarn_refuted	PCQ
Verif.Sql.Cache.C99_cache_transparent_partial	PCQ
Verif.Sql.Cache.C99_steps	PCQ
Verif.Sql.Cache.C100_nested_refuted	PCQ
Verif.Sql.Cache.C100_conf_refuted	PCQ
Verif.Sql.Cache.C100_size_partial	PCQ
Verif.Sql.Out.C101_csv_reads_back_partial	PCQ
Verif.Sql.Out.C101_long_separator_refuted	PCQ
Verif.Sql.Out.C101_header_refuted	PCQ
Verif.Sql.Out.C102_insert_reads_back_partial	PCQ
Verif.Sql.Out.C102_null_refuted	PCQ
Verif.Sql.Out.C102_limit_refuted	PCQ
Verif.Sql.Out.C102_table_refuted	PCQ
Verif.Sql.Out.C103_html_reads_back_partial	PCQ
Verif.Sql.Out.C103_no_markup	PCQ
Verif.Sql.Bind.C104_own_value_partial	PQ
Verif.Sql.Bind.C104_round_trip	P
Verif.Sql.Bind.C104_round_trip_int	P
Verif.Sql.Bind.C104_type_stays_refuted	PCQ
Verif.Sql.Bind.C104_cast_refuted	PCQ
Verif.Sql.Bind.C104_bool_refuted	PCQ
Verif.Sql.Bind.C104_nul_refuted	PCQ
Verif.File.C105_parts	PQ
Verif.File.C105_bare	PCQ
Verif.File.C105_root_extension	PCQ
Verif.File.C105_extension	PCQ
Verif.File.C105_location	PQ
Verif.File.C105_location_relative	PCQ
Verif.File.C105_dotdot_refuted	PCQ
Verif.File.C105_shapes	PCQ
Verif.File.C106_tilde_refuted	PCQ
Verif.File.C106_only_inside_partial	PCQ
Verif.File.C106_not_forced	PCQ
Verif.File.C107_whole_tree_partial	PCQ
Verif.File.C107_tilde_refuted	PCQ
Verif.File.C107_success_refuted	PCQ
Verif.File.C107_dots_refuted	PCQ
Verif.File.C107_root_refuted	PCQ
Verif.File.C107_link_refuted	PCQ
Verif.File.C108_makes_the_way	PCQ
Verif.File.C108_tilde_refuted	PCQ
Verif.File.C108_failure_leaves	PCQ
Verif.File.C108_makes_only_the_way_partial	PCQ
Verif.File.Copy.C109_copies_partial	PQ
Verif.File.Copy.C109_refuses	P
Verif.File.Copy.C109_alias_refuted	PCQ
Verif.File.Copy.C109_fault_refuted	PCQ
Verif.File.Copy.C109_failure_refuted	PCQ
Verif.File.Copy.C109_self_refuted	PCQ
Verif.File.Copy.C110_round_trip_partial	PQ
Verif.File.Copy.C110_returned_number_partial	PQ
Verif.File.Copy.C110_close_refuted	PCQ
Verif.Pkg.C111_shown_as_given_partial	PCQ
Verif.Pkg.C111_order_partial	PCQ
Verif.Pkg.C111_same_partial	PCQ
Verif.Pkg.C111_shown_text_is_accepted	PCQ
Verif.Pkg.C111_number_range	PCQ
Verif.Pkg.C111_number_partial	PCQ
Verif.Pkg.C111_junk_refuted	PCQ
Verif.Pkg.C111_wraps_refuted	PCQ
Verif.Pkg.C111_hundred_refuted	PCQ
Verif.Pkg.C112_options_refuted	PCQ
Verif.Pkg.C112_noError_refuted	PCQ
Verif.Pkg.C112_at_least_partial	PCQ
Verif.Pkg.C112_there	PCQ
Verif.Pkg.C112_known	PCQ
Verif.Pkg.C112_downlevel_partial	PCQ
Verif.Pkg.C113_second_version_refuted	PCQ
Verif.Pkg.C113_stays	PCQ
Verif.Pkg.C113_not_again	PCQ
Verif.Pkg.C113_provided	P
Verif.Pkg.C113_other_file	P
Verif.Pkg.C114_first_place	PCQ
Verif.Pkg.C114_nowhere	PCQ
Verif.Pkg.C115_half_loaded_refuted	PCQ
Verif.Pkg.C115_first_time_partial	PCQ
Verif.Pkg.C115_error_is_reported	PCQ
Verif.Pkg.C115_provide_last_partial	PCQ
Verif.Pkg.C116_late_refuted	PCQ
Verif.Pkg.C116_depth	PCQ
Verif.Pkg.C116_once_partial	PCQ
Verif.Call.C117_parameters	PQ
Verif.Call.C118_direct_partial	PCQ
Verif.Call.C118_call_partial	PCQ
Verif.Call.C118_apply_refuted	PCQ
Verif.Call.C118_bind_refuted	PCQ
Verif.Call.C118_forEach_refuted	PCQ
Verif.Call.C118_shared_scope_refuted	PCQ
Verif.Call.C119_checked	PCQ
Verif.Call.C119_no_check	PQ
Verif.Call.C119_no_error	P
Verif.Call.C119_untyped_refuted	PCQ
Verif.Call.C119_limit_refuted	P
Verif.Call.C120_result	PQ
Verif.Call.C120_exception	P
Verif.Call.C120_unchecked	P
Verif.Call.C121_types	PCQ
Verif.Call.C121_any	PCQ
Verif.Call.C121_words	PCQ
Verif.Call.C121_signature_partial	PCQ
Verif.Call.C121_void_refuted	PCQ
Verif.Call.C122_call	PCQ
Verif.Call.C122_apply	P
Verif.Call.C122_bind_partial	PCQ
Verif.Call.C122_bind_makes_partial	PCQ
Verif.Call.C122_bind_failure_refuted	P
Verif.Opt.C123_int_partial	PCQ
Verif.Opt.C123_int_type	PQ
Verif.Opt.C123_fraction_refuted	PCQ
Verif.Opt.C123_unsigned_refuted	P
Verif.Opt.C123_huge_refuted	P
Verif.Opt.C124_record	PQ
Verif.Opt.C124_only_named	PQ
Verif.Opt.C125_nested_partial	PQ
Verif.Opt.C125_null_refuted	PCQ
Verif.Opt.C125_locked	PQ
Verif.Opt.C125_refused	P
Verif.Opt.C126_refused_partial	P
Verif.Opt.C126_nan_refuted	P
Verif.Opt.C126_incr_refuted	P
Verif.Opt.C127_stops_partial	PQ
Verif.Opt.C127_atomic_refuted	PCQ
Verif.Opt.C128_required	PQ
Verif.Opt.C128_missing	PQ
Verif.Opt.C128_null_refuted	PCQ
Verif.Opt.C129_round_partial	PCQ
Verif.Opt.C129_sound_partial	PCQ
Verif.Opt.C129_negative_refuted	PCQ
Verif.Opt.C130_string	PCQ
Verif.Opt.C130_string_only	PCQ
Verif.Opt.C130_object_partial	PCQ
Verif.Opt.C130_array	PCQ
Verif.Opt.C130_array_only	PCQ
Verif.Opt.C130_read	PQ
Verif.Opt.C130_object_refuted	PCQ
Verif.Opt.C130_reset_refuted	P
Verif.Opt.C130_narrow_refuted	PCQ
Verif.Opt.C131_restore_partial	PCQ
Verif.Opt.C131_bitset_refuted	PCQ
Verif.Opt.C131_readonly_refuted	PCQ
Verif.Opt.C132_unique	PCQ
Verif.Opt.C132_full_partial	PCQ
Verif.Opt.C132_full_refuted	PCQ
Verif.Opt.C132_sound	PQ
Verif.Opt.C132_ambiguous	PCQ
Verif.Opt.C132_unknown	P
Verif.Regex.C133_replace_first_partial	PCQ
Verif.Regex.C133_dollar_at_end_refuted	PCQ
Verif.Regex.C134_replace_each	PCQ
Verif.Regex.C134_replace_all_partial	PCQ
Verif.Regex.C134_empty_match_refuted	PCQ
Verif.Regex.C134_line_start_refuted	PCQ
Verif.Regex.C134_text_before_refuted	PCQ
Verif.Regex.C134_many_matches_refuted	PCQ
Verif.Regex.C135_function_each	PCQ
Verif.Regex.C135_function_all_partial	PCQ
Verif.Regex.C135_empty_match_refuted	PCQ
Verif.Regex.C136_match_all_partial	PCQ
Verif.Regex.C136_match_first_partial	PQ
Verif.Regex.C136_match_none	PQ
Verif.Regex.C136_empty_match_refuted	PCQ
Verif.Regex.C136_same_group_refuted	PQ
Verif.Regex.C136_unused_group_refuted	PQ
Verif.Regex.C137_exec_next_partial	PQ
Verif.Regex.C137_exec_loop_partial	PQ
Verif.Regex.C137_other_objects_partial	PQ
Verif.Regex.C137_exec_first_partial	PQ
Verif.Regex.C137_line_start_refuted	PCQ
Verif.Regex.C137_empty_match_refuted	PCQ
Verif.Regex.C137_groups_refuted	PCQ
Verif.Regex.C137_negative_index_refuted	PQ
Verif.Regex.C137_shared_index_refuted	PCQ
Verif.Regex.C138_search_test_partial	PQ
Verif.Regex.C138_bytes_refuted	PCQ
Verif.Regex.C139_construct_partial	P
Verif.Regex.C139_construct_refuted	PCQ
Verif.Regex.C140_replace_safe	PQ
Verif.Regex.C140_match_safe_partial	PQ
Verif.Scope.C141_arrow_var_refuted	P
Verif.Scope.C141_arrow_leak_refuted	P
Verif.Scope.C141_getter_refuted	P
Verif.Scope.C141_setter_refuted	P
Verif.Scope.C141_own_name_refuted	P
Verif.Scope.C141_lexical_scope_partial	PQ
Verif.Scope.C142_accepted_partial	PCQ
Verif.Scope.C142_accepted_refuted	PQ
Verif.Scope.C143_hoisting_partial	PCQ
Verif.Scope.C143_function_refuted	P
Verif.Scope.C143_var_refuted	P
Verif.Scope.C144_ecmascript_partial	PCQ
Verif.Scope.C144_sum_refuted	P
Verif.Scope.C144_argument_refuted	P
Verif.Limit.C145_cap	PCQ
Verif.Limit.C145_ends	PCQ
Verif.Limit.C146_exit	PCQ
Verif.Limit.C147_interrupt	PCQ
Verif.Limit.C148_depth	PCQ
Verif.Limit.C149_objects_partial	PCQ
Verif.Limit.C149_objects_refuted	PQ
Verif.Chan.C150_read	PCQ
Verif.Chan.C150_read_all	PQ
Verif.Chan.C150_pieces	PCQ
Verif.Chan.C150_zero_refuted	P
Verif.Chan.C151_gets_partial	PQ
Verif.Chan.C151_long_line_refuted	PQ
Verif.Chan.C151_nul_refuted	K
Verif.Chan.C152_write	PQ
Verif.Chan.C152_append	P
Verif.Chan.C152_read_back	PCQ
Verif.Chan.C152_lines_partial	PQ
Verif.Chan.C152_puts_nul_refuted	K
Verif.Chan.C153_closed_partial	K
Verif.Chan.C153_stays_closed	K
Verif.Chan.C153_freed_refuted	K
Verif.Chan.C153_opened_safe	P
Verif.Chan.C154_new	PQ
Verif.Chan.C154_open_partial	P
Verif.Chan.C154_open_refuted	K
Verif.Chan.C155_seek_tell	P
Verif.Chan.C155_seek_rel	PQ
Verif.Chan.C155_eof_read	PCQ
Verif.Chan.C155_eof_gets	P
Verif.Chan.C156_read_only	P
Verif.Chan.C156_told	P
Verif.Sort.C157_same_elements	PQ
Verif.Sort.C157_unique_elements	PQ
Verif.Sort.C158_numbers_partial	PCQ
Verif.Sort.C158_numbers_desc_partial	PCQ
Verif.Sort.C158_strings_partial	PCQ
Verif.Sort.C158_strings_desc_partial	PCQ
Verif.Sort.C158_nocase_partial	PCQ
Verif.Sort.C158_mixed_refuted	PQ
Verif.Sort.C158_holes_refuted	PQ
Verif.Sort.C158_nul_refuted	PQ
Verif.Sort.C158_dict_partial	PCQ
Verif.Sort.C158_mixed_partial	PCQ
Verif.Sort.C159_function_partial	PCQ
Verif.Sort.C159_fraction_refuted	PQ
Verif.Sort.C159_large_refuted	PQ
Verif.Sort.C159_exception_refuted	PQ
Verif.Sort.C160_unique_numbers_partial	PCQ
Verif.Sort.C160_holes_refuted	PQ
Verif.Sort.C160_memory_refuted	P
Verif.Number.C161_whole_numbers	PCQ
Verif.Number.C161_special	PCQ
Verif.Number.C161_fifteen_digits	PCQ
Verif.Number.C161_prints_as_written	PCQ
Verif.Number.C161_refuted	PCQ
Verif.Number.C161_subnormal_refuted	PCQ
Verif.Number.C162_radix_round_trip_partial	PCQ
Verif.Number.C162_decimal_round_trip_partial	PCQ
Verif.Number.C162_negative_refuted	PCQ
Verif.Number.C162_base_refuted	PCQ
Verif.Number.C162_fraction_refuted	PCQ
Verif.Number.C163_parseInt_base_partial	PCQ
Verif.Number.C163_parseInt_plain_partial	PCQ
Verif.Number.C163_number	PCQ
Verif.Number.C163_negative_refuted	PCQ
Verif.Number.C163_blank_refuted	PCQ
Verif.Number.C163_octal_refuted	PCQ
Verif.Number.C163_garbage_refuted	PCQ
Verif.Number.C163_large_refuted	PCQ
Verif.Number.C164_nan_finite	PQ
Verif.Number.C164_isInteger_partial	PCQ
Verif.Number.C164_isInteger_refuted	PCQ
Verif.Number.C164_isSafeInteger	PCQ
Verif.Number.C165_toFixed_partial	PCQ
Verif.Number.C165_toFixed_refuted	PCQ
Verif.Number.C165_toPrecision_refuted	PCQ
Verif.Arith.C166_and_partial	PCQ
Verif.Arith.C166_or_partial	PCQ
Verif.Arith.C166_xor_partial	PCQ
Verif.Arith.C166_refuted	P
Verif.Arith.C166_large_refuted	P
Verif.Arith.C167_not_partial	PCQ
Verif.Arith.C167_shl_partial	PCQ
Verif.Arith.C167_shr_partial	PCQ
Verif.Arith.C167_ushr_partial	PCQ
Verif.Arith.C167_refuted	P
Verif.Arith.C168_inc_partial	PCQ
Verif.Arith.C168_refuted	P
Verif.Arith.C169_remainder	PQ
Verif.Arith.C169_min_max_partial	PCQ
Verif.Arith.C169_nan_refuted	K
Verif.Arith.C169_round_partial	PCQ
Verif.Arith.C169_floor_ceil	PCQ
Verif.Arith.C169_round_refuted	P
Verif.Date.C170_utc_partial	PCQ
Verif.Date.C170_local_partial	PCQ
Verif.Date.C170_secs_partial	PCQ
Verif.Date.C170_before_1970_refuted	PCQ
Verif.Date.C170_empty_refuted	PCQ
Verif.Date.C171_utc_partial	PCQ
Verif.Date.C171_local_partial	PCQ
Verif.Date.C171_minus_one_refuted	PCQ
Verif.Date.C171_skipped_refuted	PCQ
Verif.Date.C172_shows_partial	PCQ
Verif.Date.C172_round_trip_partial	PCQ
Verif.Date.C172_refuted	PCQ
Verif.Date.C173_forms_partial	PCQ
Verif.Date.C173_time_refuted	PCQ
Verif.Date.C173_nonsense_refuted	PCQ
Verif.Date.C173_empty_refuted	PCQ
Verif.Date.C174_offset_partial	PCQ
Verif.Date.C174_local_refuted	PCQ
Verif.Date.C174_fraction_refuted	PCQ
Verif.Date.C175_partial	PCQ
Verif.Date.C175_refuted	PCQ
Verif.Opt.C176_full	PQ
Verif.Opt.C176_sound	PQ
Verif.Opt.C176_value_refuted	PCQ
Verif.Opt.C177_frame	PQ
Verif.Opt.C177_names	PQ
Verif.Opt.C177_object	PQ
Verif.Opt.C177_readonly_refuted	PCQ
Verif.Opt.C178_colon_partial	PCQ
Verif.Opt.C178_equals_partial	PCQ
Verif.Opt.C178_alone	PCQ
Verif.Opt.C178_equals_refuted	PCQ
Verif.Opt.C178_word_refuted	PCQ
Verif.UObj.C179_back_partial	PCQ
Verif.UObj.C179_distinct	PCQ
Verif.UObj.C179_fresh	PCQ
Verif.UObj.C180_once	PQ
Verif.UObj.C180_alive	PQ
Verif.UObj.C180_end	PQ
Verif.UObj.C180_free	PQ
Verif.UObj.C180_unregister_refuted	P
Verif.UObj.C181_listed	PQ
Verif.UObj.C182_sound	PQ
Verif.UObj.C182_unknown_refuted	PQ
Verif.UObj.C182_loose_refuted	PCQ
Verif.Sql.OutJson.C183_rows_as_objects_partial	PCQ
Verif.Sql.OutJson.C183_read_back_partial	PCQ
Verif.Sql.OutJson.C183_name_refuted	PCQ
Verif.Sql.OutJson.C183_emoji_refuted	PCQ
Verif.Sql.OutJson.C183_blob_leak_refuted	PCQ
Verif.Sql.OutJson.C184_names_and_rows_partial	PCQ
Verif.Sql.OutJson.C184_no_rows_refuted	PCQ
Verif.Sql.OutJson.C185_names_and_values_partial	PCQ
Verif.Sql.OutJson.C185_no_rows_refuted	PCQ
Verif.Sql.OutLine.C186_one_column_partial	PCQ
Verif.Sql.OutLine.C186_first_row_refuted	PCQ
Verif.Sql.OutLine.C187_rows_partial	PCQ
Verif.Sql.OutLine.C187_no_headers_refuted	PCQ
Verif.Sql.OutLine.C187_names_refuted	PCQ
Verif.Sql.OutLine.C187_cut_refuted	PCQ
Verif.Sql.OutLine.C188_read_back_partial	PCQ
Verif.Sql.OutLine.C188_separator_refuted	PCQ
Verif.Sql.OutLine.C188_no_rows_refuted	K
Verif.Sql.Import.C189_lines_partial	PCQ
Verif.Sql.Import.C189_wrong_count_partial	PCQ
Verif.Sql.Import.C189_rows_partial	PCQ
Verif.Sql.Import.C189_records_partial	PCQ
Verif.Sql.Import.C189_last_quoted_refuted	PCQ
Verif.Sql.Import.C189_too_many_refuted	PCQ
Verif.Sql.Import.C189_unclosed_refuted	PCQ
Verif.Sql.Import.C190_round_trip_partial	PCQ
Verif.Sql.Import.C190_blank_refuted	PCQ
Verif.FGlob.C191_members_partial	PCQ
Verif.FGlob.C191_limit_partial	PCQ
Verif.FGlob.C192_members_partial	PCQ
Verif.FGlob.C192_limit_partial	PCQ
Verif.FGlob.C192_cut_refuted	PCQ
Verif.FGlob.C192_root_refuted	PCQ
Verif.FGlob.C193_members_partial	PCQ
Verif.FGlob.C193_limit_refuted	PQ
Verif.FGlob.C193_nodir_refuted	PQ
Verif.FGlob.C194_members_partial	PCQ
Verif.FGlob.C194_path_refuted	PQ
Verif.FGlob.C194_recurse_refuted	P
Verif.FGlob.C195_dirs_refuted	PCQ
Verif.FGlob.C195_discard_refuted	PQ
Verif.FGlob.C195_types_partial	PCQ
Verif.FGlob.C195_notypes_partial	PCQ
Verif.FGlob.C195_notypes_refuted	PCQ
Verif.FGlob.C195_discard_partial	PQ
Verif.Call.C196_own	PCQ
Verif.Call.C196_other	PCQ
Verif.Call.C196_refused	P
Verif.Call.C197_arguments_partial	PCQ
Verif.Call.C197_start_partial	PQ
Verif.Call.C197_preset_refuted	PCQ
Verif.Call.C197_nested_refuted	PCQ
Verif.Call.C197_left_over_refuted	PCQ
Verif.Alias.C198_calls	PQ
Verif.Alias.C198_function	PQ
Verif.Alias.C198_arguments	PQ
Verif.Alias.C198_others	P
Verif.Alias.C198_refused	P
Verif.Alias.C198_names_partial	PQ
Verif.Alias.C198_none_partial	PQ
Verif.Alias.C198_deleted_partial	PQ
Verif.Alias.C198_names_refuted	PCQ
Verif.Alias.C198_deleted_refuted	PCQ
Verif.Json.Bare.C199_copy_partial	PCQ
Verif.Json.C199_scalar_partial	PCQ
Verif.Json.C199_string_partial	PCQ
Verif.Json.C199_nul_refuted	PCQ
Verif.Json.C199_undefined_refuted	PCQ
Verif.Json.C199_emoji_refuted	PCQ
Verif.Lookup.C200_lookup_partial	PCQ
Verif.Lookup.C200_limit_refuted	PCQ
Verif.Lookup.C200_number_refuted	PCQ
Verif.Lookup.C200_wrap_refuted	PCQ
Verif.Lookup.C200_escape_refuted	PCQ
Verif.Match.C201_type_partial	PCQ
Verif.Match.C201_exact_partial	PCQ
Verif.Match.C201_part_partial	PCQ
Verif.Match.C201_three_refuted	P
Verif.Match.C201_space_refuted	PCQ
Verif.Match.C201_prefix_refuted	PCQ
Verif.Match.C201_key_refuted	PCQ
Verif.Match.C201_junk_refuted	PCQ
Verif.Pkg.C202_there_and_back_partial	PCQ
Verif.Pkg.C202_two_partial	PCQ
Verif.Pkg.C202_zero_refuted	PCQ
Verif.Pkg.C202_other	PCQ
Verif.Signal.C203_names_partial	PCQ
Verif.Signal.C203_numbers_partial	PCQ
Verif.Signal.C203_found_partial	PCQ
Verif.Signal.C203_table_partial	PCQ
Verif.Signal.C203_refuted	PCQ
Verif.Signal.C204_action_partial	PCQ
Verif.Signal.C204_list	PCQ
Verif.Signal.C204_kill_refuted	PCQ
Verif.Signal.C204_error_refuted	PCQ
Verif.Signal.C205_called_partial	PQ
Verif.Signal.C205_after_return_partial	PQ
Verif.Signal.C205_not_more	PQ
Verif.Signal.C205_not_again	PQ
Verif.Signal.C205_two_refuted	P
Verif.Signal.C205_busy_refuted	K
Verif.Signal.C205_race_refuted	K
Verif.Repl.C206_complete_partial	PQ
Verif.Repl.C206_string_partial	PCQ
Verif.Repl.C206_lines_partial	PCQ
Verif.Repl.C206_cancel_partial	PCQ
Verif.Repl.C206_inside_refuted	PCQ
Verif.Repl.C206_comment_refuted	PCQ
Verif.Repl.C206_cancel_refuted	PCQ
Verif.Sql.ObjBind.C207_insert_partial	PCQ
Verif.Sql.ObjBind.C207_update_partial	PCQ
Verif.Sql.ObjBind.C207_create_partial	PCQ
Verif.Sql.ObjBind.C207_read_partial	PCQ
Verif.Sql.ObjBind.C207_quote_refuted	PCQ
Verif.Sql.ObjBind.C207_space_refuted	PCQ
Verif.Sql.ObjBind.C207_noDefaults_refuted	PCQ
Verif.Sql.ObjBind.C207_silent_refuted	PCQ
Verif.Sql.ObjBind.C207_empty_refuted	PCQ
Verif.Sql.ObjBind.C207_null_refuted	PCQ
Verif.Obj.Access.C208_get_partial	P
Verif.Obj.Access.C208_set	P
Verif.Obj.Access.C208_plain	P
Verif.Obj.Access.C208_frozen	P
Verif.Obj.Access.C208_inc_partial	P
Verif.Obj.Access.C208_inc_plain_partial	P
Verif.Obj.Access.C208_stale_refuted	P
Verif.Obj.Access.C208_proto_refuted	P
Verif.Obj.Access.C208_throw_refuted	P
Verif.Obj.Access.C208_this_refuted	PCQ
Verif.Obj.IsProto.C209_found_partial	PQ
Verif.Obj.IsProto.C209_sound_partial	P
Verif.Obj.IsProto.C209_none_partial	P
Verif.Obj.IsProto.C209_same_refuted	K
Verif.Obj.IsProto.C209_root_refuted	K
Verif.Obj.IsProto.C209_refuted	K
Verif.Edit.C210_keys_partial	PCQ
Verif.Edit.C210_typed_partial	PCQ
Verif.Edit.C210_utf8_refuted	PCQ
Verif.Edit.C210_full_refuted	PCQ
Verif.Edit.C211_add	PQ
Verif.Edit.C211_max	PQ
Verif.Edit.C211_save_partial	PCQ
Verif.Edit.C211_save_refuted	PCQ
Verif.Edit.C211_walk_partial	PQ
Verif.Edit.C211_enter_partial	PQ
Verif.Edit.C211_edit_refuted	PCQ
Verif.Edit.C211_long_refuted	PCQ
Verif.Edit.C211_full_refuted	PCQ
Verif.Complete.C212_inside_partial	PQ
Verif.Complete.C212_whole	PQ
Verif.Complete.C212_rest_partial	PQ
Verif.Complete.C212_backward_refuted	PQ
Verif.Complete.C212_empty_refuted	PQ
Verif.Debug.C213_here	PQ
Verif.Debug.C213_stop_partial	PQ
Verif.Debug.C213_go	P
Verif.Debug.C213_hits	PCQ
Verif.Debug.C213_temporary	PCQ
Verif.Debug.C213_numbers	PQ
Verif.Debug.C213_loop_refuted	PCQ
Verif.Vfs.C214_some	PQ
Verif.Vfs.C214_mount_partial	PCQ
Verif.Vfs.C214_nested_refuted	PQ
Verif.Vfs.C215_inside_partial	PCQ
Verif.Vfs.C215_read_partial	PCQ
Verif.Vfs.C215_line_partial	PQ
Verif.Vfs.C215_getc	PQ
Verif.Vfs.C215_size_refuted	PCQ
Verif.Vfs.C215_seek_refuted	PQ
Verif.Vfs.C216_dirs_partial	PCQ
Verif.Vfs.C216_order_refuted	PCQ
Verif.Vfs.C217_cut_partial	PCQ
Verif.Vfs.C217_list_partial	PCQ
Verif.Vfs.C217_once_partial	PCQ
Verif.Vfs.C217_long_refuted	PCQ
Verif.Vfs.C217_mounted_partial	PCQ
