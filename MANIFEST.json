{
 "claims": [
  {
   "property": "C01",
   "status": "proved",
   "theorems": [
    "Verif.Base64.C01_base64_decode_any_wrapping",
    "Verif.Base64.C01_base64_roundtrip",
    "Verif.Base64.C01_base64_decode_rfc4648"
   ],
   "note": "Full statement, all byte strings; also decodes unwrapped RFC text and any line wrapping between groups."
  },
  {
   "property": "C02",
   "status": "proved",
   "theorems": [
    "Verif.Base64.C02_base64_encode_is_rfc4648"
   ],
   "note": "Full statement; includes absence of out-of-bounds reads."
  },
  {
   "property": "C03",
   "status": "proved",
   "theorems": [
    "Verif.Crc.C03_crc32_is_bit_serial",
    "Verif.Crc.C03_crc32_incremental"
   ],
   "note": "Both halves, all inputs and all starting values."
  },
  {
   "property": "C04",
   "status": "partial",
   "theorems": [
    "Verif.Hex.C04_digest_hex_partial",
    "Verif.Hex.C04_hexStr_refuted",
    "Verif.Hex.C04_hexStr_never_decodes",
    "Verif.Hex.C04_hexStr_decode_overflows"
   ],
   "note": "Digest printer half proved; hexStr half is false of the code: refuted, with general failure and buffer overflow theorems."
  },
  {
   "property": "C05",
   "status": "partial",
   "theorems": [
    "Verif.Uri.C05_component_refuted",
    "Verif.Uri.C05_uri_refuted",
    "Verif.Uri.C05_component_roundtrip_partial",
    "Verif.Uri.C05_uri_roundtrip_partial",
    "Verif.Uri.C05_component_no_reserved",
    "Verif.Uri.C05_decode_escape"
   ],
   "note": "Full claim refuted (percent sign, plus sign); proved for all strings without those characters."
  },
  {
   "property": "C06",
   "status": "proved",
   "theorems": [
    "Verif.Utf8.C06_encode_is_utf8",
    "Verif.Utf8.C06_decode_encode",
    "Verif.Utf8.C06_decode_safe"
   ],
   "note": "encoder equals Lean core String.utf8EncodeChar for every Char; decoder round-trips with exact length, is in-bounds and makes progress on every nonempty byte string"
  },
  {
   "property": "C07",
   "status": "partial",
   "theorems": [
    "Verif.Utf8.C07_refuted",
    "Verif.Utf8.C07_charAt_refuted",
    "Verif.Utf8.C07_substr_partial",
    "Verif.Utf8.C07_substr_to_end",
    "Verif.Utf8.C07_substr_from_end",
    "Verif.Utf8.C07_charCodeAt",
    "Verif.Utf8.C07_empty_negative_hangs"
   ],
   "note": "refuted as stated (C07_refuted, C07_charAt_refuted: a multi-byte first character drags extra bytes); proved for ASCII first char / range reaching the end, to-end substr, negative start, charCodeAt"
  },
  {
   "property": "C08",
   "status": "proved",
   "theorems": [
    "Verif.Crypto.Sha256.C08_sha256_is_fips180",
    "Verif.Crypto.Sha256.C08_chunking",
    "Verif.Crypto.Sha256.C08_length"
   ],
   "note": "every message below 2^61 bytes, any uninitialised buffer; specification is FIPS 180-4 written out separately"
  },
  {
   "property": "C09",
   "status": "proved",
   "theorems": [
    "Verif.Crypto.Sha1.C09_sha1_is_fips180",
    "Verif.Crypto.Sha1.C09_chunking"
   ],
   "note": "every message below 2^61 bytes; specification is FIPS 180-4"
  },
  {
   "property": "C10",
   "status": "proved",
   "theorems": [
    "Verif.Crypto.Md5.C10_md5_is_rfc1321",
    "Verif.Crypto.Md5.C10_chunking"
   ],
   "note": "every message below 2^61 bytes; specification is RFC 1321"
  },
  {
   "property": "C11",
   "status": "partial",
   "theorems": [
    "Verif.Crypto.Sha3.C11_exact",
    "Verif.Crypto.Sha3.C11_sha3_partial",
    "Verif.Crypto.Sha3.C11_single_block",
    "Verif.Crypto.Sha3.C11_sha3_224_partial",
    "Verif.Crypto.Sha3.C11_variant_swap",
    "Verif.Crypto.Sha3.C11_variant_refuted",
    "Verif.Crypto.Sha3.C11_uninitialised_refuted",
    "Verif.Crypto.Sha3.C11_multiblock_refuted"
   ],
   "note": "full claim refuted three ways (variant selection swapped, stale bytes in the last block of multi-block messages, 64 bytes always returned); exact behaviour characterised and FIPS 202 agreement proved when the stale bytes are zero, in particular for all messages shorter than a block"
  },
  {
   "property": "C12",
   "status": "proved",
   "theorems": [
    "Verif.Crypto.Encrypt.C12_decrypt_encrypt",
    "Verif.Crypto.Encrypt.C12_injective",
    "Verif.Crypto.Encrypt.C12_length"
   ],
   "note": "every string and key (lengths below 2^31); plus injectivity and exact length"
  },
  {
   "property": "C13",
   "status": "partial",
   "theorems": [
    "Verif.Crypto.Encrypt.C13_short_plaintext_leaks",
    "Verif.Crypto.Encrypt.C13_refuted",
    "Verif.Crypto.Encrypt.C13_pad_in_clear",
    "Verif.Crypto.Encrypt.C13_permutation_partial"
   ],
   "note": "refuted: texts of 2..4 bytes are not encrypted at all; what remains true (permutation) is proved"
  },
  {
   "property": "C14",
   "status": "proved",
   "theorems": [
    "Verif.Hash.C14_map_word",
    "Verif.Hash.C14_map_string",
    "Verif.Hash.C14_map_struct",
    "Verif.Hash.C14_unset_result",
    "Verif.Hash.C14_no_overflow",
    "Verif.Hash.C14_in_bounds"
   ],
   "note": "all histories of create/set/unset on word, string and struct keyed tables, any value type; no crash, lookup, search exactly once, size; counters within int range below 805306368 operations; bucket indexes in bounds"
  },
  {
   "property": "C15",
   "status": "partial",
   "theorems": [
    "Verif.Hash.C15_unset_refuted",
    "Verif.Hash.C15_map_partial",
    "Verif.Hash.C15_unset_crash_partial",
    "Verif.Hash.C15_rebuild_loses",
    "Verif.Hash.C15_lookup_refuted"
   ],
   "note": "refuted: removing a present key crashes when the two placements differ, and after 48 keys stored keys are lost (general theorem); proved for histories without removal and with at most 47 keys; exact crash condition proved"
  },
  {
   "property": "C16",
   "status": "partial",
   "theorems": [
    "Verif.Tree.C16_objects",
    "Verif.Tree.C16_struct_refuted",
    "Verif.Tree.C16_map",
    "Verif.Tree.C16_unset_result",
    "Verif.Dict.C16_string_refuted",
    "Verif.Dict.C16_string_plain_partial"
   ],
   "note": "proved for word, interned-string and string keyed trees with any total key order, for every history; struct keyed trees refuted (deletion of a node with two children); string keyed trees, which are ordered by the dictionary comparison, refuted in general (12 finds 1,2) and proved for keys without commas and the characters between Z and a"
  },
  {
   "property": "C17",
   "status": "proved",
   "theorems": [
    "Verif.Tree.C17_redblack",
    "Verif.Tree.C17_height"
   ],
   "note": "red-black invariant and height at most 2 log2(n+1) after every history on word, interned-string and string keyed trees (struct keyed trees do not survive deletion, see C16)"
  },
  {
   "property": "C18",
   "status": "partial",
   "theorems": [
    "Verif.Tree.C18_equal_iff_partial",
    "Verif.Tree.C18_refuted",
    "Verif.Tree.C18_small_partial"
   ],
   "note": "refuted for keys whose difference does not fit an int; proved: exactly which keys are confused, and order for keys less than 2^31 apart"
  },
  {
   "property": "C19",
   "status": "partial",
   "theorems": [
    "Verif.DString.C19_setlength_refuted",
    "Verif.DString.C19_printf_lost",
    "Verif.DString.C19_refuted",
    "Verif.DString.C19_dstring_is_sequence_partial"
   ],
   "note": "Full claim refuted (reservation on empty string leaves no NUL; DSPrintf loses text with >=8192 spare bytes); proved for all other histories."
  },
  {
   "property": "C20",
   "status": "partial",
   "theorems": [
    "Verif.LList.C20_pop_head_refuted",
    "Verif.LList.C20_delete_only_entry_uaf",
    "Verif.LList.C20_reverse_after_delete_uaf",
    "Verif.LList.C20_clear_uaf",
    "Verif.LList.C20_list_forward_partial",
    "Verif.LList.C20_list_backward_partial"
   ],
   "note": "Full claim refuted (pop of head, delete of only entry, clear); forward order proved for all valid histories but the deletion of the only entry; reverse order for histories that keep the first entry."
  },
  {
   "property": "C21",
   "status": "proved",
   "theorems": [
    "Verif.Stack.C21_stack_is_sequence"
   ],
   "note": "Full statement over all histories, including growth and absence of undefined behaviour."
  },
  {
   "property": "C22",
   "status": "partial",
   "theorems": [
    "Verif.Dict.C22_antisymmetric",
    "Verif.Dict.C22_reflexive",
    "Verif.Dict.C22_zero_refuted",
    "Verif.Dict.C22_transitive_refuted",
    "Verif.Dict.C22_is_dictionary_order_partial",
    "Verif.Dict.C22_transitive_partial",
    "Verif.Dict.C22_zero_partial"
   ],
   "note": "reflexivity and antisymmetry proved for all strings; transitivity refuted (Z > a > _ > Z), zero only for equal strings refuted (1,2 and 12); on strings without commas and the characters between Z and a the comparison is proved to be exactly the dictionary order, hence total and transitive"
  },
  {
   "property": "C23",
   "status": "partial",
   "theorems": [
    "Verif.Str.C23_join_partial",
    "Verif.Str.C23_split_join",
    "Verif.Str.C23_join_split",
    "Verif.Str.C23_join_split_char",
    "Verif.Str.C23_overlap_refuted",
    "Verif.Str.C23_join_default_refuted",
    "Verif.Str.C23_join_hole_refuted",
    "Verif.Str.C23_nul_refuted",
    "Verif.Str.C23_split_omitted_refuted",
    "Verif.Str.C23_split_null",
    "Verif.Str.C23_split_bytes"
   ],
   "note": "proved for all strings and separators without NUL bytes: split then join is the identity, join then split gives the pieces back when no piece makes the separator appear early (one-byte separators: when no piece contains it), split fills exactly the vector it allocated; refuted: overlapping separators, join without argument, holes, NUL bytes, split without argument"
  },
  {
   "property": "C24",
   "status": "partial",
   "theorems": [
    "Verif.Glob.C24_glob_partial",
    "Verif.Glob.C24_overrun_refuted",
    "Verif.Glob.C24_negation_refuted",
    "Verif.Glob.C24_set_escape_refuted",
    "Verif.Glob.C24_safe_partial"
   ],
   "note": "proved for all texts and all patterns of literals, ?, * and plain sets and ranges: matches iff in the language, no read beyond either string; memory safety for arbitrary bytes unless the string is empty; refuted: a leading ? on the empty string reads behind it, negated sets are not negated, escapes in sets"
  },
  {
   "property": "C25",
   "status": "partial",
   "theorems": [
    "Verif.Array.C25_history_partial",
    "Verif.Array.C25_push_partial",
    "Verif.Array.C25_pop",
    "Verif.Array.C25_shift_partial",
    "Verif.Array.C25_unshift_partial",
    "Verif.Array.C25_shift_hole_refuted",
    "Verif.Array.C25_unshift_none_refuted",
    "Verif.Array.C25_push_limit_refuted"
   ],
   "note": "proved for every history on arrays within the size limit, without holes for shift, at least one argument for unshift; refuted: shift with a leading hole, unshift without arguments, push beyond the limit"
  },
  {
   "property": "C26",
   "status": "partial",
   "theorems": [
    "Verif.Array.C26_slice_partial",
    "Verif.Array.C26_slice_to_end",
    "Verif.Array.C26_splice_partial",
    "Verif.Array.C26_concat_partial",
    "Verif.Array.C26_reverse",
    "Verif.Array.C26_fill_partial",
    "Verif.Array.C26_end_refuted",
    "Verif.Array.C26_far_start_refuted",
    "Verif.Array.C26_far_start_js",
    "Verif.Array.C26_splice_refuted",
    "Verif.Array.C26_concat_chain_refuted",
    "Verif.Array.C26_concat_chain_js",
    "Verif.Array.C26_splice_error_refuted"
   ],
   "note": "proved for every history with whole arguments in range, sizes within the limit; refuted: end beyond the length, start before the beginning, splice with an out of range start, chains of concat reaching the limit with empty arrays, splice that fails after removing"
  },
  {
   "property": "C27",
   "status": "partial",
   "theorems": [
    "Verif.Json.C27_round_trip_partial",
    "Verif.Json.C27_output_is_json",
    "Verif.Json.C27_key_refuted",
    "Verif.Json.C27_emoji_refuted",
    "Verif.Json.C27_bytes_refuted",
    "Verif.Json.C27_undefined_refuted",
    "Verif.Json.C27_depth_refuted"
   ],
   "note": "proved for values without undefined, with basic-plane UTF-8 strings and keys that need no escape, within the depth and array limits; refuted for keys with quotes, characters beyond U+FFFF, byte strings that are not UTF-8, undefined members, and values deeper than maxDepth"
  },
  {
   "property": "C28",
   "status": "proved",
   "theorems": [
    "Verif.Json.C28_printable",
    "Verif.Json.C28_ends_at_quote",
    "Verif.Json.C28_no_bare_quote",
    "Verif.Json.C28_keys_refuted"
   ],
   "note": "all byte strings; in addition a refutation for property keys, which are written without escapes"
  },
  {
   "property": "C29",
   "status": "partial",
   "theorems": [
    "Verif.Vm.C29_expr_code",
    "Verif.Vm.C29_expr_code_in_try",
    "Verif.Vm.C29_ecma_partial",
    "Verif.Vm.C29_ecma_refuted"
   ],
   "note": "the emitted code is proved to compute the structured semantics of jsish for every expression, placement, stack and state (C29_expr_code); agreement with the ECMAScript reading is proved for expressions without a side effect between a variable operand and its use and refuted in general (x + (x = 5))"
  },
  {
   "property": "C30",
   "status": "partial",
   "theorems": [
    "Verif.Vm.C30_program_partial",
    "Verif.Vm.C30_no_bug_partial",
    "Verif.Vm.C30_balanced_partial",
    "Verif.Vm.C30_crossing_refuted",
    "Verif.Vm.C30_stray_break_refuted"
   ],
   "note": "machine result iff source result (including non-termination), stack balance, no internal inconsistency, for every program whose break/continue have a destination and do not leave a for-in/switch through a finally; refuted for the others"
  },
  {
   "property": "C31",
   "status": "partial",
   "theorems": [
    "Verif.Vm.C31_finally_runs_partial",
    "Verif.Vm.C31_return_refuted",
    "Verif.Vm.C31_throw_in_catch_refuted"
   ],
   "note": "proved for leaving normally, by exception, break, continue, for every placement; refuted for return and for a throw statement in a catch block at the outermost level"
  },
  {
   "property": "C32",
   "status": "partial",
   "theorems": [
    "Verif.Vm.C32_value_kept_partial",
    "Verif.Vm.C32_thrown_value_partial",
    "Verif.Vm.C32_value_lost_refuted"
   ],
   "note": "proved for finally blocks without try statements (and calls that handle no exceptions); refuted in general and for thrown undefined"
  },
  {
   "property": "C33",
   "status": "proved",
   "theorems": [
    "Verif.Vm.C33_depth",
    "Verif.Vm.C33_recorded",
    "Verif.Vm.C33_catch_stack_partial",
    "Verif.Vm.C33_contents_refuted"
   ],
   "note": "depth as stated, for any code whatever; in addition the contents, for programs within okS, and a refutation of the contents in general"
  },
  {
   "property": "C34",
   "status": "partial",
   "theorems": [
    "Verif.Path.C34_mkdir_partial",
    "Verif.Path.C34_remove_partial",
    "Verif.Path.C34_mkdir_refuted",
    "Verif.Path.C34_create_refuted",
    "Verif.Path.C34_remove_refuted",
    "Verif.Path.C34_home_refuted",
    "Verif.Path.C34_check_existing",
    "Verif.Path.C34_open_existing",
    "Verif.Path.C34_create_partial"
   ],
   "note": "proved: every existing file opened (any text, links included) lies in a listed directory (or is argv[0]/the executable, for reading), the check is exact for existing files, new files in a file system without links, mkdir/remove of absolute paths without dots; refuted: File.mkdir with .., writing through a dangling link, removing a link that points inside, ~ with a different $HOME"
  },
  {
   "property": "C35",
   "status": "partial",
   "theorems": [
    "Verif.Path.C35_normalize_location",
    "Verif.Path.C35_normalize_location_rel",
    "Verif.Path.C35_normalize_idempotent",
    "Verif.Path.C35_normalize_dots_partial",
    "Verif.Path.C35_dotdot_refuted",
    "Verif.Path.C35_slashes_refuted",
    "Verif.Path.C35_dot_refuted",
    "Verif.Path.C35_realpath_location_partial",
    "Verif.Path.C35_realpath_clean",
    "Verif.Path.C35_realpath_refuted",
    "Verif.Path.C35_realpath_in_place"
   ],
   "note": "File.normalize: same location and idempotence proved; removal of .. refuted (never removed), // becomes empty, leading/trailing . stays; NormalizeUnixPath: clean result, no overflow, same location when every .. closes a component below the first; refuted otherwise"
  },
  {
   "property": "C36",
   "status": "partial",
   "theorems": [
    "Verif.Timer.C36_not_early_partial",
    "Verif.Timer.C36_ids",
    "Verif.Timer.C36_once",
    "Verif.Timer.C36_cleared",
    "Verif.Timer.C36_not_early_refuted",
    "Verif.Timer.C36_clear_self_refuted",
    "Verif.Timer.C36_clear_other_refuted",
    "Verif.Timer.C36_nested_refuted",
    "Verif.Timer.C36_safe_partial"
   ],
   "note": "transition system of the event table with arbitrary scripts, nested update calls and clocks: never early unless due on a whole second, identifiers fresh, one-shot at most once, cleared never again; no use after free when timers are cleared and update is called outside callbacks only; refuted: due on a whole second fires at once, clearing a timer in its own callback or another in the same bucket, and nested update, use freed memory"
  },
  {
   "property": "C37",
   "status": "partial",
   "theorems": [
    "Verif.Timer.C37_update_partial",
    "Verif.Timer.C37_update_ends",
    "Verif.Timer.C37_update_refuted"
   ],
   "note": "proved: not early within the same second, never more than a second early, ends once the time is over; refuted: returns up to a second early as soon as the second changes"
  },
  {
   "property": "C38",
   "status": "partial",
   "theorems": [
    "Verif.Value.C38_far_not_equal",
    "Verif.Value.C38_close_refuted",
    "Verif.Value.C38_refuted",
    "Verif.Value.C38_whole_partial",
    "Verif.Value.C38_inf_refuted"
   ],
   "note": "refuted: a number and a numeric string at distance 1/2 or less are always ==, and infinity is not == to a string denoting it; proved for whole numbers and for distances of 1 or more"
  },
  {
   "property": "C39",
   "status": "partial",
   "theorems": [
    "Verif.Value.C39_refl",
    "Verif.Value.C39_symm",
    "Verif.Value.C39_trans",
    "Verif.Value.C39_operator",
    "Verif.Value.C39_checked_refuted"
   ],
   "note": "the relation is proved to be symmetric, transitive and reflexive except on NaN, for all values; the operator with type checking (the default) is refuted: undefined === 1 is an error, 1 === undefined is false"
  },
  {
   "property": "C40",
   "status": "partial",
   "theorems": [
    "Verif.Ref.C40_count_is_references_partial",
    "Verif.Ref.C40_referenced_is_live_partial",
    "Verif.Ref.C40_unreferenced_is_freed_partial",
    "Verif.Ref.C40_allowed_call_is_safe_partial",
    "Verif.Ref.C40_fresh_iff_zero_partial",
    "Verif.Ref.C40_decr_frees_last_partial",
    "Verif.Ref.C40_decr_keeps_reachable_partial",
    "Verif.Ref.C40_no_leak_partial",
    "Verif.Ref.C40_copy_of_uncounted_refuted",
    "Verif.Ref.C40_copy_of_own_element_refuted",
    "Verif.Ref.C40_replace_by_own_element_refuted",
    "Verif.Ref.C40_arraySet_of_own_element_refuted",
    "Verif.Ref.C40_copy_over_cycle_refuted",
    "Verif.Ref.C40_pushVar_twice_refuted",
    "Verif.Ref.C40_cycle_leaks_refuted"
   ],
   "note": "heap of values and objects with copy, move, replace, reset, push of variables, arrays and properties; for every history that keeps the rules (what is passed stays reachable without what is overwritten, sources of copies are counted): counts equal references, nothing referenced is freed, the unreferenced is freed, calls are safe and end, no leak without a cycle; refuted without the rules: copy of an uncounted value, overwriting by an own element, copy over a cycle, cycles leak"
  },
  {
   "property": "C41",
   "status": "proved",
   "theorems": [
    "Verif.Crypto.Encrypt.C41_decrypt_total"
   ],
   "note": "every byte string and key"
  },
  {
   "property": "C42",
   "status": "proved",
   "theorems": [
    "Verif.Crypto.Hashcash.C42_proof_of_work",
    "Verif.Crypto.Hashcash.C42_complete",
    "Verif.Crypto.Hashcash.C42_sha256"
   ],
   "note": "every hash function, message, strength up to the digest size; instance for SHA-256"
  },
  {
   "property": "C43",
   "status": "partial",
   "theorems": [
    "Verif.Hash.C43_clear_size_refuted",
    "Verif.Hash.C43_clear_partial"
   ],
   "note": "refuted: the size is not reset; what holds (nothing found, nothing visited) is proved for tables that were never rebuilt"
  },
  {
   "property": "C44",
   "status": "partial",
   "theorems": [
    "Verif.Tree.C44_string_partial",
    "Verif.Tree.C44_word_refuted"
   ],
   "note": "proved for string keyed trees; refuted for word and interned-string keys (deletion swaps key and value between nodes)"
  },
  {
   "property": "C45",
   "status": "partial",
   "theorems": [
    "Verif.Tree.C45_word_refuted",
    "Verif.Tree.C45_string_partial"
   ],
   "note": "proved for string keyed trees; refuted for word and interned-string keys, the kind used for object properties (flags are not swapped with key and value)"
  },
  {
   "property": "C46",
   "status": "partial",
   "theorems": [
    "Verif.Tree.C46_in_order",
    "Verif.Tree.C46_in_order_space",
    "Verif.Tree.C46_post_order",
    "Verif.Tree.C46_pre_never_ends",
    "Verif.Tree.C46_pre_refuted",
    "Verif.Tree.C46_level_partial",
    "Verif.Tree.C46_level_refuted"
   ],
   "note": "in order and post order proved for all trees; pre order refuted (never ends); level order proved below 199 entries and refuted beyond (NULL dereference)"
  },
  {
   "property": "C47",
   "status": "partial",
   "theorems": [
    "Verif.Value.C47_object_refuted",
    "Verif.Value.C47_undefined",
    "Verif.Value.C47_null_refuted"
   ],
   "note": "refuted: every object that is not a wrapper is == null and == undefined, null == 0, null == false; exact characterisation of == undefined proved"
  },
  {
   "property": "C48",
   "status": "partial",
   "theorems": [
    "Verif.Value.C48_numbers",
    "Verif.Value.C48_extended",
    "Verif.Value.C48_strings",
    "Verif.Value.C48_trichotomy",
    "Verif.Value.C48_mixed_refuted"
   ],
   "note": "proved for numbers and for strings without NUL bytes; refuted for a number and a numeric string (10 < \"9\")"
  },
  {
   "property": "C49",
   "status": "partial",
   "theorems": [
    "Verif.Value.C49_strings_partial",
    "Verif.Value.C49_nul_refuted"
   ],
   "note": "proved for strings without NUL bytes; refuted for others (what follows a NUL is not compared)"
  },
  {
   "property": "C50",
   "status": "partial",
   "theorems": [
    "Verif.Json.C50_parse_partial",
    "Verif.Json.C50_solidus_refuted",
    "Verif.Json.C50_trailing_space_refuted",
    "Verif.Json.C50_keys_refuted",
    "Verif.Json.C50_surrogates_refuted",
    "Verif.Json.C50_long_array_refuted",
    "Verif.Json.C50_last_value_counts",
    "Verif.Json.C50_keys_once"
   ],
   "note": "proved for texts without solidus escapes, surrogate pairs and escaped keys, within the array limit; each exclusion refuted, and true/false/null followed by white space refuted; in any text a repeated member keeps its last value and each key appears once"
  },
  {
   "property": "C51",
   "status": "partial",
   "theorems": [
    "Verif.Json.C51_complete_partial",
    "Verif.Json.C51_scalar_refuted",
    "Verif.Json.C51_sound_refuted",
    "Verif.Json.C51_more",
    "Verif.Json.C51_brackets_match_partial",
    "Verif.Json.C51_word_refuted"
   ],
   "note": "completeness proved for arrays, objects and strings; refuted for scalars; soundness refuted; what holds: in an accepted text the brackets outside strings and words match"
  },
  {
   "property": "C52",
   "status": "partial",
   "theorems": [
    "Verif.Json.C52_strict_partial",
    "Verif.Json.C52_loose_partial",
    "Verif.Json.C52_refuted",
    "Verif.Json.C52_comma_refuted"
   ],
   "note": "refuted: an object with an odd number of children makes the reader run one token past the end, and a lone comma without strict mode has no token; proved for every text in which objects have an even number of children"
  },
  {
   "property": "C53",
   "status": "proved",
   "theorems": [
    "Verif.Array.C53_no_undefined_behaviour"
   ],
   "note": "all histories of the twelve operations, any size limit; callbacks see C54"
  },
  {
   "property": "C54",
   "status": "partial",
   "theorems": [
    "Verif.Array.C54_forEach",
    "Verif.Array.C54_find",
    "Verif.Array.C54_findIndex",
    "Verif.Array.C54_some",
    "Verif.Array.C54_every_partial",
    "Verif.Array.C54_every_empty_refuted",
    "Verif.Array.C54_map",
    "Verif.Array.C54_filter",
    "Verif.Array.C54_reduce_partial",
    "Verif.Array.C54_indexOf_partial",
    "Verif.Array.C54_indexOf_refuted",
    "Verif.Array.C54_lastIndexOf_partial",
    "Verif.Array.C54_lastIndexOf_start_refuted",
    "Verif.Array.C54_find_pop_refuted",
    "Verif.Array.C54_param_refuted",
    "Verif.Array.C54_filter_shares_refuted",
    "Verif.Array.C54_reduce_hole_refuted",
    "Verif.Array.C54_forEach_push_refuted",
    "Verif.Array.C54_flat_partial",
    "Verif.Array.C54_flat_refuted"
   ],
   "note": "proved for callbacks that leave the array and its elements alone (any state, any results): calls made, their order, result, for every array with holes; every needs an element, reduce without initial value no leading hole, indexOf a start not before the array, lastIndexOf no start, flat depth 1-1000 and no undefined; each exclusion refuted; refuted: find with a callback that pops (NULL dereference), callbacks that assign to their parameter change the array, filter shares elements, forEach visits appended elements"
  },
  {
   "property": "C55",
   "status": "partial",
   "theorems": [
    "Verif.Array.C55_push_partial",
    "Verif.Array.C55_pop_partial",
    "Verif.Array.C55_shift_partial",
    "Verif.Array.C55_shift_refuted",
    "Verif.Array.C55_shift_full_refuted",
    "Verif.Array.C55_shift_assign_refuted",
    "Verif.Array.C55_unshift_refuted",
    "Verif.Array.C55_push_refuted"
   ],
   "note": "push, pop (last element not a hole) and shift (room behind the last element) proved; refuted: shift on a full vector writes outside it, push at the limit too, unshift drops the wrong element, shift leaves a stale cell"
  },
  {
   "property": "C56",
   "status": "partial",
   "theorems": [
    "Verif.Str.C56_trim",
    "Verif.Str.C56_utf8_refuted",
    "Verif.Str.C56_trim_chars"
   ],
   "note": "proved for all byte strings and all ASCII character sets; refuted for character sets beyond ASCII (bytes of a character are removed)"
  },
  {
   "property": "C57",
   "status": "partial",
   "theorems": [
    "Verif.Str.C57_case_partial",
    "Verif.Str.C57_last_char_refuted",
    "Verif.Str.C57_accents_refuted"
   ],
   "note": "proved for all texts whose last character is ASCII; refuted: a last character beyond ASCII is lost (for every text), letters beyond ASCII keep their case"
  },
  {
   "property": "C58",
   "status": "partial",
   "theorems": [
    "Verif.Str.C58_indexOf_partial",
    "Verif.Str.C58_search_partial",
    "Verif.Str.C58_indexOf_empty_refuted",
    "Verif.Str.C58_indexOf_text_partial",
    "Verif.Str.C58_offset_refuted",
    "Verif.Str.C58_lastIndexOf_partial",
    "Verif.Str.C58_lastIndexOf_start_refuted",
    "Verif.Str.C58_lastIndexOf_empty_refuted"
   ],
   "note": "proved for all strings without NUL: first occurrence (byte offset), found in a text exactly when it occurs as characters, last occurrence without start; refuted: offsets count bytes, lastIndexOf searches from the start upwards, empty substrings at the end"
  },
  {
   "property": "C59",
   "status": "partial",
   "theorems": [
    "Verif.Str.C59_substring_to_end_partial",
    "Verif.Str.C59_substring_partial",
    "Verif.Str.C59_substring_end_refuted",
    "Verif.Str.C59_substring_swap_refuted",
    "Verif.Str.C59_substring_negative_refuted",
    "Verif.Str.C59_slice_to_end_partial",
    "Verif.Str.C59_slice_partial",
    "Verif.Str.C59_slice_end_refuted",
    "Verif.Str.C59_slice_beyond_refuted"
   ],
   "note": "proved: one argument, end at or beyond the end, slice from 0; refuted for all ASCII texts: substring includes the end, slice takes the end as a length, slice beyond the end gives the last character, swapped and negative arguments of substring"
  },
  {
   "property": "C60",
   "status": "partial",
   "theorems": [
    "Verif.Str.C60_replace_partial",
    "Verif.Str.C60_replace_fn_refuted",
    "Verif.Str.C60_repeat_partial",
    "Verif.Str.C60_repeat_empty_refuted",
    "Verif.Str.C60_concat_partial",
    "Verif.Str.C60_concat_nul_refuted",
    "Verif.Str.C60_map",
    "Verif.Str.C60_map_total",
    "Verif.Str.C60_map_identity",
    "Verif.Str.C60_map_empty_refuted"
   ],
   "note": "replace with a string, repeat of non-empty strings, concat, map (leftmost, first pair) proved; refuted: function gets the whole string, repeat of the empty string, NUL in concat, empty source in map"
  },
  {
   "property": "C61",
   "status": "partial",
   "theorems": [
    "Verif.Opt.C61_unique",
    "Verif.Opt.C61_exact",
    "Verif.Opt.C61_message_refuted",
    "Verif.Opt.C61_sound",
    "Verif.Opt.C61_full_name_partial",
    "Verif.Opt.C61_full_name_refuted"
   ],
   "note": "proved for all tables and words: unique words accepted in all modes, exact mode exactly right, answers sound; refuted: messages duplicate/unknown swapped in exact mode, full name rejected after a longer entry"
  },
  {
   "property": "C62",
   "status": "proved",
   "theorems": [
    "Verif.Ref.C62_nothing_else_changes",
    "Verif.Ref.C62_copy_copies",
    "Verif.Ref.C62_move_moves",
    "Verif.Ref.C62_value_set",
    "Verif.Ref.C62_arraySet_sets",
    "Verif.Ref.C62_arrayAdd_adds",
    "Verif.Ref.C62_insert_sets",
    "Verif.Ref.C62_names_are_unique"
   ],
   "note": "on the heap model of C40, for every call that returns, without any rules for the caller"
  },
  {
   "property": "C63",
   "status": "partial",
   "theorems": [
    "Verif.Lex.C63_tokens_partial",
    "Verif.Lex.C63_glue_refuted",
    "Verif.Lex.C63_empty_comment_refuted",
    "Verif.Lex.C63_newline_in_string_refuted",
    "Verif.Lex.C63_zero_exponent_refuted",
    "Verif.Lex.C63_hex_minus_refuted",
    "Verif.Lex.C63_regex_after_return_refuted",
    "Verif.Lex.C63_form_feed_refuted",
    "Verif.Lex.C63_long_name_refuted"
   ],
   "note": "proved for all sequences of tokens whose neighbours stay apart when a newline between them is lost, names and numbers below 1020 characters, regular expressions below 8000 and only where jsish allows them; refuted: a newline behind a sign is lost (names are glued together, a newline at the beginning of a string vanishes, an empty // comment swallows the next line), 0e5, 0x1E-2, regular expression behind return, form feed, names of 1020 characters"
  },
  {
   "property": "C64",
   "status": "partial",
   "theorems": [
    "Verif.Lex.C64_first_token_partial",
    "Verif.Lex.C64_name_partial",
    "Verif.Lex.C64_operator_partial"
   ],
   "note": "proved for all tokens of the grammar of C63 in front of any text; regular expressions at the beginning of the script only"
  },
  {
   "property": "C65",
   "status": "partial",
   "theorems": [
    "Verif.Lex.C65_string_partial",
    "Verif.Lex.C65_quote_roundtrip_partial",
    "Verif.Lex.C65_ff_refuted",
    "Verif.Lex.C65_continuation_refuted",
    "Verif.Lex.C65_hex_escape_refuted",
    "Verif.Lex.C65_vtab_refuted",
    "Verif.Lex.C65_surrogates_refuted"
   ],
   "note": "proved for all literals of plain bytes other than 0xFF, the escapes jsish knows and \\u except surrogates; quoting round trip for all byte strings without 0xFF; refuted: 0xFF, line continuation, \\x, \\v, surrogate pairs"
  },
  {
   "property": "C66",
   "status": "proved",
   "theorems": [
    "Verif.Lex.C66_safe",
    "Verif.Lex.C66_no_bound",
    "Verif.Lex.C66_getchar_fuel"
   ],
   "note": "all texts; strtod and the compilation of regular expressions are parameters"
  },
  {
   "property": "C67",
   "status": "partial",
   "theorems": [
    "Verif.Lex.C67_all_read_partial",
    "Verif.Lex.C67_high_byte_refuted",
    "Verif.Lex.C67_comment_byte_refuted"
   ],
   "note": "proved for ASCII texts; refuted: a byte from 0x80 on outside strings and comments ends the script silently, the byte 0x80 is skipped"
  },
  {
   "property": "C68",
   "status": "partial",
   "theorems": [
    "Verif.Lex.C68_lines_partial",
    "Verif.Lex.C68_not_before_partial",
    "Verif.Lex.C68_line_refuted"
   ],
   "note": "for the texts of C63: exact if a space or tab follows each token, never too small otherwise; refuted without the space"
  },
  {
   "property": "C69",
   "status": "proved",
   "theorems": [
    "Verif.Interp.C69_limits",
    "Verif.Interp.C69_noSubs",
    "Verif.Interp.C69_others_refuted"
   ],
   "note": "all histories; /etc/jsish.conf, if present, is assumed well formed and silent on these options; threads and privKeys outside the model; for the other locked options (noAutoLoad, noCheck, noError, noInput, maxDumpStack, maxDumpArgs, historyFile) inheritance is refuted"
  },
  {
   "property": "C70",
   "status": "partial",
   "theorems": [
    "Verif.Interp.C70_access",
    "Verif.Interp.C70_confined_partial",
    "Verif.Interp.C70_sourced_partial",
    "Verif.Interp.C70_lockDown_refuted",
    "Verif.Interp.C70_source_refuted",
    "Verif.Interp.C70_selfSource_refuted",
    "Verif.Interp.C70_selfSource_case",
    "Verif.Interp.C70_edit_refuted",
    "Verif.Interp.C70_conf_refuted",
    "Verif.Interp.C70_load_refuted"
   ],
   "note": "proved for histories without the lockDown option, without changes to the arrays Interp.conf gives out and with Interp.source only where safeMode is off; refuted: new Interp({lockDown:dir}), sub.source, the first Interp.source, Interp.conf(\"safeReadDirs\").push, Interp.conf({lockDown:\".\"}) followed by exec, load in a locked down interpreter"
  },
  {
   "property": "C71",
   "status": "proved",
   "theorems": [
    "Verif.Interp.C71_conf_fixed",
    "Verif.Interp.C71_conf_unnamed",
    "Verif.Interp.C71_process",
    "Verif.Interp.C71_noConfig",
    "Verif.Interp.C71_noConfig_stays"
   ],
   "note": "the parsers of custom options (enumerations, bit sets, sub-options) are a parameter"
  },
  {
   "property": "C72",
   "status": "proved",
   "theorems": [
    "Verif.Interp.C72_find"
   ],
   "note": "for all strings and the actual table of options"
  },
  {
   "property": "C73",
   "status": "proved",
   "theorems": [
    "Verif.Interp.C73_depth"
   ],
   "note": "as C69"
  },
  {
   "property": "C74",
   "status": "partial",
   "theorems": [
    "Verif.Interp.C74_none",
    "Verif.Interp.C74_exec",
    "Verif.Interp.C74_newline_refuted"
   ],
   "note": "proved: nothing without pattern or lockDown, what is run matches and has none of the eight characters; refuted: a newline starts a second command"
  },
  {
   "property": "C75",
   "status": "partial",
   "theorems": [
    "Verif.Obj.C75_objects_agree_partial",
    "Verif.Obj.C75_refuted"
   ],
   "note": "proved for all histories of two kinds: sharing by assign/merge/create/filter without changes in place, or changes in place, own ++ and calls without sharing; refuted in general"
  },
  {
   "property": "C76",
   "status": "partial",
   "theorems": [
    "Verif.Obj.C76_inherited_refuted",
    "Verif.Obj.C76_assigned_refuted",
    "Verif.Obj.C76_merged_refuted",
    "Verif.Obj.C76_created_refuted",
    "Verif.Obj.C76_filtered_refuted",
    "Verif.Obj.C76_values_refuted",
    "Verif.Obj.C76_put_one_place_partial",
    "Verif.Obj.C76_inc_one_place_partial"
   ],
   "note": "proved for the histories of C75; refuted after Object.assign, merge, Object.create with properties, filter, Object.values and for ++ of an inherited property"
  },
  {
   "property": "C77",
   "status": "partial",
   "theorems": [
    "Verif.Obj.C77_array_put_partial",
    "Verif.Obj.C77_string_index_refuted",
    "Verif.Obj.C77_notation_refuted",
    "Verif.Obj.C77_delete_refuted",
    "Verif.Obj.C77_length_refuted"
   ],
   "note": "proved for all arrays, positions and histories of the second kind of C75; refuted: string indices are written elsewhere, 1abc/01/0x1/1.5 alias elements, delete of an element, length"
  },
  {
   "property": "C78",
   "status": "partial",
   "theorems": [
    "Verif.Obj.C78_array_refuted",
    "Verif.Obj.C78_values_refuted",
    "Verif.Obj.C78_shared_refuted",
    "Verif.Obj.C78_travels_refuted",
    "Verif.Obj.C78_frozen_keys_partial",
    "Verif.Obj.C78_frozen_values_partial"
   ],
   "note": "proved for plain objects: keys unless something is unfrozen; values unless Object.values or apply is used; refuted: arrays, Object.values, unfreezing an object that shares values, the flag travels with a value read"
  },
  {
   "property": "C79",
   "status": "partial",
   "theorems": [
    "Verif.Obj.C79_once",
    "Verif.Obj.C79_ends_partial",
    "Verif.Obj.C79_all_partial",
    "Verif.Obj.C79_names_partial",
    "Verif.Obj.C79_elements_once",
    "Verif.Obj.C79_elements_partial",
    "Verif.Obj.C79_variable_name_partial",
    "Verif.Obj.C79_variable_element_partial",
    "Verif.Obj.C79_order_refuted",
    "Verif.Obj.C79_array_names_refuted",
    "Verif.Obj.C79_cycle_refuted"
   ],
   "note": "what the variable holds when a body begins: proved without callbacks and apply; each name and position at most once and in order: proved for all states and bodies; ends, reaches every name: proved without setPrototypeOf (and delete in the body); the names are the readable properties: proved after the histories of C75; refuted: order of insertion, named properties of arrays, prototype circles"
  },
  {
   "property": "C80",
   "status": "partial",
   "theorems": [
    "Verif.Obj.C80_hasOwn_partial",
    "Verif.Obj.C80_in_partial",
    "Verif.Obj.C80_array_keys_partial",
    "Verif.Obj.C80_keys_partial",
    "Verif.Obj.C80_in_inherited_refuted",
    "Verif.Obj.C80_in_array_refuted",
    "Verif.Obj.C80_hasOwn_refuted",
    "Verif.Obj.C80_keys_refuted"
   ],
   "note": "proved after the histories of C75: hasOwnProperty for ordinary keys, in for own properties and positions, Object.keys of arrays and of objects that inherit nothing; refuted: in and inherited properties, in and named properties of arrays, own property this, Object.keys lists inherited properties"
  },
  {
   "property": "C81",
   "status": "partial",
   "theorems": [
    "Verif.Obj.C81_lookups_end_partial",
    "Verif.Obj.C81_cycle_refuted",
    "Verif.Obj.C81_empty_prototype_refuted"
   ],
   "note": "proved for all histories without setPrototypeOf; refuted: setPrototypeOf makes cycles, an empty object is not taken as prototype"
  },
  {
   "property": "C82",
   "status": "partial",
   "theorems": [
    "Verif.Obj.C82_each_refuted",
    "Verif.Obj.C82_apply_refuted",
    "Verif.Obj.C82_assignment_local_partial"
   ],
   "note": "proved for all histories without callbacks of array methods and apply; refuted for these"
  },
  {
   "property": "C83",
   "status": "partial",
   "theorems": [
    "Verif.Obj.C83_parameter_refuted",
    "Verif.Obj.C83_array_refuted",
    "Verif.Obj.C83_assign_all_partial"
   ],
   "note": "proved for the first kind of histories of C75; refuted: values that came through a parameter, arrays as sources"
  },
  {
   "property": "C84",
   "status": "partial",
   "theorems": [
    "Verif.Fmt.C84_format_partial",
    "Verif.Fmt.C84_plain_text",
    "Verif.Fmt.C84_libc_satisfiable",
    "Verif.Fmt.C84_example",
    "Verif.Fmt.C84_zero_left_refuted",
    "Verif.Fmt.C84_q_precision_refuted",
    "Verif.Fmt.C84_nul_refuted",
    "Verif.Fmt.C84_width_characters_refuted",
    "Verif.Fmt.C84_char_byte_refuted"
   ],
   "note": "proved for all formats made of characters and directives with at most 70 flags, widths and precisions to 10^9; refuted: zero and minus flags together on strings, precision of q, S with NUL, width counted in bytes, c above 127; the text of integers is a model of C printf (CPrintf.lean), that of floating point numbers a parameter"
  },
  {
   "property": "C85",
   "status": "partial",
   "theorems": [
    "Verif.Fmt.C85_format_safe_partial",
    "Verif.Fmt.C85_unknown_conversion_refuted",
    "Verif.Fmt.C85_flags_width_refuted",
    "Verif.Fmt.C85_refuted",
    "Verif.Fmt.C85_example"
   ],
   "note": "proved for formats with at most 53 flags and 9 digits in a row and stars to 10^9; refuted: long runs of flags, sizes beyond int"
  },
  {
   "property": "C86",
   "status": "proved",
   "theorems": [
    "Verif.Fmt.C86_terminates",
    "Verif.Fmt.C86_no_missing_argument",
    "Verif.Fmt.C86_extra_arguments",
    "Verif.Fmt.C86_example"
   ],
   "note": "for all byte strings and all arguments"
  },
  {
   "property": "C87",
   "status": "proved",
   "theorems": [
    "Verif.Fmt.C87_integers_read_back",
    "Verif.Fmt.C87_different_integers",
    "Verif.Fmt.C87_example"
   ],
   "note": "for widths and precisions up to 10^9, on the model of C printf in CPrintf.lean"
  },
  {
   "property": "C88",
   "status": "partial",
   "theorems": [
    "Verif.Queue.C88_memory_partial",
    "Verif.Queue.C88_in_order_partial",
    "Verif.Queue.C88_one_at_a_time_partial",
    "Verif.Queue.C88_emptied_partial",
    "Verif.Queue.C88_nested_refuted",
    "Verif.Queue.C88_timeout_refuted",
    "Verif.Queue.C88_timeout_freed_refuted"
   ],
   "note": "proved for all schedules without nested callbacks, failing locks and deletion of the interpreter; with a nested callback or a failing lock a message is carried out twice and freed memory is used (refuted)"
  },
  {
   "property": "C89",
   "status": "partial",
   "theorems": [
    "Verif.Queue.C89_own_result_partial",
    "Verif.Queue.C89_all_answered_partial",
    "Verif.Queue.C89_deleted_refuted"
   ],
   "note": "proved for all schedules without nested callbacks, failing locks and deletion of the interpreter; deleting the interpreter frees what the waiting thread reads (refuted)"
  },
  {
   "property": "C90",
   "status": "partial",
   "theorems": [
    "Verif.Queue.C90_texts_partial",
    "Verif.Queue.C90_emptied_partial",
    "Verif.Queue.C90_overtakes_refuted",
    "Verif.Queue.C90_comment_refuted"
   ],
   "note": "proved for all schedules without nested callbacks, failing locks and deletion of the interpreter; refuted: an asynchronous text overtakes an earlier call of the same thread; a comment at the end of a text hides the next text"
  },
  {
   "property": "C91",
   "status": "partial",
   "theorems": [
    "Verif.Queue.C91_no_deadlock_partial",
    "Verif.Queue.C91_lock_given_back_partial",
    "Verif.Queue.C91_bounded_partial",
    "Verif.Queue.C91_call_ends_partial"
   ],
   "note": "proved for all schedules without nested callbacks, failing locks and deletion of the interpreter; that every call ends is proved as possibility from every state, not for every fair schedule"
  },
  {
   "property": "C92",
   "status": "partial",
   "theorems": [
    "Verif.Web.Files.C92_file_in_root_partial",
    "Verif.Web.Files.C92_file_exists",
    "Verif.Web.Files.C92_file_below_partial",
    "Verif.Web.Files.C92_dotdot_refuted",
    "Verif.Web.Files.C92_prefix_refuted",
    "Verif.Web.Files.C92_alias_refuted",
    "Verif.Web.Files.C92_read_check_partial",
    "Verif.Web.Files.C92_read_check_refuted"
   ],
   "note": "proved for URLs without a name \"..\" (lexically, no symbolic links), a urlPrefix that ends at the end of a name, absolute or relative roots; refuted: \"..\" is kept; urlPrefix \"/a\" and \"/a../x\"; urlPrefix \"/a/\" with an alias and \"/a/lib/x../y\"; the root check of included files compares characters, so \"/srv/www\" admits \"/srv/www2\""
  },
  {
   "property": "C93",
   "status": "partial",
   "theorems": [
    "Verif.Web.C93_page_means_partial",
    "Verif.Web.C93_unclosed",
    "Verif.Web.C93_required",
    "Verif.Web.C93_left_out_echo_refuted",
    "Verif.Web.C93_left_out_set_refuted",
    "Verif.Web.C93_left_out_condition_refuted",
    "Verif.Web.C93_two_parts_refuted",
    "Verif.Web.C93_lax_mark_refuted"
   ],
   "note": "proved for well formed pages without #echo and #set in left out parts and with conditions that have a truth value; refuted: #echo and #set act in parts that are left out, conditions there can end the page, #elif behind #else shows two parts, the mark @ has no effect behind the part that is shown"
  },
  {
   "property": "C94",
   "status": "partial",
   "theorems": [
    "Verif.Web.C94_own_text_partial",
    "Verif.Web.C94_own_text_refuted",
    "Verif.Web.C94_self_include",
    "Verif.Web.C94_depth"
   ],
   "note": "proved unless a file has one of four misspelt include directives; refuted for those"
  },
  {
   "property": "C95",
   "status": "proved",
   "theorems": [
    "Verif.Web.Head.C95_all_headers",
    "Verif.Web.Head.C95_names",
    "Verif.Web.Head.C95_header_by_name"
   ],
   "note": "names and looked-up names without \"=\"; the array for 100 headers is not bounded by the code and not bounded in the model"
  },
  {
   "property": "C96",
   "status": "partial",
   "theorems": [
    "Verif.Web.Head.C96_parameter_partial",
    "Verif.Web.Head.C96_absent",
    "Verif.Web.Head.C96_second_refuted"
   ],
   "note": "proved for parameters at even places; refuted: the second parameter is never found by its name"
  },
  {
   "property": "C97",
   "status": "proved",
   "theorems": [
    "Verif.Web.Head.C97_right_password",
    "Verif.Web.Head.C97_only_right_password",
    "Verif.Web.Head.C97_one_password"
   ],
   "note": "for useridPass without onAuth, GET requests; POST requests return before the check and are not modelled"
  },
  {
   "property": "C98",
   "status": "partial",
   "theorems": [
    "Verif.Sql.C98_scripts_partial",
    "Verif.Sql.C98_all_or_nothing_partial",
    "Verif.Sql.C98_crash_partial",
    "Verif.Sql.C98_own_begin_refuted",
    "Verif.Sql.C98_own_begin_commits_refuted",
    "Verif.Sql.C98_or_rollback_refuted"
   ],
   "note": "proved for scripts that do not use BEGIN, COMMIT, ROLLBACK, savepoints or OR ROLLBACK themselves, on the documented meaning of SQLite; refuted: inside a BEGIN of the script the call ends the script's own transaction; a statement with OR ROLLBACK caught inside makes the rest durable although the call fails"
  },
  {
   "property": "C99",
   "status": "partial",
   "theorems": [
    "Verif.Sql.Cache.C99_same_text_refuted",
    "Verif.Sql.Cache.C99_trailing_blank_refuted",
    "Verif.Sql.Cache.C99_conf_inside_refuted",
    "Verif.Sql.Cache.C99_bindWarn_refuted",
    "Verif.Sql.Cache.C99_cache_transparent_partial",
    "Verif.Sql.Cache.C99_steps"
   ],
   "note": "proved for scripts that do not change stmtCacheMax, without bindWarn; the two ways to crash are part of the statement; refuted: the text of a running query inside its callback, blanks or a comment behind the last statement, and a smaller stmtCacheMax inside a callback crash; with bindWarn a parameter without a value keeps that of an earlier query"
  },
  {
   "property": "C100",
   "status": "partial",
   "theorems": [
    "Verif.Sql.Cache.C100_nested_refuted",
    "Verif.Sql.Cache.C100_conf_refuted",
    "Verif.Sql.Cache.C100_size_partial"
   ],
   "note": "proved for queries one after another; refuted for queries inside others and after db.conf"
  },
  {
   "property": "C101",
   "status": "partial",
   "theorems": [
    "Verif.Sql.Out.C101_csv_reads_back_partial",
    "Verif.Sql.Out.C101_long_separator_refuted",
    "Verif.Sql.Out.C101_header_refuted"
   ],
   "note": "proved for separators of one byte and names of columns that need no quotes, text without NUL; refuted: separators of two bytes, names with a separator; NULL is written as an empty text"
  },
  {
   "property": "C102",
   "status": "partial",
   "theorems": [
    "Verif.Sql.Out.C102_insert_reads_back_partial",
    "Verif.Sql.Out.C102_null_refuted",
    "Verif.Sql.Out.C102_limit_refuted",
    "Verif.Sql.Out.C102_table_refuted"
   ],
   "note": "proved where the same columns are NULL in all rows, and no limit cuts; refuted: a column NULL in the first row is NULL in all, a NULL in a later row becomes an empty text, a limit adds a row in another format, quotes in the table name"
  },
  {
   "property": "C103",
   "status": "partial",
   "theorems": [
    "Verif.Sql.Out.C103_html_reads_back_partial",
    "Verif.Sql.Out.C103_no_markup"
   ],
   "note": "proved for all results; text is cut at NUL, NULL is shown as an empty text; rows of headers: only that no name can be markup"
  },
  {
   "property": "C104",
   "status": "partial",
   "theorems": [
    "Verif.Sql.Bind.C104_own_value_partial",
    "Verif.Sql.Bind.C104_round_trip",
    "Verif.Sql.Bind.C104_round_trip_int",
    "Verif.Sql.Bind.C104_type_stays_refuted",
    "Verif.Sql.Bind.C104_cast_refuted",
    "Verif.Sql.Bind.C104_bool_refuted",
    "Verif.Sql.Bind.C104_nul_refuted"
   ],
   "note": "proved where none or all of the parameters name a type, without casts; refuted: a type stays in force for later parameters, a cast changes the script's variable, type bool refuses true, text with NUL comes back cut"
  },
  {
   "property": "C105",
   "status": "partial",
   "theorems": [
    "Verif.File.C105_parts",
    "Verif.File.C105_bare",
    "Verif.File.C105_root_extension",
    "Verif.File.C105_extension",
    "Verif.File.C105_location",
    "Verif.File.C105_location_relative",
    "Verif.File.C105_dotdot_refuted",
    "Verif.File.C105_shapes"
   ],
   "note": "proved for every path but \"..\": dirname(\"..\") is \"..\", one level too high"
  },
  {
   "property": "C106",
   "status": "partial",
   "theorems": [
    "Verif.File.C106_tilde_refuted",
    "Verif.File.C106_only_inside_partial",
    "Verif.File.C106_not_forced"
   ],
   "note": "proved for every path that does not begin with \"~\", with any links, permissions, listing orders, descriptors and lengths of paths; refuted for \"~/d\" if there is a directory called \"~\""
  },
  {
   "property": "C107",
   "status": "partial",
   "theorems": [
    "Verif.File.C107_whole_tree_partial",
    "Verif.File.C107_tilde_refuted",
    "Verif.File.C107_success_refuted",
    "Verif.File.C107_dots_refuted",
    "Verif.File.C107_root_refuted",
    "Verif.File.C107_link_refuted"
   ],
   "note": "proved where everything is permitted, the paths fit in PATH_MAX, the path does not go through the tree itself nor end in \".\" or \"..\", and there are descriptors for the depth; refuted: success although nothing, or not all, was removed (\"~/d\", no permission, no descriptors, \"d/.\"), the root is protected as \"/\" but not as \"//\""
  },
  {
   "property": "C108",
   "status": "partial",
   "theorems": [
    "Verif.File.C108_makes_the_way",
    "Verif.File.C108_tilde_refuted",
    "Verif.File.C108_failure_leaves",
    "Verif.File.C108_makes_only_the_way_partial"
   ],
   "note": "proved for every path that does not begin with \"~\"; that the call succeeds is proved for paths without \".\" and \"..\"; refuted for \"~\": checked in the home directory, made in the working directory; a call that fails can leave new directories"
  },
  {
   "property": "C109",
   "status": "partial",
   "theorems": [
    "Verif.File.Copy.C109_copies_partial",
    "Verif.File.Copy.C109_refuses",
    "Verif.File.Copy.C109_alias_refuted",
    "Verif.File.Copy.C109_fault_refuted",
    "Verif.File.Copy.C109_failure_refuted",
    "Verif.File.Copy.C109_self_refuted"
   ],
   "note": "proved where nothing fails; refuted: onto a second name of the source in a directory where nothing may be removed the contents are lost; read errors and errors of closing are not noticed, a failed copy has removed the old destination, a copy onto itself loses the permissions"
  },
  {
   "property": "C110",
   "status": "partial",
   "theorems": [
    "Verif.File.Copy.C110_round_trip_partial",
    "Verif.File.Copy.C110_returned_number_partial",
    "Verif.File.Copy.C110_close_refuted"
   ],
   "note": "proved where nothing fails, and with short writes; refuted: an error of closing is not noticed"
  },
  {
   "property": "C111",
   "status": "partial",
   "theorems": [
    "Verif.Pkg.C111_shown_as_given_partial",
    "Verif.Pkg.C111_order_partial",
    "Verif.Pkg.C111_same_partial",
    "Verif.Pkg.C111_shown_text_is_accepted",
    "Verif.Pkg.C111_number_range",
    "Verif.Pkg.C111_number_partial",
    "Verif.Pkg.C111_junk_refuted",
    "Verif.Pkg.C111_wraps_refuted",
    "Verif.Pkg.C111_hundred_refuted"
   ],
   "note": "proved for texts with one to three parts below 100, for any rounding with relative error 2^-50, and for numbers up to 99.9999; refuted: \"1.2.3.4.5\" and \"2..9\" are accepted, 4294967297 is taken for 1, 99.99999 is shown as 100.0.0, which is refused"
  },
  {
   "property": "C112",
   "status": "partial",
   "theorems": [
    "Verif.Pkg.C112_options_refuted",
    "Verif.Pkg.C112_noError_refuted",
    "Verif.Pkg.C112_at_least_partial",
    "Verif.Pkg.C112_there",
    "Verif.Pkg.C112_known",
    "Verif.Pkg.C112_downlevel_partial"
   ],
   "note": "proved for require(name) and require(name, version); refuted: with a third argument, or with noError set, the version is not compared"
  },
  {
   "property": "C113",
   "status": "partial",
   "theorems": [
    "Verif.Pkg.C113_second_version_refuted",
    "Verif.Pkg.C113_stays",
    "Verif.Pkg.C113_not_again",
    "Verif.Pkg.C113_provided",
    "Verif.Pkg.C113_other_file"
   ],
   "note": "proved for every session; refuted: a second provide by the same file with another version is accepted and ignored"
  },
  {
   "property": "C114",
   "status": "proved",
   "theorems": [
    "Verif.Pkg.C114_first_place",
    "Verif.Pkg.C114_nowhere"
   ],
   "note": "for the main interpreter and absolute directories"
  },
  {
   "property": "C115",
   "status": "partial",
   "theorems": [
    "Verif.Pkg.C115_half_loaded_refuted",
    "Verif.Pkg.C115_first_time_partial",
    "Verif.Pkg.C115_error_is_reported",
    "Verif.Pkg.C115_provide_last_partial"
   ],
   "note": "proved for the first require, and that a file which provides last and does not require or catch is not taken for loaded; refuted: if the file throws after provide the second require returns the package"
  },
  {
   "property": "C116",
   "status": "partial",
   "theorems": [
    "Verif.Pkg.C116_late_refuted",
    "Verif.Pkg.C116_depth",
    "Verif.Pkg.C116_once_partial"
   ],
   "note": "depth and end proved for every session; once proved if every file begins with provide; refuted otherwise: packages that provide themselves last are evaluated until the limit is reached and then fail"
  },
  {
   "property": "C117",
   "status": "proved",
   "theorems": [
    "Verif.Call.C117_parameters"
   ],
   "note": "for functions of the language, called by any means; parameters and local variables with different names (else the parser refuses, unless noCheck)"
  },
  {
   "property": "C118",
   "status": "partial",
   "theorems": [
    "Verif.Call.C118_direct_partial",
    "Verif.Call.C118_call_partial",
    "Verif.Call.C118_apply_refuted",
    "Verif.Call.C118_bind_refuted",
    "Verif.Call.C118_forEach_refuted",
    "Verif.Call.C118_shared_scope_refuted"
   ],
   "note": "proved for direct calls and call; refuted: apply shares the cells of the array with the parameters, and all calls with the same array share one scope; bound arguments and the elements forEach passes are shared too"
  },
  {
   "property": "C119",
   "status": "proved",
   "theorems": [
    "Verif.Call.C119_checked",
    "Verif.Call.C119_no_check",
    "Verif.Call.C119_no_error",
    "Verif.Call.C119_untyped_refuted",
    "Verif.Call.C119_limit_refuted"
   ],
   "note": "for functions of the language; refuted beside it: the documentation says untyped functions are unchecked and that checking ends at typeWarnMax"
  },
  {
   "property": "C120",
   "status": "proved",
   "theorems": [
    "Verif.Call.C120_result",
    "Verif.Call.C120_exception",
    "Verif.Call.C120_unchecked"
   ],
   "note": "for functions of the language, with checking on when the body returns"
  },
  {
   "property": "C121",
   "status": "partial",
   "theorems": [
    "Verif.Call.C121_types",
    "Verif.Call.C121_any",
    "Verif.Call.C121_words",
    "Verif.Call.C121_signature_partial",
    "Verif.Call.C121_void_refuted"
   ],
   "note": "proved for every set of types and every parameter but those with default void; refuted for void, which is shown as undefined"
  },
  {
   "property": "C122",
   "status": "partial",
   "theorems": [
    "Verif.Call.C122_call",
    "Verif.Call.C122_apply",
    "Verif.Call.C122_bind_partial",
    "Verif.Call.C122_bind_makes_partial",
    "Verif.Call.C122_bind_failure_refuted"
   ],
   "note": "proved for call, apply and bound functions that are called directly; refuted: a bound function that is called by apply, forEach or a timer before it was ever called directly throws \"bind failure\""
  },
  {
   "property": "C123",
   "status": "partial",
   "theorems": [
    "Verif.Opt.C123_int_partial",
    "Verif.Opt.C123_int_type",
    "Verif.Opt.C123_fraction_refuted",
    "Verif.Opt.C123_unsigned_refuted",
    "Verif.Opt.C123_huge_refuted"
   ],
   "note": "proved for whole numbers and all types of up to 32 bits, and for signed 64 bits in range; refuted: fractions are cut off silently, unsigned 64 bit options take -1 and show 2^64, 64 bit options turn NaN and huge numbers into -2^63"
  },
  {
   "property": "C124",
   "status": "proved",
   "theorems": [
    "Verif.Opt.C124_record",
    "Verif.Opt.C124_only_named"
   ],
   "note": "for all types modelled and all depths; options of a table must not overlap and string buffers must have room for their end"
  },
  {
   "property": "C125",
   "status": "partial",
   "theorems": [
    "Verif.Opt.C125_nested_partial",
    "Verif.Opt.C125_null_refuted",
    "Verif.Opt.C125_locked",
    "Verif.Opt.C125_refused"
   ],
   "note": "proved for the options of the table, and at every depth when no value is null; refuted: conf({subOpts:null}) resets the locked options of the group, among them the list of packages that may not be loaded"
  },
  {
   "property": "C126",
   "status": "partial",
   "theorems": [
    "Verif.Opt.C126_refused_partial",
    "Verif.Opt.C126_nan_refuted",
    "Verif.Opt.C126_incr_refuted"
   ],
   "note": "proved for all types but floating numbers and groups; refuted: NaN is refused after it has been stored; increment of a bool is refused after it has been set"
  },
  {
   "property": "C127",
   "status": "partial",
   "theorems": [
    "Verif.Opt.C127_stops_partial",
    "Verif.Opt.C127_atomic_refuted"
   ],
   "note": "proved: the members before the one refused stay set, those after it are not looked at; refuted as stated"
  },
  {
   "property": "C128",
   "status": "partial",
   "theorems": [
    "Verif.Opt.C128_required",
    "Verif.Opt.C128_missing",
    "Verif.Opt.C128_null_refuted"
   ],
   "note": "proved for objects; refuted: null in place of the object is accepted"
  },
  {
   "property": "C129",
   "status": "partial",
   "theorems": [
    "Verif.Opt.C129_round_partial",
    "Verif.Opt.C129_sound_partial",
    "Verif.Opt.C129_negative_refuted"
   ],
   "note": "proved for lists that fit in the field; refuted: a negative value is shown as the first name. ENUM_SPEC is not modelled"
  },
  {
   "property": "C130",
   "status": "partial",
   "theorems": [
    "Verif.Opt.C130_string",
    "Verif.Opt.C130_string_only",
    "Verif.Opt.C130_object_partial",
    "Verif.Opt.C130_array",
    "Verif.Opt.C130_array_only",
    "Verif.Opt.C130_read",
    "Verif.Opt.C130_object_refuted",
    "Verif.Opt.C130_reset_refuted",
    "Verif.Opt.C130_narrow_refuted"
   ],
   "note": "proved for 32 bit fields (the size used by all tables of the program): strings, arrays, reading; objects only for lists of at most eight names: refuted for longer ones (traceCall \"before\", log \"parse\"); null inside a group that is reset follows a null pointer; narrower fields show bits of the next field"
  },
  {
   "property": "C131",
   "status": "partial",
   "theorems": [
    "Verif.Opt.C131_restore_partial",
    "Verif.Opt.C131_bitset_refuted",
    "Verif.Opt.C131_readonly_refuted"
   ],
   "note": "proved for tables of open options without bit sets and groups, with values that can be written; refuted for bit sets (an array only adds) and for tables with a read-only option"
  },
  {
   "property": "C132",
   "status": "partial",
   "theorems": [
    "Verif.Opt.C132_unique",
    "Verif.Opt.C132_full_partial",
    "Verif.Opt.C132_full_refuted",
    "Verif.Opt.C132_sound",
    "Verif.Opt.C132_ambiguous",
    "Verif.Opt.C132_unknown"
   ],
   "note": "proved: unique beginnings, full names with at most one longer name before them, unknown and ambiguous words; refuted: a full name after two longer ones is ambiguous"
  },
  {
   "property": "C133",
   "status": "partial",
   "theorems": [
    "Verif.Regex.C133_replace_first_partial",
    "Verif.Regex.C133_dollar_at_end_refuted"
   ],
   "note": "proved for every engine, string and template without NUL whose last byte is not a lone $; refuted for that: a NUL byte is added"
  },
  {
   "property": "C134",
   "status": "partial",
   "theorems": [
    "Verif.Regex.C134_replace_each",
    "Verif.Regex.C134_replace_all_partial",
    "Verif.Regex.C134_empty_match_refuted",
    "Verif.Regex.C134_line_start_refuted",
    "Verif.Regex.C134_text_before_refuted",
    "Verif.Regex.C134_many_matches_refuted"
   ],
   "note": "proved for expressions that match no empty text, without ^ under flag m, up to ten million bytes, templates without $`; refuted: empty matches end the replacing, ^ with flag m behind a match, $` is only the text since the last match, more than 10000001 matches fail. The expressions of Lang.lean have no groups; C134_replace_each is about every engine, with groups"
  },
  {
   "property": "C135",
   "status": "partial",
   "theorems": [
    "Verif.Regex.C135_function_each",
    "Verif.Regex.C135_function_all_partial",
    "Verif.Regex.C135_empty_match_refuted"
   ],
   "note": "as C134; refuted: no call for an empty match"
  },
  {
   "property": "C136",
   "status": "partial",
   "theorems": [
    "Verif.Regex.C136_match_all_partial",
    "Verif.Regex.C136_match_first_partial",
    "Verif.Regex.C136_match_none",
    "Verif.Regex.C136_empty_match_refuted",
    "Verif.Regex.C136_same_group_refuted",
    "Verif.Regex.C136_unused_group_refuted"
   ],
   "note": "g: proved for expressions as in C134; without g: proved when all groups took part, none is empty at the beginning and none has the extent of the one before; refuted otherwise: [] for an empty match, groups left out"
  },
  {
   "property": "C137",
   "status": "partial",
   "theorems": [
    "Verif.Regex.C137_exec_next_partial",
    "Verif.Regex.C137_exec_loop_partial",
    "Verif.Regex.C137_other_objects_partial",
    "Verif.Regex.C137_exec_first_partial",
    "Verif.Regex.C137_line_start_refuted",
    "Verif.Regex.C137_empty_match_refuted",
    "Verif.Regex.C137_groups_refuted",
    "Verif.Regex.C137_negative_index_refuted",
    "Verif.Regex.C137_shared_index_refuted"
   ],
   "note": "proved for expressions without groups and without ^ that match no empty text; refuted: ^ matches wherever the search goes on, an empty match is found forever, groups make exec return several matches and spoil lastIndex, a negative lastIndex reads before the string, objects made from the same text share the position"
  },
  {
   "property": "C138",
   "status": "partial",
   "theorems": [
    "Verif.Regex.C138_search_test_partial",
    "Verif.Regex.C138_bytes_refuted"
   ],
   "note": "proved for all expressions and strings without NUL, with the index in bytes; refuted: characters"
  },
  {
   "property": "C139",
   "status": "partial",
   "theorems": [
    "Verif.Regex.C139_construct_partial",
    "Verif.Regex.C139_construct_refuted"
   ],
   "note": "proved for all texts but the empty one and flags without a slash; refuted for those"
  },
  {
   "property": "C140",
   "status": "partial",
   "theorems": [
    "Verif.Regex.C140_replace_safe",
    "Verif.Regex.C140_match_safe_partial"
   ],
   "note": "proved for replace and match, and exec with a lastIndex that is not negative; refuted for a negative one (C137_negative_index_refuted)"
  },
  {
   "property": "C141",
   "status": "partial",
   "theorems": [
    "Verif.Scope.C141_arrow_var_refuted",
    "Verif.Scope.C141_arrow_leak_refuted",
    "Verif.Scope.C141_getter_refuted",
    "Verif.Scope.C141_setter_refuted",
    "Verif.Scope.C141_own_name_refuted",
    "Verif.Scope.C141_lexical_scope_partial"
   ],
   "note": "proved for programs whose functions are written with the word function and without a name of their own in expressions, or are arrow functions with parameters and no declarations, nested less than 4096 deep; refuted for the others: arrow functions with declarations or with (), getters, setters, named function expressions"
  },
  {
   "property": "C142",
   "status": "partial",
   "theorems": [
    "Verif.Scope.C142_accepted_partial",
    "Verif.Scope.C142_accepted_refuted"
   ],
   "note": "proved for the same programs, if no parameter is declared again in the body; refuted for that and for setters"
  },
  {
   "property": "C143",
   "status": "partial",
   "theorems": [
    "Verif.Scope.C143_hoisting_partial",
    "Verif.Scope.C143_function_refuted",
    "Verif.Scope.C143_var_refuted"
   ],
   "note": "proved for programs in which var x; comes first and function statements next; refuted in general"
  },
  {
   "property": "C144",
   "status": "partial",
   "theorems": [
    "Verif.Scope.C144_ecmascript_partial",
    "Verif.Scope.C144_sum_refuted",
    "Verif.Scope.C144_argument_refuted"
   ],
   "note": "proved for programs in which a variable used as an operand cannot be changed by the operands behind it; refuted in general"
  },
  {
   "property": "C145",
   "status": "proved",
   "theorems": [
    "Verif.Limit.C145_cap",
    "Verif.Limit.C145_ends"
   ],
   "note": "each interpreter has its own count: what its sub-interpreters execute is not counted (C69, C73 limit those)"
  },
  {
   "property": "C146",
   "status": "proved",
   "theorems": [
    "Verif.Limit.C146_exit"
   ],
   "note": ""
  },
  {
   "property": "C147",
   "status": "proved",
   "theorems": [
    "Verif.Limit.C147_interrupt"
   ],
   "note": "under the condition on native functions in the statement; the example deaf shows what happens without it"
  },
  {
   "property": "C148",
   "status": "proved",
   "theorems": [
    "Verif.Limit.C148_depth"
   ],
   "note": ""
  },
  {
   "property": "C149",
   "status": "partial",
   "theorems": [
    "Verif.Limit.C149_objects_partial",
    "Verif.Limit.C149_objects_refuted"
   ],
   "note": "proved for N+1; refuted for N: one more object than the limit is made"
  },
  {
   "property": "C150",
   "status": "partial",
   "theorems": [
    "Verif.Chan.C150_read",
    "Verif.Chan.C150_read_all",
    "Verif.Chan.C150_pieces",
    "Verif.Chan.C150_zero_refuted"
   ],
   "note": "proved for contents and sizes below 2^31; refuted for read(0), which returns the next 8192 bytes"
  },
  {
   "property": "C151",
   "status": "partial",
   "theorems": [
    "Verif.Chan.C151_gets_partial",
    "Verif.Chan.C151_long_line_refuted",
    "Verif.Chan.C151_nul_refuted"
   ],
   "note": "proved for lines of at most 8190 bytes without NUL; refuted for a line of 8191 bytes and for a line with NUL"
  },
  {
   "property": "C152",
   "status": "partial",
   "theorems": [
    "Verif.Chan.C152_write",
    "Verif.Chan.C152_append",
    "Verif.Chan.C152_read_back",
    "Verif.Chan.C152_lines_partial",
    "Verif.Chan.C152_puts_nul_refuted"
   ],
   "note": "write proved; lines for at most 8190 bytes without NUL; refuted: puts cuts its argument at NUL"
  },
  {
   "property": "C153",
   "status": "partial",
   "theorems": [
    "Verif.Chan.C153_closed_partial",
    "Verif.Chan.C153_stays_closed",
    "Verif.Chan.C153_freed_refuted",
    "Verif.Chan.C153_opened_safe"
   ],
   "note": "proved for read, gets, write, puts, close; refuted for seek, tell, eof, truncate, flush: they use memory that has been freed"
  },
  {
   "property": "C154",
   "status": "partial",
   "theorems": [
    "Verif.Chan.C154_new",
    "Verif.Chan.C154_open_partial",
    "Verif.Chan.C154_open_refuted"
   ],
   "note": "the constructor and successful open proved; refuted: open returns true if the file cannot be opened"
  },
  {
   "property": "C155",
   "status": "proved",
   "theorems": [
    "Verif.Chan.C155_seek_tell",
    "Verif.Chan.C155_seek_rel",
    "Verif.Chan.C155_eof_read",
    "Verif.Chan.C155_eof_gets"
   ],
   "note": ""
  },
  {
   "property": "C156",
   "status": "proved",
   "theorems": [
    "Verif.Chan.C156_read_only",
    "Verif.Chan.C156_told"
   ],
   "note": ""
  },
  {
   "property": "C157",
   "status": "proved",
   "theorems": [
    "Verif.Sort.C157_same_elements",
    "Verif.Sort.C157_unique_elements"
   ],
   "note": "for every qsort that keeps the elements, as glibc's does also for inconsistent comparisons"
  },
  {
   "property": "C158",
   "status": "partial",
   "theorems": [
    "Verif.Sort.C158_numbers_partial",
    "Verif.Sort.C158_numbers_desc_partial",
    "Verif.Sort.C158_strings_partial",
    "Verif.Sort.C158_strings_desc_partial",
    "Verif.Sort.C158_nocase_partial",
    "Verif.Sort.C158_mixed_refuted",
    "Verif.Sort.C158_holes_refuted",
    "Verif.Sort.C158_nul_refuted",
    "Verif.Sort.C158_dict_partial",
    "Verif.Sort.C158_mixed_partial"
   ],
   "note": "proved for arrays of numbers without NaN, of strings without NUL, of whole numbers below 2^30 mixed with truth values, for dict of plain strings (C22); refuted for arrays with undefined, for missing elements (they come first) and for strings with NUL"
  },
  {
   "property": "C159",
   "status": "partial",
   "theorems": [
    "Verif.Sort.C159_function_partial",
    "Verif.Sort.C159_fraction_refuted",
    "Verif.Sort.C159_large_refuted",
    "Verif.Sort.C159_exception_refuted"
   ],
   "note": "proved for whole numbers below 2^31; refuted for fractions ((a,b)=>a-b leaves 1.5 before 1.25), for large numbers, and for exceptions (ignored)"
  },
  {
   "property": "C160",
   "status": "partial",
   "theorems": [
    "Verif.Sort.C160_unique_numbers_partial",
    "Verif.Sort.C160_holes_refuted",
    "Verif.Sort.C160_memory_refuted"
   ],
   "note": "proved for the contents of arrays of numbers; refuted: missing elements stay, and the next push frees a value that is in the array"
  },
  {
   "property": "C161",
   "status": "partial",
   "theorems": [
    "Verif.Number.C161_whole_numbers",
    "Verif.Number.C161_special",
    "Verif.Number.C161_fifteen_digits",
    "Verif.Number.C161_prints_as_written",
    "Verif.Number.C161_refuted",
    "Verif.Number.C161_subnormal_refuted"
   ],
   "note": "proved for whole numbers below 2^63, for NaN and the infinities, and for every number written with at most 15 significant digits in the normal range (binary rounding against decimal rounding, any exponent); refuted for numbers that need 16 or 17 digits (0.1+0.2) and for subnormal numbers (text \"undefined\")"
  },
  {
   "property": "C162",
   "status": "partial",
   "theorems": [
    "Verif.Number.C162_radix_round_trip_partial",
    "Verif.Number.C162_decimal_round_trip_partial",
    "Verif.Number.C162_negative_refuted",
    "Verif.Number.C162_base_refuted",
    "Verif.Number.C162_fraction_refuted"
   ],
   "note": "proved for 0 to 2^53 in base 8, 10, 16 and for negative numbers in base 10; refuted for negative numbers in base 8 and 16, for all other bases and for fractions with base 10"
  },
  {
   "property": "C163",
   "status": "partial",
   "theorems": [
    "Verif.Number.C163_parseInt_base_partial",
    "Verif.Number.C163_parseInt_plain_partial",
    "Verif.Number.C163_number",
    "Verif.Number.C163_negative_refuted",
    "Verif.Number.C163_blank_refuted",
    "Verif.Number.C163_octal_refuted",
    "Verif.Number.C163_garbage_refuted",
    "Verif.Number.C163_large_refuted"
   ],
   "note": "proved with a base: blanks, sign, digits, value up to 2^53; without a base for digits that begin with 1 to 9; refuted without a base for a sign, a blank or a leading 0, with a base for texts without digits, and for numbers from 2^63 on (the result is negative)"
  },
  {
   "property": "C164",
   "status": "partial",
   "theorems": [
    "Verif.Number.C164_nan_finite",
    "Verif.Number.C164_isInteger_partial",
    "Verif.Number.C164_isInteger_refuted",
    "Verif.Number.C164_isSafeInteger"
   ],
   "note": "proved for isNaN, isFinite, isSafeInteger, and isInteger below 2^63; refuted for isInteger(2^70)"
  },
  {
   "property": "C165",
   "status": "partial",
   "theorems": [
    "Verif.Number.C165_toFixed_partial",
    "Verif.Number.C165_toFixed_refuted",
    "Verif.Number.C165_toPrecision_refuted"
   ],
   "note": "proved for toFixed when the text has at most 100 characters; refuted for larger numbers and for toPrecision"
  },
  {
   "property": "C166",
   "status": "partial",
   "theorems": [
    "Verif.Arith.C166_and_partial",
    "Verif.Arith.C166_or_partial",
    "Verif.Arith.C166_xor_partial",
    "Verif.Arith.C166_refuted",
    "Verif.Arith.C166_large_refuted"
   ],
   "note": "proved for & unless both operands are negative, for | when none is, for ^ when the signs agree, in the range of 32 bits; refuted otherwise: the work is done on 64 unsigned bits, -1|0 is 2^64 and 2^31|0 stays 2^31"
  },
  {
   "property": "C167",
   "status": "partial",
   "theorems": [
    "Verif.Arith.C167_not_partial",
    "Verif.Arith.C167_shl_partial",
    "Verif.Arith.C167_shr_partial",
    "Verif.Arith.C167_ushr_partial",
    "Verif.Arith.C167_refuted"
   ],
   "note": "proved for operands in the range of 32 bits and whole counts up to 2^53; refuted outside: 4294967295>>>0 is 2147483648"
  },
  {
   "property": "C168",
   "status": "partial",
   "theorems": [
    "Verif.Arith.C168_inc_partial",
    "Verif.Arith.C168_refuted"
   ],
   "note": "proved for whole numbers below 2^53; refuted for x++ on 0.1 and 2^53, whose value is (x+1)-1"
  },
  {
   "property": "C169",
   "status": "partial",
   "theorems": [
    "Verif.Arith.C169_remainder",
    "Verif.Arith.C169_min_max_partial",
    "Verif.Arith.C169_nan_refuted",
    "Verif.Arith.C169_round_partial",
    "Verif.Arith.C169_floor_ceil",
    "Verif.Arith.C169_round_refuted"
   ],
   "note": "proved for % by a number that is not 0, min and max without NaN, floor, ceil, and round except negative halves; refuted for min and max with NaN (depends on the order), Math.round(-2.5), and Math.pow, whose overflow is NaN"
  },
  {
   "property": "C170",
   "status": "partial",
   "theorems": [
    "Verif.Date.C170_utc_partial",
    "Verif.Date.C170_local_partial",
    "Verif.Date.C170_secs_partial",
    "Verif.Date.C170_before_1970_refuted",
    "Verif.Date.C170_empty_refuted"
   ],
   "note": "proved for years 1000 to 9999 in every time zone; refuted for times before 1970 that have a fraction of a second (cut towards 1970) and for an empty format, which drops the seconds with utc"
  },
  {
   "property": "C171",
   "status": "partial",
   "theorems": [
    "Verif.Date.C171_utc_partial",
    "Verif.Date.C171_local_partial",
    "Verif.Date.C171_minus_one_refuted",
    "Verif.Date.C171_skipped_refuted"
   ],
   "note": "proved for years 1000 to 9999 with and without utc, for every time zone whose clocks show the time once; refuted for the second before 1970 (taken for an error of mktime) and, with utc, for times that the local clocks skip"
  },
  {
   "property": "C172",
   "status": "partial",
   "theorems": [
    "Verif.Date.C172_shows_partial",
    "Verif.Date.C172_round_trip_partial",
    "Verif.Date.C172_refuted"
   ],
   "note": "proved from 1970 on; refuted before 1970 (\".-001\") and for the format %FT%T.%f, which shows but does not read"
  },
  {
   "property": "C173",
   "status": "partial",
   "theorems": [
    "Verif.Date.C173_forms_partial",
    "Verif.Date.C173_time_refuted",
    "Verif.Date.C173_nonsense_refuted",
    "Verif.Date.C173_empty_refuted"
   ],
   "note": "proved for the five forms; refuted for times of day alone, for dates that do not exist and texts with something behind, and for an empty format (seconds lost)"
  },
  {
   "property": "C174",
   "status": "partial",
   "theorems": [
    "Verif.Date.C174_offset_partial",
    "Verif.Date.C174_local_refuted",
    "Verif.Date.C174_fraction_refuted"
   ],
   "note": "proved with utc for offsets +-HH:MM and fractions of three digits; refuted without utc and for other fractions"
  },
  {
   "property": "C175",
   "status": "partial",
   "theorems": [
    "Verif.Date.C175_partial",
    "Verif.Date.C175_refuted"
   ],
   "note": "proved for texts without three signs side by side; refuted for others: sscanf(\"%[+-]\") overruns ss[3]"
  },
  {
   "property": "C176",
   "status": "partial",
   "theorems": [
    "Verif.Opt.C176_full",
    "Verif.Opt.C176_sound",
    "Verif.Opt.C176_value_refuted"
   ],
   "note": "proved for all options and sub-options; refuted for a member of an object that is the value of an option"
  },
  {
   "property": "C177",
   "status": "partial",
   "theorems": [
    "Verif.Opt.C177_frame",
    "Verif.Opt.C177_names",
    "Verif.Opt.C177_object",
    "Verif.Opt.C177_readonly_refuted"
   ],
   "note": "proved for options that are open; refuted for read-only options, which the path sets and the object does not"
  },
  {
   "property": "C178",
   "status": "partial",
   "theorems": [
    "Verif.Opt.C178_colon_partial",
    "Verif.Opt.C178_equals_partial",
    "Verif.Opt.C178_alone",
    "Verif.Opt.C178_equals_refuted",
    "Verif.Opt.C178_word_refuted"
   ],
   "note": "proved for names up to 49 bytes and, with =, for values without a colon; refuted for values with a colon behind = and for file names that are beginnings of true or false"
  },
  {
   "property": "C179",
   "status": "partial",
   "theorems": [
    "Verif.UObj.C179_back_partial",
    "Verif.UObj.C179_distinct",
    "Verif.UObj.C179_fresh"
   ],
   "note": "proved for up to 2^31-1 objects of a type, where the counter overflows"
  },
  {
   "property": "C180",
   "status": "partial",
   "theorems": [
    "Verif.UObj.C180_once",
    "Verif.UObj.C180_alive",
    "Verif.UObj.C180_end",
    "Verif.UObj.C180_free",
    "Verif.UObj.C180_unregister_refuted"
   ],
   "note": "proved for all histories of register, new, release and deletion; refuted for the withdrawal of a type before the end of the interpreter (use after free, double free)"
  },
  {
   "property": "C181",
   "status": "proved",
   "theorems": [
    "Verif.UObj.C181_listed"
   ],
   "note": "all histories"
  },
  {
   "property": "C182",
   "status": "partial",
   "theorems": [
    "Verif.UObj.C182_sound",
    "Verif.UObj.C182_unknown_refuted",
    "Verif.UObj.C182_loose_refuted"
   ],
   "note": "proved that what is found exists and has that type and number; refuted: a text with an unknown type follows a null pointer, and texts with junk, blanks or a number that is too large are accepted"
  },
  {
   "property": "C183",
   "status": "partial",
   "theorems": [
    "Verif.Sql.OutJson.C183_rows_as_objects_partial",
    "Verif.Sql.OutJson.C183_read_back_partial",
    "Verif.Sql.OutJson.C183_name_refuted",
    "Verif.Sql.OutJson.C183_emoji_refuted",
    "Verif.Sql.OutJson.C183_blob_leak_refuted"
   ],
   "note": "proved for UTF-8 texts without NUL up to U+FFFF, whole numbers, NULL and printable blobs, and JSON.parse back for plain column names; floating point numbers are not modelled; refuted: blobs with letters beyond ASCII are followed by memory behind them, other column names do not come back, U+1F600 becomes U+F600"
  },
  {
   "property": "C184",
   "status": "partial",
   "theorems": [
    "Verif.Sql.OutJson.C184_names_and_rows_partial",
    "Verif.Sql.OutJson.C184_no_rows_refuted"
   ],
   "note": "as C183, with JSON.parse back for all names; refuted for results without rows, where the names are missing"
  },
  {
   "property": "C185",
   "status": "partial",
   "theorems": [
    "Verif.Sql.OutJson.C185_names_and_values_partial",
    "Verif.Sql.OutJson.C185_no_rows_refuted"
   ],
   "note": "as C184; refuted for results without rows: the empty string"
  },
  {
   "property": "C186",
   "status": "partial",
   "theorems": [
    "Verif.Sql.OutLine.C186_one_column_partial",
    "Verif.Sql.OutLine.C186_first_row_refuted"
   ],
   "note": "proved for queries with one column; refuted for more columns: the first row is on one line"
  },
  {
   "property": "C187",
   "status": "partial",
   "theorems": [
    "Verif.Sql.OutLine.C187_rows_partial",
    "Verif.Sql.OutLine.C187_no_headers_refuted",
    "Verif.Sql.OutLine.C187_names_refuted",
    "Verif.Sql.OutLine.C187_cut_refuted"
   ],
   "note": "proved for the rows; refuted for the names: written without headers too, run together if as wide as their columns, and letters are cut in two"
  },
  {
   "property": "C188",
   "status": "partial",
   "theorems": [
    "Verif.Sql.OutLine.C188_read_back_partial",
    "Verif.Sql.OutLine.C188_separator_refuted",
    "Verif.Sql.OutLine.C188_no_rows_refuted"
   ],
   "note": "proved for separators of one character and values without it and without line feeds; refuted for values with the separator, which are not quoted, and for results without rows, where the names are missing"
  },
  {
   "property": "C189",
   "status": "partial",
   "theorems": [
    "Verif.Sql.Import.C189_lines_partial",
    "Verif.Sql.Import.C189_wrong_count_partial",
    "Verif.Sql.Import.C189_rows_partial",
    "Verif.Sql.Import.C189_records_partial",
    "Verif.Sql.Import.C189_last_quoted_refuted",
    "Verif.Sql.Import.C189_too_many_refuted",
    "Verif.Sql.Import.C189_unclosed_refuted"
   ],
   "note": "proved for files whose records have the right number of values, the last of them not quoted, for files read without csv, and for records without quotes that have a wrong number of values; for any file every row has the right number of columns; refuted for quoted last values (nothing of the file is imported, or, with a quote inside, the reading goes on behind the line), for records with too many values (written behind the array) and for a quote that is not closed (the file is closed twice, what was read stays). Not modelled: the options headers and limit, errors of SQL constraints, a transaction that is open already"
  },
  {
   "property": "C190",
   "status": "partial",
   "theorems": [
    "Verif.Sql.Import.C190_round_trip_partial",
    "Verif.Sql.Import.C190_blank_refuted"
   ],
   "note": "proved when the last column has only texts that need no quotes; refuted for a last value with a blank"
  },
  {
   "property": "C191",
   "status": "partial",
   "theorems": [
    "Verif.FGlob.C191_members_partial",
    "Verif.FGlob.C191_limit_partial"
   ],
   "note": "proved without types d, noTypes and tails, with maxDepth at most maxIncDepth. Not modelled: retInfo, directories that begin with ~, callbacks with effects, paths longer than PATH_MAX, maxArrayList reached with limit below 0"
  },
  {
   "property": "C192",
   "status": "partial",
   "theorems": [
    "Verif.FGlob.C192_members_partial",
    "Verif.FGlob.C192_limit_partial",
    "Verif.FGlob.C192_cut_refuted",
    "Verif.FGlob.C192_root_refuted"
   ],
   "note": "proved when dir is given, is not / and has no star; refuted without dir (a name as long as the path of the current directory is cut by its length: in /tmp hello.c becomes o.c) and for dir / (. is listed instead, the first letter is cut)"
  },
  {
   "property": "C193",
   "status": "partial",
   "theorems": [
    "Verif.FGlob.C193_members_partial",
    "Verif.FGlob.C193_limit_refuted",
    "Verif.FGlob.C193_nodir_refuted"
   ],
   "note": "proved when dir is given, every subdirectory can be read and there is no limit; refuted: the limit is not looked at between the subdirectories; without dir the subdirectories are looked for under /, which is an error"
  },
  {
   "property": "C194",
   "status": "partial",
   "theorems": [
    "Verif.FGlob.C194_members_partial",
    "Verif.FGlob.C194_path_refuted",
    "Verif.FGlob.C194_recurse_refuted"
   ],
   "note": "proved for a dir that is a single name and matches nothing in it; refuted: for dir x/y a second search with dir as the pattern fails; with recurse a dir with a slash is always an error; without dir memory is read that is no longer the program's"
  },
  {
   "property": "C195",
   "status": "partial",
   "theorems": [
    "Verif.FGlob.C195_dirs_refuted",
    "Verif.FGlob.C195_discard_refuted",
    "Verif.FGlob.C195_types_partial",
    "Verif.FGlob.C195_notypes_partial",
    "Verif.FGlob.C195_notypes_refuted",
    "Verif.FGlob.C195_discard_partial"
   ],
   "note": "proved for types and noTypes without recurse, and that after maxDiscard refusals the next file accepted is the last; refuted: with recurse and types d the pattern is ignored and the directories are not searched; noTypes leaves no directory and no link; maxDiscard is not looked at when something is discarded"
  },
  {
   "property": "C196",
   "status": "proved",
   "theorems": [
    "Verif.Call.C196_own",
    "Verif.Call.C196_other",
    "Verif.Call.C196_refused"
   ],
   "note": "in one thread; the copy of the arguments is a parameter (C199)"
  },
  {
   "property": "C197",
   "status": "partial",
   "theorems": [
    "Verif.Call.C197_arguments_partial",
    "Verif.Call.C197_start_partial",
    "Verif.Call.C197_preset_refuted",
    "Verif.Call.C197_nested_refuted",
    "Verif.Call.C197_left_over_refuted"
   ],
   "note": "proved for alias calls with at least one argument, and that a call without arguments starts with fresh parameters; refuted: calls without arguments share one array, which holds their variables; without arguments the array given with the alias is used itself"
  },
  {
   "property": "C198",
   "status": "partial",
   "theorems": [
    "Verif.Alias.C198_calls",
    "Verif.Alias.C198_function",
    "Verif.Alias.C198_arguments",
    "Verif.Alias.C198_others",
    "Verif.Alias.C198_refused",
    "Verif.Alias.C198_names_partial",
    "Verif.Alias.C198_none_partial",
    "Verif.Alias.C198_deleted_partial",
    "Verif.Alias.C198_names_refuted",
    "Verif.Alias.C198_deleted_refuted"
   ],
   "note": "calls, function and arguments proved for every history; the list, and the answers for other names, if no call was refused; deletion for aliases made by another interpreter. Refuted: a refused call leaves a name without an alias; the command of an alias an interpreter gave itself stays when it is deleted, and calling it reads through a NULL pointer. Names with a dot and threads are not modelled"
  },
  {
   "property": "C199",
   "status": "partial",
   "theorems": [
    "Verif.Json.Bare.C199_copy_partial",
    "Verif.Json.C199_scalar_partial",
    "Verif.Json.C199_string_partial",
    "Verif.Json.C199_nul_refuted",
    "Verif.Json.C199_undefined_refuted",
    "Verif.Json.C199_emoji_refuted"
   ],
   "note": "proved for scalars, strings without a NUL, and arrays and objects of such values without undefined, with keys that need no escape; refuted: strings are cut at a NUL, undefined in an array (as arguments are) becomes null, characters beyond U+FFFF become others"
  },
  {
   "property": "C200",
   "status": "partial",
   "theorems": [
    "Verif.Lookup.C200_lookup_partial",
    "Verif.Lookup.C200_limit_refuted",
    "Verif.Lookup.C200_number_refuted",
    "Verif.Lookup.C200_wrap_refuted",
    "Verif.Lookup.C200_escape_refuted"
   ],
   "note": "proved for paths of at most 1000 steps with names and keys without special characters and numbers in the brackets of arrays; refuted: o[1] looks for a variable 1 if o is not an array; after 1000 steps the value of the part before is given; an index is cut to 32 bits; escapes in quoted keys are not undone. Variables and subscripts are parameters"
  },
  {
   "property": "C201",
   "status": "partial",
   "theorems": [
    "Verif.Match.C201_type_partial",
    "Verif.Match.C201_exact_partial",
    "Verif.Match.C201_part_partial",
    "Verif.Match.C201_three_refuted",
    "Verif.Match.C201_space_refuted",
    "Verif.Match.C201_prefix_refuted",
    "Verif.Match.C201_key_refuted",
    "Verif.Match.C201_junk_refuted"
   ],
   "note": "proved for keys without signs of the format and types that exist. Refuted: matchObj(o, s, true) is an error, as the fourth argument is read if the third is there; without arguments noerror is not set; a space at the end of s makes it read and write behind the text; with partial the types need only begin alike; keys with commas and colons. The flags are booleans or missing"
  },
  {
   "property": "C202",
   "status": "partial",
   "theorems": [
    "Verif.Pkg.C202_there_and_back_partial",
    "Verif.Pkg.C202_two_partial",
    "Verif.Pkg.C202_zero_refuted",
    "Verif.Pkg.C202_other"
   ],
   "note": "proved for every rounding of doubles; refuted: verConvert(n, 2) of a version a.0.c with c from 1 to 9 is \"a\". Numbers are not negative"
  },
  {
   "property": "C203",
   "status": "partial",
   "theorems": [
    "Verif.Signal.C203_names_partial",
    "Verif.Signal.C203_numbers_partial",
    "Verif.Signal.C203_found_partial",
    "Verif.Signal.C203_table_partial",
    "Verif.Signal.C203_refuted"
   ],
   "note": "proved; refuted: \"-SIGINT\" is unknown, \"SIGCHLD\" too, \"9x\" is 9 and \"nown signal\" 16"
  },
  {
   "property": "C204",
   "status": "partial",
   "theorems": [
    "Verif.Signal.C204_action_partial",
    "Verif.Signal.C204_list",
    "Verif.Signal.C204_kill_refuted",
    "Verif.Signal.C204_error_refuted"
   ],
   "note": "proved for every signal the system lets a process change; refuted: SIGKILL is listed as handled though it is not; after an error the names before the unknown one are set. Other users of sigaction in the process are not modelled"
  },
  {
   "property": "C205",
   "status": "partial",
   "theorems": [
    "Verif.Signal.C205_called_partial",
    "Verif.Signal.C205_after_return_partial",
    "Verif.Signal.C205_not_more",
    "Verif.Signal.C205_not_again",
    "Verif.Signal.C205_two_refuted",
    "Verif.Signal.C205_busy_refuted",
    "Verif.Signal.C205_race_refuted"
   ],
   "note": "that there are not more calls than arrivals is proved for every history; that there is a call if the signal has one callback, events are not processed inside it and bits are cleared at once. Refuted: of two callbacks one is called; an arrival while the callback runs is lost when events are processed in it; another signal that arrives while a bit is cleared is lost. Signals that arrive several times before events are processed count once"
  },
  {
   "property": "C206",
   "status": "partial",
   "theorems": [
    "Verif.Repl.C206_complete_partial",
    "Verif.Repl.C206_string_partial",
    "Verif.Repl.C206_lines_partial",
    "Verif.Repl.C206_cancel_partial",
    "Verif.Repl.C206_inside_refuted",
    "Verif.Repl.C206_comment_refuted",
    "Verif.Repl.C206_cancel_refuted"
   ],
   "note": "proved for texts in whose strings there are no brackets and no other quotes: they are complete if and only if no bracket and no string is open, and lines that are complete with the last are evaluated once, joined by spaces, when it is there. Refuted: brackets and quotes in strings count, so f(\"it's\") is never complete; lines are joined with spaces, so // makes all that follow a comment; without readline the backslash does not take lines back. onEval and history files are not modelled"
  },
  {
   "property": "C207",
   "status": "partial",
   "theorems": [
    "Verif.Sql.ObjBind.C207_insert_partial",
    "Verif.Sql.ObjBind.C207_update_partial",
    "Verif.Sql.ObjBind.C207_create_partial",
    "Verif.Sql.ObjBind.C207_read_partial",
    "Verif.Sql.ObjBind.C207_quote_refuted",
    "Verif.Sql.ObjBind.C207_space_refuted",
    "Verif.Sql.ObjBind.C207_noDefaults_refuted",
    "Verif.Sql.ObjBind.C207_silent_refuted",
    "Verif.Sql.ObjBind.C207_empty_refuted",
    "Verif.Sql.ObjBind.C207_null_refuted"
   ],
   "note": "proved for every object and every query whose first word is one of the three and that has a %v; read back for names without ] and texts without a quote. Refuted: a quote in a text is not doubled, so a value can end the statement; a space before the first word, REPLACE and %v after a newline; noDefaults does nothing; errors are not given to the caller of query; with no field the text is not SQL; with defaultNull a text has no type. Numbers are given as %g prints them (six digits)"
  },
  {
   "property": "C208",
   "status": "partial",
   "theorems": [
    "Verif.Obj.Access.C208_get_partial",
    "Verif.Obj.Access.C208_set",
    "Verif.Obj.Access.C208_plain",
    "Verif.Obj.Access.C208_frozen",
    "Verif.Obj.Access.C208_inc_partial",
    "Verif.Obj.Access.C208_inc_plain_partial",
    "Verif.Obj.Access.C208_stale_refuted",
    "Verif.Obj.Access.C208_proto_refuted",
    "Verif.Obj.Access.C208_throw_refuted",
    "Verif.Obj.Access.C208_this_refuted"
   ],
   "note": "reads and assignments of own accessors, and of properties without, are proved for all functions; ++ calls the setter with the number, and changes only its property in every history of a script without setters. Refuted: after a read of a property with both, ++ on any property of any object calls that setter; the setter is called by ++ with a wrong this; a getter of a prototype gets the prototype as this, its setter is never called; the exception of a getter is lost"
  },
  {
   "property": "C209",
   "status": "partial",
   "theorems": [
    "Verif.Obj.IsProto.C209_found_partial",
    "Verif.Obj.IsProto.C209_sound_partial",
    "Verif.Obj.IsProto.C209_none_partial",
    "Verif.Obj.IsProto.C209_same_refuted",
    "Verif.Obj.IsProto.C209_root_refuted",
    "Verif.Obj.IsProto.C209_refuted"
   ],
   "note": "an object of the chain that has a prototype itself is found, for chains that end; true is right when no other object has the same prototype value and v is not a. Refuted: any two objects with the same prototype are prototypes of each other and of themselves ({}.isPrototypeOf({})); Object.prototype is never found. Chains with a cycle do not end (see C81)"
  },
  {
   "property": "C210",
   "status": "partial",
   "theorems": [
    "Verif.Edit.C210_keys_partial",
    "Verif.Edit.C210_typed_partial",
    "Verif.Edit.C210_utf8_refuted",
    "Verif.Edit.C210_full_refuted"
   ],
   "note": "proved for bytes, left, right, Home, End, Delete, Backspace, Ctrl-W, Ctrl-T, Ctrl-U and Ctrl-K, with a buffer of any size; a text that fits and is typed is the line. Refuted as a claim about characters: keys work on bytes (Backspace after \u00e9 leaves half of it), and a key that does not fit is dropped. Not modelled: drawing, completion, the keys of the history, Ctrl-C, escapes that are not known"
  },
  {
   "property": "C211",
   "status": "partial",
   "theorems": [
    "Verif.Edit.C211_add",
    "Verif.Edit.C211_max",
    "Verif.Edit.C211_save_partial",
    "Verif.Edit.C211_save_refuted",
    "Verif.Edit.C211_walk_partial",
    "Verif.Edit.C211_enter_partial",
    "Verif.Edit.C211_edit_refuted",
    "Verif.Edit.C211_long_refuted",
    "Verif.Edit.C211_full_refuted"
   ],
   "note": "the history is exact for all lines and limits; save and load for plain lines shorter than 4095 bytes; the walk and Enter for lines shorter than the buffer, a history that is not full and whose newest line is not empty. Refuted: an older line that is edited and left is changed in the history; a line that fills the buffer loses its last byte when one looks at the history; with a full history any Enter forgets the oldest line; a line of 4095 bytes loads as itself and an empty one"
  },
  {
   "property": "C212",
   "status": "partial",
   "theorems": [
    "Verif.Complete.C212_inside_partial",
    "Verif.Complete.C212_whole",
    "Verif.Complete.C212_rest_partial",
    "Verif.Complete.C212_backward_refuted",
    "Verif.Complete.C212_empty_refuted"
   ],
   "note": "proved without a range, with start <= end inside the text, and with no end or one outside. Refuted: if end + 1 < start the rest of the text is copied and a byte before the copy is written (a store outside the buffer, from a script); for the empty text any start reads the byte before it. Numbers beyond an int are not modelled"
  },
  {
   "property": "C213",
   "status": "partial",
   "theorems": [
    "Verif.Debug.C213_here",
    "Verif.Debug.C213_stop_partial",
    "Verif.Debug.C213_go",
    "Verif.Debug.C213_hits",
    "Verif.Debug.C213_temporary",
    "Verif.Debug.C213_numbers",
    "Verif.Debug.C213_loop_refuted"
   ],
   "note": "hits, temporary breakpoints, numbers, and no stop elsewhere are proved for all histories; the stop is proved unless the line is the one the debugger was last told of. Refuted: who stopped at a line by stepping, sets a breakpoint there and continues, is never stopped there again though the line is done any number of times, other lines between. Stops for errors and signals, and a callback that fails, are not modelled"
  },
  {
   "property": "C214",
   "status": "partial",
   "theorems": [
    "Verif.Vfs.C214_some",
    "Verif.Vfs.C214_mount_partial",
    "Verif.Vfs.C214_nested_refuted"
   ],
   "note": "exact for having a mount; the mount itself if no mount lies in another. Refuted: a mount inside another is never found, the outermost one is taken, so its files do not exist"
  },
  {
   "property": "C215",
   "status": "partial",
   "theorems": [
    "Verif.Vfs.C215_inside_partial",
    "Verif.Vfs.C215_read_partial",
    "Verif.Vfs.C215_line_partial",
    "Verif.Vfs.C215_getc",
    "Verif.Vfs.C215_size_refuted",
    "Verif.Vfs.C215_seek_refuted"
   ],
   "note": "proved when the size the file was listed with is not more than its data. Refuted: with a larger size (which a script gives) memory behind the data is read; a seek from the present position goes the other way. getc and gets give the next byte and line in order, but at the end getc gives 0"
  },
  {
   "property": "C216",
   "status": "partial",
   "theorems": [
    "Verif.Vfs.C216_dirs_partial",
    "Verif.Vfs.C216_order_refuted"
   ],
   "note": "exact if the list is accepted. Refuted: a directory listed after a file in it makes the whole mount fail as a duplicate file, though before the file it is accepted. Size, data and type of an entry are not in this part of the model"
  },
  {
   "property": "C217",
   "status": "partial",
   "theorems": [
    "Verif.Vfs.C217_cut_partial",
    "Verif.Vfs.C217_list_partial",
    "Verif.Vfs.C217_once_partial",
    "Verif.Vfs.C217_long_refuted",
    "Verif.Vfs.C217_mounted_partial"
   ],
   "note": "exact for every accepted file list. Refuted: names of 256 bytes and more are cut to 255, so two can be listed as one name twice. Missing: the type of an entry; the filter and order of the caller"
  }
 ]
}