# Axioms of the claimed theorems

Generated by `tools/axioms.py` from `#print axioms`.

## no axioms (11)

* `Verif.Props.C16_close_truncated_content`
* `Verif.Props.C17_close_refuted`
* `Verif.Props.C18_closed_is_packet`
* `Verif.Props.C19_close_refuted`
* `Verif.Props.C39_refuted_panic`
* `Verif.Props.C61_refuted`
* `Verif.Props.C62_refuted`
* `Verif.Props.C69_refuted`
* `Verif.Props.C90_read_only`
* `Verif.Props.C145_refuted`
* `Verif.Props.C166_needs_names`

## propext (46)

* `Verif.Props.C06_is_iff`
* `Verif.Props.C13_bool_rejects`
* `Verif.Props.C13_short`
* `Verif.Props.C15_limit_error`
* `Verif.Props.C18_overflow`
* `Verif.Props.C33_refuted`
* `Verif.Props.C38_refuted`
* `Verif.Props.C38_info`
* `Verif.Props.C75_valid_name_iff`
* `Verif.Props.C29_refuted`
* `Verif.Props.C30_refuted`
* `Verif.Props.C21_refuted`
* `Verif.Props.C22_refuted`
* `Verif.Props.C22_refuted_twice`
* `Verif.Props.C22_refuted_type`
* `Verif.Props.C36_refuted_blocks`
* `Verif.Props.C36_refuted_close`
* `Verif.Props.C35_refuted_name`
* `Verif.Props.C35_refuted_root`
* `Verif.Props.C39_refuted_leaf`
* `Verif.Props.C47_refuted`
* `Verif.Props.C51_strict_partial`
* `Verif.Props.C85_refuted`
* `Verif.Props.C58_refuted`
* `Verif.Props.C71_refuted`
* `Verif.Props.C71_unparsable`
* `Verif.Props.C89_fixed`
* `Verif.Props.C73_refuted`
* `Verif.Props.C107_cat_open`
* `Verif.Props.C108_errors`
* `Verif.Props.C109_refuted`
* `Verif.Props.C109_refuted_keys`
* `Verif.Props.C113_refuted`
* `Verif.Props.C114_opaque`
* `Verif.Props.C114_refuted`
* `Verif.Props.C116_refuted`
* `Verif.Props.C128_close`
* `Verif.Props.C139_cat_dump`
* `Verif.Props.C141_exact`
* `Verif.Props.C141_refuted`
* `Verif.Props.C142_no_store`
* `Verif.Props.C153_lax`
* `Verif.Props.C162_refuted`
* `Verif.Props.C165_once`
* `Verif.Props.C168_once`
* `Verif.Props.C171_once`

## Quot.sound, propext (107)

* `Verif.Props.C03_encode_buffer`
* `Verif.Props.C143_encode`
* `Verif.Props.C04_refuted`
* `Verif.Props.C05_frame_refuted`
* `Verif.Props.C08_refuted`
* `Verif.Props.C08_refuted_newlines`
* `Verif.Props.C12_compress`
* `Verif.Props.C13_uint64`
* `Verif.Props.C13_bool`
* `Verif.Props.C15_limit`
* `Verif.Props.C16_exact`
* `Verif.Props.C18_spec_closed`
* `Verif.Props.C34_validate_iff`
* `Verif.Props.C38_permissions_partial`
* `Verif.Props.C38_windows`
* `Verif.Props.C27_sticky`
* `Verif.Props.C30_refuted_not_nar`
* `Verif.Props.C36_after_error_partial`
* `Verif.Props.C40_refuted`
* `Verif.Props.C42_refuted`
* `Verif.Props.C43_refuted`
* `Verif.Props.C43_prefix_partial`
* `Verif.Props.C45_chunking`
* `Verif.Props.C46_sound`
* `Verif.Props.C47_complete_partial`
* `Verif.Props.C47_after_slash_partial`
* `Verif.Props.C80_new_hash`
* `Verif.Props.C81_algo_names`
* `Verif.Props.C51_refuted`
* `Verif.Props.C51_refs`
* `Verif.Props.C54_first_match`
* `Verif.Props.C54_sound`
* `Verif.Props.C59_escape`
* `Verif.Props.C83_sink_failure`
* `Verif.Props.C85_read_no_panic_partial`
* `Verif.Props.C63_name`
* `Verif.Props.C66_refuted`
* `Verif.Props.C86_refuted`
* `Verif.Props.C67_map`
* `Verif.Props.C67_failed_put`
* `Verif.Props.C68_refuted`
* `Verif.Props.C70_get`
* `Verif.Props.C71_dispatch_partial`
* `Verif.Props.C90_has`
* `Verif.Props.C90_get_iff`
* `Verif.Props.C90_symlink`
* `Verif.Props.C72_refuted`
* `Verif.Props.C92_show_iff`
* `Verif.Props.C78_without_foreign_keys`
* `Verif.Props.C94_ids`
* `Verif.Props.C94_query`
* `Verif.Props.C94_foreign_key`
* `Verif.Props.C94_last_purge`
* `Verif.Props.C37_terminates`
* `Verif.Props.C96_writer`
* `Verif.Props.C104_name_re`
* `Verif.Props.C106_ls_open`
* `Verif.Props.C113_file`
* `Verif.Props.C115_pointer`
* `Verif.Props.C115_values`
* `Verif.Props.C115_refuted`
* `Verif.Props.C116_open`
* `Verif.Props.C116_values`
* `Verif.Props.C119_check_needed`
* `Verif.Props.C124_readDerivation`
* `Verif.Props.C125_cat`
* `Verif.Props.C125_derivation`
* `Verif.Props.C125_bytes_writer`
* `Verif.Props.C128_functions`
* `Verif.Props.C129_needs_order`
* `Verif.Props.C130_exact`
* `Verif.Props.C130_close`
* `Verif.Props.C132_dump`
* `Verif.Props.C134_dump`
* `Verif.Props.C134_http`
* `Verif.Props.C134_fs_exact`
* `Verif.Props.C134_refuted`
* `Verif.Props.C137_bytes`
* `Verif.Props.C137_values`
* `Verif.Props.C137_parsed`
* `Verif.Props.C137_refuted`
* `Verif.Props.C139_show`
* `Verif.Props.C139_ls`
* `Verif.Props.C139_refuted`
* `Verif.Props.C142_show`
* `Verif.Props.C142_badger`
* `Verif.Props.C143_encode_overlap`
* `Verif.Props.C143_decode_overlap`
* `Verif.Props.C145_read`
* `Verif.Props.C145_hash_refuted`
* `Verif.Props.C147_refuted_partial`
* `Verif.Props.C147_race_partial`
* `Verif.Props.C148_keeping`
* `Verif.Props.C151_many`
* `Verif.Props.C151_released`
* `Verif.Props.C151_hash_part`
* `Verif.Props.C151_references`
* `Verif.Props.C152_pure`
* `Verif.Props.C152_none`
* `Verif.Props.C154_unsigned`
* `Verif.Props.C158_refuted`
* `Verif.Props.C159_unnoticed`
* `Verif.Props.C160_refuted`
* `Verif.Props.C160_width_partial`
* `Verif.Props.C160_64`
* `Verif.Props.C160_exact`
* `Verif.Props.C160_read`

## Classical.choice, Quot.sound, propext (351)

* `Verif.Props.C01_decode_encode`
* `Verif.Props.C02_decode_iff_encode`
* `Verif.Props.C02_unique`
* `Verif.Props.C02_encode_injective`
* `Verif.Props.C03_encode_is_numeral`
* `Verif.Props.C04_validate_decode_partial`
* `Verif.Props.C04_exact`
* `Verif.Props.C05_no_panic`
* `Verif.Props.C05_decode_valid`
* `Verif.Props.C05_decode_zeroed`
* `Verif.Props.C05_success_length`
* `Verif.Props.C05_frame_partial`
* `Verif.Props.C05_frame_exact`
* `Verif.Props.C05_string`
* `Verif.Props.C07_parse_format`
* `Verif.Props.C08_digest_size_partial`
* `Verif.Props.C08_exact`
* `Verif.Props.C09_algo_enforced`
* `Verif.Props.C09_mismatch_rejected`
* `Verif.Props.C10_reparse`
* `Verif.Props.C11_parseNixBase32_iff`
* `Verif.Props.C11_must_parse`
* `Verif.Props.C12_linear`
* `Verif.Props.C12_panic_iff`
* `Verif.Props.C14_bytes`
* `Verif.Props.C16_readBytesFull_refuted`
* `Verif.Props.C16_close_partial`
* `Verif.Props.C17_bytes_reader`
* `Verif.Props.C17_read_all`
* `Verif.Props.C18_bytes_writer`
* `Verif.Props.C18_prefix_of_packet`
* `Verif.Props.C19_fragmentation`
* `Verif.Props.C19_stream`
* `Verif.Props.C20_wire_sink_failure`
* `Verif.Props.C20_writer_sink_failure`
* `Verif.Props.C20_newWriter_sink_failure`
* `Verif.Props.C33_order_partial`
* `Verif.Props.C33_exact_above_slash`
* `Verif.Props.C33_complete_total`
* `Verif.Props.C23_refuted`
* `Verif.Props.C23_refuted_path`
* `Verif.Props.C23_read_back_partial`
* `Verif.Props.C23_read_last`
* `Verif.Props.C23_exact`
* `Verif.Props.C23_rest_exact`
* `Verif.Props.C23_condition`
* `Verif.Props.C25_paths_clean`
* `Verif.Props.C26_order`
* `Verif.Props.C26_rejects`
* `Verif.Props.C26_unordered`
* `Verif.Props.C26_tree`
* `Verif.Props.C26_unsorted`
* `Verif.Props.C28_reading_irrelevant`
* `Verif.Props.C29_eof_partial`
* `Verif.Props.C29_io_error_partial`
* `Verif.Props.C100_language`
* `Verif.Props.C30_grammar_partial`
* `Verif.Props.C31_headers_consistent`
* `Verif.Props.C32_refuted`
* `Verif.Props.C32_close_partial`
* `Verif.Props.C79_next_total`
* `Verif.Props.C21_writes_nar_partial`
* `Verif.Props.C21_exact`
* `Verif.Props.C22_valid_nar_partial`
* `Verif.Props.C22_exact`
* `Verif.Props.C24_reader_inverts_writer_partial`
* `Verif.Props.C24_exact`
* `Verif.Props.C35_dump_filter_partial`
* `Verif.Props.C35_dump_partial`
* `Verif.Props.C35_exact`
* `Verif.Props.C39_ls_partial`
* `Verif.Props.C40_validate_partial`
* `Verif.Props.C41_roundtrip`
* `Verif.Props.C42_from_string_partial`
* `Verif.Props.C42_accepts_partial`
* `Verif.Props.C42_exact`
* `Verif.Props.C43_store_partial`
* `Verif.Props.C44_no_panic`
* `Verif.Props.C48_sorted`
* `Verif.Props.C74_new_scanner`
* `Verif.Props.C82_format_injective`
* `Verif.Props.C49_roundtrip`
* `Verif.Props.C50_accepts`
* `Verif.Props.C50_result`
* `Verif.Props.C51_injective_partial`
* `Verif.Props.C51_published`
* `Verif.Props.C51_exact`
* `Verif.Props.C52_check_iff`
* `Verif.Props.C52_parsed_no_panic`
* `Verif.Props.C53_roundtrip`
* `Verif.Props.C53_accepts`
* `Verif.Props.C55_sign_verify`
* `Verif.Props.C56_roundtrip`
* `Verif.Props.C57_sorted`
* `Verif.Props.C57_order`
* `Verif.Props.C60_order`
* `Verif.Props.C60_any_input`
* `Verif.Props.C61_rewrite_partial`
* `Verif.Props.C61_any_partial`
* `Verif.Props.C61_exact`
* `Verif.Props.C62_verdict_partial`
* `Verif.Props.C62_validate_partial`
* `Verif.Props.C62_exact`
* `Verif.Props.C84_write_injective`
* `Verif.Props.C85_exact`
* `Verif.Props.C58_order_partial`
* `Verif.Props.C58_exact`
* `Verif.Props.C63_self_reference`
* `Verif.Props.C64_fixed_output`
* `Verif.Props.C65_drv_path`
* `Verif.Props.C65_order`
* `Verif.Props.C66_no_panic_partial`
* `Verif.Props.C66_exact`
* `Verif.Props.C66_valid`
* `Verif.Props.C86_injective_partial`
* `Verif.Props.C86_files`
* `Verif.Props.C86_exact`
* `Verif.Props.C87_distinct`
* `Verif.Props.C88_output_paths`
* `Verif.Props.C88_fails_iff`
* `Verif.Props.C67_put_iff`
* `Verif.Props.C67_checked`
* `Verif.Props.C68_refuted_never`
* `Verif.Props.C68_agree_partial`
* `Verif.Props.C68_exact`
* `Verif.Props.C69_near_partial`
* `Verif.Props.C69_store_path_partial`
* `Verif.Props.C69_exact`
* `Verif.Props.C70_has`
* `Verif.Props.C70_url`
* `Verif.Props.C89_other`
* `Verif.Props.C90_get`
* `Verif.Props.C72_line`
* `Verif.Props.C72_sound_partial`
* `Verif.Props.C72_ls_partial`
* `Verif.Props.C72_exact`
* `Verif.Props.C72_lost`
* `Verif.Props.C73_cat_partial`
* `Verif.Props.C91_header_bound`
* `Verif.Props.C91_ends`
* `Verif.Props.C91_ls_total`
* `Verif.Props.C91_cat_total`
* `Verif.Props.C92_show`
* `Verif.Props.C93_refuted`
* `Verif.Props.C93_read_partial`
* `Verif.Props.C93_exact`
* `Verif.Props.C76_fetcher`
* `Verif.Props.C76_empty`
* `Verif.Props.C77_query`
* `Verif.Props.C78_integrity`
* `Verif.Props.C78_ids`
* `Verif.Props.C78_references`
* `Verif.Props.C78_register`
* `Verif.Props.C78_addReference`
* `Verif.Props.C78_invalidate`
* `Verif.Props.C78_update`
* `Verif.Props.C78_outputs`
* `Verif.Props.C94_realisation`
* `Verif.Props.C95_attribute`
* `Verif.Props.C95_null_name`
* `Verif.Props.C95_names`
* `Verif.Props.C37_reader_partial`
* `Verif.Props.C37_reader_refuted`
* `Verif.Props.C97_linearizable`
* `Verif.Props.C98_crash_consistent`
* `Verif.Props.C98_put_durable`
* `Verif.Props.C98_never_lost`
* `Verif.Props.C99_reads`
* `Verif.Props.C99_lax`
* `Verif.Props.C100_contents`
* `Verif.Props.C101_accepts_iff`
* `Verif.Props.C102_parse_any`
* `Verif.Props.C102_panics`
* `Verif.Props.C102_unique`
* `Verif.Props.C103_from_string`
* `Verif.Props.C103_from_absolute`
* `Verif.Props.C103_plain`
* `Verif.Props.C104_path_re`
* `Verif.Props.C104_path_re_validate`
* `Verif.Props.C105_history`
* `Verif.Props.C105_put_iff`
* `Verif.Props.C105_get`
* `Verif.Props.C106_ls`
* `Verif.Props.C106_ls_accepted`
* `Verif.Props.C107_cat`
* `Verif.Props.C107_cat_accepted`
* `Verif.Props.C108_json`
* `Verif.Props.C108_utf8`
* `Verif.Props.C108_decode`
* `Verif.Props.C108_order`
* `Verif.Props.C108_read`
* `Verif.Props.C109_injective_partial`
* `Verif.Props.C109_read_partial`
* `Verif.Props.C109_exact`
* `Verif.Props.C110_name`
* `Verif.Props.C110_plain_partial`
* `Verif.Props.C110_refuted`
* `Verif.Props.C110_read`
* `Verif.Props.C111_exact`
* `Verif.Props.C111_unique`
* `Verif.Props.C111_panic`
* `Verif.Props.C111_roundtrip`
* `Verif.Props.C112_refuted`
* `Verif.Props.C112_outcome`
* `Verif.Props.C112_panic`
* `Verif.Props.C112_exact`
* `Verif.Props.C113_iff`
* `Verif.Props.C114_request`
* `Verif.Props.C114_store_path`
* `Verif.Props.C114_zone`
* `Verif.Props.C116_reuse`
* `Verif.Props.C117_nar_injective`
* `Verif.Props.C117_dump`
* `Verif.Props.C117_sessions`
* `Verif.Props.C118_dump_read`
* `Verif.Props.C118_exact`
* `Verif.Props.C119_sign_publish_verify`
* `Verif.Props.C119_trust`
* `Verif.Props.C120_stores`
* `Verif.Props.C121_refines`
* `Verif.Props.C121_calls`
* `Verif.Props.C121_read_back`
* `Verif.Props.C122_headers`
* `Verif.Props.C122_contents`
* `Verif.Props.C122_truncated`
* `Verif.Props.C122_progress`
* `Verif.Props.C122_ls`
* `Verif.Props.C122_cat`
* `Verif.Props.C123_limited`
* `Verif.Props.C123_enough`
* `Verif.Props.C123_complete`
* `Verif.Props.C123_writer`
* `Verif.Props.C124_parse`
* `Verif.Props.C124_parse_stuck`
* `Verif.Props.C124_parse_full`
* `Verif.Props.C124_same`
* `Verif.Props.C125_writer`
* `Verif.Props.C125_dump`
* `Verif.Props.C125_complete`
* `Verif.Props.C125_command`
* `Verif.Props.C126_substitute`
* `Verif.Props.C127_fold`
* `Verif.Props.C127_references`
* `Verif.Props.C127_found`
* `Verif.Props.C127_multi`
* `Verif.Props.C127_tee`
* `Verif.Props.C128_alone`
* `Verif.Props.C128_exclusive`
* `Verif.Props.C128_no_waiting`
* `Verif.Props.C129_any_order`
* `Verif.Props.C129_index_order`
* `Verif.Props.C131_next`
* `Verif.Props.C133_put`
* `Verif.Props.C133_stored`
* `Verif.Props.C133_larger`
* `Verif.Props.C133_badger`
* `Verif.Props.C135_read`
* `Verif.Props.C135_dump`
* `Verif.Props.C135_round_trip`
* `Verif.Props.C136_send`
* `Verif.Props.C136_receive`
* `Verif.Props.C136_exact`
* `Verif.Props.C136_fragmentation`
* `Verif.Props.C136_unique`
* `Verif.Props.C136_cut`
* `Verif.Props.C137_exact`
* `Verif.Props.C138_wire`
* `Verif.Props.C138_reader`
* `Verif.Props.C138_tree`
* `Verif.Props.C138_refuted`
* `Verif.Props.C140_read`
* `Verif.Props.C140_roundtrip_partial`
* `Verif.Props.C140_exact`
* `Verif.Props.C140_valid`
* `Verif.Props.C140_refuted`
* `Verif.Props.C141_valid_partial`
* `Verif.Props.C142_printed`
* `Verif.Props.C142_dir`
* `Verif.Props.C142_published`
* `Verif.Props.C143_decode`
* `Verif.Props.C144_sound`
* `Verif.Props.C144_complete`
* `Verif.Props.C144_returns`
* `Verif.Props.C144_static`
* `Verif.Props.C144_location`
* `Verif.Props.C144_empty`
* `Verif.Props.C145_hash`
* `Verif.Props.C146_appends`
* `Verif.Props.C146_in_step`
* `Verif.Props.C147_alone`
* `Verif.Props.C148_stable`
* `Verif.Props.C148_result`
* `Verif.Props.C149_exact`
* `Verif.Props.C149_unique`
* `Verif.Props.C149_refused`
* `Verif.Props.C150_serial`
* `Verif.Props.C150_isolated`
* `Verif.Props.C150_nix`
* `Verif.Props.C151_one`
* `Verif.Props.C152_sound`
* `Verif.Props.C152_complete`
* `Verif.Props.C152_returns`
* `Verif.Props.C152_static`
* `Verif.Props.C152_asked`
* `Verif.Props.C153_truncated`
* `Verif.Props.C153_failed_write`
* `Verif.Props.C153_stores`
* `Verif.Props.C154_signed`
* `Verif.Props.C154_verified`
* `Verif.Props.C154_printed`
* `Verif.Props.C155_beginning`
* `Verif.Props.C155_show`
* `Verif.Props.C155_newline`
* `Verif.Props.C156_more`
* `Verif.Props.C156_cut`
* `Verif.Props.C156_beginning`
* `Verif.Props.C157_cut`
* `Verif.Props.C157_printed`
* `Verif.Props.C158_exact`
* `Verif.Props.C158_accepts`
* `Verif.Props.C158_base64`
* `Verif.Props.C158_nixbase32`
* `Verif.Props.C159_digest`
* `Verif.Props.C159_exact`
* `Verif.Props.C161_refuted`
* `Verif.Props.C161_exact`
* `Verif.Props.C161_printed`
* `Verif.Props.C161_64`
* `Verif.Props.C162_once`
* `Verif.Props.C162_exact`
* `Verif.Props.C163_valid`
* `Verif.Props.C163_fixpoint`
* `Verif.Props.C163_put`
* `Verif.Props.C164_build`
* `Verif.Props.C165_exact`
* `Verif.Props.C165_copy_partial`
* `Verif.Props.C165_canonical`
* `Verif.Props.C165_refuted_dots`
* `Verif.Props.C165_refuted_twice`
* `Verif.Props.C166_reader`
* `Verif.Props.C166_tree`
* `Verif.Props.C167_again`
* `Verif.Props.C167_needs_paren`
* `Verif.Props.C168_map`
* `Verif.Props.C168_canonical`
* `Verif.Props.C169_extract`
* `Verif.Props.C170_filter`
* `Verif.Props.C170_needs_hereditary`
* `Verif.Props.C171_merge`
* `Verif.Props.C171_needs_order`
* `Verif.Props.C172_unpack`
