# Axioms each theorem depends on (output of `#print axioms`)

## none

* C33_create
* C40_check_signature_always_raises
* C46_binary_message_faithful_partial
* C52_creation_time_cannot_be_set
* C100_validate_refuted

## Classical.choice, Quot.sound, propext

* C01_write2_read
* C01_write4_read
* C01_write8_read
* C01_writers_are_big_endian
* C01_read_write
* C02_read_value
* C02_read_injective
* C02_write_read
* C02_write_read_exact
* C03_mpis_roundtrip_partial
* C03_mpi_roundtrip_iff
* C03_float_undershoot_loses_value
* C03_mpis_to_end
* C03_mpi_loop_terminates
* C04_mpi_canonical_partial
* C04_mpi_no_leading_zero
* C05_new_length_roundtrip
* C06_new_length_shortest
* C06_new_length_size
* C07_old_length_roundtrip
* C07_old_length_indeterminate
* C08_new_length_progress
* C08_new_length_reader_exact
* C08_old_length_progress
* C08_old_length_stream_agrees
* C09_frame_roundtrip_partial
* C09_old_large
* C09_new_empty_content_refuted
* C09_old_type_16_31_refuted
* C10_parse_concat_partial
* C10_received_concat
* C11_parser_terminates
* C11_packet_progress
* C11_no_invention
* C11_stream_terminates
* C12_chunks_reassembled_partial
* C12_stream_partial_refuted
* C13_stream_memory_agree
* C13_stream_list
* C14_serialise_terminates_partial
* C15_crc24_is_rfc
* C15_crc24_bound
* C15_crc24_incremental
* C16_burst_detected
* C16_three_octets_detected
* C17_armor_roundtrip
* C17_armor_in_context
* C17_is_armor
* C17_wrapping
* C17_dict_extra_headers_raise
* C17_dict_short_keys_refuted
* C18_accepted_checksum
* C18_tampered_rejected
* C18_burst_rejected
* C19_code_roundtrip
* C19_encode_exact
* C19_decode_strictly_increasing
* C20_simple_partial
* C20_salted_partial
* C21_s2k_roundtrip
* C21_s2k_canonical
* C22_public_key_roundtrip
* C22_public_key_roundtrip_exact
* C22_parsed_shape
* C22_public_key_injective
* C23_fingerprint_definition
* C23_fingerprint_identifies_partial
* C24_subpackets_roundtrip_partial
* C24_subpacket_wire
* C24_subpacket_written
* C24_regex_lost
* C24_additional_recipient_halved
* C24_unknown_content_dropped
* C25_parse_terminates
* C25_signature_roundtrip
* C25_signature_injective
* C25_v3_key_id_halved
* C26_pkesk_roundtrip_partial
* C26_wildcard_lost
* C26_skesk_roundtrip_partial
* C26_skesk_truncated
* C26_skesk_absent
* C26_onepass_loses_half
* C27_hashed_octets
* C27_named_hash
* C27_hashed_octets_v3
* C27_octets_determine_signed_partial
* C27_versions_separated
* C27_v3_octets_determine_signed
* C27_v3_attribute_confused
* C27_confirmation_deviates
* C27_item_octets
* C27_routes_agree
* C28_sign_verify_partial
* C28_verify_sound
* C28_transport
* C28_sign_transport_verify_partial
* C28_secret_subkey_not_verifiable
* C28_signed_values
* C28_verified_values
* C29_encrypt_standard_partial
* C29_integrity_roundtrip_partial
* C29_plain_encrypt_raises
* C30_accepted_is_authentic
* C30_digest_covers_all
* C30_wrong_digest_refused
* C31_inverse
* C31_standard_modes
* C31_chunked_encrypt
* C31_chunked_decrypt
* C31_chunked_inverse
* C31_sync_whole_blocks
* C31_sync_within_block_refuted
* C32_encrypts_as_published
* C32_inverse
* C32_is_block_cipher
* C32_word_arithmetic
* C33_open_and_get
* C33_history
* C33_add_appends
* C33_duplicate_add_refuted
* C33_delete_last_partial
* C33_delete_drops_later_keys_refuted
* C33_update_last_partial
* C33_update_drops_later_keys_refuted
* C33_missing_key
* C33_short_id_collision_refuted
* C34_secret_key_goes_to_public_resource_refuted
* C34_public_key_partial
* C35_accepts_iff_grammar
* C35_accepted_shape
* C35_subkey_revocation_refuted
* C36_roundtrip_partial
* C36_trust_packet_truncates_refuted
* C36_v3_validity_lost_refuted
* C36_v3_signature_refuted
* C37_recognition
* C37_others_raise
* C37_trailing_packets_refuted
* C37_unmatched_one_pass_refuted
* C39_merge_of_readable_keys
* C40_signature_expiry_ignored
* C40_checking_stops_refuted
* C41_starts_locked
* C42_last_listed
* C42_in_order_partial
* C42_older_chosen_refuted
* C42_attributes_stated
* C42_wrong_bits_refuted
* C43_accepts_iff_partial
* C43_plain_text_partial
* C43_terminates
* C43_error_position
* C43_range_backslash_refuted
* C44_hex_roundtrip
* C44_hex_to_end
* C44_octets_roundtrip
* C44_int_to_hex
* C44_int_to_hex_width
* C45_block_roundtrip
* C45_block_accepted_iff
* C45_wrong_checksum_rejected
* C45_pkcs_roundtrip
* C45_pkcs_decode_iff
* C45_elgamal_roundtrip
* C45_elgamal_missing_integer
* C45_rsa_roundtrip_partial
* C45_rsa_leading_zero
* C46_canonical_iff_partial
* C46_injective_on_canonical_partial
* C46_binary_type_faithful_partial
* C46_length_refuted
* C47_packets_roundtrip
* C48_integrity_partial
* C49_critical_passed_over
* C50_packet_roundtrip_partial
* C50_private_values_recovered
* C50_hash_checked
* C50_values_exhaust
* C50_wrong_hash_rejected
* C51_attributes_roundtrip
* C51_image_header
* C51_other_content_dropped_refuted
* C51_terminates
* C52_set_get_partial
* C52_others_kept_partial
* C52_history_partial
* C52_revocable_is_exportable
* C52_first_flag_sets_all
* C52_parsed_regular
* C52_serialised
* C52_expiration_set_get
* C53_key_id_not_hidden
* C54_binary_roundtrip
* C54_text_roundtrip
* C54_reserialise_refuted
* C54_non_ascii_name_refuted
* C54_rejects
* C55_exit_breaks_lock_refuted
* C56_keyring_prefix_refuted
* C56_keybox_prefix_refuted
* C56_empty_file_refuted
* C56_detection
* C57_listing_partial
* C57_one_result_per_key
* C57_unquote
* C57_no_creation_date_refuted
* C57_empty
* C58_terminates
* C58_name_and_address_partial
* C58_comment_and_address_partial
* C58_commented_name_refuted
* C58_commented_name_is
* C58_bare_address_partial
* C58_name_only_refuted
* C58_blank_refuted
* C58_quoted_name_partial
* C58_escaped_comment_partial
* C58_reserved_refuted
* C59_text_roundtrip_partial
* C59_bytes_roundtrip_partial
* C59_secret_label_refuted
* C59_submit_refuted
* C60_whole_area_partial
* C60_hashed_area_overrun
* C61_anybody_opens_refuted
* C61_elgamal_session_key_public
* C62_passphrase_recovers_partial
* C62_other_cipher_lost
* C63_crash_states_partial
* C63_crash_loses_keys_refuted
* C63_some_keys_lost_refuted
* C63_torn_packet_refuted
* C64_small_packets_roundtrip
* C64_user_id_not_utf8_refuted
* C65_group_members
* C66_message_roundtrip_partial
* C66_format_lost_refuted
* C66_nested_signatures_refuted
* C67_passphrase_roundtrip_partial
* C68_lone_selfsig_never_expires_refuted
* C68_several_signatures_never_expires_refuted
* C68_counted_from_other_signature
* C68_no_direct_signature_never_expires
* C69_no_revocation
* C69_revoked_partial
* C69_renewed_certification_raises
* C69_revoked_iff_partial
* C71_public_half_partial
* C72_long_ids_partial
* C73_first_half_only
* C73_never_selfsig
* C74_accepts_iff
* C74_certification_revocation_refused
* C75_stream_of_keys_partial
* C75_bad_key_stops
* C75_nothing_after_error
* C75_default_never_yields
* C76_single_image_partial
* C76_takes_next_octet
* C76_terminates
* C77_fields_partial
* C77_lists_partial
* C78_confirmed
* C78_outcomes
* C78_cache_history
* C78_cached_returned
* C78_not_kept
* C78_error_before_first_attempt
* C78_printed
* C79_command
* C79_sent
* C79_clear
* C79_x_means_none
* C80_passphrase_partial
* C80_raw_octets_refuted
* C80_split_data_refuted
* C80_comment_first_refuted
* C81_every_recipient_opens_partial
* C81_leading_zero_refuted
* C81_elgamal_opens_partial
* C81_elgamal_first_partial
* C82_kept_iff
* C82_strict_types
* C82_flags_lost_refuted
* C82_features_lost_refuted
* C82_longer_length_refuted
* C82_signature_octets_kept_partial
* C83_other_format_partial
* C83_import_export_partial
* C83_serialize_key_partial
* C83_packet_octets_iff
* C83_key_octets_iff
* C83_loose_integers_rewritten
* C83_fingerprint_of_received_partial
* C83_trailing_octets_dropped_refuted
* C83_user_id_octets_iff
* C83_photo_export_unreadable_refuted
* C84_notations_present_partial
* C84_notations_kept_refuted
* C84_notations_cleared
* C84_regexes_present_partial
* C84_regexes_kept_refuted
* C84_regexes_cleared
* C84_embedded_present_partial
* C84_embedded_kept_refuted
* C84_embedded_cleared_partial
* C84_critical_embedded_refuted
* C84_revocation_keys_refuted
* C84_trust_refuted
* C84_no_trust
* C84_code_set_get_partial
* C84_first_code_refuted
* C84_issuer_parts_partial
* C85_header
* C85_attribute_stated_partial
* C85_revocable_refuted
* C85_times
* C85_issuers
* C85_notations_partial
* C85_regexes_partial
* C85_embedded
* C85_revocation_code
* C85_readable_partial
* C85_revocation_key_refuted
* C86_hashed_wins_partial
* C86_unhashed_honoured_refuted
* C86_unhashed_times_refuted
* C87_specifier
* C87_public_key_session_key
* C87_symmetric_session_key
* C87_one_pass_partial
* C87_literal
* C87_literal_written
* C87_small_packets
* C87_attribute
* C87_public_key
* C87_public_key_written
* C87_secret_key
* C87_signature_v3_partial
* C88_binary_kept
* C88_armor_partial
* C88_non_ascii_raises
* C88_armored_file_partial
* C88_cr_file_partial
* C88_key_file_partial
* C88_key_files_agree_partial
* C88_message_partial
* C88_flagged_octets_raise
* C88_blank_line_refuted
* C88_blank_text_refuted
* C89_history
* C89_keys
* C89_search
* C89_all_reachable_partial
* C89_found_partial
* C89_hidden_search_refuted
* C89_other_key_refuted
* C89_empty_term_raises
* C89_added_is_found_partial
* C89_add_lost_refuted
* C90_made_is_read_partial
* C90_set_name_partial
* C90_set_email_partial
* C90_set_comment_partial
* C90_conventional_refuted
* C90_name_only_refuted
* C90_non_ascii_refuted
* C90_non_ascii_email_raises
* C90_comment_in_name_refuted
* C90_spaces_refuted
* C91_import_export_partial
* C91_serialize_key_partial
* C91_unprotected_refuted
* C91_stub_refuted
* C92_equal_iff_partial
* C92_signature_partial
* C92_signature_order_refuted
* C92_v3_signature_raises
* C92_one_pass_refuted
* C92_unknown_type_refuted
* C92_user_id_refuted
* C92_trust_refuted
* C92_symmetric
* C92_transitive
* C93_bit_length_refuted
* C93_old_key_id
* C93_key_id
* C93_expression_injective
* C93_keygrip
* C93_keygrip_identifies
* C93_unknown_algorithm_raises
* C94_only_chosen
* C94_set_get_partial
* C94_history_partial
* C94_set_succeeds
* C94_unsigned_raises
* C94_confused_refuted
* C94_not_signed_refuted
* C94_signature_expiration_partial
* C95_covered_partial
* C95_canonical_refuted
* C95_several_signers_partial
* C95_sign_send_verify_partial
* C95_signs
* C95_accepted_partial
* C95_no_one_pass_refuted
* C95_passphrase_partial
* C95_public_key_partial
* C96_compress_opens_partial
* C96_sign_compress_send_partial
* C96_sign_compress_encrypt_partial
* C96_sign_compress_public_partial
* C97_first_signature_refuted
* C98_same_octets
* C98_other_key_untouched
* C99_opens_partial
* C99_fresh_refuted
* C99_emptied_refuted
* C99_other_kinds_raise
* C99_opened
* C100_signing_refuted
* C100_back_signature_refuted
* C100_other_accepted_partial
* C100_hashed_octets_partial
* C101_within_limit_partial
* C101_over_limit_refuted
* C103_command_partial
* C103_nested_refuted
* C103_started_partial
* C104_digest_names
* C104_unknown_digest_refuted
* C104_level_zero_refuted
* C105_first_line
* C105_escaped_iff_partial
* C105_later_lines_refuted
* C105_not_reversible_refuted
* C106_items
* C106_short_membership_partial
* C106_long_membership_refuted
* C107_output_name
* C108_signatures_attached_partial
* C109_certify_public_partial
* C109_certify_secret_partial
* C109_signed_octets_partial
* C109_public_half_partial
* C109_subkey_binding_refuted
* C110_unlock_file_partial
* C110_wrong_passphrase
* C110_checksum_refuted
* C110_encrypt_only_refuted
* C110_long_passphrase_refuted
* C111_sign_verify_partial
* C112_encrypt_open_partial
* C112_elgamal_partial
* C112_elgamal_first_partial
* C113_written_partial
* C113_read_partial
* C113_no_checksum_refuted
* C113_trailing_space_refuted
* C114_adds_partial
* C114_unseen_refuted
* C114_wrong_key_refuted
* C115_armor_cut
* C115_text_cut
* C115_content_cut_refuted
* C115_header_cut_partial
* C115_key_shortened_refuted
* C115_message_shortened_refuted
* C115_chunks_cut_partial
* C115_last_chunk_cut_refuted
* C115_public_key_cut_partial
* C115_signatures_cut_refuted
* C115_stream_content_cut_refuted
* C115_stream_header_cut_partial
* C116_request_url_partial
* C116_https_refuted
* C116_hkp_port_refuted
* C116_other_scheme
* C116_form_unique
* C116_search_request
* C116_get_request
* C116_submit_get_partial
* C116_other_key_refuted
* C116_answer_start_refuted
* C116_secret_submitted_refuted
* C117_armor_errors
* C117_packet_errors
* C117_stream_errors
* C117_signature_errors
* C117_key_errors
* C117_key_file_errors
* C117_message_errors
* C117_message_file_errors
* C117_expected_refuted
* C117_nesting_unlimited
* C118_own_ids_partial
* C118_file_ids_partial
* C118_unverified_refuted
* C118_subkey_revocation_refuted
* C118_subkeys_never_refuted
* C118_current_partial
* C118_current_raises
* C118_no_reason_refuted
* C118_code_partial
* C118_expired_code_refuted
* C118_id_code_partial
* C118_revokers_refuted
* C119_choice_partial
* C119_certified_flags_refuted
* C119_expired_or_signing_refuted
* C120_import_partial
* C120_rewrite_partial
* C120_photo_import_refuted
* C120_history_partial
* C120_later_keys_lost_refuted
* C121_user_id_partial
* C121_fingerprint_partial
* C121_both_partial
* C121_key_id_ignored_refuted
* C122_key_partial
* C122_serialize_key_partial
* C122_signature_partial
* C122_pattern_unreadable_refuted
* C123_message_partial
* C123_signatures_missing_refuted
* C123_name_refuted
* C124_numbers
* C124_numbers_v3
* C124_same_as_read_partial
* C124_overrun_refuted
* C124_errors
* C125_parts_partial
* C125_time_refuted
* C126_other_files_partial
* C126_failed_signing_partial
* C126_never_written_refuted
* C126_stdin_refuted
* C126_output_emptied_refuted
* C126_nothing_written_refuted

## Quot.sound, propext

* C02_read_past_end
* C04_float_overshoot_not_canonical
* C06_new_length_too_long
* C08_new_length_stream_agrees
* C09_type_too_large
* C10_empty_content_refuted
* C14_large_data_packet_never_serialises
* C20_iterated_partial
* C20_unknown_algorithm
* C20_twofish_refuted
* C20_long_passphrase_truncated
* C24_revocation_key_unusable
* C24_raw_notation_becomes_text
* C25_other_versions_rejected
* C26_wildcard_never_read
* C27_secret_subkey_differs
* C28_algorithms
* C28_rsa_leading_zero_refused
* C28_unsupported
* C28_dsa_bits_refuted
* C29_empty_not_encrypted
* C29_plain_decrypt_raises
* C33_read_only
* C38_opens_iff_partial
* C38_secret_key
* C38_second_passphrase_refuted
* C38_mixed_recipients_refuted
* C38_unprotected_never_opens
* C38_no_session_key
* C39_merge_loses_everything
* C40_bad_times_rejected
* C40_lenient_rules_partial
* C40_strict_rules_partial
* C40_validate_accepts_only_revocations
* C40_revocation_not_verified
* C40_revocation_of_nothing_accepted
* C40_revocation_rules
* C40_revoker_no_verdict_refuted
* C40_misplaced
* C40_never_marked_valid
* C41_unlock
* C41_lock
* C41_numbers_in_order
* C41_history_partial
* C41_failed_unlock_leaves_values
* C41_unlock_all
* C41_lock_all
* C41_context_relocks
* C41_failed_unlock_leaves_unlocked
* C41_nested_context_locks
* C42_v3_signature_raises
* C42_aliases
* C42_attr_of_chosen
* C42_old_versions_raise
* C44_pads
* C44_truncates
* C44_rejects
* C45_elgamal_too_long
* C46_last_character_refuted
* C47_deflate_complete
* C47_zlib_single_partial
* C47_zlib_pieces_refuted
* C47_bzip2_never_opens_refuted
* C47_misuse
* C48_cipher_partial
* C48_fails_iff_none_shared_partial
* C48_fallback_refuted
* C48_personal_first_only_refuted
* C48_none_key
* C49_unknown_critical_raises
* C49_unknown_critical_error
* C49_unknown_ignored_partial
* C49_unknown_hashed_raises
* C49_critical_notation
* C49_embedded_raises
* C50_numbers_never_written
* C50_numbers_without_check
* C50_parsed_shape
* C50_other_usages_raise
* C50_not_serialisable
* C50_checksum_never_decrypted
* C50_old_never_decrypted
* C52_set_succeeds
* C52_only_own_subpackets
* C52_v3_unreadable
* C52_expiration_before_creation
* C52_issuers_only_added
* C52_issuers_cleared
* C53_hidden_as_named_refuted
* C53_ids_in_message_refuted
* C62_passphrase_is_key
* C63_calls_complete
* C65_key_objects
* C65_no_groups_partial
* C65_groups_refuted
* C65_group_reference_refuted
* C65_key_choice_partial
* C65_key_for_each_partial
* C65_shipped_helpers_refuted
* C66_unwritable_refuted
* C66_nested_flag_refuted
* C68_old_keys_never_expire
* C68_no_period_partial
* C70_expired_iff
* C71_public_made_iff
* C71_public_octets_partial
* C71_public_of_octets_partial
* C71_prime_leaks
* C72_hashed_fields_partial
* C72_unhashed_reported
* C73_old_exact_partial
* C77_absent
* C77_local_raises
* C77_target_never_set
* C77_self_fields_partial
* C77_self_only
* C80_error_reported
* C80_closed_connection_refuted
* C81_others_refused
* C81_encrypt_only_refuted
* C81_elgamal_after_rsa_refuted
* C81_hidden_only_refuted
* C81_one_way_of_naming
* C82_malformed_text_refuted
* C84_critical_notation_refuted
* C84_revocation_keys_exception_refuted
* C84_revocation_keys_read
* C88_binary_flagged_raises
* C89_matches_iff
* C89_hidden_refuted
* C89_register
* C93_bit_length_partial
* C94_old_keys_refuted
* C94_old_expiration
* C94_expiration_raises
* C94_past_expiration_refuted
* C95_other_raises
* C95_text_forgery_refuted
* C95_versions_raise
* C96_other_algorithms_refuted
* C96_contained_only
* C97_own_lists
* C97_caller_list_refuted
* C98_equivalence
* C98_unlocked_refuted
* C100_hashed_octets_old
* C101_no_limit_refuted
* C103_photo_refuted
* C104_compression_partial
* C104_bz2
* C104_bzip2_refuted
* C118_revoked_iff_partial
* C118_appointed_refuted
* C118_old_signature_raises
* C118_reason_refuted
* C119_revoked
* C122_recipient_drifts_refuted
* C125_issuer_refuted
* C125_version_3_refuted

## propext

* C01_byte_read
* C02_write_zero
* C03_negative_refused
* C21_gnupg_not_serialisable
* C23_v3_fingerprint_raises
* C23_v3_dsa_fingerprints_collide
* C24_target_unwritable
* C25_v3_unwritable
* C27_standalone
* C27_unhashed_not_covered
* C37_signature_first_refuted
* C37_unprotected_refuted
* C37_signed_encrypted_refuted
* C39_direct_signature_raises
* C39_other_key_untouched_partial
* C40_explicit_never_raises
* C41_locked_unusable
* C43_trailing_backslash_refuted
* C46_after_cr_refuted
* C48_forced_disabled_refuted
* C48_disabled_persists_refuted
* C52_expiration_cannot_be_removed
* C55_mutual_exclusion_partial
* C55_release_frees
* C55_nested_release_refuted
* C64_trust_octets_refuted
* C65_revoked_or_unknown_partial
* C84_trust_not_written_refuted
* C84_reason_refuted
* C89_no_question
* C94_lone_expiration_raises
* C95_accepted_literal
* C95_not_literal_errors
* C95_metadata
* C95_default_hash_refuted
* C98_first_found_refuted
* C98_not_found
* C102_status_partial
* C102_log_partial
* C102_log_to_stdout_refuted
* C102_log_lost_refuted
* C102_at_most_once
* C103_file_refuted
* C106_iteration_refuted

