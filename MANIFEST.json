{
 "claims": [
  {
   "property": "C01",
   "status": "proved",
   "theorems": [
    "Pgp.Props.C01_write2_read",
    "Pgp.Props.C01_write4_read",
    "Pgp.Props.C01_write8_read",
    "Pgp.Props.C01_writers_are_big_endian",
    "Pgp.Props.C01_byte_read",
    "Pgp.Props.C01_read_write"
   ],
   "note": ""
  },
  {
   "property": "C02",
   "status": "proved",
   "theorems": [
    "Pgp.Props.C02_read_value",
    "Pgp.Props.C02_read_past_end",
    "Pgp.Props.C02_read_injective",
    "Pgp.Props.C02_write_read",
    "Pgp.Props.C02_write_read_exact",
    "Pgp.Props.C02_write_zero"
   ],
   "note": "write/read is proved for every logarithm that leaves room for the top octet, in particular an exact one"
  },
  {
   "property": "C03",
   "status": "partial",
   "theorems": [
    "Pgp.Props.C03_mpis_roundtrip_partial",
    "Pgp.Props.C03_mpi_roundtrip_iff",
    "Pgp.Props.C03_float_undershoot_loses_value",
    "Pgp.Props.C03_mpis_to_end",
    "Pgp.Props.C03_mpi_loop_terminates",
    "Pgp.Props.C03_negative_refused"
   ],
   "note": "full round trip for an exact logarithm; exact criterion for any logarithm; with CPython's float log the property is refuted at 2**2960 (the oracle value is recorded as a hypothesis)"
  },
  {
   "property": "C04",
   "status": "partial",
   "theorems": [
    "Pgp.Props.C04_mpi_canonical_partial",
    "Pgp.Props.C04_mpi_no_leading_zero",
    "Pgp.Props.C04_float_overshoot_not_canonical"
   ],
   "note": "proved for an exact logarithm; refuted for the float logarithm at 2**48-1"
  },
  {
   "property": "C05",
   "status": "proved",
   "theorems": [
    "Pgp.Props.C05_new_length_roundtrip"
   ],
   "note": ""
  },
  {
   "property": "C06",
   "status": "proved",
   "theorems": [
    "Pgp.Props.C06_new_length_shortest",
    "Pgp.Props.C06_new_length_size",
    "Pgp.Props.C06_new_length_too_long"
   ],
   "note": ""
  },
  {
   "property": "C07",
   "status": "proved",
   "theorems": [
    "Pgp.Props.C07_old_length_roundtrip",
    "Pgp.Props.C07_old_length_indeterminate"
   ],
   "note": ""
  },
  {
   "property": "C08",
   "status": "proved",
   "theorems": [
    "Pgp.Props.C08_new_length_progress",
    "Pgp.Props.C08_new_length_reader_exact",
    "Pgp.Props.C08_old_length_progress",
    "Pgp.Props.C08_new_length_stream_agrees",
    "Pgp.Props.C08_old_length_stream_agrees"
   ],
   "note": ""
  },
  {
   "property": "C09",
   "status": "partial",
   "theorems": [
    "Pgp.Props.C09_frame_roundtrip_partial",
    "Pgp.Props.C09_old_large",
    "Pgp.Props.C09_new_empty_content_refuted",
    "Pgp.Props.C09_type_too_large",
    "Pgp.Props.C09_old_type_16_31_refuted"
   ],
   "note": "false for new-format packets with empty content (refuted) and old-format types 16..31 (refuted); proved for every expressible packet"
  },
  {
   "property": "C10",
   "status": "partial",
   "theorems": [
    "Pgp.Props.C10_parse_concat_partial",
    "Pgp.Props.C10_empty_content_refuted",
    "Pgp.Props.C10_received_concat"
   ],
   "note": "proved for every list of expressible packets and for every sequence of received packets in any framing; refuted with an empty new-format packet"
  },
  {
   "property": "C11",
   "status": "proved",
   "theorems": [
    "Pgp.Props.C11_parser_terminates",
    "Pgp.Props.C11_packet_progress",
    "Pgp.Props.C11_no_invention",
    "Pgp.Props.C11_stream_terminates"
   ],
   "note": ""
  },
  {
   "property": "C12",
   "status": "partial",
   "theorems": [
    "Pgp.Props.C12_chunks_reassembled_partial",
    "Pgp.Props.C12_stream_partial_refuted"
   ],
   "note": "proved for the in-memory parser and every non-zero type; refuted for the stream parser"
  },
  {
   "property": "C13",
   "status": "proved",
   "theorems": [
    "Pgp.Props.C13_stream_memory_agree",
    "Pgp.Props.C13_stream_list"
   ],
   "note": ""
  },
  {
   "property": "C14",
   "status": "partial",
   "theorems": [
    "Pgp.Props.C14_large_data_packet_never_serialises",
    "Pgp.Props.C14_serialise_terminates_partial"
   ],
   "note": "false: refuted for every data packet above 2^32-1 octets; proved in all other cases"
  },
  {
   "property": "C15",
   "status": "proved",
   "theorems": [
    "Pgp.Props.C15_crc24_is_rfc",
    "Pgp.Props.C15_crc24_bound",
    "Pgp.Props.C15_crc24_incremental"
   ],
   "note": ""
  },
  {
   "property": "C16",
   "status": "proved",
   "theorems": [
    "Pgp.Props.C16_burst_detected",
    "Pgp.Props.C16_three_octets_detected"
   ],
   "note": ""
  },
  {
   "property": "C17",
   "status": "proved",
   "theorems": [
    "Pgp.Props.C17_armor_roundtrip",
    "Pgp.Props.C17_armor_in_context",
    "Pgp.Props.C17_is_armor",
    "Pgp.Props.C17_wrapping",
    "Pgp.Props.C17_dict_extra_headers_raise",
    "Pgp.Props.C17_dict_short_keys_refuted"
   ],
   "note": "unknown headers are written but dropped on reading (shown); a dict of extra headers raises, or is written wrongly when the keys have two characters (shown)"
  },
  {
   "property": "C18",
   "status": "proved",
   "theorems": [
    "Pgp.Props.C18_accepted_checksum",
    "Pgp.Props.C18_tampered_rejected",
    "Pgp.Props.C18_burst_rejected"
   ],
   "note": ""
  },
  {
   "property": "C19",
   "status": "proved",
   "theorems": [
    "Pgp.Props.C19_code_roundtrip",
    "Pgp.Props.C19_encode_exact",
    "Pgp.Props.C19_decode_strictly_increasing"
   ],
   "note": "hypothesis: math.log(i,2) floors correctly on 1024..65011712"
  },
  {
   "property": "C20",
   "status": "partial",
   "theorems": [
    "Pgp.Props.C20_simple_partial",
    "Pgp.Props.C20_salted_partial",
    "Pgp.Props.C20_iterated_partial",
    "Pgp.Props.C20_unknown_algorithm",
    "Pgp.Props.C20_twofish_refuted",
    "Pgp.Props.C20_long_passphrase_truncated"
   ],
   "note": "proved for every known hash and every cipher but Twofish (simple, salted, iterated); refuted for Twofish, whose table entry is 16 octets where RFC 4880 requires 32 (C20_twofish_refuted); primitive: hash functions with the digest lengths of the RFC; deviation for passphrases longer than the count shown as a theorem"
  },
  {
   "property": "C21",
   "status": "proved",
   "theorems": [
    "Pgp.Props.C21_s2k_roundtrip",
    "Pgp.Props.C21_s2k_canonical",
    "Pgp.Props.C21_gnupg_not_serialisable"
   ],
   "note": ""
  },
  {
   "property": "C22",
   "status": "proved",
   "theorems": [
    "Pgp.Props.C22_public_key_roundtrip",
    "Pgp.Props.C22_public_key_roundtrip_exact",
    "Pgp.Props.C22_parsed_shape",
    "Pgp.Props.C22_public_key_injective"
   ],
   "note": "for every logarithm that leaves room for the integers; in particular an exact one"
  },
  {
   "property": "C23",
   "status": "partial",
   "theorems": [
    "Pgp.Props.C23_fingerprint_definition",
    "Pgp.Props.C23_fingerprint_identifies_partial",
    "Pgp.Props.C23_v3_fingerprint_raises",
    "Pgp.Props.C23_v3_dsa_fingerprints_collide"
   ],
   "note": "v4 proved under an explicit no-collision hypothesis; v2/v3 fingerprints raise (RSA, ElGamal) or all coincide (DSA), shown as theorems"
  },
  {
   "property": "C24",
   "status": "partial",
   "theorems": [
    "Pgp.Props.C24_subpackets_roundtrip_partial",
    "Pgp.Props.C24_subpacket_wire",
    "Pgp.Props.C24_subpacket_written",
    "Pgp.Props.C24_regex_lost",
    "Pgp.Props.C24_revocation_key_unusable",
    "Pgp.Props.C24_target_unwritable",
    "Pgp.Props.C24_additional_recipient_halved",
    "Pgp.Props.C24_raw_notation_becomes_text",
    "Pgp.Props.C24_unknown_content_dropped"
   ],
   "note": "proved for every list of subpackets of the kinds whose reader and writer agree, nested signatures included; refuted for regular expressions, revocation keys, targets, additional recipients, raw notations and unknown types (their content is dropped)"
  },
  {
   "property": "C25",
   "status": "proved",
   "theorems": [
    "Pgp.Props.C25_parse_terminates",
    "Pgp.Props.C25_signature_roundtrip",
    "Pgp.Props.C25_signature_injective",
    "Pgp.Props.C25_v3_unwritable",
    "Pgp.Props.C25_v3_key_id_halved",
    "Pgp.Props.C25_other_versions_rejected"
   ],
   "note": "for every version 4 signature with areas below 2^16 octets and subpackets that survive (C24); versions 2/3 cannot be written and lose half of the key id (shown)"
  },
  {
   "property": "C26",
   "status": "partial",
   "theorems": [
    "Pgp.Props.C26_pkesk_roundtrip_partial",
    "Pgp.Props.C26_wildcard_lost",
    "Pgp.Props.C26_wildcard_never_read",
    "Pgp.Props.C26_skesk_roundtrip_partial",
    "Pgp.Props.C26_skesk_truncated",
    "Pgp.Props.C26_skesk_absent",
    "Pgp.Props.C26_onepass_loses_half"
   ],
   "note": "proved for public-key and symmetric-key session key packets with an eight-octet key id / an encrypted key of the cipher's length; refuted for wild-card key ids, longer encrypted keys and every one-pass signature packet (half of the key id lost)"
  },
  {
   "property": "C27",
   "status": "partial",
   "theorems": [
    "Pgp.Props.C27_hashed_octets",
    "Pgp.Props.C27_named_hash",
    "Pgp.Props.C27_hashed_octets_v3",
    "Pgp.Props.C27_octets_determine_signed_partial",
    "Pgp.Props.C27_versions_separated",
    "Pgp.Props.C27_v3_octets_determine_signed",
    "Pgp.Props.C27_v3_attribute_confused",
    "Pgp.Props.C27_confirmation_deviates",
    "Pgp.Props.C27_standalone",
    "Pgp.Props.C27_item_octets",
    "Pgp.Props.C27_routes_agree",
    "Pgp.Props.C27_secret_subkey_differs",
    "Pgp.Props.C27_unhashed_not_covered"
   ],
   "note": "proved for version 4 and later and for version 3 documents and keys; refuted for version 3 user ids versus attributes and for secret subkeys (primary key hashed twice); 0x40/0x50 deviate from the RFC (shown)"
  },
  {
   "property": "C28",
   "status": "partial",
   "theorems": [
    "Pgp.Props.C28_algorithms",
    "Pgp.Props.C28_sign_verify_partial",
    "Pgp.Props.C28_rsa_leading_zero_refused",
    "Pgp.Props.C28_verify_sound",
    "Pgp.Props.C28_transport",
    "Pgp.Props.C28_sign_transport_verify_partial",
    "Pgp.Props.C28_unsupported",
    "Pgp.Props.C28_secret_subkey_not_verifiable",
    "Pgp.Props.C28_signed_values",
    "Pgp.Props.C28_verified_values",
    "Pgp.Props.C28_dsa_bits_refuted"
   ],
   "note": "proved for DSA, ElGamal and RSA signature strings without leading zero octet, for every item and after transport; refuted for RSA strings with a leading zero octet, raw octets, version 3 and secret subkeys; the numbers a signature consists of and those accepted are stated per algorithm, with a refutation for DSA group orders that are not a whole number of octets long"
  },
  {
   "property": "C29",
   "status": "partial",
   "theorems": [
    "Pgp.Props.C29_encrypt_standard_partial",
    "Pgp.Props.C29_integrity_roundtrip_partial",
    "Pgp.Props.C29_empty_not_encrypted",
    "Pgp.Props.C29_plain_encrypt_raises",
    "Pgp.Props.C29_plain_decrypt_raises"
   ],
   "note": "proved for integrity protected data of every length (primitive: an arbitrary block cipher and SHA-1); refuted for the empty message (nothing is encrypted) and for data without integrity protection (both directions always raise)"
  },
  {
   "property": "C30",
   "status": "proved",
   "theorems": [
    "Pgp.Props.C30_accepted_is_authentic",
    "Pgp.Props.C30_digest_covers_all",
    "Pgp.Props.C30_wrong_digest_refused"
   ],
   "note": "primitives: an arbitrary block cipher, an arbitrary hash function"
  },
  {
   "property": "C31",
   "status": "proved",
   "theorems": [
    "Pgp.Props.C31_inverse",
    "Pgp.Props.C31_standard_modes",
    "Pgp.Props.C31_chunked_encrypt",
    "Pgp.Props.C31_chunked_decrypt",
    "Pgp.Props.C31_chunked_inverse",
    "Pgp.Props.C31_sync_whole_blocks",
    "Pgp.Props.C31_sync_within_block_refuted"
   ],
   "note": "for an arbitrary block cipher (primitive); the CTR counter is a stream of blocks of the right size"
  },
  {
   "property": "C32",
   "status": "proved",
   "theorems": [
    "Pgp.Props.C32_encrypts_as_published",
    "Pgp.Props.C32_inverse",
    "Pgp.Props.C32_is_block_cipher",
    "Pgp.Props.C32_word_arithmetic"
   ],
   "note": "the code's IDEA is proved equal to the published cipher, for every key and block"
  },
  {
   "property": "C33",
   "status": "partial",
   "theorems": [
    "Pgp.Props.C33_open_and_get",
    "Pgp.Props.C33_history",
    "Pgp.Props.C33_add_appends",
    "Pgp.Props.C33_duplicate_add_refuted",
    "Pgp.Props.C33_delete_last_partial",
    "Pgp.Props.C33_delete_drops_later_keys_refuted",
    "Pgp.Props.C33_update_last_partial",
    "Pgp.Props.C33_update_drops_later_keys_refuted",
    "Pgp.Props.C33_read_only",
    "Pgp.Props.C33_missing_key",
    "Pgp.Props.C33_short_id_collision_refuted",
    "Pgp.Props.C33_create"
   ],
   "note": "look-up, addition, read-only and every history of operations proved against a list specification; refuted for deletion and update of any key but the last (all later keys are lost), duplicate additions (never refused) and fingerprints (only eight characters compared)"
  },
  {
   "property": "C34",
   "status": "partial",
   "theorems": [
    "Pgp.Props.C34_secret_key_goes_to_public_resource_refuted",
    "Pgp.Props.C34_public_key_partial"
   ],
   "note": "refuted for every configuration: secret keys go where public keys go"
  },
  {
   "property": "C35",
   "status": "proved",
   "theorems": [
    "Pgp.Props.C35_accepts_iff_grammar",
    "Pgp.Props.C35_accepted_shape",
    "Pgp.Props.C35_subkey_revocation_refuted"
   ],
   "note": "Language equivalence with an explicit grammar (Spec/Keys.lean); also: a subkey revocation is never accepted, unlike RFC 4880."
  },
  {
   "property": "C36",
   "status": "partial",
   "theorems": [
    "Pgp.Props.C36_roundtrip_partial",
    "Pgp.Props.C36_trust_packet_truncates_refuted",
    "Pgp.Props.C36_v3_validity_lost_refuted",
    "Pgp.Props.C36_v3_signature_refuted"
   ],
   "note": "Roundtrip proved for all modern keys (no trust packet, v4 signatures, no validity period, image attributes). Refuted otherwise: a trust packet truncates the key silently, v2/v3 keys lose the validity period and can then not be written, v3 signatures make to_packets raise TypeError."
  },
  {
   "property": "C37",
   "status": "proved",
   "theorems": [
    "Pgp.Props.C37_recognition",
    "Pgp.Props.C37_others_raise",
    "Pgp.Props.C37_signature_first_refuted",
    "Pgp.Props.C37_unprotected_refuted",
    "Pgp.Props.C37_trailing_packets_refuted",
    "Pgp.Props.C37_signed_encrypted_refuted",
    "Pgp.Props.C37_unmatched_one_pass_refuted"
   ],
   "note": "Exact grammar of the recognised packet sequences; refuted against RFC 4880: signature-first, unprotected and signed encrypted messages never open; trailing packets and unmatched one-pass packets are accepted."
  },
  {
   "property": "C38",
   "status": "partial",
   "theorems": [
    "Pgp.Props.C38_opens_iff_partial",
    "Pgp.Props.C38_secret_key",
    "Pgp.Props.C38_second_passphrase_refuted",
    "Pgp.Props.C38_mixed_recipients_refuted",
    "Pgp.Props.C38_unprotected_never_opens",
    "Pgp.Props.C38_no_session_key"
   ],
   "note": "Exact condition under which a message opens, and the full claim for public-key session keys refused with ValueError; refuted for passphrase session keys (only the first is tried) and mixed recipients."
  },
  {
   "property": "C39",
   "status": "partial",
   "theorems": [
    "Pgp.Props.C39_direct_signature_raises",
    "Pgp.Props.C39_merge_loses_everything",
    "Pgp.Props.C39_merge_of_readable_keys",
    "Pgp.Props.C39_other_key_untouched_partial"
   ],
   "note": "Refuted: merging two copies of a key raises if the other copy has a signature on the key itself; otherwise a successful merge sets the lists of user ids, attributes and subkeys to None and replaces every part's signatures by a single None. Only a key that is not another copy is left alone."
  },
  {
   "property": "C40",
   "status": "partial",
   "theorems": [
    "Pgp.Props.C40_bad_times_rejected",
    "Pgp.Props.C40_lenient_rules_partial",
    "Pgp.Props.C40_strict_rules_partial",
    "Pgp.Props.C40_signature_expiry_ignored",
    "Pgp.Props.C40_explicit_never_raises",
    "Pgp.Props.C40_check_signature_always_raises",
    "Pgp.Props.C40_validate_accepts_only_revocations",
    "Pgp.Props.C40_revocation_not_verified",
    "Pgp.Props.C40_revocation_of_nothing_accepted",
    "Pgp.Props.C40_revocation_rules",
    "Pgp.Props.C40_revoker_no_verdict_refuted",
    "Pgp.Props.C40_checking_stops_refuted",
    "Pgp.Props.C40_misplaced",
    "Pgp.Props.C40_never_marked_valid"
   ],
   "note": "The rules of check_signature_values are proved in both modes (bad times rejected; strict: accepted implies in time, unexpired, unrevoked; lenient: flags exact). Refuted: the signature's own expiration is ignored, an explicit zero key expiration raises, check_signature always raises, validate_signature accepts only type 0x30 and without verifying it."
  },
  {
   "property": "C41",
   "status": "partial",
   "theorems": [
    "Pgp.Props.C41_starts_locked",
    "Pgp.Props.C41_unlock",
    "Pgp.Props.C41_lock",
    "Pgp.Props.C41_locked_unusable",
    "Pgp.Props.C41_numbers_in_order",
    "Pgp.Props.C41_history_partial",
    "Pgp.Props.C41_failed_unlock_leaves_values",
    "Pgp.Props.C41_unlock_all",
    "Pgp.Props.C41_lock_all",
    "Pgp.Props.C41_context_relocks",
    "Pgp.Props.C41_failed_unlock_leaves_unlocked",
    "Pgp.Props.C41_nested_context_locks"
   ],
   "note": "Histories of lock/unlock on a key whose private portion has enough integers: private values present exactly while unlocked; unlock/lock of whole keys and re-locking by the context manager, also on exceptions. Refuted: a subkey that fails to unlock leaves the primary and earlier subkeys unlocked; too few integers leave a private value in a locked key; a nested context locks the outer one."
  },
  {
   "property": "C42",
   "status": "partial",
   "theorems": [
    "Pgp.Props.C42_last_listed",
    "Pgp.Props.C42_in_order_partial",
    "Pgp.Props.C42_older_chosen_refuted",
    "Pgp.Props.C42_v3_signature_raises",
    "Pgp.Props.C42_aliases",
    "Pgp.Props.C42_attr_of_chosen",
    "Pgp.Props.C42_old_versions_raise",
    "Pgp.Props.C42_attributes_stated",
    "Pgp.Props.C42_wrong_bits_refuted"
   ],
   "note": "Refuted: the last listed self-signature is chosen whatever its date; it is the most recent one for keys whose self-signatures are listed in order of date. The values reported are those its octets state (proved); three attributes report another bit of the key flags (refuted)."
  },
  {
   "property": "C43",
   "status": "partial",
   "theorems": [
    "Pgp.Props.C43_accepts_iff_partial",
    "Pgp.Props.C43_plain_text_partial",
    "Pgp.Props.C43_terminates",
    "Pgp.Props.C43_error_position",
    "Pgp.Props.C43_trailing_backslash_refuted",
    "Pgp.Props.C43_range_backslash_refuted"
   ],
   "note": "termination on every string and exact acceptance (over characters and escaped characters) proved, with the error position; refuted for patterns ending in a lone backslash (accepted) and ranges ending in a backslash (refused)"
  },
  {
   "property": "C44",
   "status": "proved",
   "theorems": [
    "Pgp.Props.C44_hex_roundtrip",
    "Pgp.Props.C44_hex_to_end",
    "Pgp.Props.C44_octets_roundtrip",
    "Pgp.Props.C44_pads",
    "Pgp.Props.C44_truncates",
    "Pgp.Props.C44_rejects",
    "Pgp.Props.C44_int_to_hex",
    "Pgp.Props.C44_int_to_hex_width"
   ],
   "note": ""
  },
  {
   "property": "C45",
   "status": "partial",
   "theorems": [
    "Pgp.Props.C45_block_roundtrip",
    "Pgp.Props.C45_block_accepted_iff",
    "Pgp.Props.C45_wrong_checksum_rejected",
    "Pgp.Props.C45_pkcs_roundtrip",
    "Pgp.Props.C45_pkcs_decode_iff",
    "Pgp.Props.C45_elgamal_roundtrip",
    "Pgp.Props.C45_elgamal_missing_integer",
    "Pgp.Props.C45_elgamal_too_long",
    "Pgp.Props.C45_rsa_roundtrip_partial",
    "Pgp.Props.C45_rsa_leading_zero"
   ],
   "note": "block format and PKCS padding proved for all inputs; through RSA a block with a leading zero octet is lost, shown as a theorem"
  },
  {
   "property": "C46",
   "status": "partial",
   "theorems": [
    "Pgp.Props.C46_canonical_iff_partial",
    "Pgp.Props.C46_injective_on_canonical_partial",
    "Pgp.Props.C46_binary_type_faithful_partial",
    "Pgp.Props.C46_binary_message_faithful_partial",
    "Pgp.Props.C46_last_character_refuted",
    "Pgp.Props.C46_after_cr_refuted",
    "Pgp.Props.C46_length_refuted"
   ],
   "note": "the form of the standard is produced exactly on texts with canonical line endings already, where it is injective; refuted for every text with a bare LF or CR (the neighbouring character is lost)"
  },
  {
   "property": "C47",
   "status": "partial",
   "theorems": [
    "Pgp.Props.C47_deflate_complete",
    "Pgp.Props.C47_zlib_single_partial",
    "Pgp.Props.C47_zlib_pieces_refuted",
    "Pgp.Props.C47_packets_roundtrip",
    "Pgp.Props.C47_bzip2_never_opens_refuted",
    "Pgp.Props.C47_misuse"
   ],
   "note": "deflate proved for any pieces; zlib proved for one piece and refuted for more (all but the first are lost); packets round trip for algorithms 0-2; bzip2 refuted (never opens). Primitive: a working zlib"
  },
  {
   "property": "C48",
   "status": "partial",
   "theorems": [
    "Pgp.Props.C48_cipher_partial",
    "Pgp.Props.C48_fails_iff_none_shared_partial",
    "Pgp.Props.C48_integrity_partial",
    "Pgp.Props.C48_fallback_refuted",
    "Pgp.Props.C48_personal_first_only_refuted",
    "Pgp.Props.C48_forced_disabled_refuted",
    "Pgp.Props.C48_disabled_persists_refuted",
    "Pgp.Props.C48_none_key"
   ],
   "note": "the choice from a preference list is proved (first shared cipher, integrity rule, failure iff none shared); refuted for the shipped preferences: only the first is ever tried, a forced cipher may be disabled, disabling persists"
  },
  {
   "property": "C49",
   "status": "partial",
   "theorems": [
    "Pgp.Props.C49_unknown_critical_raises",
    "Pgp.Props.C49_unknown_critical_error",
    "Pgp.Props.C49_unknown_ignored_partial",
    "Pgp.Props.C49_unknown_hashed_raises",
    "Pgp.Props.C49_critical_notation",
    "Pgp.Props.C49_critical_passed_over",
    "Pgp.Props.C49_embedded_raises"
   ],
   "note": "Unknown critical types always raise (exact exception when the rest is readable); unknown non-critical types outside the hashed area are ignored. Refuted: a hashed unknown type raises TypeError, critical notations with undefined flags and invalid critical regular expressions are passed over, embedded signatures always raise."
  },
  {
   "property": "C50",
   "status": "partial",
   "theorems": [
    "Pgp.Props.C50_numbers_never_written",
    "Pgp.Props.C50_numbers_without_check",
    "Pgp.Props.C50_packet_roundtrip_partial",
    "Pgp.Props.C50_parsed_shape",
    "Pgp.Props.C50_other_usages_raise",
    "Pgp.Props.C50_not_serialisable",
    "Pgp.Props.C50_private_values_recovered",
    "Pgp.Props.C50_hash_checked",
    "Pgp.Props.C50_values_exhaust",
    "Pgp.Props.C50_wrong_hash_rejected",
    "Pgp.Props.C50_checksum_never_decrypted",
    "Pgp.Props.C50_old_never_decrypted"
   ],
   "note": "Round trip for non-empty portions and encodable S2K; private values recovered exactly and hash checked for v4 keys with usage 254 (cipher and digest are parameters). Refuted: usage 0, 101 and legacy octets raise, checksum (255) and v2/v3 portions are never decrypted, empty portions and GnuPG S2K cannot be written. A packet made from its private numbers and a passphrase is never written (C50_numbers_never_written)."
  },
  {
   "property": "C51",
   "status": "proved",
   "theorems": [
    "Pgp.Props.C51_attributes_roundtrip",
    "Pgp.Props.C51_image_header",
    "Pgp.Props.C51_other_content_dropped_refuted",
    "Pgp.Props.C51_terminates"
   ],
   "note": "images with the documented header; subpackets of other types lose their content (shown as a theorem)"
  },
  {
   "property": "C52",
   "status": "partial",
   "theorems": [
    "Pgp.Props.C52_set_get_partial",
    "Pgp.Props.C52_set_succeeds",
    "Pgp.Props.C52_only_own_subpackets",
    "Pgp.Props.C52_others_kept_partial",
    "Pgp.Props.C52_history_partial",
    "Pgp.Props.C52_revocable_is_exportable",
    "Pgp.Props.C52_first_flag_sets_all",
    "Pgp.Props.C52_creation_time_cannot_be_set",
    "Pgp.Props.C52_v3_unreadable",
    "Pgp.Props.C52_parsed_regular",
    "Pgp.Props.C52_serialised",
    "Pgp.Props.C52_expiration_set_get",
    "Pgp.Props.C52_expiration_before_creation",
    "Pgp.Props.C52_expiration_cannot_be_removed",
    "Pgp.Props.C52_issuers_only_added",
    "Pgp.Props.C52_issuers_cleared"
   ],
   "note": "Set-then-get, frame and history theorems for the flag, time, preference and text attributes of signatures in which each subpacket type occurs at most once per area. Refuted parts: revocable is the exportable attribute, setting the first of a group of flags sets the others, the creation time cannot be set, expiration cannot be removed, issuers are only ever added. Setters of trust, revocation reason, regular expressions, notations, embedded signatures and revocation keys: see C84."
  },
  {
   "property": "C53",
   "status": "partial",
   "theorems": [
    "Pgp.Props.C53_hidden_as_named_refuted",
    "Pgp.Props.C53_ids_in_message_refuted",
    "Pgp.Props.C53_key_id_not_hidden"
   ],
   "note": "false: refuted for every key, message and list of recipients: hiding recipients makes the very message that naming them makes, and the key id of each can be read in it"
  },
  {
   "property": "C54",
   "status": "proved",
   "theorems": [
    "Pgp.Props.C54_binary_roundtrip",
    "Pgp.Props.C54_text_roundtrip",
    "Pgp.Props.C54_reserialise_refuted",
    "Pgp.Props.C54_non_ascii_name_refuted",
    "Pgp.Props.C54_rejects"
   ],
   "note": "for ASCII names as stated; non-ASCII names corrupt the data and parsed packets cannot be serialised again (shown as theorems)"
  },
  {
   "property": "C55",
   "status": "partial",
   "theorems": [
    "Pgp.Props.C55_mutual_exclusion_partial",
    "Pgp.Props.C55_release_frees",
    "Pgp.Props.C55_exit_breaks_lock_refuted",
    "Pgp.Props.C55_nested_release_refuted"
   ],
   "note": "mutual exclusion proved over all interleavings without foreign exits; refuted for nested acquisition and for the exit of another process"
  },
  {
   "property": "C56",
   "status": "partial",
   "theorems": [
    "Pgp.Props.C56_keyring_prefix_refuted",
    "Pgp.Props.C56_keybox_prefix_refuted",
    "Pgp.Props.C56_empty_file_refuted",
    "Pgp.Props.C56_detection"
   ],
   "note": "exact detection rule proved; refuted for both prefixes and empty files"
  },
  {
   "property": "C57",
   "status": "partial",
   "theorems": [
    "Pgp.Props.C57_listing_partial",
    "Pgp.Props.C57_one_result_per_key",
    "Pgp.Props.C57_unquote",
    "Pgp.Props.C57_no_creation_date_refuted",
    "Pgp.Props.C57_empty"
   ],
   "note": "proved for all listings whose dates are present; refuted for user ids without a creation date"
  },
  {
   "property": "C58",
   "status": "partial",
   "theorems": [
    "Pgp.Props.C58_terminates",
    "Pgp.Props.C58_name_and_address_partial",
    "Pgp.Props.C58_comment_and_address_partial",
    "Pgp.Props.C58_commented_name_refuted",
    "Pgp.Props.C58_commented_name_is",
    "Pgp.Props.C58_bare_address_partial",
    "Pgp.Props.C58_name_only_refuted",
    "Pgp.Props.C58_blank_refuted",
    "Pgp.Props.C58_quoted_name_partial",
    "Pgp.Props.C58_escaped_comment_partial",
    "Pgp.Props.C58_reserved_refuted"
   ],
   "note": "termination proved on every string; name+address, bare address, quoted names, escaped comments, comment and address of commented ids proved; refuted for the name of commented ids (keeps ' ()'), for ids without an address (first word returned as address) and blank ids (IndexError). Python's recursion limit not modelled"
  },
  {
   "property": "C59",
   "status": "partial",
   "theorems": [
    "Pgp.Props.C59_text_roundtrip_partial",
    "Pgp.Props.C59_bytes_roundtrip_partial",
    "Pgp.Props.C59_secret_label_refuted",
    "Pgp.Props.C59_submit_refuted"
   ],
   "note": "round trip through text and octets proved; refuted: every key is labelled public, and submission sends secret packets"
  },
  {
   "property": "C60",
   "status": "partial",
   "theorems": [
    "Pgp.Props.C60_whole_area_partial",
    "Pgp.Props.C60_hashed_area_overrun"
   ],
   "note": "proved: a hashed area that consists of whole subpackets is read alone, whatever follows it. Refuted: for every subpacket an overrunning area is accepted"
  },
  {
   "property": "C61",
   "status": "partial",
   "theorems": [
    "Pgp.Props.C61_anybody_opens_refuted",
    "Pgp.Props.C61_elgamal_session_key_public"
   ],
   "note": "false: refuted for every ElGamal key: what is encrypted to it, session key or whole message, opens with any exponent"
  },
  {
   "property": "C62",
   "status": "partial",
   "theorems": [
    "Pgp.Props.C62_passphrase_recovers_partial",
    "Pgp.Props.C62_passphrase_is_key",
    "Pgp.Props.C62_other_cipher_lost"
   ],
   "note": "proved when the specifier's cipher is the session's cipher; refuted otherwise"
  },
  {
   "property": "C63",
   "status": "partial",
   "theorems": [
    "Pgp.Props.C63_calls_complete",
    "Pgp.Props.C63_crash_states_partial",
    "Pgp.Props.C63_crash_loses_keys_refuted",
    "Pgp.Props.C63_some_keys_lost_refuted",
    "Pgp.Props.C63_torn_packet_refuted"
   ],
   "note": "proved after any history: the file found is the old one or a beginning of the new one, and operations that raise leave it alone. Refuted: every change has a crash point at which the file is empty, ones after which only some keys are left, and ones after which a key is found with a packet cut short"
  },
  {
   "property": "C64",
   "status": "partial",
   "theorems": [
    "Pgp.Props.C64_small_packets_roundtrip",
    "Pgp.Props.C64_user_id_not_utf8_refuted",
    "Pgp.Props.C64_trust_octets_refuted"
   ],
   "note": "what the library writes is proved to read back; refuted for user ids that are not UTF-8 and longer trust packets"
  },
  {
   "property": "C65",
   "status": "partial",
   "theorems": [
    "Pgp.Props.C65_key_objects",
    "Pgp.Props.C65_no_groups_partial",
    "Pgp.Props.C65_groups_refuted",
    "Pgp.Props.C65_group_members",
    "Pgp.Props.C65_group_reference_refuted",
    "Pgp.Props.C65_key_choice_partial",
    "Pgp.Props.C65_revoked_or_unknown_partial",
    "Pgp.Props.C65_key_for_each_partial",
    "Pgp.Props.C65_shipped_helpers_refuted"
   ],
   "note": "proved without groups, with the key choice; refuted with groups (named recipients are discarded) and for the shipped helpers (every recipient fails)"
  },
  {
   "property": "C66",
   "status": "partial",
   "theorems": [
    "Pgp.Props.C66_message_roundtrip_partial",
    "Pgp.Props.C66_format_lost_refuted",
    "Pgp.Props.C66_unwritable_refuted",
    "Pgp.Props.C66_nested_signatures_refuted",
    "Pgp.Props.C66_nested_flag_refuted"
   ],
   "note": "Round trip for single-packet messages with ASCII names, integrity protected encrypted messages and signed single-packet messages; refuted: nested signatures flatten, version 3 signatures and issuer-less signatures cannot be written, literal format is lost, the nested flag is inverted."
  },
  {
   "property": "C67",
   "status": "partial",
   "theorems": [
    "Pgp.Props.C67_passphrase_roundtrip_partial"
   ],
   "note": "End to end, for the cipher of the specifier, session keys not longer than that cipher's key and simple, salted or iterated specifiers; ciphers and SHA-1 are parameters."
  },
  {
   "property": "C68",
   "status": "partial",
   "theorems": [
    "Pgp.Props.C68_lone_selfsig_never_expires_refuted",
    "Pgp.Props.C68_several_signatures_never_expires_refuted",
    "Pgp.Props.C68_counted_from_other_signature",
    "Pgp.Props.C68_old_keys_never_expire",
    "Pgp.Props.C68_no_direct_signature_never_expires",
    "Pgp.Props.C68_no_period_partial"
   ],
   "note": "Refuted: a key with one self-signature never expires whatever the period; with several, the period is counted from another signature's creation time. Keys whose signatures give no period never expire (proved)."
  },
  {
   "property": "C69",
   "status": "partial",
   "theorems": [
    "Pgp.Props.C69_no_revocation",
    "Pgp.Props.C69_revoked_partial",
    "Pgp.Props.C69_renewed_certification_raises",
    "Pgp.Props.C69_revoked_iff_partial"
   ],
   "note": "No revocation attached: reported as not revoked; with one certification and a later revocation by the same issuer: reported as revoked. Renewed certifications make the query raise."
  },
  {
   "property": "C70",
   "status": "proved",
   "theorems": [
    "Pgp.Props.C70_expired_iff"
   ],
   "note": ""
  },
  {
   "property": "C71",
   "status": "partial",
   "theorems": [
    "Pgp.Props.C71_public_half_partial",
    "Pgp.Props.C71_public_made_iff",
    "Pgp.Props.C71_public_octets_partial",
    "Pgp.Props.C71_public_of_octets_partial",
    "Pgp.Props.C71_prime_leaks"
   ],
   "note": "For whole files: the public key made from a secret key has the octets of the secret key file with everything behind the public values cut off the key packets, and nothing else changed. The octets of the public packet do not depend on private values, and the public part is the one read from the octets of the secret key; refuted for the object: an unlocked RSA key's public key object carries the prime p."
  },
  {
   "property": "C72",
   "status": "partial",
   "theorems": [
    "Pgp.Props.C72_hashed_fields_partial",
    "Pgp.Props.C72_long_ids_partial",
    "Pgp.Props.C72_unhashed_reported"
   ],
   "note": "Holds when the hashed subpackets come first and the self-signature mark does not change (always for 16-digit ids); refuted when an unhashed subpacket comes first."
  },
  {
   "property": "C73",
   "status": "partial",
   "theorems": [
    "Pgp.Props.C73_old_exact_partial",
    "Pgp.Props.C73_first_half_only",
    "Pgp.Props.C73_never_selfsig"
   ],
   "note": "Exact for versions 2 and 3; refuted for version 4 (only the first four octets are compared; never recognised with 16-digit ids)."
  },
  {
   "property": "C74",
   "status": "proved",
   "theorems": [
    "Pgp.Props.C74_accepts_iff",
    "Pgp.Props.C74_certification_revocation_refused"
   ],
   "note": "Also proved: against RFC 4880 a key with a certification revocation (0x30) is refused."
  },
  {
   "property": "C75",
   "status": "partial",
   "theorems": [
    "Pgp.Props.C75_stream_of_keys_partial",
    "Pgp.Props.C75_bad_key_stops",
    "Pgp.Props.C75_nothing_after_error",
    "Pgp.Props.C75_default_never_yields"
   ],
   "note": "Streams of well formed keys, for any key reader that succeeds on them. Refuted: a bad key ends the reading, nothing is yielded after a reader error, the parser's own parse_key never succeeds, an empty stream is a RuntimeError."
  },
  {
   "property": "C76",
   "status": "partial",
   "theorems": [
    "Pgp.Props.C76_single_image_partial",
    "Pgp.Props.C76_takes_next_octet",
    "Pgp.Props.C76_terminates"
   ],
   "note": "A single image with any length encoding, and termination for all inputs; refuted when another subpacket follows."
  },
  {
   "property": "C77",
   "status": "partial",
   "theorems": [
    "Pgp.Props.C77_fields_partial",
    "Pgp.Props.C77_absent",
    "Pgp.Props.C77_local_raises",
    "Pgp.Props.C77_target_never_set",
    "Pgp.Props.C77_self_fields_partial",
    "Pgp.Props.C77_self_only",
    "Pgp.Props.C77_lists_partial"
   ],
   "note": "For the fields with one subpacket type listed in the specifications Says and (self-signatures) SaysSelf, and for notations and regular expressions; refuted for local signatures (raises) and targets (never set)."
  },
  {
   "property": "C78",
   "status": "proved",
   "theorems": [
    "Pgp.Props.C78_confirmed",
    "Pgp.Props.C78_outcomes",
    "Pgp.Props.C78_cache_history",
    "Pgp.Props.C78_cached_returned",
    "Pgp.Props.C78_not_kept",
    "Pgp.Props.C78_error_before_first_attempt",
    "Pgp.Props.C78_printed"
   ],
   "note": "Also shown: what is printed, and that the error text is printed before the first attempt."
  },
  {
   "property": "C79",
   "status": "proved",
   "theorems": [
    "Pgp.Props.C79_command",
    "Pgp.Props.C79_sent",
    "Pgp.Props.C79_clear",
    "Pgp.Props.C79_x_means_none"
   ],
   "note": "Also shown: the text X means no text."
  },
  {
   "property": "C80",
   "status": "partial",
   "theorems": [
    "Pgp.Props.C80_passphrase_partial",
    "Pgp.Props.C80_error_reported",
    "Pgp.Props.C80_raw_octets_refuted",
    "Pgp.Props.C80_split_data_refuted",
    "Pgp.Props.C80_comment_first_refuted",
    "Pgp.Props.C80_closed_connection_refuted"
   ],
   "note": "One data line in which octets outside ASCII are escaped, however it is cut up on the way. Refuted: raw UTF-8 is garbled, data split over two lines is cut, a comment or status line first is taken for the answer, a closed connection hangs."
  },
  {
   "property": "C81",
   "status": "partial",
   "theorems": [
    "Pgp.Props.C81_every_recipient_opens_partial",
    "Pgp.Props.C81_others_refused",
    "Pgp.Props.C81_leading_zero_refuted",
    "Pgp.Props.C81_encrypt_only_refuted",
    "Pgp.Props.C81_elgamal_after_rsa_refuted",
    "Pgp.Props.C81_hidden_only_refuted",
    "Pgp.Props.C81_one_way_of_naming",
    "Pgp.Props.C81_elgamal_opens_partial",
    "Pgp.Props.C81_elgamal_first_partial"
   ],
   "note": "End to end for RSA recipients, and for a single ElGamal recipient alone or named before any RSA recipients (ciphers, RSA with its padding and SHA-1 are parameters) when no RSA ciphertext begins with a zero octet. Refuted: such a ciphertext makes the message unreadable, RSA encrypt-only keys raise, an ElGamal holder after an RSA recipient gets AttributeError, hidden recipients alone raise TypeError."
  },
  {
   "property": "C82",
   "status": "partial",
   "theorems": [
    "Pgp.Props.C82_kept_iff",
    "Pgp.Props.C82_strict_types",
    "Pgp.Props.C82_flags_lost_refuted",
    "Pgp.Props.C82_features_lost_refuted",
    "Pgp.Props.C82_malformed_text_refuted",
    "Pgp.Props.C82_longer_length_refuted",
    "Pgp.Props.C82_signature_octets_kept_partial"
   ],
   "note": "proved for every packet of the grammar in Spec/SigWire (shortest lengths, exact bit counts, contents the library remembers; any nesting), with an exact characterisation of the contents that survive (all types but additional recipient requests); refuted for further key flags and features octets, URLs that are not UTF-8, and lengths not in shortest form"
  },
  {
   "property": "C83",
   "status": "partial",
   "theorems": [
    "Pgp.Props.C83_other_format_partial",
    "Pgp.Props.C83_import_export_partial",
    "Pgp.Props.C83_serialize_key_partial",
    "Pgp.Props.C83_packet_octets_iff",
    "Pgp.Props.C83_key_octets_iff",
    "Pgp.Props.C83_loose_integers_rewritten",
    "Pgp.Props.C83_fingerprint_of_received_partial",
    "Pgp.Props.C83_trailing_octets_dropped_refuted",
    "Pgp.Props.C83_user_id_octets_iff",
    "Pgp.Props.C83_photo_export_unreadable_refuted"
   ],
   "note": "proved for every file of the grammar in Spec/KeyFile (shortest definite lengths, exact bit counts, UTF-8 user ids, standard image headers, signatures whose content is kept) and exact characterisations of the packet headers, key contents and user ids that survive; refuted for loosely written integers (which also change the fingerprint), octets behind the key material, user ids not in UTF-8 and photos exported in the default header format, which cannot be read again"
  },
  {
   "property": "C84",
   "status": "partial",
   "theorems": [
    "Pgp.Props.C84_notations_present_partial",
    "Pgp.Props.C84_notations_kept_refuted",
    "Pgp.Props.C84_notations_cleared",
    "Pgp.Props.C84_critical_notation_refuted",
    "Pgp.Props.C84_regexes_present_partial",
    "Pgp.Props.C84_regexes_kept_refuted",
    "Pgp.Props.C84_regexes_cleared",
    "Pgp.Props.C84_embedded_present_partial",
    "Pgp.Props.C84_embedded_kept_refuted",
    "Pgp.Props.C84_embedded_cleared_partial",
    "Pgp.Props.C84_critical_embedded_refuted",
    "Pgp.Props.C84_revocation_keys_refuted",
    "Pgp.Props.C84_revocation_keys_exception_refuted",
    "Pgp.Props.C84_revocation_keys_read",
    "Pgp.Props.C84_trust_refuted",
    "Pgp.Props.C84_trust_not_written_refuted",
    "Pgp.Props.C84_no_trust",
    "Pgp.Props.C84_reason_refuted",
    "Pgp.Props.C84_code_set_get_partial",
    "Pgp.Props.C84_first_code_refuted",
    "Pgp.Props.C84_issuer_parts_partial"
   ],
   "note": "proved: every item of a non-empty list assigned is present afterwards, nothing else is added, other subpackets are kept, and assigning the empty list clears the attribute. Refuted: items not in a non-empty assigned list stay; a critical notation blocks reading and assigning; a critical embedded signature cannot be removed; revocation keys can never be assigned; trust depth and amount cannot be read or written; a revocation reason cannot be read; a first revocation code cannot be given. The key expiration setter: see C94"
  },
  {
   "property": "C85",
   "status": "partial",
   "theorems": [
    "Pgp.Props.C85_header",
    "Pgp.Props.C85_attribute_stated_partial",
    "Pgp.Props.C85_revocable_refuted",
    "Pgp.Props.C85_times",
    "Pgp.Props.C85_issuers",
    "Pgp.Props.C85_notations_partial",
    "Pgp.Props.C85_regexes_partial",
    "Pgp.Props.C85_embedded",
    "Pgp.Props.C85_revocation_code",
    "Pgp.Props.C85_readable_partial",
    "Pgp.Props.C85_revocation_key_refuted"
   ],
   "note": "proved for all attributes the library exposes except: revocable (answers what is stated about exportable), revocation keys (such signatures are not read at all), trust and reason text (C84), non-human-readable notations (C24) and signature targets; version 3 signatures are C25"
  },
  {
   "property": "C86",
   "status": "partial",
   "theorems": [
    "Pgp.Props.C86_hashed_wins_partial",
    "Pgp.Props.C86_unhashed_honoured_refuted",
    "Pgp.Props.C86_unhashed_times_refuted"
   ],
   "note": "stated in the hashed area: kept, whatever the unhashed area holds (proved). Refuted otherwise: an attribute, or an expiry, not stated by the signer takes any value someone else adds to the unhashed area"
  },
  {
   "property": "C87",
   "status": "partial",
   "theorems": [
    "Pgp.Props.C87_specifier",
    "Pgp.Props.C87_public_key_session_key",
    "Pgp.Props.C87_symmetric_session_key",
    "Pgp.Props.C87_one_pass_partial",
    "Pgp.Props.C87_literal",
    "Pgp.Props.C87_literal_written",
    "Pgp.Props.C87_small_packets",
    "Pgp.Props.C87_attribute",
    "Pgp.Props.C87_public_key",
    "Pgp.Props.C87_public_key_written",
    "Pgp.Props.C87_secret_key",
    "Pgp.Props.C87_signature_v3_partial"
   ],
   "note": "proved in both directions for specifiers, session keys, literal data, compressed and integrity protected data, user ids, images, public and secret keys (encrypted, usage 254 and 255); refuted for the key id of one-pass signatures and version 3 signatures (only its first half is read; C25 shows the latter are never written). Version 4 signatures: C82, C85"
  },
  {
   "property": "C88",
   "status": "partial",
   "theorems": [
    "Pgp.Props.C88_binary_kept",
    "Pgp.Props.C88_armor_partial",
    "Pgp.Props.C88_non_ascii_raises",
    "Pgp.Props.C88_armored_file_partial",
    "Pgp.Props.C88_cr_file_partial",
    "Pgp.Props.C88_key_file_partial",
    "Pgp.Props.C88_key_files_agree_partial",
    "Pgp.Props.C88_message_partial",
    "Pgp.Props.C88_flagged_octets_raise",
    "Pgp.Props.C88_binary_flagged_raises",
    "Pgp.Props.C88_blank_line_refuted",
    "Pgp.Props.C88_blank_text_refuted"
   ],
   "note": "proved for data in packets (never taken for armor) and for all armored forms with ASCII headers, with and without the flag, LF or CRLF, and for whole received key files; refuted for octets with armored=True that do not begin with the dashes, binary files with old format headers opened with armored=True, armor behind a blank line (read only with the flag) and non-ASCII headers given as octets"
  },
  {
   "property": "C89",
   "status": "partial",
   "theorems": [
    "Pgp.Props.C89_matches_iff",
    "Pgp.Props.C89_history",
    "Pgp.Props.C89_keys",
    "Pgp.Props.C89_search",
    "Pgp.Props.C89_all_reachable_partial",
    "Pgp.Props.C89_found_partial",
    "Pgp.Props.C89_hidden_refuted",
    "Pgp.Props.C89_hidden_search_refuted",
    "Pgp.Props.C89_other_key_refuted",
    "Pgp.Props.C89_no_question",
    "Pgp.Props.C89_empty_term_raises",
    "Pgp.Props.C89_added_is_found_partial",
    "Pgp.Props.C89_add_lost_refuted",
    "Pgp.Props.C89_register"
   ],
   "note": "histories, listings and the exact result of every search are proved; refuted: ids are compared by their last eight characters only, so another key may be returned and a key with a later key of the same short id is found by no question; an empty fingerprint or key id raises AttributeError; an addition is silently lost when all stores are secret, and secret keys go to the first public store"
  },
  {
   "property": "C90",
   "status": "partial",
   "theorems": [
    "Pgp.Props.C90_made_is_read_partial",
    "Pgp.Props.C90_set_name_partial",
    "Pgp.Props.C90_set_email_partial",
    "Pgp.Props.C90_set_comment_partial",
    "Pgp.Props.C90_conventional_refuted",
    "Pgp.Props.C90_name_only_refuted",
    "Pgp.Props.C90_non_ascii_refuted",
    "Pgp.Props.C90_non_ascii_email_raises",
    "Pgp.Props.C90_comment_in_name_refuted",
    "Pgp.Props.C90_spaces_refuted"
   ],
   "note": "proved for every ASCII name (words, or any text with reserved characters that gets quoted), every ASCII address and every comment not occurring in the name; refuted: conventional ids with a comment before the address get parentheses in the name, an id that is only a name loses it, non-ASCII names are replaced by encoded words, a comment occurring in the name is cut out of it, runs of spaces are collapsed"
  },
  {
   "property": "C91",
   "status": "partial",
   "theorems": [
    "Pgp.Props.C91_import_export_partial",
    "Pgp.Props.C91_serialize_key_partial",
    "Pgp.Props.C91_unprotected_refuted",
    "Pgp.Props.C91_stub_refuted"
   ],
   "note": "proved for every file of the grammar in Spec/KeyFile with protected secret keys (usage 254 or 255, any specifier of types 0, 1 and 3, any cipher with its block length); refuted: unprotected keys and keys with the older protection cannot be read at all, and GnuPG's stubs are read but cannot be written"
  },
  {
   "property": "C92",
   "status": "partial",
   "theorems": [
    "Pgp.Props.C92_equal_iff_partial",
    "Pgp.Props.C92_signature_partial",
    "Pgp.Props.C92_signature_order_refuted",
    "Pgp.Props.C92_v3_signature_raises",
    "Pgp.Props.C92_one_pass_refuted",
    "Pgp.Props.C92_unknown_type_refuted",
    "Pgp.Props.C92_user_id_refuted",
    "Pgp.Props.C92_trust_refuted",
    "Pgp.Props.C92_symmetric",
    "Pgp.Props.C92_transitive"
   ],
   "note": "proved for every class but signatures, one-pass signatures and unknown types that contents without ignored octets compare equal exactly if header form, type and content agree; version 4 signatures exactly if their fields and the sets of their subpackets agree; comparison is symmetric and transitive on all packets. Refuted: order and repetition of subpackets, the version and the short key id of one-pass signatures, the content of unknown packets, malformed user ids and further octets of trust packets do not count, and version 2 and 3 signatures raise AttributeError even against themselves"
  },
  {
   "property": "C93",
   "status": "partial",
   "theorems": [
    "Pgp.Props.C93_bit_length_partial",
    "Pgp.Props.C93_bit_length_refuted",
    "Pgp.Props.C93_old_key_id",
    "Pgp.Props.C93_key_id",
    "Pgp.Props.C93_expression_injective",
    "Pgp.Props.C93_keygrip",
    "Pgp.Props.C93_keygrip_identifies",
    "Pgp.Props.C93_unknown_algorithm_raises"
   ],
   "note": "key ids and key grips are proved for all numbers; the size is proved for every number that is no power of two, given that the logarithm is rounded up correctly. Refuted: the size of a power of two is one short; other algorithms raise"
  },
  {
   "property": "C94",
   "status": "partial",
   "theorems": [
    "Pgp.Props.C94_only_chosen",
    "Pgp.Props.C94_set_get_partial",
    "Pgp.Props.C94_history_partial",
    "Pgp.Props.C94_set_succeeds",
    "Pgp.Props.C94_unsigned_raises",
    "Pgp.Props.C94_old_keys_refuted",
    "Pgp.Props.C94_confused_refuted",
    "Pgp.Props.C94_not_signed_refuted",
    "Pgp.Props.C94_old_expiration",
    "Pgp.Props.C94_expiration_raises",
    "Pgp.Props.C94_signature_expiration_partial",
    "Pgp.Props.C94_lone_expiration_raises",
    "Pgp.Props.C94_past_expiration_refuted"
   ],
   "note": "proved for every history of assignments on version 4 keys with a readable self-signature, for attributes the library does not confuse and signatures that have key flags; only the self-signature consulted changes. Refuted: without a self-signature assigning raises, on version 2 and 3 keys it is lost; storage, authentication and communication flags change together, and so do modification detection and multiple owners; the signature is not renewed; the expiration time of a version 4 key cannot be assigned, and one assigned to a user id's signature is counted from another signature, raises without one, and wraps round to decades if it lies before it"
  },
  {
   "property": "C95",
   "status": "partial",
   "theorems": [
    "Pgp.Props.C95_covered_partial",
    "Pgp.Props.C95_canonical_refuted",
    "Pgp.Props.C95_other_raises",
    "Pgp.Props.C95_several_signers_partial",
    "Pgp.Props.C95_sign_send_verify_partial",
    "Pgp.Props.C95_signs",
    "Pgp.Props.C95_accepted_partial",
    "Pgp.Props.C95_accepted_literal",
    "Pgp.Props.C95_not_literal_errors",
    "Pgp.Props.C95_metadata",
    "Pgp.Props.C95_text_forgery_refuted",
    "Pgp.Props.C95_no_one_pass_refuted",
    "Pgp.Props.C95_default_hash_refuted",
    "Pgp.Props.C95_versions_raise",
    "Pgp.Props.C95_passphrase_partial",
    "Pgp.Props.C95_public_key_partial"
   ],
   "note": "signing succeeds (C95_signs) and several signers' signatures arrive and verify, also after passphrase encryption or encryption to any number of RSA keys, for signers whose primitives are correct; text signatures are proved for data with canonical line ends only: with a bare LF the last character of a line is not covered (C95_canonical_refuted, C95_text_forgery_refuted). Refuted: with one_pass=False the signature is lost on receipt (C95_no_one_pass_refuted); without preferences MD5 is used (C95_default_hash_refuted). Only literal messages can be signed. Names and times of literal data are not covered (C95_metadata), as in RFC 4880."
  },
  {
   "property": "C96",
   "status": "partial",
   "theorems": [
    "Pgp.Props.C96_compress_opens_partial",
    "Pgp.Props.C96_sign_compress_send_partial",
    "Pgp.Props.C96_sign_compress_encrypt_partial",
    "Pgp.Props.C96_sign_compress_public_partial",
    "Pgp.Props.C96_other_algorithms_refuted",
    "Pgp.Props.C96_contained_only"
   ],
   "note": "proved for algorithms 0, 1, 2, also through passphrase and RSA encryption, given that zlib inverts itself and the compressed octets fit a packet. Refuted for bzip2, which never opens (C96_other_algorithms_refuted); unknown algorithms raise."
  },
  {
   "property": "C97",
   "status": "partial",
   "theorems": [
    "Pgp.Props.C97_own_lists",
    "Pgp.Props.C97_caller_list_refuted",
    "Pgp.Props.C97_first_signature_refuted"
   ],
   "note": "C97_own_lists holds for every sequence of calls without extra subpackets. Refuted with a non-empty list: the list and the hashed subpackets of all earlier signatures made with it change (C97_caller_list_refuted), so that the octets an earlier signature is checked over are no longer those it was made over (C97_first_signature_refuted)."
  },
  {
   "property": "C98",
   "status": "partial",
   "theorems": [
    "Pgp.Props.C98_equivalence",
    "Pgp.Props.C98_same_octets",
    "Pgp.Props.C98_other_key_untouched",
    "Pgp.Props.C98_first_found_refuted",
    "Pgp.Props.C98_not_found",
    "Pgp.Props.C98_unlocked_refuted"
   ],
   "note": "sameness of octets is characterised exactly for all received public key packets. Refuted: only the first key found under the key id is compared, so a copy behind another key is not merged; a database with look-up by hash makes merging raise; an unlocked RSA key is not recognised as a copy of itself locked. What merging of copies does is C39"
  },
  {
   "property": "C99",
   "status": "partial",
   "theorems": [
    "Pgp.Props.C99_opens_partial",
    "Pgp.Props.C99_fresh_refuted",
    "Pgp.Props.C99_emptied_refuted",
    "Pgp.Props.C99_other_kinds_raise",
    "Pgp.Props.C99_opened"
   ],
   "note": "proved for keyring files whose octets 4 and 8-11 are not the keybox marks; what is opened is characterised for all names. Refuted: no new file can be made, an emptied keyring is taken for a GDBM database, GDBM databases never open, and the prefix gnupg-keyring: leaves two of its characters in the name"
  },
  {
   "property": "C100",
   "status": "partial",
   "theorems": [
    "Pgp.Props.C100_signing_refuted",
    "Pgp.Props.C100_back_signature_refuted",
    "Pgp.Props.C100_other_accepted_partial",
    "Pgp.Props.C100_validate_refuted",
    "Pgp.Props.C100_hashed_octets_partial",
    "Pgp.Props.C100_hashed_octets_old"
   ],
   "note": "proved that the binding signature of a subkey not meant to sign, without a back signature, passes this check. Refuted: a binding signature that states the signing flag raises whatever it carries, as does every embedded back signature, valid or not; the function combining all checks never succeeds (C40)"
  },
  {
   "property": "C101",
   "status": "partial",
   "theorems": [
    "Pgp.Props.C101_within_limit_partial",
    "Pgp.Props.C101_over_limit_refuted",
    "Pgp.Props.C101_no_limit_refuted"
   ],
   "note": "output within a limit above zero is written whole, to the file chosen (proved for all sizes). Refuted: longer output raises only after the limit has been passed (by up to 1024 octets), as AttributeError; without a limit at most 1024 octets are written and UnboundLocalError is raised"
  },
  {
   "property": "C102",
   "status": "partial",
   "theorems": [
    "Pgp.Props.C102_status_partial",
    "Pgp.Props.C102_log_partial",
    "Pgp.Props.C102_log_to_stdout_refuted",
    "Pgp.Props.C102_log_lost_refuted",
    "Pgp.Props.C102_at_most_once"
   ],
   "note": "status output is proved to go to the one place chosen; log and attribute output too if the options for the status are of the same kind; nothing is ever written twice. Refuted: otherwise the log goes to standard output or is lost"
  },
  {
   "property": "C103",
   "status": "partial",
   "theorems": [
    "Pgp.Props.C103_command_partial",
    "Pgp.Props.C103_nested_refuted",
    "Pgp.Props.C103_photo_refuted",
    "Pgp.Props.C103_file_refuted",
    "Pgp.Props.C103_started_partial"
   ],
   "note": "the command is proved to be the template with its marks replaced for templates in which %% is not followed by a mark and values without a percent sign. Refuted: %%k is replaced, marks in values are replaced again, and the photo reaches no viewer: templates with %i or %I raise, others are run without input"
  },
  {
   "property": "C104",
   "status": "partial",
   "theorems": [
    "Pgp.Props.C104_digest_names",
    "Pgp.Props.C104_unknown_digest_refuted",
    "Pgp.Props.C104_compression_partial",
    "Pgp.Props.C104_bz2",
    "Pgp.Props.C104_bzip2_refuted",
    "Pgp.Props.C104_level_zero_refuted"
   ],
   "note": "digests are proved exactly for all names and options, zip and zlib with their levels for all options. Refuted: unknown names are not refused (the key's preference, or MD5, is used; nothing is compressed), bzip2 means no compression, and level 0 still compresses"
  },
  {
   "property": "C105",
   "status": "partial",
   "theorems": [
    "Pgp.Props.C105_first_line",
    "Pgp.Props.C105_escaped_iff_partial",
    "Pgp.Props.C105_later_lines_refuted",
    "Pgp.Props.C105_not_reversible_refuted"
   ],
   "note": "the escaping is proved exactly right if and only if no line but the first begins with From. Refuted otherwise, and it cannot be undone"
  },
  {
   "property": "C106",
   "status": "partial",
   "theorems": [
    "Pgp.Props.C106_items",
    "Pgp.Props.C106_short_membership_partial",
    "Pgp.Props.C106_long_membership_refuted",
    "Pgp.Props.C106_iteration_refuted"
   ],
   "note": "items and values are proved for every history. Refuted: membership holds for the last eight characters of an id only, never for a full id or fingerprint, although these are found by look-up; iteration raises TypeError"
  },
  {
   "property": "C107",
   "status": "proved",
   "theorems": [
    "Pgp.Props.C107_output_name"
   ],
   "note": ""
  },
  {
   "property": "C108",
   "status": "partial",
   "theorems": [
    "Pgp.Props.C108_signatures_attached_partial"
   ],
   "note": "proved for all packet sequences that form a key and hold no trust packets; a trust packet makes the reader drop what follows (C36)"
  },
  {
   "property": "C109",
   "status": "partial",
   "theorems": [
    "Pgp.Props.C109_certify_public_partial",
    "Pgp.Props.C109_certify_secret_partial",
    "Pgp.Props.C109_signed_octets_partial",
    "Pgp.Props.C109_public_half_partial",
    "Pgp.Props.C109_subkey_binding_refuted"
   ],
   "note": "proved for every public or protected secret key file of the grammar in Spec/KeyFile whose packets have one header format, every part of it and every subset of octets signed; primary keys, user ids and attributes of a secret key are signed as those of its public half. Refuted: the octets signed for a subkey of a secret key are never those of the same subkey of its public half (C109_subkey_binding_refuted): the primary key is hashed twice"
  },
  {
   "property": "C110",
   "status": "partial",
   "theorems": [
    "Pgp.Props.C110_unlock_file_partial",
    "Pgp.Props.C110_wrong_passphrase",
    "Pgp.Props.C110_checksum_refuted",
    "Pgp.Props.C110_encrypt_only_refuted",
    "Pgp.Props.C110_long_passphrase_refuted"
   ],
   "note": "proved for every file of the grammar in Spec/KeyFile with version 4 key packets of usage 254, any specifier of types 0, 1 and 3, any cipher but Twofish whose implementation works, algorithms 1, 3, 16, 17 and 20, and passphrases no longer than the iteration count covers. Refuted: packets with a checksum (usage 255) are never unlocked; keys of algorithm 2 are unlocked but unusable; the end of a passphrase longer than the count is not looked at; Twofish keys get 16 octets instead of 32 (C20)"
  },
  {
   "property": "C111",
   "status": "partial",
   "theorems": [
    "Pgp.Props.C111_sign_verify_partial"
   ],
   "note": "proved for every file of C110 (version 4, usage 254, algorithms 1, 3, 16, 17, 20) with any library whose numbers are key pairs; RSA signatures whose octets begin with a zero octet are excluded (refuted for them in C28), and so are the files that C110 and C91 exclude"
  },
  {
   "property": "C112",
   "status": "partial",
   "theorems": [
    "Pgp.Props.C112_encrypt_open_partial",
    "Pgp.Props.C112_elgamal_partial",
    "Pgp.Props.C112_elgamal_first_partial"
   ],
   "note": "proved for any number of RSA keys (algorithm 1) from files of C110, named or hidden, and for one ElGamal key, alone or named before RSA keys; excluded are ciphertexts that begin with a zero octet (C81_leading_zero_refuted: they cannot be opened) and keys that do not refuse the ciphertexts of the recipients before them; what is encrypted to an ElGamal key can be read by anybody (C61)"
  },
  {
   "property": "C113",
   "status": "partial",
   "theorems": [
    "Pgp.Props.C113_written_partial",
    "Pgp.Props.C113_read_partial",
    "Pgp.Props.C113_no_checksum_refuted",
    "Pgp.Props.C113_trailing_space_refuted"
   ],
   "note": "proved for all texts with a checksum line, header keys without a colon and no line of the data that begins with an equals sign. Refuted: a text without the checksum, which the RFC makes optional, is an IndexError; white space after the header line, which the RFC allows, is a ValueError; extra headers given as a dict are not written (C17)"
  },
  {
   "property": "C114",
   "status": "partial",
   "theorems": [
    "Pgp.Props.C114_adds_partial",
    "Pgp.Props.C114_unseen_refuted",
    "Pgp.Props.C114_wrong_key_refuted"
   ],
   "note": "proved for additions through any number of objects in any order, and look-ups of keys known to the object; refuted: an object does not find keys added by another, and after a deletion through one object, another finds a different key under the fingerprint of the deleted one and deletes that. Operations are taken not to overlap in time (the lock, C55)"
  },
  {
   "property": "C115",
   "status": "partial",
   "theorems": [
    "Pgp.Props.C115_armor_cut",
    "Pgp.Props.C115_text_cut",
    "Pgp.Props.C115_content_cut_refuted",
    "Pgp.Props.C115_header_cut_partial",
    "Pgp.Props.C115_key_shortened_refuted",
    "Pgp.Props.C115_message_shortened_refuted",
    "Pgp.Props.C115_chunks_cut_partial",
    "Pgp.Props.C115_last_chunk_cut_refuted",
    "Pgp.Props.C115_public_key_cut_partial",
    "Pgp.Props.C115_signatures_cut_refuted",
    "Pgp.Props.C115_stream_content_cut_refuted",
    "Pgp.Props.C115_stream_header_cut_partial"
   ],
   "note": "proved: armored text cut anywhere before the end of its last line raises (reading it as armor, as a key and as a message), and so do packets cut within a header, whatever its form, in memory and from a stream, packets in chunks cut before the last chunk, and key files cut within a public key or subkey packet. Refuted: packets cut within any content (that of the last chunk, for packets in chunks) are read, exactly as if the last packet had been written shorter, by the readers of keys and of messages alike; a signed message cut behind the signed packet is read as a signed message with the same contents and no signature. Encrypted contents: see C30"
  },
  {
   "property": "C116",
   "status": "partial",
   "theorems": [
    "Pgp.Props.C116_request_url_partial",
    "Pgp.Props.C116_https_refuted",
    "Pgp.Props.C116_hkp_port_refuted",
    "Pgp.Props.C116_other_scheme",
    "Pgp.Props.C116_form_unique",
    "Pgp.Props.C116_search_request",
    "Pgp.Props.C116_get_request",
    "Pgp.Props.C116_submit_get_partial",
    "Pgp.Props.C116_other_key_refuted",
    "Pgp.Props.C116_answer_start_refuted",
    "Pgp.Props.C116_secret_submitted_refuted"
   ],
   "note": "proved: for hkp, hkps and http URLs requests go to the host, transport and directory of the URL; forms have one reading and carry exactly the terms, identifier or key; a public key submitted is received unchanged. Refuted: https URLs are turned into http, hkp does not use port 11371, the key received is not compared with the identifier, anything before the armor in the answer raises, and a secret key is sent in full. HTTP itself (urllib.request) is not modelled"
  },
  {
   "property": "C117",
   "status": "partial",
   "theorems": [
    "Pgp.Props.C117_armor_errors",
    "Pgp.Props.C117_packet_errors",
    "Pgp.Props.C117_stream_errors",
    "Pgp.Props.C117_signature_errors",
    "Pgp.Props.C117_key_errors",
    "Pgp.Props.C117_key_file_errors",
    "Pgp.Props.C117_message_errors",
    "Pgp.Props.C117_message_file_errors",
    "Pgp.Props.C117_expected_refuted",
    "Pgp.Props.C117_nesting_unlimited"
   ],
   "note": "proved: the exact list of exceptions for armor, packets in memory, packet streams, signature packets, keys and messages (every exception in a list is shown to occur, no other can), so that reading always ends. Refuted: that these are the library's exceptions or ValueError. Python's limits on recursion and memory are not modelled; signatures are nested without limit"
  },
  {
   "property": "C118",
   "status": "partial",
   "theorems": [
    "Pgp.Props.C118_revoked_iff_partial",
    "Pgp.Props.C118_own_ids_partial",
    "Pgp.Props.C118_file_ids_partial",
    "Pgp.Props.C118_unverified_refuted",
    "Pgp.Props.C118_appointed_refuted",
    "Pgp.Props.C118_subkey_revocation_refuted",
    "Pgp.Props.C118_subkeys_never_refuted",
    "Pgp.Props.C118_old_signature_raises",
    "Pgp.Props.C118_current_partial",
    "Pgp.Props.C118_current_raises",
    "Pgp.Props.C118_reason_refuted",
    "Pgp.Props.C118_no_reason_refuted",
    "Pgp.Props.C118_code_partial",
    "Pgp.Props.C118_expired_code_refuted",
    "Pgp.Props.C118_id_code_partial",
    "Pgp.Props.C118_revokers_refuted"
   ],
   "note": "proved: the exact condition under which a part counts as revoked (type, named issuer among the key's own ids, not expired), what the own ids are, also in terms of the octets of a key file, the current self-signatures where nothing is revoked, which signature the revocation code comes from. Refuted: nothing is verified (any signature packet naming the key revokes it), appointed revokers do not count, a key with a subkey revocation is not read so no subkey is ever revoked, one old signature makes the question raise, the reason is never given, a code is given for expired revocations, only the last listed signature's revokers are given, a renewed and then revoked certification makes current_self_signatures raise"
  },
  {
   "property": "C119",
   "status": "partial",
   "theorems": [
    "Pgp.Props.C119_choice_partial",
    "Pgp.Props.C119_revoked",
    "Pgp.Props.C119_certified_flags_refuted",
    "Pgp.Props.C119_expired_or_signing_refuted"
   ],
   "note": "proved: the exact choice (first subkey that is not revoked and whose last listed self-signature has the flag, else the primary key with a direct signature that has it, else nothing; nothing for revoked keys), and that it is the choice of C65. Refuted: flags in certifications of user ids are not consulted, expired subkeys and subkeys that can only sign are encrypted to"
  },
  {
   "property": "C120",
   "status": "partial",
   "theorems": [
    "Pgp.Props.C120_import_partial",
    "Pgp.Props.C120_rewrite_partial",
    "Pgp.Props.C120_photo_import_refuted",
    "Pgp.Props.C120_history_partial",
    "Pgp.Props.C120_later_keys_lost_refuted"
   ],
   "note": "proved for any sequence of stored keys, public or secret and in any formats, in keyrings of keys in any formats, with the real packet parsers and key objects in place of the parameters of C33: keys are written as the same packets with headers in the format of the file's first packet. Histories of storing, replacing and removing follow exactly the stated list operations, in which (refuted) removing or replacing a key also removes all keys behind it in the file. Refuted: a key with an image stored in a file that begins with an old-format header is written with a broken header, the call raises after the file was changed, and the file can never be opened again. Missing: packets that the format of the file cannot express other than images (empty user ids in new-format files, contents of 2^24 octets and more in old-format files)."
  },
  {
   "property": "C121",
   "status": "partial",
   "theorems": [
    "Pgp.Props.C121_user_id_partial",
    "Pgp.Props.C121_fingerprint_partial",
    "Pgp.Props.C121_both_partial",
    "Pgp.Props.C121_key_id_ignored_refuted"
   ],
   "note": "proved with the real packet parsers and key objects, from the octets of the files to the keys returned, if no two keys of one file have the same last eight digits; ids are compared by these digits only, so a search for a fingerprint also returns a different key with the same ending (C89_other_key_refuted), a key id given besides a fingerprint is ignored (C121_key_id_ignored_refuted), and a key is hidden by a later one with the same ending (C89_hidden_search_refuted). `str.lower` is a parameter."
  },
  {
   "property": "C122",
   "status": "partial",
   "theorems": [
    "Pgp.Props.C122_key_partial",
    "Pgp.Props.C122_serialize_key_partial",
    "Pgp.Props.C122_signature_partial",
    "Pgp.Props.C122_pattern_unreadable_refuted",
    "Pgp.Props.C122_recipient_drifts_refuted"
   ],
   "note": "proved for keys and signatures from any octets that are read, if what is written has no regular expressions or additional recipients in its signatures, integers within the range in which the library's float logarithm is exact, and packets that the chosen header format can express. Refuted: a signature with a regular expression is written so that it cannot be read again; a subpacket naming an additional recipient loses half of its fingerprint each time it is saved."
  },
  {
   "property": "C123",
   "status": "partial",
   "theorems": [
    "Pgp.Props.C123_message_partial",
    "Pgp.Props.C123_signatures_missing_refuted",
    "Pgp.Props.C123_name_refuted"
   ],
   "note": "proved for messages from any octets that are read, if file names are ASCII, specifiers are complete and not GnuPG's own, signed messages have signatures, which can be stored (C122), and packets can be framed; that what is written at all is assumed (C66_unwritable_refuted lists what is not). Refuted: with a file name that is not ASCII the message changes; a message whose signatures are missing is read as signed and passed on as unsigned."
  },
  {
   "property": "C124",
   "status": "partial",
   "theorems": [
    "Pgp.Props.C124_numbers",
    "Pgp.Props.C124_numbers_v3",
    "Pgp.Props.C124_same_as_read_partial",
    "Pgp.Props.C124_overrun_refuted",
    "Pgp.Props.C124_errors"
   ],
   "note": "proved for all versions and areas; that the signature read has the same integers is proved for versions 2 and 3 always and for version 4 if both areas consist of whole subpackets. Refuted otherwise: a hashed area that ends within a subpacket is read further than it goes (C60), and the two sets of integers differ."
  },
  {
   "property": "C125",
   "status": "partial",
   "theorems": [
    "Pgp.Props.C125_parts_partial",
    "Pgp.Props.C125_issuer_refuted",
    "Pgp.Props.C125_time_refuted",
    "Pgp.Props.C125_version_3_refuted"
   ],
   "note": "proved for version 4 without time and issuer, for parts that fit (C24). Refuted: with an issuer the constructor raises AttributeError; a creation time given is lost; version 2 and 3 signatures answer neither and have no packet."
  },
  {
   "property": "C126",
   "status": "partial",
   "theorems": [
    "Pgp.Props.C126_other_files_partial",
    "Pgp.Props.C126_failed_signing_partial",
    "Pgp.Props.C126_never_written_refuted",
    "Pgp.Props.C126_stdin_refuted",
    "Pgp.Props.C126_output_emptied_refuted",
    "Pgp.Props.C126_nothing_written_refuted"
   ],
   "note": "proved: only the output file is ever touched, and nothing if the file is missing, there is no key or the key cannot sign. Refuted: no command ever succeeds or writes a signature, because the signed message is not returned; clear-signing, and signing without compression, leave the output file empty, whatever was in it; standard input cannot be signed"
  }
 ]
}