{
 "claims": [
  {
   "property": "C01",
   "status": "proved",
   "theorems": [
    "Milo.Props.C01_base16_encode_exact",
    "Milo.Props.C01_base16_encode_needs_room"
   ],
   "note": ""
  },
  {
   "property": "C02",
   "status": "proved",
   "theorems": [
    "Milo.Props.C02_base16_roundtrip",
    "Milo.Props.C02_base16_roundtrip_values"
   ],
   "note": ""
  },
  {
   "property": "C03",
   "status": "partial",
   "theorems": [
    "Milo.Props.C03_base16_accepts_exactly_partial",
    "Milo.Props.C03_base16_unsigned_char",
    "Milo.Props.C03_base16_accepts_garbage",
    "Milo.Props.C03_base16_acceptance_characterised"
   ],
   "note": "False of the code where char is signed: bytes 0x80..0xff are accepted as digits (C03_base16_accepts_garbage). Proved for 7-bit text on every target, in full where char is unsigned; exact acceptance set characterised."
  },
  {
   "property": "C04",
   "status": "partial",
   "theorems": [
    "Milo.Props.C04_base16_odd_wrong",
    "Milo.Props.C04_base16_odd_partial",
    "Milo.Props.C04_base16_odd_actual"
   ],
   "note": "False of the code for odd lengths >= 3 (C04_base16_odd_wrong); proved for length 1, and the actual behaviour for all odd lengths is proved (C04_base16_odd_actual)."
  },
  {
   "property": "C05",
   "status": "proved",
   "theorems": [
    "Milo.Props.C05_base16_decode_in_bounds",
    "Milo.Props.C05_base16_encode_size",
    "Milo.Props.C05_base64_encode_in_bounds",
    "Milo.Props.C05_base64_decode_in_bounds"
   ],
   "note": ""
  },
  {
   "property": "C06",
   "status": "proved",
   "theorems": [
    "Milo.Props.C06_base64_encode_rfc4648",
    "Milo.Props.C06_base64_encode_size_wraps"
   ],
   "note": ""
  },
  {
   "property": "C07",
   "status": "proved",
   "theorems": [
    "Milo.Props.C07_base64_roundtrip",
    "Milo.Props.C07_base64_roundtrip_values",
    "Milo.Props.C07_base64_encode_injective"
   ],
   "note": ""
  },
  {
   "property": "C08",
   "status": "partial",
   "theorems": [
    "Milo.Props.C08_base64_accepts_exactly_partial",
    "Milo.Props.C08_base64_unsigned_char",
    "Milo.Props.C08_base64_accepts_garbage",
    "Milo.Props.C08_base64_wellformed_accepted"
   ],
   "note": "False of the code where char is signed (C08_base64_accepts_garbage); proved in full where char is unsigned and for 7-bit text everywhere."
  },
  {
   "property": "C09",
   "status": "partial",
   "theorems": [
    "Milo.Props.C09_base64_not_canonical",
    "Milo.Props.C09_base64_canonical_partial"
   ],
   "note": "False of the code: spare bits of the last group are not checked (C09_base64_not_canonical). Proved: the decoded bytes re-encode to the text up to those spare bits."
  },
  {
   "property": "C10",
   "status": "proved",
   "theorems": [
    "Milo.Props.C10_codec_overloads_agree",
    "Milo.Props.C10_codec_value",
    "Milo.Props.C10_codec_container_size",
    "Milo.Props.C10_base64_container",
    "Milo.Props.C10_base16_container",
    "Milo.Props.C10_codec_container_total"
   ],
   "note": ""
  },
  {
   "property": "C11",
   "status": "proved",
   "theorems": [
    "Milo.Props.C11_load_agree",
    "Milo.Props.C11_load_count_agree",
    "Milo.Props.C11_stor_agree",
    "Milo.Props.C11_stor_count_agree",
    "Milo.Props.C11_bulk_agree",
    "Milo.Props.C11_swap_agree"
   ],
   "note": ""
  },
  {
   "property": "C12",
   "status": "proved",
   "theorems": [
    "Milo.Props.C12_load_value",
    "Milo.Props.C12_load_value_wide",
    "Milo.Props.C12_stor_value",
    "Milo.Props.C12_store_then_load",
    "Milo.Props.C12_copy_words",
    "Milo.Props.C12_rotations"
   ],
   "note": ""
  },
  {
   "property": "C13",
   "status": "proved",
   "theorems": [
    "Milo.Props.C13_match_is_equality",
    "Milo.Props.C13_match_is_equality_wide",
    "Milo.Props.C13_equal_is_equality"
   ],
   "note": "Constant time is expressed as: the number of byte pairs inspected depends only on the sizes; timing of the machine itself is outside the model."
  },
  {
   "property": "C14",
   "status": "proved",
   "theorems": [
    "Milo.Props.C14_sha1"
   ],
   "note": ""
  },
  {
   "property": "C15",
   "status": "proved",
   "theorems": [
    "Milo.Props.C15_sha224",
    "Milo.Props.C15_sha256"
   ],
   "note": ""
  },
  {
   "property": "C16",
   "status": "proved",
   "theorems": [
    "Milo.Props.C16_sha384",
    "Milo.Props.C16_sha512",
    "Milo.Props.C16_sha512_224",
    "Milo.Props.C16_sha512_256"
   ],
   "note": "Each chunk passed to update has fewer than 2^64 bytes (size_t)."
  },
  {
   "property": "C17",
   "status": "proved",
   "theorems": [
    "Milo.Props.C17_split_independent"
   ],
   "note": ""
  },
  {
   "property": "C18",
   "status": "proved",
   "theorems": [
    "Milo.Props.C18_apie_digest",
    "Milo.Props.C18_repeat_truncate",
    "Milo.Props.C18_oneshot"
   ],
   "note": ""
  },
  {
   "property": "C19",
   "status": "proved",
   "theorems": [
    "Milo.Props.C19_hash_memory_safe",
    "Milo.Props.C19_apie_memory_safe",
    "Milo.Props.C19_sha1_held_back",
    "Milo.Props.C19_sha256_held_back",
    "Milo.Props.C19_sha512_held_back"
   ],
   "note": ""
  },
  {
   "property": "C20",
   "status": "proved",
   "theorems": [
    "Milo.Props.C20_hmac",
    "Milo.Props.C20_hmac_truncated_hash"
   ],
   "note": ""
  },
  {
   "property": "C21",
   "status": "proved",
   "theorems": [
    "Milo.Props.C21_only_documented",
    "Milo.Props.C21_long_key",
    "Milo.Props.C21_padded_key"
   ],
   "note": "C21_only_documented: keys RFC 2104 does not make equal give different tags, unless the hash function is broken in the sense of C71."
  },
  {
   "property": "C22",
   "status": "proved",
   "theorems": [
    "Milo.Props.C22_poly1305",
    "Milo.Props.C22_poly1305_other_keys"
   ],
   "note": "For little-endian hosts; see C24 for big-endian hosts."
  },
  {
   "property": "C23",
   "status": "proved",
   "theorems": [
    "Milo.Props.C23_reuse",
    "Milo.Props.C23_fresh",
    "Milo.Props.C23_default_then_initialize",
    "Milo.Props.C23_class",
    "Milo.Props.C23_oneshot",
    "Milo.Props.C23_memory_safe",
    "Milo.Props.C23_default_uninitialised"
   ],
   "note": "Poly1305 on big-endian hosts is included with the function it actually computes (Spec.macOn)."
  },
  {
   "property": "C24",
   "status": "partial",
   "theorems": [
    "Milo.Props.C24_poly1305_endian_wrong",
    "Milo.Props.C24_poly1305_big_endian",
    "Milo.Props.C24_poly1305_partial"
   ],
   "note": "False of the code: big-endian hosts read the key words byte-reversed (C24_poly1305_endian_wrong, C24_poly1305_big_endian); hosts of one byte order agree (C24_poly1305_partial)."
  },
  {
   "property": "C25",
   "status": "proved",
   "theorems": [
    "Milo.Props.C25_hkdf",
    "Milo.Props.C25_hkdf_truncated_hmac",
    "Milo.Props.C25_empty_salt",
    "Milo.Props.C25_hkdf_safe"
   ],
   "note": "The key is written to memory disjoint from the retained buffers; total within 255 hash lengths (beyond: C27)."
  },
  {
   "property": "C26",
   "status": "proved",
   "theorems": [
    "Milo.Props.C26_hkdf",
    "Milo.Props.C26_pbkdf2"
   ],
   "note": ""
  },
  {
   "property": "C27",
   "status": "partial",
   "theorems": [
    "Milo.Props.C27_hkdf_partial",
    "Milo.Props.C27_hkdf_repeats",
    "Milo.Props.C27_hkdf_actual"
   ],
   "note": "False of the code beyond 255 blocks: nothing is refused and T(1) is delivered again (C27_hkdf_repeats). Proved within the limit; C27_hkdf_actual says what any requests receive, beyond the limit too."
  },
  {
   "property": "C28",
   "status": "proved",
   "theorems": [
    "Milo.Props.C28_pbkdf2",
    "Milo.Props.C28_pbkdf2_truncated_hmac",
    "Milo.Props.C28_pbkdf2_safe"
   ],
   "note": "Up to 2^32-1 blocks in total (the RFC limit)."
  },
  {
   "property": "C29",
   "status": "proved",
   "theorems": [
    "Milo.Props.C29_chacha20",
    "Milo.Props.C29_oneshot"
   ],
   "note": ""
  },
  {
   "property": "C30",
   "status": "proved",
   "theorems": [
    "Milo.Props.C30_split_independent"
   ],
   "note": ""
  },
  {
   "property": "C31",
   "status": "proved",
   "theorems": [
    "Milo.Props.C31_roundtrip"
   ],
   "note": ""
  },
  {
   "property": "C32",
   "status": "proved",
   "theorems": [
    "Milo.Props.C32_counter",
    "Milo.Props.C32_wrap"
   ],
   "note": ""
  },
  {
   "property": "C33",
   "status": "proved",
   "theorems": [
    "Milo.Props.C33_key_iv_lengths"
   ],
   "note": ""
  },
  {
   "property": "C34",
   "status": "proved",
   "theorems": [
    "Milo.Props.C34_aead_in_place",
    "Milo.Props.C34_cipher_in_place"
   ],
   "note": "Cipher and AEAD (apie); areas equal or disjoint."
  },
  {
   "property": "C35",
   "status": "proved",
   "theorems": [
    "Milo.Props.C35_aead_class",
    "Milo.Props.C35_aead_apie",
    "Milo.Props.C35_aead_oneshot",
    "Milo.Props.C35_aead_any_length",
    "Milo.Props.C35_aead_big_endian_wrong"
   ],
   "note": "Little-endian hosts; on big-endian hosts the tag is wrong (C35_aead_big_endian_wrong, see C24). Keys and nonces of other lengths: C35_aead_any_length. apie: at least one encrypt/decrypt call (otherwise C40)."
  },
  {
   "property": "C36",
   "status": "proved",
   "theorems": [
    "Milo.Props.C36_open_after_seal",
    "Milo.Props.C36_open_after_seal_oneshot"
   ],
   "note": "All hosts, all overloads; both sides have a text call or neither, or the aad is a multiple of 16 bytes (see C40)."
  },
  {
   "property": "C37",
   "status": "proved",
   "theorems": [
    "Milo.Props.C37_verify_exact",
    "Milo.Props.C37_verify_exact_oneshot"
   ],
   "note": "Little-endian hosts (see C24)."
  },
  {
   "property": "C38",
   "status": "partial",
   "theorems": [
    "Milo.Props.C38_reported_partial",
    "Milo.Props.C38_pointer_decrypt_terminates",
    "Milo.Props.C38_fixed_container_decrypt_terminates"
   ],
   "note": "False of the code: the noexcept specification of decrypt without error argument is inverted, so the pointer overload and the fixed-container overload terminate the process on every wrong tag (C38_pointer_decrypt_terminates, C38_fixed_container_decrypt_terminates). Proved for all other overloads."
  },
  {
   "property": "C39",
   "status": "partial",
   "theorems": [
    "Milo.Props.C39_by_value_partial",
    "Milo.Props.C39_plaintext_released"
   ],
   "note": "False of the code: the plaintext is written before the tag is checked and stays there (C39_plaintext_released). Proved for the throwing by-value overload."
  },
  {
   "property": "C40",
   "status": "partial",
   "theorems": [
    "Milo.Props.C40_aad_only_partial",
    "Milo.Props.C40_aad_only_actual",
    "Milo.Props.C40_aad_only_wrong",
    "Milo.Props.C40_aad_and_empty_text"
   ],
   "note": "False of the code unless the aad is a multiple of 16 bytes: its padding is left out (C40_aad_only_wrong, C40_aad_only_actual). Proved for multiples of 16, and for any aad with an empty encrypt call."
  },
  {
   "property": "C41",
   "status": "partial",
   "theorems": [
    "Milo.Props.C41_aad_first_partial",
    "Milo.Props.C41_late_aad_actual",
    "Milo.Props.C41_late_aad_confused",
    "Milo.Props.C41_late_aad_wrong"
   ],
   "note": "False of the code: late associated data is accepted and authenticated in the place of ciphertext (C41_late_aad_wrong, C41_late_aad_actual), the tag can be that of another message (C41_late_aad_confused). Proved when associated data comes first."
  },
  {
   "property": "C42",
   "status": "partial",
   "theorems": [
    "Milo.Dispatch.C42_declared_reported",
    "Milo.Dispatch.C42_first_supported",
    "Milo.Dispatch.C42_executable_partial",
    "Milo.Dispatch.C42_os_not_asked_wrong",
    "Milo.Dispatch.C42_library",
    "Milo.Dispatch.C42_not_assembled",
    "Milo.Dispatch.C42_code_declared",
    "Milo.Dispatch.C42_chacha_any_machine",
    "Milo.Dispatch.C42_hash_any_machine"
   ],
   "note": "Proved: every declared extension is reported by the processor, and the first supported candidate is taken. False of the code: the operating system is not asked (C42_os_not_asked_wrong); C42_executable_partial assumes it. Also proved: the assembly code contains only instructions of declared extensions, and the results are the same on every machine."
  },
  {
   "property": "C43",
   "status": "partial",
   "theorems": [
    "Milo.Dispatch.C43_check_sound",
    "Milo.Dispatch.C43_first_option_wins",
    "Milo.Dispatch.C43_default",
    "Milo.Dispatch.C43_selection_total_partial",
    "Milo.Dispatch.C43_library_total_partial",
    "Milo.Dispatch.C43_before_initialisation_wrong",
    "Milo.Dispatch.C43_enforced",
    "Milo.Dispatch.C43_constant_evaluation",
    "Milo.Dispatch.C43_poly1305_options_ignored",
    "Milo.Dispatch.C43_poly1305_enforced_wrong"
   ],
   "note": "Proved once the variables are initialised. False of the code before (C43_before_initialisation_wrong: a call through a null pointer when used from the constructor of a static object), and for options of Poly1305, which are ignored (C43_poly1305_enforced_wrong)."
  },
  {
   "property": "C44",
   "status": "proved",
   "theorems": [
    "Milo.Props.C44_transform",
    "Milo.Props.C44_generate",
    "Milo.Props.C44_junk_irrelevant"
   ],
   "note": "Instruction semantics after the Intel manual (Model/X86.lean) are part of the trusted base."
  },
  {
   "property": "C45",
   "status": "proved",
   "theorems": [
    "Milo.C45_sha1_ni"
   ],
   "note": "Instruction semantics after the Intel manual (Model/X86.lean) are part of the trusted base. C14-C28 hold for this backend too (Host.sha)."
  },
  {
   "property": "C46",
   "status": "proved",
   "theorems": [
    "Milo.C46_sha256_ni"
   ],
   "note": "As C45."
  },
  {
   "property": "C47",
   "status": "partial",
   "theorems": [
    "Milo.Props.C47_hash",
    "Milo.Props.C47_hash_apie",
    "Milo.Props.C47_mac",
    "Milo.Props.C47_mac_apie",
    "Milo.Props.C47_hkdf",
    "Milo.Props.C47_pbkdf2",
    "Milo.Props.C47_cipher",
    "Milo.Props.C47_aead_partial",
    "Milo.Props.C47_aead_apie_partial",
    "Milo.Props.C47_aead_counters_remain"
   ],
   "note": "Proved for all data members that hold state, keys, digests, buffered text or their sizes, after every history of calls, for every class. False of the code for the two byte counters of an aead object, which depend on the message sizes (C47_aead_counters_remain). Elimination of stores by the compiler is outside the model."
  },
  {
   "property": "C48",
   "status": "partial",
   "theorems": [
    "Milo.Props.C48_aead_key_left_wrong",
    "Milo.Props.C48_pbkdf2_key_left_wrong",
    "Milo.Props.C48_chacha_key_left_wrong"
   ],
   "note": "False of the code: C48_aead_key_left_wrong, C48_pbkdf2_key_left_wrong and C48_chacha_key_left_wrong prove, for all keys, that local arrays keep the one-time key, the derived key and the cipher key when the call returns."
  },
  {
   "property": "C49",
   "status": "proved",
   "theorems": [
    "Milo.Props.C49_hash_containers",
    "Milo.Props.C49_hkdf_containers",
    "Milo.Props.C49_pbkdf2_containers",
    "Milo.Props.C49_mac_containers"
   ],
   "note": "Hash, mac and kdf outputs."
  },
  {
   "property": "C50",
   "status": "proved",
   "theorems": [
    "Milo.Props.C50_hkdf",
    "Milo.Props.C50_pbkdf2",
    "Milo.Props.C50_pbkdf2_live",
    "Milo.Props.C50_hkdf_live",
    "Milo.Props.C50_pbkdf2_current",
    "Milo.Props.C50_hkdf_current"
   ],
   "note": "C50_hkdf_live and C50_pbkdf2_live give every output of every history, without a limit on the length, so they also say what happens beyond the limits of C25-C28."
  },
  {
   "property": "C51",
   "status": "partial",
   "theorems": [
    "Milo.Props.C51_hash",
    "Milo.Props.C51_hash_apie",
    "Milo.Props.C51_mac",
    "Milo.Props.C51_mac_apie",
    "Milo.Props.C51_cipher_partial",
    "Milo.Props.C51_cipher_wrong",
    "Milo.Props.C51_aead_class_partial",
    "Milo.Props.C51_aead_apie_partial",
    "Milo.Props.C51_aead_rfc_partial",
    "Milo.Props.C51_aead_wrong"
   ],
   "note": "False of the cipher and the aead (C51_cipher_wrong, C51_aead_wrong): when the text of the constant-evaluated part ends inside a block, an accelerated backend outputs the text after that block unencrypted. Proved for hash and mac objects (class and apie) with the circumstances changing between any two calls, and for the cipher and the aead (class and apie, any calls before and after) when the text of the constant-evaluated part is a whole number of blocks; false of the aead too (C51_aead_wrong)."
  },
  {
   "property": "C52",
   "status": "partial",
   "theorems": [
    "Milo.Props.C52_without_aadover_partial",
    "Milo.Props.C52_without_aadover_wrong"
   ],
   "note": "False of the code unless the aad is a multiple of 16 bytes (C52_without_aadover_wrong)."
  },
  {
   "property": "C53",
   "status": "partial",
   "theorems": [
    "Milo.Props.C53_limit_partial",
    "Milo.Props.C53_limit_wrong"
   ],
   "note": "Proved within the limit. False of the code beyond it: nothing is refused and the text is encrypted with the block the one-time key was taken from (C53_limit_wrong)."
  },
  {
   "property": "C54",
   "status": "partial",
   "theorems": [
    "Milo.Props.C54_cipher_overrun_wrong",
    "Milo.Props.C54_aead_overrun_wrong",
    "Milo.Props.C54_codec_overrun_wrong",
    "Milo.Props.C54_codec_room_partial",
    "Milo.Props.C54_cipher_room_partial"
   ],
   "note": "False of the code: without room the write leaves the container (C54_codec_overrun_wrong, C54_cipher_overrun_wrong, C54_aead_overrun_wrong, for all texts, objects and backends). Proved with room. Hash, mac and kdf outputs: C49."
  },
  {
   "property": "C55",
   "status": "partial",
   "theorems": [
    "Milo.Props.C55_base64_error_size_partial",
    "Milo.Props.C55_base16_error_size_wrong"
   ],
   "note": "Proved for Base64. False for Base16, which returns the number of characters consumed, twice the bytes written (C55_base16_error_size_wrong)."
  },
  {
   "property": "C56",
   "status": "proved",
   "theorems": [
    "Milo.Props.C56_chacha_transform",
    "Milo.Props.C56_chacha_generate",
    "Milo.Props.C56_sha1",
    "Milo.Props.C56_sha256",
    "Milo.Props.C56_cpuid"
   ],
   "note": "ChaCha transform and generate (SSSE3, AVX2), SHA-1, SHA-256, cpuid; System V and Windows. Windows unwind tables (there are none in the files) are outside the model."
  },
  {
   "property": "C57",
   "status": "partial",
   "theorems": [
    "Milo.Props.C57_patterns_partial",
    "Milo.Props.C57_plain_partial",
    "Milo.Props.C57_shortest_partial",
    "Milo.Props.C57_names",
    "Milo.Props.C57_begin_false",
    "Milo.Props.C57_end_false",
    "Milo.Props.C57_full_false"
   ],
   "note": "False of the code: the beginning of a pattern is not anchored (C57_begin_false: mac-* selects kdf-hkdf-hmac-...), a last part after a star is only compared where it first occurs (C57_end_false). Proved: exact for patterns that begin and end with a star, complete for those that end with one, sound up to the beginning for all; every other pattern characterised exactly (C57_shortest_partial); listed names select only themselves."
  },
  {
   "property": "C58",
   "status": "proved",
   "theorems": [
    "Milo.Props.C58_option",
    "Milo.Props.C58_command",
    "Milo.Props.C58_ignored"
   ],
   "note": "At the level of the parser and of whole runs."
  },
  {
   "property": "C59",
   "status": "partial",
   "theorems": [
    "Milo.Props.C59_parameter_partial",
    "Milo.Props.C59_actual",
    "Milo.Props.C59_prefix_false",
    "Milo.Props.C59_malformed_false",
    "Milo.Props.C59_full_false"
   ],
   "note": "False of the code: another parameter that begins with the name is taken for it (C59_prefix_false), letters after the digits and empty values are accepted, malformed values of parameters with a default are ignored (C59_malformed_false). Proved for well-formed values when no other argument begins like the parameter; C59_actual says what the value is for all arguments."
  },
  {
   "property": "C60",
   "status": "partial",
   "theorems": [
    "Milo.Props.C60_ends_partial",
    "Milo.Props.C60_none_false",
    "Milo.Props.C60_key_false",
    "Milo.Props.C60_full_false"
   ],
   "note": "False of the code: no arguments at all (C60_none_false), key derivation benchmarks with --key-size=0 (C60_key_false). Proved for all other argument lists."
  },
  {
   "property": "C61",
   "status": "partial",
   "theorems": [
    "Milo.Props.C61_list",
    "Milo.Props.C61_run",
    "Milo.Props.C61_documented_partial",
    "Milo.Props.C61_missing",
    "Milo.Props.C61_mac_false",
    "Milo.Props.C61_full_false"
   ],
   "note": "Proved for all documented patterns but mac-*, which fails (C61_mac_false: it also selects the key derivation benchmarks and then misses their parameters). C61_run covers every pattern, in terms of what the code selects."
  },
  {
   "property": "C62",
   "status": "partial",
   "theorems": [
    "Milo.Props.C62_metrics_partial",
    "Milo.Props.C62_entries_partial",
    "Milo.Props.C62_full_false"
   ],
   "note": "False of the code: clock rate times nanoseconds overflows 64 bits, at 3.5 GHz after 5.3 seconds (C62_full_false). Proved when no product overflows, also for whole runs (C62_entries_partial). Rounding of floating point numbers is not modelled."
  },
  {
   "property": "C63",
   "status": "partial",
   "theorems": [
    "Milo.Props.C63_json_partial",
    "Milo.Props.C63_number",
    "Milo.Props.C63_integer",
    "Milo.Props.C63_run_partial",
    "Milo.Props.C63_finite",
    "Milo.Props.C63_content",
    "Milo.Props.C63_quote_false",
    "Milo.Props.C63_infinite_false",
    "Milo.Props.C63_full_false"
   ],
   "note": "False of the code: strings are not escaped (C63_quote_false), inf is printed when no time was measured (C63_infinite_false). Proved when no argument needs an escape and no quotient is one by zero. C63_content: every number is found in the document under its documented path, each name once."
  },
  {
   "property": "C64",
   "status": "proved",
   "theorems": [
    "Milo.Props.C64_sha",
    "Milo.Props.C64_chacha",
    "Milo.Props.C64_reads_complete",
    "Milo.Props.C64_writes_complete"
   ],
   "note": "ChaCha (SSSE3, AVX2; transform and generate), SHA-1, SHA-256; System V and Windows. That the instructions themselves take the same time for all operands is the processor manual's promise, not modelled."
  },
  {
   "property": "C65",
   "status": "partial",
   "theorems": [
    "Milo.Props.C65_hash",
    "Milo.Props.C65_hash_apie",
    "Milo.Props.C65_mac",
    "Milo.Props.C65_mac_apie_partial",
    "Milo.Props.C65_cipher",
    "Milo.Props.C65_aead_partial",
    "Milo.Props.C65_aead_apie_partial",
    "Milo.Props.C65_default_copy_wrong",
    "Milo.Props.C65_hkdf",
    "Milo.Props.C65_pbkdf2",
    "Milo.Props.C65_hkdf_consteval",
    "Milo.Props.C65_pbkdf2_consteval",
    "Milo.Props.C65_hash_allowed",
    "Milo.Props.C65_hash_apie_allowed",
    "Milo.Props.C65_mac_allowed",
    "Milo.Props.C65_cipher_allowed",
    "Milo.Props.C65_hkdf_allowed",
    "Milo.Props.C65_pbkdf2_allowed",
    "Milo.Props.C65_hash_fork"
   ],
   "note": "False of the code for default-constructed mac::apie, aead and aead::apie objects: copying, moving or assigning from one reads members that were never set (C65_default_copy_wrong; an object declared with empty braces is zeroed and unaffected). Proved for hash, hash::apie, mac, cipher, HKDF and PBKDF2 (run time and constant evaluation, with the heap) without restriction, for the others once initialize was called. C65_*_allowed: the only obligations are lifetimes and those of single calls."
  },
  {
   "property": "C66",
   "status": "partial",
   "theorems": [
    "Milo.Props.C66_hash_vectors",
    "Milo.Props.C66_hmac_vectors",
    "Milo.Props.C66_poly1305_vectors_partial",
    "Milo.Props.C66_hkdf_vectors_partial",
    "Milo.Props.C66_pbkdf2_vectors",
    "Milo.Props.C66_cipher_vectors",
    "Milo.Props.C66_aead_encrypt_vectors_partial",
    "Milo.Props.C66_aead_decrypt_vectors_partial",
    "Milo.Props.C66_encode_vectors",
    "Milo.Props.C66_decode_vectors_partial",
    "Milo.Props.C66_decode_vectors_wrong"
   ],
   "note": "False of the code where the functions tested are wrong: decoding with signed char (C66_decode_vectors_wrong), odd Base16 texts (C04), Poly1305 and AEAD on big-endian hosts (C24, C35), HKDF keys over 255 blocks, for which there is no right value (C27). Proved for everything else. Failing allocations are not modelled."
  },
  {
   "property": "C67",
   "status": "proved",
   "theorems": [
    "Milo.Props.C67_hash_differential",
    "Milo.Props.C67_hash_agree",
    "Milo.Props.C67_mac_differential",
    "Milo.Props.C67_mac_agree",
    "Milo.Props.C67_hkdf_differential",
    "Milo.Props.C67_hkdf_agree",
    "Milo.Props.C67_pbkdf2_differential",
    "Milo.Props.C67_pbkdf2_agree",
    "Milo.Props.C67_cipher_agree"
   ],
   "note": "Also between hosts; Poly1305 agrees between hosts of the same byte order (finding C24)."
  },
  {
   "property": "C68",
   "status": "partial",
   "theorems": [
    "Milo.Props.C68_hash_history",
    "Milo.Props.C68_mac_history",
    "Milo.Props.C68_hkdf_history",
    "Milo.Props.C68_pbkdf2_history",
    "Milo.Props.C68_cipher_history",
    "Milo.Props.C68_aead_history",
    "Milo.Props.C68_hash_retry",
    "Milo.Props.C68_mac_retry",
    "Milo.Props.C68_hkdf",
    "Milo.Props.C68_pbkdf2",
    "Milo.Props.C68_cipher",
    "Milo.Props.C68_aead",
    "Milo.Props.C68_hash_oneshot",
    "Milo.Props.C68_mac_oneshot",
    "Milo.Props.C68_hkdf_oneshot",
    "Milo.Props.C68_pbkdf2_oneshot",
    "Milo.Props.C68_aead_encrypt_oneshot",
    "Milo.Props.C68_aead_decrypt_oneshot",
    "Milo.Props.C68_codec_encode",
    "Milo.Props.C68_base64_decode",
    "Milo.Props.C68_base16_decode_partial",
    "Milo.Props.C68_base16_decode_grows_wrong",
    "Milo.Props.C68_hash_starved_digest_ends"
   ],
   "note": "False of the code for Base16 decode with an error argument: on a malformed text the container, already overwritten, may have to grow and the call throws (C68_base16_decode_grows_wrong). All other classes and functions proved. C68_hash_starved_digest_ends shows what the exception for digest means."
  },
  {
   "property": "C69",
   "status": "proved",
   "theorems": [
    "Milo.Props.C69_poly1305_forgery",
    "Milo.Props.C69_authenticated_injective",
    "Milo.Props.C69_aead_forgery",
    "Milo.Props.C69_aead_attempts"
   ],
   "note": "Information-theoretic part: the counts are over one-time keys. That the one-time keys ChaCha20 derives look random to who does not know the key, and that the ciphertext reveals nothing about them (false beyond 2^38 - 64 bytes of text, C53), is cryptographic assumption, not theorem. 2^130 - 5 is proved prime."
  },
  {
   "property": "C70",
   "status": "partial",
   "theorems": [
    "Milo.Props.C70_decode_pointers",
    "Milo.Props.C70_decode_in_place",
    "Milo.Props.C70_decode_ahead_wrong",
    "Milo.Props.C70_encode_pointers_partial",
    "Milo.Props.C70_encode_in_place_wrong",
    "Milo.Props.C70_encode_same_container_wrong",
    "Milo.Props.C70_decode_same_container_wrong",
    "Milo.Props.C70_decode_same_container_partial",
    "Milo.Props.C70_pbkdf2_overwritten",
    "Milo.Props.C70_hkdf_overwritten",
    "Milo.Props.C70_pbkdf2_partial",
    "Milo.Props.C70_hkdf_partial",
    "Milo.Props.C70_pbkdf2_in_place_wrong",
    "Milo.Props.C70_hkdf_in_place_wrong"
   ],
   "note": "Proved for decoding by pointers (result not after the text), for decoding in fixed-size containers, for HKDF over input key and salt, and for one block over anything. False of the code: two blocks of PBKDF2 over input key or salt (C70_pbkdf2_in_place_wrong), of HKDF over the info (C70_hkdf_in_place_wrong), the exact result being given by the _overwritten theorems; encoding in place by pointers (C70_encode_in_place_wrong); encode(c, c) writes outside the container for every non-empty c (C70_encode_same_container_wrong); decode(c, c) with a resizable container returns only the first half (Base-16) or three quarters (Base-64) of the result, without error (C70_decode_same_container_wrong). The documentation does not say arguments must differ. Not modelled: one resizable container as input and key of a kdf (reallocation invalidates the view)."
  },
  {
   "property": "C71",
   "status": "proved",
   "theorems": [
    "Milo.Props.C71_hash",
    "Milo.Props.C71_hash_full",
    "Milo.Props.C71_hmac",
    "Milo.Props.C71_hkdf"
   ],
   "note": "A reduction: that the compression functions are not broken is cryptographic assumption. Collision means among the evaluations made for the two messages, so the disjunction is not trivially true. PBKDF2 with more than one iteration (an exclusive or of outputs) has no such reduction."
  },
  {
   "property": "C72",
   "status": "proved",
   "theorems": [
    "Milo.Props.C72_same_results",
    "Milo.Props.C72_hash",
    "Milo.Props.C72_hash_apie",
    "Milo.Props.C72_mac",
    "Milo.Props.C72_mac_apie",
    "Milo.Props.C72_hkdf",
    "Milo.Props.C72_pbkdf2",
    "Milo.Props.C72_cipher",
    "Milo.Props.C72_aead",
    "Milo.Props.C72_aead_apie",
    "Milo.Props.C72_hash_total",
    "Milo.Props.C72_hash_apie_total",
    "Milo.Props.C72_equal_early_exit"
   ],
   "note": "Source level: which branches the C++ statements take and which positions they access; the compiler may turn either into the other, and container resizing is not observed. Inside the assembly: C64. Two uses must both be free of undefined behaviour (the _total theorems show hash calls with room always are; C22, C29, C36 and C49 say so for the other classes). The codecs are not covered: their tables are indexed by the data."
  },
  {
   "property": "C73",
   "status": "partial",
   "theorems": [
    "Milo.Props.C73_pbkdf2_actual",
    "Milo.Props.C73_pbkdf2_repeats_wrong",
    "Milo.Props.C73_pbkdf2_partial"
   ],
   "note": "False of the code: there is no check. C73_pbkdf2_actual says what any number of bytes is (the block counter modulo 2^32), C73_pbkdf2_repeats_wrong that the key repeats itself after 2^32 blocks and the full size is reported, C73_pbkdf2_partial that the key is right up to the limit and that the next block is numbered 0. Full statement: a request beyond the limit is refused."
  },
  {
   "property": "C74",
   "status": "partial",
   "theorems": [
    "Milo.Props.C74_base16",
    "Milo.Props.C74_base64_partial",
    "Milo.Props.C74_base64_encode_wrong",
    "Milo.Props.C74_base64_decode_wrong"
   ],
   "note": "Proved for Base16. False of Base64: encode_size multiplies by 4 before dividing by 3, decode_size by 3 before dividing by 4; beyond 2^30 bytes or 2^32/3 characters on a 32-bit machine the container is too small and is overrun (C74_base64_encode_wrong, C74_base64_decode_wrong, for every such input). C74_base64_partial: below these limits everything is as on a 64-bit machine. Full statement: the same for every result that fits."
  },
  {
   "property": "C75",
   "status": "partial",
   "theorems": [
    "Milo.Props.C75_partial",
    "Milo.Props.C75_forms_wrong",
    "Milo.Props.C75_buckets_wrong",
    "Milo.Props.C75_never_wrong",
    "Milo.Props.C75_full_false"
   ],
   "note": "False of the code: the hash mixes the C++ type in, so a text stored as a literal is not found as a std::string and becomes a second member of the same name (C75_forms_wrong), or is found depending on the number of buckets (C75_buckets_wrong); NaN and container names are never found (C75_never_wrong). Proved when each text is always used in one form, which is how the application uses it."
  },
  {
   "property": "C76",
   "status": "partial",
   "theorems": [
    "Milo.Props.C76_partial",
    "Milo.Props.C76_rounded_partial",
    "Milo.Props.C76_fraction_wrong",
    "Milo.Props.C76_truth_wrong",
    "Milo.Props.C76_signed_wrong",
    "Milo.Props.C76_undefined_wrong",
    "Milo.Props.C76_transitive_false",
    "Milo.Props.C76_reflexive_false",
    "Milo.Props.C76_full_false"
   ],
   "note": "False of the code: fractions are dropped when the double is on the right (C76_fraction_wrong), numbers equal truth values in one order only (C76_truth_wrong), negative numbers equal large ones (C76_signed_wrong), comparisons with doubles out of range are undefined (C76_undefined_wrong), not transitive (C76_transitive_false). Proved for texts, equal types and all cases in which the conversion is exact."
  },
  {
   "property": "C77",
   "status": "partial",
   "theorems": [
    "Milo.Props.C77_partial",
    "Milo.Props.C77_reference_wrong",
    "Milo.Props.C77_index_wrong",
    "Milo.Props.C77_full_false"
   ],
   "note": "False of the code: reading by reference follows a null pointer, the prepared exception is never thrown (C77_reference_wrong); array indices are not checked (C77_index_wrong). Proved for size_t, bool, the right type and indices in bounds."
  },
  {
   "property": "C78",
   "status": "partial",
   "theorems": [
    "Milo.Props.C78_hash_exact",
    "Milo.Props.C78_hash_class_exact",
    "Milo.Props.C78_hmac_exact",
    "Milo.Props.C78_hmac_class_exact",
    "Milo.Props.C78_hash_documented_partial",
    "Milo.Props.C78_mac_documented_partial",
    "Milo.Props.C78_hash_resumed",
    "Milo.Props.C78_hash_ignored",
    "Milo.Props.C78_hash_false",
    "Milo.Props.C78_hmac_resumed",
    "Milo.Props.C78_hmac_ignored",
    "Milo.Props.C78_hmac_false",
    "Milo.Props.C78_aead_resumed",
    "Milo.Props.C78_aead_ignored",
    "Milo.Props.C78_aead_false",
    "Milo.Props.C78_aead_reveals_key",
    "Milo.Props.C78_poly_resumed",
    "Milo.Props.C78_poly_ignored",
    "Milo.Props.C78_poly_false",
    "Milo.Props.C78_poly_reveals_key"
   ],
   "note": "False of the code for every hash and HMAC (C78_hash_false, C78_hmac_false): after a digest, data that does not complete a block is ignored (C78_hash_ignored, C78_hmac_ignored), other data continues from the digest (C78_hash_resumed, C78_hmac_resumed). Proved for the documented order (C78_hash_documented_partial, C78_mac_documented_partial, the latter also for Poly1305); the _exact theorems give the answer of hashes and HMAC to calls in every order. Poly1305 (C78_poly_false, C78_poly_ignored): the accumulator goes on from the tag (C78_poly_resumed), so that one more block and a second tag leave at most 25 * 2^22 of 2^256 keys, 25 up to the bits Poly1305 does not use (C78_poly_reveals_key). AEAD (C78_aead_false): text after a tag was taken or verified is processed with the key stream going on, and the tag continued from the first one (C78_aead_resumed); less than 16 bytes are not authenticated at all (C78_aead_ignored), 16 bytes and a second tag leave at most 25 * 2^22 one-time keys (C78_aead_reveals_key)."
  }
 ]
}