STATUS = {
 'C01': ('proved', ''),
 'C02': ('proved', ''),
 'C03': ('partial', 'False of the code where char is signed: bytes 0x80..0xff are accepted as digits (C03_base16_accepts_garbage). Proved for 7-bit text on every target, in full where char is unsigned; exact acceptance set characterised.'),
 'C04': ('partial', 'False of the code for odd lengths >= 3 (C04_base16_odd_wrong); proved for length 1, and the actual behaviour for all odd lengths is proved (C04_base16_odd_actual).'),
 'C05': ('proved', ''),
 'C06': ('proved', ''),
 'C07': ('proved', ''),
 'C08': ('partial', 'False of the code where char is signed (C08_base64_accepts_garbage); proved in full where char is unsigned and for 7-bit text everywhere.'),
 'C09': ('partial', 'False of the code: spare bits of the last group are not checked (C09_base64_not_canonical). Proved: the decoded bytes re-encode to the text up to those spare bits.'),
 'C10': ('proved', ''),
 'C11': ('proved', ''),
 'C12': ('proved', ''),
 'C13': ('proved', 'Constant time is expressed as: the number of byte pairs inspected depends only on the sizes; timing of the machine itself is outside the model.'),
 'C14': ('proved', ''),
 'C15': ('proved', ''),
 'C16': ('proved', 'Each chunk passed to update has fewer than 2^64 bytes (size_t).'),
 'C17': ('proved', ''),
 'C18': ('proved', ''),
 'C19': ('proved', ''),
 'C20': ('proved', ''),
 'C21': ('proved', 'C21_only_documented: keys RFC 2104 does not make equal give different tags, unless the hash function is broken in the sense of C71.'),
 'C22': ('proved', 'For little-endian hosts; see C24 for big-endian hosts.'),
 'C23': ('proved', 'Poly1305 on big-endian hosts is included with the function it actually computes (Spec.macOn).'),
 'C24': ('partial', 'False of the code: big-endian hosts read the key words byte-reversed (C24_poly1305_endian_wrong, C24_poly1305_big_endian); hosts of one byte order agree (C24_poly1305_partial).'),
 'C25': ('proved', 'The key is written to memory disjoint from the retained buffers; total within 255 hash lengths (beyond: C27).'),
 'C26': ('proved', ''),
 'C27': ('partial', 'False of the code beyond 255 blocks: nothing is refused and T(1) is delivered again (C27_hkdf_repeats). Proved within the limit; C27_hkdf_actual says what any requests receive, beyond the limit too.'),
 'C28': ('proved', 'Up to 2^32-1 blocks in total (the RFC limit).'),
 'C29': ('proved', ''),
 'C30': ('proved', ''),
 'C31': ('proved', ''),
 'C32': ('proved', ''),
 'C33': ('proved', ''),
 'C34': ('proved', 'Cipher and AEAD (apie); areas equal or disjoint.'),
 'C44': ('proved', 'Instruction semantics after the Intel manual (Model/X86.lean) are part of the trusted base.'),
 'C45': ('proved', 'Instruction semantics after the Intel manual (Model/X86.lean) are part of the trusted base. C14-C28 hold for this backend too (Host.sha).'),
 'C46': ('proved', 'As C45.'),
 'C49': ('proved', 'Hash, mac and kdf outputs.'),
 'C50': ('proved', 'C50_hkdf_live and C50_pbkdf2_live give every output of every history, without a limit on the length, so they also say what happens beyond the limits of C25-C28.'),
 'C35': ('proved', 'Little-endian hosts; on big-endian hosts the tag is wrong (C35_aead_big_endian_wrong, see C24). Keys and nonces of other lengths: C35_aead_any_length. apie: at least one encrypt/decrypt call (otherwise C40).'),
 'C36': ('proved', 'All hosts, all overloads; both sides have a text call or neither, or the aad is a multiple of 16 bytes (see C40).'),
 'C37': ('proved', 'Little-endian hosts (see C24).'),
 'C38': ('partial', 'False of the code: the noexcept specification of decrypt without error argument is inverted, so the pointer overload and the fixed-container overload terminate the process on every wrong tag (C38_pointer_decrypt_terminates, C38_fixed_container_decrypt_terminates). Proved for all other overloads.'),
 'C39': ('partial', 'False of the code: the plaintext is written before the tag is checked and stays there (C39_plaintext_released). Proved for the throwing by-value overload.'),
 'C40': ('partial', 'False of the code unless the aad is a multiple of 16 bytes: its padding is left out (C40_aad_only_wrong, C40_aad_only_actual). Proved for multiples of 16, and for any aad with an empty encrypt call.'),
 'C41': ('partial', 'False of the code: late associated data is accepted and authenticated in the place of ciphertext (C41_late_aad_wrong, C41_late_aad_actual), the tag can be that of another message (C41_late_aad_confused). Proved when associated data comes first.'),
 'C52': ('partial', 'False of the code unless the aad is a multiple of 16 bytes (C52_without_aadover_wrong).'),
 'C51': ('partial', 'False of the cipher and the aead (C51_cipher_wrong, C51_aead_wrong): when the text of the constant-evaluated part ends inside a block, an accelerated backend outputs the text after that block unencrypted. Proved for hash and mac objects (class and apie) with the circumstances changing between any two calls, and for the cipher and the aead (class and apie, any calls before and after) when the text of the constant-evaluated part is a whole number of blocks; false of the aead too (C51_aead_wrong).'),
 'C42': ('partial', 'Proved: every declared extension is reported by the processor, and the first supported candidate is taken. False of the code: the operating system is not asked (C42_os_not_asked_wrong); C42_executable_partial assumes it. Also proved: the assembly code contains only instructions of declared extensions, and the results are the same on every machine.'),
 'C43': ('partial', 'Proved once the variables are initialised. False of the code before (C43_before_initialisation_wrong: a call through a null pointer when used from the constructor of a static object), and for options of Poly1305, which are ignored (C43_poly1305_enforced_wrong).'),
 'C47': ('partial', 'Proved for all data members that hold state, keys, digests, buffered text or their sizes, after every history of calls, for every class. False of the code for the two byte counters of an aead object, which depend on the message sizes (C47_aead_counters_remain). Elimination of stores by the compiler is outside the model.'),
 'C48': ('partial', 'False of the code: C48_aead_key_left_wrong, C48_pbkdf2_key_left_wrong and C48_chacha_key_left_wrong prove, for all keys, that local arrays keep the one-time key, the derived key and the cipher key when the call returns.'),
 'C53': ('partial', 'Proved within the limit. False of the code beyond it: nothing is refused and the text is encrypted with the block the one-time key was taken from (C53_limit_wrong).'),
 'C54': ('partial', 'False of the code: without room the write leaves the container (C54_codec_overrun_wrong, C54_cipher_overrun_wrong, C54_aead_overrun_wrong, for all texts, objects and backends). Proved with room. Hash, mac and kdf outputs: C49.'),
 'C55': ('partial', 'Proved for Base64. False for Base16, which returns the number of characters consumed, twice the bytes written (C55_base16_error_size_wrong).'),
 'C56': ('proved', 'ChaCha transform and generate (SSSE3, AVX2), SHA-1, SHA-256, cpuid; System V and Windows. Windows unwind tables (there are none in the files) are outside the model.'),
 'C57': ('partial', 'False of the code: the beginning of a pattern is not anchored (C57_begin_false: mac-* selects kdf-hkdf-hmac-...), a last part after a star is only compared where it first occurs (C57_end_false). Proved: exact for patterns that begin and end with a star, complete for those that end with one, sound up to the beginning for all; every other pattern characterised exactly (C57_shortest_partial); listed names select only themselves.'),
 'C58': ('proved', 'At the level of the parser and of whole runs.'),
 'C59': ('partial', 'False of the code: another parameter that begins with the name is taken for it (C59_prefix_false), letters after the digits and empty values are accepted, malformed values of parameters with a default are ignored (C59_malformed_false). Proved for well-formed values when no other argument begins like the parameter; C59_actual says what the value is for all arguments.'),
 'C60': ('partial', 'False of the code: no arguments at all (C60_none_false), key derivation benchmarks with --key-size=0 (C60_key_false). Proved for all other argument lists.'),
 'C61': ('partial', 'Proved for all documented patterns but mac-*, which fails (C61_mac_false: it also selects the key derivation benchmarks and then misses their parameters). C61_run covers every pattern, in terms of what the code selects.'),
 'C62': ('partial', 'False of the code: clock rate times nanoseconds overflows 64 bits, at 3.5 GHz after 5.3 seconds (C62_full_false). Proved when no product overflows, also for whole runs (C62_entries_partial). Rounding of floating point numbers is not modelled.'),
 'C63': ('partial', 'False of the code: strings are not escaped (C63_quote_false), inf is printed when no time was measured (C63_infinite_false). Proved when no argument needs an escape and no quotient is one by zero. C63_content: every number is found in the document under its documented path, each name once.'),
 'C64': ('proved', 'ChaCha (SSSE3, AVX2; transform and generate), SHA-1, SHA-256; System V and Windows. That the instructions themselves take the same time for all operands is the processor manual\'s promise, not modelled.'),
 'C65': ('partial', 'False of the code for default-constructed mac::apie, aead and aead::apie objects: copying, moving or assigning from one reads members that were never set (C65_default_copy_wrong; an object declared with empty braces is zeroed and unaffected). Proved for hash, hash::apie, mac, cipher, HKDF and PBKDF2 (run time and constant evaluation, with the heap) without restriction, for the others once initialize was called. C65_*_allowed: the only obligations are lifetimes and those of single calls.'),
 'C66': ('partial', 'False of the code where the functions tested are wrong: decoding with signed char (C66_decode_vectors_wrong), odd Base16 texts (C04), Poly1305 and AEAD on big-endian hosts (C24, C35), HKDF keys over 255 blocks, for which there is no right value (C27). Proved for everything else. Failing allocations are not modelled.'),
 'C67': ('proved', 'Also between hosts; Poly1305 agrees between hosts of the same byte order (finding C24).'),
 'C68': ('partial', 'False of the code for Base16 decode with an error argument: on a malformed text the container, already overwritten, may have to grow and the call throws (C68_base16_decode_grows_wrong). All other classes and functions proved. C68_hash_starved_digest_ends shows what the exception for digest means.'),
 'C69': ('proved', 'Information-theoretic part: the counts are over one-time keys. That the one-time keys ChaCha20 derives look random to who does not know the key, and that the ciphertext reveals nothing about them (false beyond 2^38 - 64 bytes of text, C53), is cryptographic assumption, not theorem. 2^130 - 5 is proved prime.'),
 'C70': ('partial', 'Proved for decoding by pointers (result not after the text), for decoding in fixed-size containers, for HKDF over input key and salt, and for one block over anything. False of the code: two blocks of PBKDF2 over input key or salt (C70_pbkdf2_in_place_wrong), of HKDF over the info (C70_hkdf_in_place_wrong), the exact result being given by the _overwritten theorems; encoding in place by pointers (C70_encode_in_place_wrong); encode(c, c) writes outside the container for every non-empty c (C70_encode_same_container_wrong); decode(c, c) with a resizable container returns only the first half (Base-16) or three quarters (Base-64) of the result, without error (C70_decode_same_container_wrong). The documentation does not say arguments must differ. Not modelled: one resizable container as input and key of a kdf (reallocation invalidates the view).'),
 'C71': ('proved', 'A reduction: that the compression functions are not broken is cryptographic assumption. Collision means among the evaluations made for the two messages, so the disjunction is not trivially true. PBKDF2 with more than one iteration (an exclusive or of outputs) has no such reduction.'),
 'C72': ('proved', 'Source level: which branches the C++ statements take and which positions they access; the compiler may turn either into the other, and container resizing is not observed. Inside the assembly: C64. Two uses must both be free of undefined behaviour (the _total theorems show hash calls with room always are; C22, C29, C36 and C49 say so for the other classes). The codecs are not covered: their tables are indexed by the data.'),
 'C73': ('partial', 'False of the code: there is no check. C73_pbkdf2_actual says what any number of bytes is (the block counter modulo 2^32), C73_pbkdf2_repeats_wrong that the key repeats itself after 2^32 blocks and the full size is reported, C73_pbkdf2_partial that the key is right up to the limit and that the next block is numbered 0. Full statement: a request beyond the limit is refused.'),
 'C74': ('partial', 'Proved for Base16. False of Base64: encode_size multiplies by 4 before dividing by 3, decode_size by 3 before dividing by 4; beyond 2^30 bytes or 2^32/3 characters on a 32-bit machine the container is too small and is overrun (C74_base64_encode_wrong, C74_base64_decode_wrong, for every such input). C74_base64_partial: below these limits everything is as on a 64-bit machine. Full statement: the same for every result that fits.'),
 'C75': ('partial', 'False of the code: the hash mixes the C++ type in, so a text stored as a literal is not found as a std::string and becomes a second member of the same name (C75_forms_wrong), or is found depending on the number of buckets (C75_buckets_wrong); NaN and container names are never found (C75_never_wrong). Proved when each text is always used in one form, which is how the application uses it.'),
 'C76': ('partial', 'False of the code: fractions are dropped when the double is on the right (C76_fraction_wrong), numbers equal truth values in one order only (C76_truth_wrong), negative numbers equal large ones (C76_signed_wrong), comparisons with doubles out of range are undefined (C76_undefined_wrong), not transitive (C76_transitive_false). Proved for texts, equal types and all cases in which the conversion is exact.'),
 'C77': ('partial', 'False of the code: reading by reference follows a null pointer, the prepared exception is never thrown (C77_reference_wrong); array indices are not checked (C77_index_wrong). Proved for size_t, bool, the right type and indices in bounds.'),
 'C78': ('partial', 'False of the code for every hash and HMAC (C78_hash_false, C78_hmac_false): after a digest, data that does not complete a block is ignored (C78_hash_ignored, C78_hmac_ignored), other data continues from the digest (C78_hash_resumed, C78_hmac_resumed). Proved for the documented order (C78_hash_documented_partial, C78_mac_documented_partial, the latter also for Poly1305); the _exact theorems give the answer of hashes and HMAC to calls in every order. Poly1305 (C78_poly_false, C78_poly_ignored): the accumulator goes on from the tag (C78_poly_resumed), so that one more block and a second tag leave at most 25 * 2^22 of 2^256 keys, 25 up to the bits Poly1305 does not use (C78_poly_reveals_key). AEAD (C78_aead_false): text after a tag was taken or verified is processed with the key stream going on, and the tag continued from the first one (C78_aead_resumed); less than 16 bytes are not authenticated at all (C78_aead_ignored), 16 bytes and a second tag leave at most 25 * 2^22 one-time keys (C78_aead_reveals_key).'),
}
