{"id": "C01", "title": "Base-16 encoding is exact", "statement": "codec::encode with base_16 writes, for each input byte in order, the two lowercase hexadecimal digits (high nibble first), returns exactly encode_size(...) = 2*n and writes nothing else.", "quantifier": "every byte string of every length", "why_tests_cant": "unbounded lengths and all byte values in all positions; tests sample literals", "anchors": ["src/milo/primitive/detail/codec/base_16.h: encode, encode_size"]}
{"id": "C02", "title": "Base-16 round trip", "statement": "decode(encode(x)) reports no error and returns x, and decode accepts the same digits in upper case, for any mix of cases.", "quantifier": "every byte string; every choice of upper/lower case per digit", "why_tests_cant": "2^n case mixes per text and unbounded lengths", "anchors": ["src/milo/primitive/detail/codec/base_16.h: encode, decode"]}
{"id": "C03", "title": "Base-16 decode accepts exactly the hexadecimal texts (even length)", "statement": "For an even-length text, decode reports an error iff some character is not one of 0-9, a-f, A-F; when it reports none the result is the value of the text.", "quantifier": "every even-length character string over all 256 byte values, on platforms with signed and with unsigned char", "why_tests_cant": "all characters in all positions; the failing bytes (0x80..0xff on signed-char targets) are not in the test vectors", "anchors": ["src/milo/primitive/detail/codec/base_16.h: decode"]}
{"id": "C04", "title": "Base-16 decode of odd-length texts", "statement": "For an odd-length text of hexadecimal digits, decode treats the first digit as a byte of its own and decodes every following pair, returning (n+1)/2 bytes.", "quantifier": "every odd-length hexadecimal text", "why_tests_cant": "needs all odd lengths; the vectors only hold even-length texts", "anchors": ["src/milo/primitive/detail/codec/base_16.h: decode, decode_size"]}
{"id": "C05", "title": "Codec decoders and encoders stay inside the advertised output size", "statement": "If the caller provides encode_size(...) (resp. decode_size(...)) bytes of output, encode (resp. decode) never writes outside them and the size returned without error is exactly the advertised size, whatever the input (valid or garbage).", "quantifier": "every input string (arbitrary bytes, any length) for base_16 and base_64", "why_tests_cant": "memory safety on every malformed input", "anchors": ["src/milo/primitive/detail/codec/base_16.h", "src/milo/primitive/detail/codec/base_64.h: encode_size, decode_size, encode, decode"]}
{"id": "C06", "title": "Base-64 encoding is RFC 4648", "statement": "encode with base_64 produces exactly the RFC 4648 section 4 encoding (standard alphabet, '=' padding) and its size is encode_size(...).", "quantifier": "every byte string (length below 2^62 so that size_t arithmetic in encode_size does not wrap)", "why_tests_cant": "unbounded lengths, all byte triples", "anchors": ["src/milo/primitive/detail/codec/base_64.h: encode, encode_size"]}
{"id": "C07", "title": "Base-64 round trip", "statement": "decode(encode(x)) reports no error and returns x; encode is therefore injective.", "quantifier": "every byte string", "why_tests_cant": "unbounded lengths, all byte values", "anchors": ["src/milo/primitive/detail/codec/base_64.h: encode, decode"]}
{"id": "C08", "title": "Base-64 decode accepts exactly well-formed padded texts", "statement": "decode reports no error iff the length is a multiple of four, every character is in the alphabet except that the last group may end in '=' or '=='; the result is then the bytes those sextets spell.", "quantifier": "every character string over all 256 byte values, signed and unsigned char platforms", "why_tests_cant": "all characters in all positions incl. padding positions; the failing bytes are not in the vectors", "anchors": ["src/milo/primitive/detail/codec/base_64.h: decode"]}
{"id": "C09", "title": "Base-64 texts are canonical", "statement": "Every text decode accepts is the encoding of the bytes it returns (no two texts decode to the same bytes).", "quantifier": "every pair of accepted texts", "why_tests_cant": "quantifies over all pairs of texts", "anchors": ["src/milo/primitive/detail/codec/base_64.h: decode"]}
{"id": "C10", "title": "Codec error reporting is consistent across overloads and containers", "statement": "The throwing overload throws a given error iff the non-throwing overload returns that error by reference, otherwise both give the same result; a resizable output container ends with exactly the returned number of bytes.", "quantifier": "every input, every previous content/size of the output container, both codecs", "why_tests_cant": "all inputs and prior container states", "anchors": ["src/milo/primitive/codec/apie.h: encode, decode", "src/milo/error.h"]}
{"id": "C11", "title": "Compile-time and run-time memory primitives agree", "statement": "The constant-evaluation path and the memcpy path of the load/store/copy/set/equal primitives give the same bytes/words for each combination of value width and element width, on little and big endian targets.", "quantifier": "every buffer content, offset, size, value; both endiannesses; each width combination used by the library", "why_tests_cant": "tests run one endianness and fixed values", "anchors": ["src/milo/internal/memory.h: memory_load, memory_stor, memory_copy, memory_set, memory_equal", "src/milo/internal/endian.h"]}
{"id": "C12", "title": "Endian-qualified loads and stores are host independent and inverse", "statement": "load_be/load_le give the big/little-endian value of the addressed bytes on every host, store then load returns the value, and nothing outside the addressed bytes changes.", "quantifier": "every value, buffer, offset, width, both host endiannesses", "why_tests_cant": "big-endian hosts are not tested at all (doc/reference.md)", "anchors": ["src/milo/internal/memory.h: memory_load_be, memory_load_le, memory_stor_be, memory_stor_le", "src/milo/internal/endian.h: endian_swap_sw"]}
{"id": "C13", "title": "Constant-time comparison is equality", "statement": "The tag comparison used for verification returns true iff both containers have the same size and the same bytes, and the number of byte comparisons depends only on the sizes.", "quantifier": "every pair of byte strings of any sizes", "why_tests_cant": "all pairs", "anchors": ["src/milo/internal/memory.h: memory_match"]}
{"id": "C14", "title": "SHA-1 is FIPS 180-4 SHA-1", "statement": "initialize; any updates; finalize; digest yields the FIPS 180-4 SHA-1 digest of the concatenated input.", "quantifier": "every message and every split of it into update calls", "why_tests_cant": "infinitely many messages; collisions of padding cases and splits", "anchors": ["src/milo/primitive/detail/hash/sha/sha_1_160.h", "src/milo/primitive/detail/hash/sha/sha_1_160_impl_sw.h"]}
{"id": "C15", "title": "SHA-224 and SHA-256 are FIPS 180-4", "statement": "The digests of sha_2_224 and sha_2_256 are the FIPS 180-4 digests of the concatenated input.", "quantifier": "every message and every split into update calls", "why_tests_cant": "as above", "anchors": ["src/milo/primitive/detail/hash/sha/sha_2_256.h", "src/milo/primitive/detail/hash/sha/sha_2_256_impl_sw.h"]}
{"id": "C16", "title": "SHA-384, SHA-512, SHA-512/224, SHA-512/256 are FIPS 180-4", "statement": "The digests of the four 64-bit variants are the FIPS 180-4 digests of the concatenated input, including the 128-bit length field with carry.", "quantifier": "every message (any length, also beyond 2^64 bytes) and every split into update calls below 2^64 bytes each", "why_tests_cant": "the length carry cannot be reached by a test", "anchors": ["src/milo/primitive/detail/hash/sha/sha_2_512.h", "src/milo/primitive/detail/hash/sha/sha_2_512_impl_sw.h"]}
{"id": "C17", "title": "Hash results do not depend on how the message is split", "statement": "Any two sequences of update calls with the same concatenation give the same digest (also empty updates).", "quantifier": "every message, every two splittings, every hash", "why_tests_cant": "exponentially many splittings of each message", "anchors": ["src/milo/internal/update.h: update_block_soak", "src/milo/primitive/hash/apie.h"]}
{"id": "C18", "title": "Digest truncation, repetition and reuse of hash objects", "statement": "digest(n) returns the first min(n, digest_size) bytes of the full digest, repeated digest calls return the same bytes, and initialize forgets everything done before.", "quantifier": "every history of update/digest/initialize calls on the apie object, every requested size", "why_tests_cant": "all call histories", "anchors": ["src/milo/primitive/hash/apie.h: update, digest, initialize, do_finalize"]}
{"id": "C19", "title": "Hash streaming never touches memory outside its buffers", "statement": "No sequence of calls makes update or finalize read or write outside the internal buffer or the caller's input, and at most one block is held back.", "quantifier": "every history of initialize/update/finalize calls with any input sizes", "why_tests_cant": "all histories and sizes", "anchors": ["src/milo/internal/update.h", "src/milo/primitive/detail/hash/sha/sha_1_160.h", "src/milo/primitive/detail/hash/sha/sha_2_256.h", "src/milo/primitive/detail/hash/sha/sha_2_512.h"]}
{"id": "C20", "title": "HMAC is RFC 2104", "statement": "The hmac digest equals H((K xor opad) || H((K xor ipad) || m)) with K the key, hashed first when longer than the block and zero padded.", "quantifier": "every key of every length, every message, every split into update calls, every hash of the library", "why_tests_cant": "all key lengths around the block size times all messages", "anchors": ["src/milo/primitive/detail/mac/hmac/hmac.h"]}
{"id": "C21", "title": "HMAC keys: equivalent keys and only documented collisions", "statement": "A key longer than the block and its hash give the same mac, and so do a short key and the same key padded with zero bytes up to the block size; other keys give different macs unless the hash function is broken (C71).", "quantifier": "every key and message", "why_tests_cant": "all keys", "anchors": ["src/milo/primitive/detail/mac/hmac/hmac.h: initialize"]}
{"id": "C22", "title": "Poly1305 is RFC 8439 Poly1305", "statement": "initialize with a 32 byte key; any updates; finalize; digest yields the RFC 8439 one-time authenticator ((sum of blocks * r^i mod 2^130-5) + s) mod 2^128.", "quantifier": "every 32 byte key, every message, every split into update calls", "why_tests_cant": "carry corner cases occur with negligible probability in random tests", "anchors": ["src/milo/primitive/detail/mac/poly/poly_1305.h", "src/milo/primitive/detail/mac/poly/poly_1305_impl_sw.h"]}
{"id": "C23", "title": "MAC streaming, truncation and reuse", "statement": "mac digests depend only on key and concatenated message, digest(n) is the first min(n, digest_size) bytes, repeated digest calls agree, initialize forgets the previous key and message.", "quantifier": "every history of calls on the mac apie object for hmac and poly1305", "why_tests_cant": "all histories", "anchors": ["src/milo/primitive/mac/apie.h"]}
{"id": "C24", "title": "Poly1305 gives the same tag on big-endian hosts", "statement": "The Poly1305 tag does not depend on the byte order of the host.", "quantifier": "every key and message, both host endiannesses", "why_tests_cant": "no big-endian host in the test set", "anchors": ["src/milo/primitive/detail/mac/poly/poly_1305.h: initialize", "doc/reference.md: Endianness"]}
{"id": "C25", "title": "HKDF is RFC 5869", "statement": "The concatenation of all derived bytes is a prefix of the RFC 5869 output T(1)||T(2)||... for PRK = HMAC(salt, ikm) (the empty salt counting as zero bytes).", "quantifier": "every ikm, salt, info and total output length up to 255 hash lengths", "why_tests_cant": "all lengths and inputs", "anchors": ["src/milo/primitive/detail/kdf/hkdf.h"]}
{"id": "C26", "title": "KDF output is a stream: splitting derive calls changes nothing", "statement": "Deriving n bytes in one call or in any number of calls yields the same bytes.", "quantifier": "every split of every request, hkdf (up to 255 hash lengths) and pbkdf2 (up to 2^32-1 blocks)", "why_tests_cant": "exponentially many splittings", "anchors": ["src/milo/primitive/detail/kdf/hkdf.h: derive", "src/milo/primitive/detail/kdf/pbkdf_2.h: derive", "doc/reference_kdf.md"]}
{"id": "C27", "title": "HKDF refuses or bounds output beyond 255 blocks", "statement": "A request that brings the total beyond 255 hash lengths never yields repeated key material (RFC 5869 requires L <= 255*HashLen).", "quantifier": "every request length and every history", "why_tests_cant": "requires outputs beyond the limit and their comparison", "anchors": ["src/milo/primitive/detail/kdf/hkdf.h: derive, expand"]}
{"id": "C28", "title": "PBKDF2 is RFC 8018", "statement": "The derived bytes are a prefix of T_1||T_2||... with T_i = U_1 xor ... xor U_c, U_1 = PRF(P, S||INT(i)); an iteration count of zero behaves like one.", "quantifier": "every password, salt, iteration count and output length (below 2^32 blocks)", "why_tests_cant": "all iteration counts and lengths", "anchors": ["src/milo/primitive/detail/kdf/pbkdf_2.h"]}
{"id": "C29", "title": "ChaCha20 is RFC 8439 ChaCha20", "statement": "encrypt xors the input with the RFC 8439 key stream for the 32 byte key, with the first 4 iv bytes as little-endian initial counter and the other 12 as nonce.", "quantifier": "every key, iv, message and every split into encrypt/decrypt calls", "why_tests_cant": "infinitely many messages/splits", "anchors": ["src/milo/primitive/detail/cipher/chacha/chacha.h", "src/milo/primitive/detail/cipher/chacha/chacha_impl_sw.h"]}
{"id": "C30", "title": "Cipher streaming is independent of call boundaries and of the backend's block ratio", "statement": "Any split of the input gives the same output, whichever backend (1, 4 or 8 blocks at a time) processes it.", "quantifier": "every split, every backend ratio", "why_tests_cant": "exponentially many splits times backends", "anchors": ["src/milo/internal/update.h: update_block_prod_xor", "src/milo/primitive/detail/cipher/chacha/chacha.h", "src/milo/primitive/detail/cipher/chacha/chacha_impl_hw_x86_64.h"]}
{"id": "C31", "title": "Decryption inverts encryption", "statement": "decrypt with the same key and iv restores the plaintext, for any splits on either side; output size equals input size.", "quantifier": "every key, iv, message, splits", "why_tests_cant": "all messages", "anchors": ["src/milo/primitive/detail/cipher/chacha/chacha.h: encrypt, decrypt", "src/milo/primitive/cipher/apie.h"]}
{"id": "C32", "title": "ChaCha20 block counter", "statement": "The block counter advances by one per 64 bytes modulo 2^32; the key stream for a (key, nonce) repeats exactly after 2^32 blocks and no error is reported.", "quantifier": "every starting counter and every length", "why_tests_cant": "a test would need 256 GiB", "anchors": ["src/milo/primitive/detail/cipher/chacha/chacha.h", "src/milo/internal/update.h"]}
{"id": "C33", "title": "Cipher key and iv lengths are normalised", "statement": "Keys/ivs shorter than key_size/iv_size act as if zero padded, longer ones as if truncated; never out of bounds.", "quantifier": "every key and iv of any length", "why_tests_cant": "all lengths", "anchors": ["src/milo/primitive/detail/cipher/chacha/chacha.h: initialize", "src/milo/internal/memory.h: memory_init_le"]}
{"id": "C34", "title": "In-place operation", "statement": "Encrypting or decrypting in place (output pointer equal to input pointer) gives the same bytes as with separate buffers.", "quantifier": "every message, every split, cipher and AEAD", "why_tests_cant": "all messages and chunkings; aliasing is a memory-model property", "anchors": ["src/milo/primitive/detail/cipher/chacha/chacha.h", "src/milo/internal/memory.h: memory_xor", "src/milo/primitive/detail/aead/chacha/chacha_20_poly_1305.h"]}
{"id": "C35", "title": "ChaCha20-Poly1305 is RFC 8439 AEAD", "statement": "initialize; aad...; aadover; encrypt...; finalize; digest yield the RFC 8439 ciphertext and tag.", "quantifier": "every key, 12 byte nonce, aad, plaintext, every split of both", "why_tests_cant": "all messages and splits, incl. empty ones", "anchors": ["src/milo/primitive/detail/aead/chacha/chacha_20_poly_1305.h", "src/milo/primitive/aead/apie.h: encrypt"]}
{"id": "C36", "title": "AEAD open after seal", "statement": "decrypt of encrypt's output with the produced tag reports no error and returns the plaintext.", "quantifier": "every key, nonce, aad, plaintext, splits on either side", "why_tests_cant": "all messages", "anchors": ["src/milo/primitive/aead/apie.h: encrypt, decrypt, verify"]}
{"id": "C37", "title": "AEAD verification is exact", "statement": "decrypt/verify reports success iff the supplied tag is bit for bit (and length for length) the RFC 8439 tag of the supplied aad and ciphertext.", "quantifier": "every key, nonce, aad, ciphertext, tag of any length", "why_tests_cant": "all forgeries", "anchors": ["src/milo/primitive/aead/apie.h: verify, decrypt", "src/milo/internal/memory.h: memory_match"]}
{"id": "C38", "title": "AEAD verification failure is reported the documented way", "statement": "On a wrong tag, overloads taking an error report it by reference, overloads without throw milo::error; none terminates the process.", "quantifier": "every wrong tag, every decrypt/verify overload", "why_tests_cant": "all forgeries times overloads", "anchors": ["src/milo/primitive/aead/apie.h: verify, decrypt (all overloads)", "doc/reference.md: Errors"]}
{"id": "C39", "title": "No plaintext is released unless the tag verifies", "statement": "After a decrypt call that reports failure, the output buffer does not contain the decrypted bytes.", "quantifier": "every forged ciphertext/tag", "why_tests_cant": "all forgeries", "anchors": ["src/milo/primitive/aead/apie.h: decrypt"]}
{"id": "C40", "title": "AEAD with associated data only", "statement": "With no plaintext, the streaming apie object (initialize; aad; digest) yields the RFC 8439 tag for the empty plaintext.", "quantifier": "every key, nonce and aad", "why_tests_cant": "only lengths not multiple of 16 and no encrypt call expose it", "anchors": ["src/milo/primitive/aead/apie.h: aad, digest, do_finalize, do_finalize_aad", "src/milo/primitive/detail/aead/chacha/chacha_20_poly_1305.h: aadover"]}
{"id": "C41", "title": "AEAD call order: associated data precedes data", "statement": "Associated data supplied after encryption started is rejected or yields a tag that authenticates it as associated data.", "quantifier": "every call history", "why_tests_cant": "all histories", "anchors": ["src/milo/primitive/aead/apie.h: aad", "src/milo/primitive/detail/aead/chacha/chacha_20_poly_1305.h: aad, encrypt"]}
{"id": "C42", "title": "Backend dispatch never selects an unsupported backend", "statement": "A hardware backend is run only if the CPU reports every instruction-set extension the backend declares (and the OS enables it); otherwise the next candidate, finally the portable one, is used.", "quantifier": "every CPUID result, every candidate list and option suite", "why_tests_cant": "one machine gives one CPUID result", "anchors": ["src/milo/internal/impl.h", "src/milo/internal/arch/x86_64.h: ise::check", "src/milo/primitive/detail/hash/impl.h", "src/milo/primitive/detail/cipher/impl.h"]}
{"id": "C43", "title": "Backend and option selection is total and first-wins", "statement": "Selection always yields a backend when the portable one is listed; among several suites options of the same kind, the first given wins and defaults apply only if none is given; an enforced backend is used unconditionally.", "quantifier": "every option list", "why_tests_cant": "all option lists", "anchors": ["src/milo/internal/impl.h", "src/milo/internal/option.h"]}
{"id": "C44", "title": "SSSE3 and AVX2 ChaCha backends equal the portable one", "statement": "The assembly backends produce, for each number of blocks and every state, exactly the bytes of the portable implementation, and advance the counter equally.", "quantifier": "every state, input and block count", "why_tests_cant": "2^512 states", "anchors": ["src/milo/primitive/detail/cipher/chacha/chacha_impl_hw_x86_64.asm", "src/milo/primitive/detail/cipher/chacha/chacha_impl_hw_x86_64.h"]}
{"id": "C45", "title": "SHA-NI SHA-1 backend equals the portable one", "statement": "The assembly compression function computes the same state as the portable one.", "quantifier": "every state, input and block count", "why_tests_cant": "2^672 inputs", "anchors": ["src/milo/primitive/detail/hash/sha/sha_1_160_impl_hw_x86_64.asm"]}
{"id": "C46", "title": "SHA-NI SHA-256 backend equals the portable one", "statement": "The assembly compression function computes the same state as the portable one.", "quantifier": "every state, input and block count", "why_tests_cant": "2^768 inputs", "anchors": ["src/milo/primitive/detail/hash/sha/sha_2_256_impl_hw_x86_64.asm"]}
{"id": "C47", "title": "Objects are wiped on destruction", "statement": "After the destructor of a hash, mac, kdf, cipher or aead object, none of the object's key-, message- or state-dependent members keeps a non-zero byte.", "quantifier": "every history of calls before destruction", "why_tests_cant": "all histories", "anchors": ["src/milo/primitive/detail/hash/sha/sha_1_160.h: ~sha_1_160", "src/milo/primitive/detail/mac/hmac/hmac.h", "src/milo/primitive/detail/mac/poly/poly_1305.h", "src/milo/primitive/detail/kdf/hkdf.h", "src/milo/primitive/detail/kdf/pbkdf_2.h", "src/milo/primitive/detail/cipher/chacha/chacha.h"]}
{"id": "C48", "title": "All sensitive data is zeroed", "statement": "No local buffer holding key material or derived key stream is left un-erased when a call returns (README: zeroing all sensitive data).", "quantifier": "every call with every secret", "why_tests_cant": "residual stack content is invisible to functional tests", "anchors": ["src/milo/primitive/detail/kdf/pbkdf_2.h: expand", "src/milo/primitive/detail/aead/chacha/chacha_20_poly_1305.h: initialize", "README.md"]}
{"id": "C49", "title": "Output containers are sized exactly", "statement": "Container-returning overloads resize a dynamic container to exactly the produced size and write at most size() bytes to a fixed one for hash, mac and kdf outputs; content beyond the written prefix of a fixed container is unchanged.", "quantifier": "every container (dynamic with any previous size, fixed with any size), every requested size", "why_tests_cant": "all sizes", "anchors": ["src/milo/primitive/hash/apie.h", "src/milo/primitive/mac/apie.h", "src/milo/primitive/kdf/apie.h", "src/milo/internal/utility.h: resize"]}
{"id": "C50", "title": "KDF views: later changes of retained buffers", "statement": "Only the buffers the documentation lists (hkdf: info; pbkdf2: ikm and salt) are read after initialize; changing any other input buffer after initialize does not change derived keys. The listed buffers are read (at run time) in the request that first needs a block of the key: a block is computed from their content at that time.", "quantifier": "every modification of the caller's buffers between initialize and derive", "why_tests_cant": "all mutations at all times", "anchors": ["src/milo/primitive/detail/kdf/hkdf.h: initialize", "src/milo/primitive/detail/kdf/pbkdf_2.h: initialize", "doc/reference_kdf.md:50"]}
{"id": "C51", "title": "Objects may move from constant evaluation to run time", "statement": "A cipher, hash, mac or aead object that has processed part of its input during constant evaluation (constinit) and the rest at run time produces the same output as one used entirely at run time, whatever backend is selected there.", "quantifier": "every split of the calls between constant evaluation and run time, every backend", "why_tests_cant": "the portable and the accelerated implementation use the object's buffer in units of different size; a test runs wholly in one mode", "anchors": ["src/milo/internal/update.h: update_block_prod_xor", "src/milo/internal/impl.h: impl_proxy::invoke", "src/milo/primitive/detail/cipher/chacha/chacha.h: m_buffer"]}
{"id": "C52", "title": "The documented pointer sequence for AEAD gives the RFC tag", "statement": "initialize; aad...; encrypt... (or decrypt...); finalize; digest, as in the reference's pointer example (no aadover), yields the RFC 8439 tag.", "quantifier": "every key, nonce, aad, text", "why_tests_cant": "the example uses one aad size", "anchors": ["doc/reference_aead.md", "src/milo/primitive/detail/aead/chacha/chacha_20_poly_1305.h: aad, aadover, encrypt"]}
{"id": "C53", "title": "AEAD texts within the RFC 8439 limit, and none beyond it", "statement": "Texts of up to 2^38-64 bytes (RFC 8439 section 2.8) are encrypted with key stream blocks 1, 2, ... of which none repeats and none is the block the one-time authentication key comes from; longer texts are refused.", "quantifier": "every key, nonce, text length and split over calls", "why_tests_cant": "needs texts of 256 GiB", "anchors": ["src/milo/primitive/aead/apie.h: encrypt, decrypt", "src/milo/primitive/detail/aead/chacha/chacha_20_poly_1305.h: encrypt, decrypt", "src/milo/primitive/detail/cipher/chacha/chacha_impl_sw.h"]}
{"id": "C54", "title": "Output containers of fixed size are never overrun", "statement": "Given an output container of fixed size (array, span), encode, decode, encrypt and decrypt put the result at its beginning and leave the rest unchanged if it fits, and never write outside the container.", "quantifier": "every text and container size, every backend", "why_tests_cant": "an overrun of an array need not be visible", "anchors": ["src/milo/primitive/codec/apie.h: encode, decode", "src/milo/primitive/cipher/apie.h: encrypt, decrypt", "src/milo/primitive/aead/apie.h: encrypt, decrypt", "src/milo/internal/utility.h: resize"]}
{"id": "C55", "title": "The size returned with a decoding error is the number of bytes decoded", "statement": "When a text is rejected, the size returned beside the error is the number of bytes written, those of the part of the text before the first bad group.", "quantifier": "every text with an error, every position of the error", "why_tests_cant": "all texts", "anchors": ["src/milo/primitive/codec/apie.h: decode", "src/milo/primitive/detail/codec/base_16.h: decode", "src/milo/primitive/detail/codec/base_64.h: decode"]}
{"id": "C56", "title": "The assembly functions obey the calling conventions of Linux and Windows", "statement": "Called as the C++ headers declare them, the ChaCha, SHA and cpuid assembly functions end without a fault, return to their caller with its stack pointer and its callee-saved general and vector registers, write nothing but the destination (or state) area and their own stack, need no alignment of their arguments, and leave the right bytes and return value.", "quantifier": "every register and memory content at entry, every number of blocks, every placement of source, destination and state, both conventions", "why_tests_cant": "a clobbered register or a write outside shows only in callers that keep something there; a test runs on one platform", "anchors": ["src/milo/primitive/detail/cipher/chacha/chacha_impl_hw_x86_64.asm", "src/milo/primitive/detail/hash/sha/sha_1_160_impl_hw_x86_64.asm", "src/milo/primitive/detail/hash/sha/sha_2_256_impl_hw_x86_64.asm", "src/milo/internal/arch/x86_64/cpuid.asm", "src/milo/internal/arch/x86_64/abi.asm"]}
{"id": "C57", "title": "Pattern expressions select exactly the benchmark names they allow", "statement": "In the command line application a pattern selects a name if and only if the name is the pattern with each star replaced by some characters; matching always ends.", "quantifier": "every pattern and every name", "why_tests_cant": "infinitely many patterns", "anchors": ["app/include/milo/app/pattern.h: pattern_match_star"]}
{"id": "C58", "title": "Options count only directly after their command, everything else is ignored", "statement": "An option or parameter is seen by a command exactly if it stands between that command and the next argument without dashes, in any order among others; options given too early, too late or unknown change nothing.", "quantifier": "every argument list", "why_tests_cant": "all argument lists", "anchors": ["app/include/milo/app/app.h: option, command, parameter", "app/include/milo/app/run.h: run", "doc/benchmarking.md"]}
{"id": "C59", "title": "Parameters have the value they are given", "statement": "A parameter --name=value of a command has that decimal value, one that is omitted is reported with the documented error or has its default, one whose value is no number or too big is an error.", "quantifier": "every argument list, every name and value", "why_tests_cant": "all argument lists", "anchors": ["app/include/milo/app/app.h: parameter"]}
{"id": "C60", "title": "The application always ends with a status", "statement": "Whatever the arguments, the application has no undefined behaviour and ends with status 0, or with an error message and status 1.", "quantifier": "every argument list, every time measured", "why_tests_cant": "all argument lists", "anchors": ["app/main.cpp", "app/include/milo/app/run.h: run", "app/include/milo/app/app.h", "app/include/milo/app/command/benchmark.h: run, primitive, invoke"]}
{"id": "C61", "title": "The documented patterns run the documented benchmarks with the documented parameters", "statement": "With the parameters the documentation gives for it, each documented pattern runs exactly the listed benchmarks it allows, with these inputs, and reports them; without one of the parameters it ends with the documented error; list prints every name once.", "quantifier": "every placement of options, every value of the parameters, every time measured, both architectures", "why_tests_cant": "all values and argument lists", "anchors": ["doc/benchmarking.md", "app/include/milo/app/command/benchmark.h: invoke, declare, primitive, run", "app/include/milo/app/parameter.h: parse"]}
{"id": "C62", "title": "The metrics reported are those of the measurement", "statement": "Nanoseconds per call, gigabytes and megabytes per second, cycles per call and per byte are the exact quotients of time, calls, bytes and clock rate (up to the rounding of floating point division).", "quantifier": "every time measured, number of repeats, input size and clock rate", "why_tests_cant": "overflow needs long measurements", "anchors": ["app/include/milo/app/command/benchmark.h: invoke, run"]}
{"id": "C63", "title": "What the application prints is JSON", "statement": "The result printed, with or without --verbose, is a JSON text (RFC 8259) that denotes the configuration and metrics, in whatever order members of objects come.", "quantifier": "every result, argument list and order of members", "why_tests_cant": "all argument lists and measurements", "anchors": ["app/include/milo/app/type.h: to_json", "app/include/milo/app/run.h: run", "app/include/milo/app/command/benchmark.h: run"]}
{"id": "C64", "title": "Timing and memory accesses of the assembly functions tell nothing of keys and texts", "statement": "The sequence of instructions executed and addresses accessed by the ChaCha and SHA assembly functions depends only on the stack pointer and the arguments (pointers, numbers of rounds and blocks), not on the contents of memory (key, state, text, stack but for an argument passed there), nor on other registers.", "quantifier": "every pair of executions with the same arguments, every memory and register content, both calling conventions, every number of steps", "why_tests_cant": "secret-dependent time is a relation between executions, invisible in outputs", "anchors": ["src/milo/primitive/detail/cipher/chacha/chacha_impl_hw_x86_64.asm", "src/milo/primitive/detail/hash/sha/sha_1_160_impl_hw_x86_64.asm", "src/milo/primitive/detail/hash/sha/sha_2_256_impl_hw_x86_64.asm"]}
{"id": "C65", "title": "Objects can be copied, moved, assigned and destroyed at any time", "statement": "Copying, moving and assigning (also to itself) gives an object that answers every later call like the source would have, and the two do not influence each other; key derivation objects, which own memory during constant evaluation, never read freed memory, free twice or leak. Moved-from objects can be initialised, assigned to and destroyed.", "quantifier": "every program with any number of objects of a class, every order of construction, copy, move, assignment, destruction and calls, every content of the caller's buffers at any time", "why_tests_cant": "all orders of operations on all numbers of objects", "anchors": ["doc/reference.md:103", "src/milo/internal/memory.h: memory_view", "src/milo/primitive/detail/kdf/hkdf.h", "src/milo/primitive/detail/kdf/pbkdf_2.h", "src/milo/primitive/detail/hash/sha", "src/milo/primitive/detail/mac", "src/milo/primitive/detail/cipher", "src/milo/primitive/detail/aead", "src/milo/primitive/hash/apie.h", "src/milo/primitive/mac/apie.h", "src/milo/primitive/cipher/apie.h", "src/milo/primitive/aead/apie.h"]}
{"id": "C66", "title": "A test vector passes exactly if it is right", "statement": "The vector tests the library offers (hash, mac, kdf, cipher, aead, codec) return true exactly if the expected value is the one of the published standard, never throw, and refuse keys longer than the key size.", "quantifier": "every message, key, initialisation vector, associated data, text and expected value, every algorithm, backend and host", "why_tests_cant": "a test function that accepts wrong values is not seen by running it on right ones", "anchors": ["src/milo/primitive/hash/test.h: digest", "src/milo/primitive/mac/test.h: digest", "src/milo/primitive/kdf/test.h: derive", "src/milo/primitive/cipher/test.h: encrypt, decrypt", "src/milo/primitive/aead/test.h: encrypt, decrypt", "src/milo/primitive/codec/test.h: encode, decode"]}
{"id": "C67", "title": "A differential test passes exactly if the implementations agree on its inputs", "statement": "The differential tests end without undefined behaviour and return true exactly if the two implementations give the same results on every input of the test, however the input is cut; for two implementations of one algorithm (portable or SHA instructions or SSSE3 or AVX2, compile time or run time) they return true.", "quantifier": "every pair of algorithms, backends, digest sizes and hosts, all rounds and piece sizes of the test", "why_tests_cant": "running a test shows one outcome for one pair", "anchors": ["src/milo/primitive/hash/test.h: differential", "src/milo/primitive/mac/test.h: differential", "src/milo/primitive/kdf/test.h: differential", "src/milo/primitive/cipher/test.h: differential"]}
{"id": "C68", "title": "Running out of memory harms nothing", "statement": "When a container that is to receive a result cannot grow, the call throws std::bad_alloc (the process is not terminated), the container keeps its content, and the object behaves as if the call had not been made, except that a digest has ended the message as any digest does: later calls give the right results.", "quantifier": "every object of every class, every history of calls with any calls running out of memory, every container; every free function", "why_tests_cant": "allocation fails at points a test cannot choose, in any combination", "anchors": ["src/milo/internal/utility.h: resize", "src/milo/primitive/hash/apie.h: digest", "src/milo/primitive/mac/apie.h: digest", "src/milo/primitive/kdf/apie.h: derive", "src/milo/primitive/cipher/apie.h: encrypt, decrypt", "src/milo/primitive/aead/apie.h: encrypt, decrypt, digest", "src/milo/primitive/codec/apie.h: encode, decode"]}
{"id": "C69", "title": "Who does not know the key cannot forge tags", "statement": "Counting one-time keys: any tag of n bytes fits a message under exactly 2^128 * 256^(16-n) of the 2^256 Poly1305 keys, so a tag says nothing about the message; and of the keys that fit a message and its tag, at most the fraction 2^(131-8n) * blocks / 2^106 makes a given tag right for a given other message. For the AEAD: whoever saw associated data, ciphertext and tag and submits any list of other triples under the same nonce finds decrypt accepting one of them for at most sum(8 * blocks) * 2^22 of the 2^128 one-time keys that fit; associated data and ciphertext are unambiguously encoded (bytes cannot be moved from one to the other).", "quantifier": "all pairs of different messages, all tags, tag lengths, hosts, lists of attempts, keys, nonces and backends", "why_tests_cant": "a forgery that works for one key in 2^60 is out of reach of any test; the bound is an argument about roots of polynomials over a field of 2^130-5 elements", "anchors": ["src/milo/primitive/detail/mac/poly/poly_1305_impl_sw.h: initialize, update, finalize, digest", "src/milo/primitive/detail/aead/chacha/chacha_20_poly_1305.h", "src/milo/primitive/aead/apie.h: digest, verify", "src/milo/primitive/mac/apie.h: digest"]}
{"id": "C70", "title": "The result may take the place of the input", "statement": "A text may be decoded into its own memory, a text encoded into the memory it lies in, and key material derived into the memory of the input key, salt or info the object retains: the result is the one with memory of its own. The same holds when one container is passed for input and result.", "quantifier": "every content of the memory, every place of input and result in it, every container, every text, host and length derived", "why_tests_cant": "overlaps are never among the tested inputs, and what is lost depends on every byte and offset", "anchors": ["src/milo/primitive/codec/apie.h: encode, decode", "src/milo/primitive/detail/codec/base_16.h: encode, decode", "src/milo/primitive/detail/codec/base_64.h: encode, decode", "src/milo/primitive/kdf/apie.h: derive", "src/milo/primitive/detail/kdf/hkdf.h: derive", "src/milo/primitive/detail/kdf/pbkdf_2.h: derive"]}
{"id": "C71", "title": "Different messages give different digests unless the compression function is broken", "statement": "Two hash objects of one class (on any hosts, after any earlier use, however the messages are cut into updates) that write the same n digest bytes got the same message, or the evaluations of the FIPS 180-4 compression function made for these two messages contain two different inputs with the same result (in the n bytes kept, for the last one). For HMAC the same tag means the same message and keys RFC 2104 makes equal; for HKDF the same key bytes mean the same input key and info and equivalent salts: or one of the hash computations in it is broken in that sense.", "quantifier": "all pairs of messages, keys, salts and infos up to the length FIPS 180-4 allows, all hosts, update splittings, digest sizes and earlier uses", "why_tests_cant": "a padding or encoding flaw that makes two messages collide shows only for the pair concerned, and tests compare single messages with known answers", "anchors": ["src/milo/primitive/detail/hash/sha/sha_2_256_impl_sw.h: update, finalize, digest", "src/milo/primitive/detail/hash/sha/sha_1_160_impl_sw.h", "src/milo/primitive/detail/mac/hmac/hmac.h", "src/milo/primitive/detail/kdf/hkdf.h"]}
{"id": "C72", "title": "Branches and array positions do not depend on secrets", "statement": "Two uses of a hash, mac, kdf, cipher or aead object that differ only in the bytes of keys, nonces, messages, texts, tags, memory contents and old buffer contents (the same calls, sizes, positions and iteration counts) take the same branches and access the same array positions in the portable C++ code; for the aead api this holds given the same verdicts of verify, so where a wrong tag differs is not observed.", "quantifier": "all sequences of calls on each class, all contents of the same sizes, all hosts, byte orders and back ends", "why_tests_cant": "a test compares outputs, and a timing experiment compares a few inputs on one machine; the claim is about every pair of secrets", "anchors": ["src/milo/internal/memory.h: memory_match, memory_equal, memory_load, memory_stor, memory_copy", "src/milo/internal/update.h", "src/milo/primitive/detail/hash/sha/sha_2_512_impl_sw.h", "src/milo/primitive/detail/mac/hmac/hmac.h", "src/milo/primitive/detail/mac/poly/poly_1305_impl_sw.h", "src/milo/primitive/detail/kdf/hkdf.h", "src/milo/primitive/detail/kdf/pbkdf_2.h", "src/milo/primitive/aead/apie.h: verify", "doc/reference_aead.md: 156"]}
{"id": "C73", "title": "PBKDF2 refuses keys that are too long", "statement": "RFC 8018 5.2 step 1: asked for more than (2^32 - 1) blocks in total, PBKDF2 must refuse instead of delivering key bytes that repeat or that the standard does not define.", "quantifier": "all passwords, salts, iteration counts, requests of any number of bytes in total, all hash functions", "why_tests_cant": "a run over the limit would take 2^32 blocks (80 GB of output) before the first wrong byte", "anchors": ["src/milo/primitive/detail/kdf/pbkdf_2.h: derive", "doc/reference_kdf.md"]}
{"id": "C74", "title": "Codecs work for every text the machine can hold", "statement": "On a machine whose size_t has w bits (32 as well as 64), the container overloads of the codecs give the container the room for the result, and the result is the right one, for every input whose result the machine can address.", "quantifier": "all inputs and texts of fewer than 2^w bytes, all w from 4 to 64, all previous contents of the container", "why_tests_cant": "the inputs concerned are gigabytes long, and tests run on 64-bit machines, where they would have to be exabytes", "anchors": ["src/milo/primitive/detail/codec/base_64.h: encode_size, decode_size", "src/milo/primitive/detail/codec/base_16.h: encode_size, decode_size", "src/milo/primitive/codec/apie.h: encode, decode"]}
{"id": "C75", "title": "Members of an object are found again", "statement": "In the application's values (app::type::object), what is assigned under a name is what is read under that name afterwards, in whatever form the name is given (literal, std::string, std::string_view, number); a name never assigned is reported as missing, and each name is there (and in the JSON text) once.", "quantifier": "all histories of assignments, all names and values, all hash functions, numbers of buckets and node orders a standard library may choose", "why_tests_cant": "whether two forms of a name meet in one bucket depends on hash values, on the number of members and on the standard library; a test sees one of these", "anchors": ["app/include/milo/app/type.h: var::hash, var::compare, std::hash<var>, object::operator[]"]}
{"id": "C76", "title": "Values are equal when their contents are", "statement": "operator== of two values (app::type::var) is true exactly when they hold the same text, number or truth value, whatever C++ type each is held as; so it is symmetric and transitive.", "quantifier": "all pairs of texts, 64-bit signed and unsigned integers, doubles and truth values", "why_tests_cant": "the comparison converts one side to the type of the other, and the values where the conversion loses something (fractions, signs, 2^53 + 1) are not those a test uses", "anchors": ["app/include/milo/app/type.h: var::compare, operator=="]}
{"id": "C77", "title": "Reading a value as a type it does not have is refused", "statement": "Converting an app::type::var to size_t, bool or a reference to the stored type gives the value, and throws std::logic_error if it holds something else; an array is only read inside its bounds.", "quantifier": "all values, all types asked for, all arrays and indices", "why_tests_cant": "undefined behaviour on the wrong type need not show in a test run, and the types asked for are chosen by template arguments", "anchors": ["app/include/milo/app/type.h: operator size_t, operator bool, operator const t_type&, var::as, array::operator[]"]}
{"id": "C78", "title": "A digest covers all data given since initialize", "statement": "Every byte given to update of a hash or mac object (or encrypted or decrypted by an aead object) since the last initialize (or construction) is covered by every digest taken later, also when another digest was taken in between; or such a call is refused. (The manual asks for initialize before reuse; nothing checks it.)", "quantifier": "all sequences of calls in any order, all messages, keys and algorithms, all hosts", "why_tests_cant": "tests take one digest per message; whether data after a digest changes the next one depends on the lengths of both", "anchors": ["src/milo/primitive/hash/apie.h: do_finalize, update, digest", "src/milo/primitive/mac/apie.h: do_finalize, update, digest", "src/milo/primitive/aead/apie.h: encrypt, decrypt, do_finalize", "src/milo/primitive/detail/hash/sha/sha_1_160.h: finalize", "src/milo/primitive/detail/hash/sha/sha_2_256.h: finalize", "src/milo/primitive/detail/hash/sha/sha_2_512.h: finalize", "src/milo/primitive/detail/mac/hmac/hmac.h: finalize", "doc/reference_hash.md: 159", "doc/reference_mac.md: 167"]}
