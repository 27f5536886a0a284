#!/usr/bin/env python3
"""Writes /verif/properties.jsonl (single place where the English properties are edited)."""
import json, os
P = []
def p(title, statement, quantifier, why, anchors):
    P.append(dict(id="C%02d" % (len(P)+1), title=title, statement=statement, quantifier=quantifier,
                  why_tests_cant=why, anchors=anchors))
D = "src/milo/primitive/detail/"
I = "src/milo/internal/"
A = "src/milo/primitive/"

# ---- codecs
p("Base-16 encoding is exact",
  "codec::encode with base_16 writes, for each input byte in order, the two lowercase hexadecimal digits (high nibble first), returns exactly encode_size(...) = 2*n and writes nothing else.",
  "every byte string of every length",
  "unbounded lengths and all byte values in all positions; tests sample literals",
  [D+"codec/base_16.h: encode, encode_size"])
p("Base-16 round trip",
  "decode(encode(x)) reports no error and returns x, and decode accepts the same digits in upper case, for any mix of cases.",
  "every byte string; every choice of upper/lower case per digit",
  "2^n case mixes per text and unbounded lengths",
  [D+"codec/base_16.h: encode, decode"])
p("Base-16 decode accepts exactly the hexadecimal texts (even length)",
  "For an even-length text, decode reports an error iff some character is not one of 0-9, a-f, A-F; when it reports none the result is the value of the text.",
  "every even-length character string over all 256 byte values, on platforms with signed and with unsigned char",
  "all characters in all positions; the failing bytes (0x80..0xff on signed-char targets) are not in the test vectors",
  [D+"codec/base_16.h: decode"])
p("Base-16 decode of odd-length texts",
  "For an odd-length text of hexadecimal digits, decode treats the first digit as a byte of its own and decodes every following pair, returning (n+1)/2 bytes.",
  "every odd-length hexadecimal text",
  "needs all odd lengths; the vectors only hold even-length texts",
  [D+"codec/base_16.h: decode, decode_size"])
p("Codec decoders and encoders stay inside the advertised output size",
  "If the caller provides encode_size(...) (resp. decode_size(...)) bytes of output, encode (resp. decode) never writes outside them and the size returned without error is exactly the advertised size, whatever the input (valid or garbage).",
  "every input string (arbitrary bytes, any length) for base_16 and base_64",
  "memory safety on every malformed input",
  [D+"codec/base_16.h", D+"codec/base_64.h: encode_size, decode_size, encode, decode"])
p("Base-64 encoding is RFC 4648",
  "encode with base_64 produces exactly the RFC 4648 section 4 encoding (standard alphabet, '=' padding) and its size is encode_size(...).",
  "every byte string (length below 2^62 so that size_t arithmetic in encode_size does not wrap)",
  "unbounded lengths, all byte triples",
  [D+"codec/base_64.h: encode, encode_size"])
p("Base-64 round trip",
  "decode(encode(x)) reports no error and returns x; encode is therefore injective.",
  "every byte string", "unbounded lengths, all byte values",
  [D+"codec/base_64.h: encode, decode"])
p("Base-64 decode accepts exactly well-formed padded texts",
  "decode reports no error iff the length is a multiple of four, every character is in the alphabet except that the last group may end in '=' or '=='; the result is then the bytes those sextets spell.",
  "every character string over all 256 byte values, signed and unsigned char platforms",
  "all characters in all positions incl. padding positions; the failing bytes are not in the vectors",
  [D+"codec/base_64.h: decode"])
p("Base-64 texts are canonical",
  "Every text decode accepts is the encoding of the bytes it returns (no two texts decode to the same bytes).",
  "every pair of accepted texts", "quantifies over all pairs of texts",
  [D+"codec/base_64.h: decode"])
p("Codec error reporting is consistent across overloads and containers",
  "The throwing overload throws a given error iff the non-throwing overload returns that error by reference, otherwise both give the same result; a resizable output container ends with exactly the returned number of bytes.",
  "every input, every previous content/size of the output container, both codecs",
  "all inputs and prior container states",
  [A+"codec/apie.h: encode, decode", "src/milo/error.h"])
# ---- memory
p("Compile-time and run-time memory primitives agree",
  "The constant-evaluation path and the memcpy path of the load/store/copy/set/equal primitives give the same bytes/words for each combination of value width and element width, on little and big endian targets.",
  "every buffer content, offset, size, value; both endiannesses; each width combination used by the library",
  "tests run one endianness and fixed values",
  [I+"memory.h: memory_load, memory_stor, memory_copy, memory_set, memory_equal", I+"endian.h"])
p("Endian-qualified loads and stores are host independent and inverse",
  "load_be/load_le give the big/little-endian value of the addressed bytes on every host, store then load returns the value, and nothing outside the addressed bytes changes.",
  "every value, buffer, offset, width, both host endiannesses", "big-endian hosts are not tested at all (doc/reference.md)",
  [I+"memory.h: memory_load_be, memory_load_le, memory_stor_be, memory_stor_le", I+"endian.h: endian_swap_sw"])
p("Constant-time comparison is equality",
  "The tag comparison used for verification returns true iff both containers have the same size and the same bytes, and the number of byte comparisons depends only on the sizes.",
  "every pair of byte strings of any sizes", "all pairs",
  [I+"memory.h: memory_match"])
# ---- hashes
p("SHA-1 is FIPS 180-4 SHA-1",
  "initialize; any updates; finalize; digest yields the FIPS 180-4 SHA-1 digest of the concatenated input.",
  "every message and every split of it into update calls", "infinitely many messages; collisions of padding cases and splits",
  [D+"hash/sha/sha_1_160.h", D+"hash/sha/sha_1_160_impl_sw.h"])
p("SHA-224 and SHA-256 are FIPS 180-4",
  "The digests of sha_2_224 and sha_2_256 are the FIPS 180-4 digests of the concatenated input.",
  "every message and every split into update calls", "as above",
  [D+"hash/sha/sha_2_256.h", D+"hash/sha/sha_2_256_impl_sw.h"])
p("SHA-384, SHA-512, SHA-512/224, SHA-512/256 are FIPS 180-4",
  "The digests of the four 64-bit variants are the FIPS 180-4 digests of the concatenated input, including the 128-bit length field with carry.",
  "every message (any length, also beyond 2^64 bytes) and every split into update calls below 2^64 bytes each", "the length carry cannot be reached by a test",
  [D+"hash/sha/sha_2_512.h", D+"hash/sha/sha_2_512_impl_sw.h"])
p("Hash results do not depend on how the message is split",
  "Any two sequences of update calls with the same concatenation give the same digest (also empty updates).",
  "every message, every two splittings, every hash", "exponentially many splittings of each message",
  [I+"update.h: update_block_soak", A+"hash/apie.h"])
p("Digest truncation, repetition and reuse of hash objects",
  "digest(n) returns the first min(n, digest_size) bytes of the full digest, repeated digest calls return the same bytes, and initialize forgets everything done before.",
  "every history of update/digest/initialize calls on the apie object, every requested size", "all call histories",
  [A+"hash/apie.h: update, digest, initialize, do_finalize"])
p("Hash streaming never touches memory outside its buffers",
  "No sequence of calls makes update or finalize read or write outside the internal buffer or the caller's input, and at most one block is held back.",
  "every history of initialize/update/finalize calls with any input sizes", "all histories and sizes",
  [I+"update.h", D+"hash/sha/sha_1_160.h", D+"hash/sha/sha_2_256.h", D+"hash/sha/sha_2_512.h"])
# ---- mac
p("HMAC is RFC 2104",
  "The hmac digest equals H((K xor opad) || H((K xor ipad) || m)) with K the key, hashed first when longer than the block and zero padded.",
  "every key of every length, every message, every split into update calls, every hash of the library", "all key lengths around the block size times all messages",
  [D+"mac/hmac/hmac.h"])
p("HMAC keys: equivalent keys and only documented collisions",
  "A key longer than the block and its hash give the same mac, and so do a short key and the same key padded with zero bytes up to the block size; other keys give different macs unless the hash function is broken (C71).",
  "every key and message", "all keys",
  [D+"mac/hmac/hmac.h: initialize"])
p("Poly1305 is RFC 8439 Poly1305",
  "initialize with a 32 byte key; any updates; finalize; digest yields the RFC 8439 one-time authenticator ((sum of blocks * r^i mod 2^130-5) + s) mod 2^128.",
  "every 32 byte key, every message, every split into update calls", "carry corner cases occur with negligible probability in random tests",
  [D+"mac/poly/poly_1305.h", D+"mac/poly/poly_1305_impl_sw.h"])
p("MAC streaming, truncation and reuse",
  "mac digests depend only on key and concatenated message, digest(n) is the first min(n, digest_size) bytes, repeated digest calls agree, initialize forgets the previous key and message.",
  "every history of calls on the mac apie object for hmac and poly1305", "all histories",
  [A+"mac/apie.h"])
p("Poly1305 gives the same tag on big-endian hosts",
  "The Poly1305 tag does not depend on the byte order of the host.",
  "every key and message, both host endiannesses", "no big-endian host in the test set",
  [D+"mac/poly/poly_1305.h: initialize", "doc/reference.md: Endianness"])
# ---- kdf
p("HKDF is RFC 5869",
  "The concatenation of all derived bytes is a prefix of the RFC 5869 output T(1)||T(2)||... for PRK = HMAC(salt, ikm) (the empty salt counting as zero bytes).",
  "every ikm, salt, info and total output length up to 255 hash lengths", "all lengths and inputs",
  [D+"kdf/hkdf.h"])
p("KDF output is a stream: splitting derive calls changes nothing",
  "Deriving n bytes in one call or in any number of calls yields the same bytes.",
  "every split of every request, hkdf (up to 255 hash lengths) and pbkdf2 (up to 2^32-1 blocks)", "exponentially many splittings",
  [D+"kdf/hkdf.h: derive", D+"kdf/pbkdf_2.h: derive", "doc/reference_kdf.md"])
p("HKDF refuses or bounds output beyond 255 blocks",
  "A request that brings the total beyond 255 hash lengths never yields repeated key material (RFC 5869 requires L <= 255*HashLen).",
  "every request length and every history", "requires outputs beyond the limit and their comparison",
  [D+"kdf/hkdf.h: derive, expand"])
p("PBKDF2 is RFC 8018",
  "The derived bytes are a prefix of T_1||T_2||... with T_i = U_1 xor ... xor U_c, U_1 = PRF(P, S||INT(i)); an iteration count of zero behaves like one.",
  "every password, salt, iteration count and output length (below 2^32 blocks)", "all iteration counts and lengths",
  [D+"kdf/pbkdf_2.h"])
# ---- cipher
p("ChaCha20 is RFC 8439 ChaCha20",
  "encrypt xors the input with the RFC 8439 key stream for the 32 byte key, with the first 4 iv bytes as little-endian initial counter and the other 12 as nonce.",
  "every key, iv, message and every split into encrypt/decrypt calls", "infinitely many messages/splits",
  [D+"cipher/chacha/chacha.h", D+"cipher/chacha/chacha_impl_sw.h"])
p("Cipher streaming is independent of call boundaries and of the backend's block ratio",
  "Any split of the input gives the same output, whichever backend (1, 4 or 8 blocks at a time) processes it.",
  "every split, every backend ratio", "exponentially many splits times backends",
  [I+"update.h: update_block_prod_xor", D+"cipher/chacha/chacha.h", D+"cipher/chacha/chacha_impl_hw_x86_64.h"])
p("Decryption inverts encryption",
  "decrypt with the same key and iv restores the plaintext, for any splits on either side; output size equals input size.",
  "every key, iv, message, splits", "all messages",
  [D+"cipher/chacha/chacha.h: encrypt, decrypt", A+"cipher/apie.h"])
p("ChaCha20 block counter",
  "The block counter advances by one per 64 bytes modulo 2^32; the key stream for a (key, nonce) repeats exactly after 2^32 blocks and no error is reported.",
  "every starting counter and every length", "a test would need 256 GiB",
  [D+"cipher/chacha/chacha.h", I+"update.h"])
p("Cipher key and iv lengths are normalised",
  "Keys/ivs shorter than key_size/iv_size act as if zero padded, longer ones as if truncated; never out of bounds.",
  "every key and iv of any length", "all lengths",
  [D+"cipher/chacha/chacha.h: initialize", I+"memory.h: memory_init_le"])
p("In-place operation",
  "Encrypting or decrypting in place (output pointer equal to input pointer) gives the same bytes as with separate buffers.",
  "every message, every split, cipher and AEAD", "all messages and chunkings; aliasing is a memory-model property",
  [D+"cipher/chacha/chacha.h", I+"memory.h: memory_xor", D+"aead/chacha/chacha_20_poly_1305.h"])
# ---- aead
p("ChaCha20-Poly1305 is RFC 8439 AEAD",
  "initialize; aad...; aadover; encrypt...; finalize; digest yield the RFC 8439 ciphertext and tag.",
  "every key, 12 byte nonce, aad, plaintext, every split of both", "all messages and splits, incl. empty ones",
  [D+"aead/chacha/chacha_20_poly_1305.h", A+"aead/apie.h: encrypt"])
p("AEAD open after seal",
  "decrypt of encrypt's output with the produced tag reports no error and returns the plaintext.",
  "every key, nonce, aad, plaintext, splits on either side", "all messages",
  [A+"aead/apie.h: encrypt, decrypt, verify"])
p("AEAD verification is exact",
  "decrypt/verify reports success iff the supplied tag is bit for bit (and length for length) the RFC 8439 tag of the supplied aad and ciphertext.",
  "every key, nonce, aad, ciphertext, tag of any length", "all forgeries",
  [A+"aead/apie.h: verify, decrypt", I+"memory.h: memory_match"])
p("AEAD verification failure is reported the documented way",
  "On a wrong tag, overloads taking an error report it by reference, overloads without throw milo::error; none terminates the process.",
  "every wrong tag, every decrypt/verify overload", "all forgeries times overloads",
  [A+"aead/apie.h: verify, decrypt (all overloads)", "doc/reference.md: Errors"])
p("No plaintext is released unless the tag verifies",
  "After a decrypt call that reports failure, the output buffer does not contain the decrypted bytes.",
  "every forged ciphertext/tag", "all forgeries",
  [A+"aead/apie.h: decrypt"])
p("AEAD with associated data only",
  "With no plaintext, the streaming apie object (initialize; aad; digest) yields the RFC 8439 tag for the empty plaintext.",
  "every key, nonce and aad", "only lengths not multiple of 16 and no encrypt call expose it",
  [A+"aead/apie.h: aad, digest, do_finalize, do_finalize_aad", D+"aead/chacha/chacha_20_poly_1305.h: aadover"])
p("AEAD call order: associated data precedes data",
  "Associated data supplied after encryption started is rejected or yields a tag that authenticates it as associated data.",
  "every call history", "all histories",
  [A+"aead/apie.h: aad", D+"aead/chacha/chacha_20_poly_1305.h: aad, encrypt"])
# ---- dispatch
p("Backend dispatch never selects an unsupported backend",
  "A hardware backend is run only if the CPU reports every instruction-set extension the backend declares (and the OS enables it); otherwise the next candidate, finally the portable one, is used.",
  "every CPUID result, every candidate list and option suite", "one machine gives one CPUID result",
  [I+"impl.h", I+"arch/x86_64.h: ise::check", D+"hash/impl.h", D+"cipher/impl.h"])
p("Backend and option selection is total and first-wins",
  "Selection always yields a backend when the portable one is listed; among several suites options of the same kind, the first given wins and defaults apply only if none is given; an enforced backend is used unconditionally.",
  "every option list", "all option lists",
  [I+"impl.h", I+"option.h"])
p("SSSE3 and AVX2 ChaCha backends equal the portable one",
  "The assembly backends produce, for each number of blocks and every state, exactly the bytes of the portable implementation, and advance the counter equally.",
  "every state, input and block count", "2^512 states",
  [D+"cipher/chacha/chacha_impl_hw_x86_64.asm", D+"cipher/chacha/chacha_impl_hw_x86_64.h"])
p("SHA-NI SHA-1 backend equals the portable one",
  "The assembly compression function computes the same state as the portable one.",
  "every state, input and block count", "2^672 inputs",
  [D+"hash/sha/sha_1_160_impl_hw_x86_64.asm"])
p("SHA-NI SHA-256 backend equals the portable one",
  "The assembly compression function computes the same state as the portable one.",
  "every state, input and block count", "2^768 inputs",
  [D+"hash/sha/sha_2_256_impl_hw_x86_64.asm"])
# ---- lifecycle
p("Objects are wiped on destruction",
  "After the destructor of a hash, mac, kdf, cipher or aead object, none of the object's key-, message- or state-dependent members keeps a non-zero byte.",
  "every history of calls before destruction", "all histories",
  [D+"hash/sha/sha_1_160.h: ~sha_1_160", D+"mac/hmac/hmac.h", D+"mac/poly/poly_1305.h", D+"kdf/hkdf.h", D+"kdf/pbkdf_2.h", D+"cipher/chacha/chacha.h"])
p("All sensitive data is zeroed",
  "No local buffer holding key material or derived key stream is left un-erased when a call returns (README: zeroing all sensitive data).",
  "every call with every secret", "residual stack content is invisible to functional tests",
  [D+"kdf/pbkdf_2.h: expand", D+"aead/chacha/chacha_20_poly_1305.h: initialize", "README.md"])
p("Output containers are sized exactly",
  "Container-returning overloads resize a dynamic container to exactly the produced size and write at most size() bytes to a fixed one for hash, mac and kdf outputs; content beyond the written prefix of a fixed container is unchanged.",
  "every container (dynamic with any previous size, fixed with any size), every requested size", "all sizes",
  [A+"hash/apie.h", A+"mac/apie.h", A+"kdf/apie.h", I+"utility.h: resize"])
p("KDF views: later changes of retained buffers",
  "Only the buffers the documentation lists (hkdf: info; pbkdf2: ikm and salt) are read after initialize; changing any other input buffer after initialize does not change derived keys. The listed buffers are read (at run time) in the request that first needs a block of the key: a block is computed from their content at that time.",
  "every modification of the caller's buffers between initialize and derive", "all mutations at all times",
  [D+"kdf/hkdf.h: initialize", D+"kdf/pbkdf_2.h: initialize", "doc/reference_kdf.md:50"])
p("Objects may move from constant evaluation to run time",
  "A cipher, hash, mac or aead object that has processed part of its input during constant evaluation (constinit) and the rest at run time produces the same output as one used entirely at run time, whatever backend is selected there.",
  "every split of the calls between constant evaluation and run time, every backend", "the portable and the accelerated implementation use the object's buffer in units of different size; a test runs wholly in one mode",
  [I+"update.h: update_block_prod_xor", I+"impl.h: impl_proxy::invoke", D+"cipher/chacha/chacha.h: m_buffer"])
p("The documented pointer sequence for AEAD gives the RFC tag",
  "initialize; aad...; encrypt... (or decrypt...); finalize; digest, as in the reference's pointer example (no aadover), yields the RFC 8439 tag.",
  "every key, nonce, aad, text", "the example uses one aad size",
  ["doc/reference_aead.md", D+"aead/chacha/chacha_20_poly_1305.h: aad, aadover, encrypt"])
p("AEAD texts within the RFC 8439 limit, and none beyond it",
  "Texts of up to 2^38-64 bytes (RFC 8439 section 2.8) are encrypted with key stream blocks 1, 2, ... of which none repeats and none is the block the one-time authentication key comes from; longer texts are refused.",
  "every key, nonce, text length and split over calls", "needs texts of 256 GiB",
  [A+"aead/apie.h: encrypt, decrypt", D+"aead/chacha/chacha_20_poly_1305.h: encrypt, decrypt", D+"cipher/chacha/chacha_impl_sw.h"])
p("Output containers of fixed size are never overrun",
  "Given an output container of fixed size (array, span), encode, decode, encrypt and decrypt put the result at its beginning and leave the rest unchanged if it fits, and never write outside the container.",
  "every text and container size, every backend", "an overrun of an array need not be visible",
  [A+"codec/apie.h: encode, decode", A+"cipher/apie.h: encrypt, decrypt", A+"aead/apie.h: encrypt, decrypt", I+"utility.h: resize"])
p("The size returned with a decoding error is the number of bytes decoded",
  "When a text is rejected, the size returned beside the error is the number of bytes written, those of the part of the text before the first bad group.",
  "every text with an error, every position of the error", "all texts",
  [A+"codec/apie.h: decode", D+"codec/base_16.h: decode", D+"codec/base_64.h: decode"])
p("The assembly functions obey the calling conventions of Linux and Windows",
  "Called as the C++ headers declare them, the ChaCha, SHA and cpuid assembly functions end without a fault, return to their caller with its stack pointer and its callee-saved general and vector registers, write nothing but the destination (or state) area and their own stack, need no alignment of their arguments, and leave the right bytes and return value.",
  "every register and memory content at entry, every number of blocks, every placement of source, destination and state, both conventions", "a clobbered register or a write outside shows only in callers that keep something there; a test runs on one platform",
  [D+"cipher/chacha/chacha_impl_hw_x86_64.asm", D+"hash/sha/sha_1_160_impl_hw_x86_64.asm", D+"hash/sha/sha_2_256_impl_hw_x86_64.asm", I+"arch/x86_64/cpuid.asm", I+"arch/x86_64/abi.asm"])
Q = "app/include/milo/app/"
p("Pattern expressions select exactly the benchmark names they allow",
  "In the command line application a pattern selects a name if and only if the name is the pattern with each star replaced by some characters; matching always ends.",
  "every pattern and every name", "infinitely many patterns",
  [Q+"pattern.h: pattern_match_star"])
p("Options count only directly after their command, everything else is ignored",
  "An option or parameter is seen by a command exactly if it stands between that command and the next argument without dashes, in any order among others; options given too early, too late or unknown change nothing.",
  "every argument list", "all argument lists",
  [Q+"app.h: option, command, parameter", Q+"run.h: run", "doc/benchmarking.md"])
p("Parameters have the value they are given",
  "A parameter --name=value of a command has that decimal value, one that is omitted is reported with the documented error or has its default, one whose value is no number or too big is an error.",
  "every argument list, every name and value", "all argument lists",
  [Q+"app.h: parameter"])
p("The application always ends with a status",
  "Whatever the arguments, the application has no undefined behaviour and ends with status 0, or with an error message and status 1.",
  "every argument list, every time measured", "all argument lists",
  ["app/main.cpp", Q+"run.h: run", Q+"app.h", Q+"command/benchmark.h: run, primitive, invoke"])
p("The documented patterns run the documented benchmarks with the documented parameters",
  "With the parameters the documentation gives for it, each documented pattern runs exactly the listed benchmarks it allows, with these inputs, and reports them; without one of the parameters it ends with the documented error; list prints every name once.",
  "every placement of options, every value of the parameters, every time measured, both architectures", "all values and argument lists",
  ["doc/benchmarking.md", Q+"command/benchmark.h: invoke, declare, primitive, run", Q+"parameter.h: parse"])
p("The metrics reported are those of the measurement",
  "Nanoseconds per call, gigabytes and megabytes per second, cycles per call and per byte are the exact quotients of time, calls, bytes and clock rate (up to the rounding of floating point division).",
  "every time measured, number of repeats, input size and clock rate", "overflow needs long measurements",
  [Q+"command/benchmark.h: invoke, run"])
p("What the application prints is JSON",
  "The result printed, with or without --verbose, is a JSON text (RFC 8259) that denotes the configuration and metrics, in whatever order members of objects come.",
  "every result, argument list and order of members", "all argument lists and measurements",
  [Q+"type.h: to_json", Q+"run.h: run", Q+"command/benchmark.h: run"])
p("Timing and memory accesses of the assembly functions tell nothing of keys and texts",
  "The sequence of instructions executed and addresses accessed by the ChaCha and SHA assembly functions depends only on the stack pointer and the arguments (pointers, numbers of rounds and blocks), not on the contents of memory (key, state, text, stack but for an argument passed there), nor on other registers.",
  "every pair of executions with the same arguments, every memory and register content, both calling conventions, every number of steps", "secret-dependent time is a relation between executions, invisible in outputs",
  [D+"cipher/chacha/chacha_impl_hw_x86_64.asm", D+"hash/sha/sha_1_160_impl_hw_x86_64.asm", D+"hash/sha/sha_2_256_impl_hw_x86_64.asm"])
p("Objects can be copied, moved, assigned and destroyed at any time",
  "Copying, moving and assigning (also to itself) gives an object that answers every later call like the source would have, and the two do not influence each other; key derivation objects, which own memory during constant evaluation, never read freed memory, free twice or leak. Moved-from objects can be initialised, assigned to and destroyed.",
  "every program with any number of objects of a class, every order of construction, copy, move, assignment, destruction and calls, every content of the caller's buffers at any time", "all orders of operations on all numbers of objects",
  ["doc/reference.md:103", I+"memory.h: memory_view", D+"kdf/hkdf.h", D+"kdf/pbkdf_2.h", D+"hash/sha", D+"mac", D+"cipher", D+"aead", A+"hash/apie.h", A+"mac/apie.h", A+"cipher/apie.h", A+"aead/apie.h"])
p("A test vector passes exactly if it is right",
  "The vector tests the library offers (hash, mac, kdf, cipher, aead, codec) return true exactly if the expected value is the one of the published standard, never throw, and refuse keys longer than the key size.",
  "every message, key, initialisation vector, associated data, text and expected value, every algorithm, backend and host", "a test function that accepts wrong values is not seen by running it on right ones",
  [A+"hash/test.h: digest", A+"mac/test.h: digest", A+"kdf/test.h: derive", A+"cipher/test.h: encrypt, decrypt", A+"aead/test.h: encrypt, decrypt", A+"codec/test.h: encode, decode"])
p("A differential test passes exactly if the implementations agree on its inputs",
  "The differential tests end without undefined behaviour and return true exactly if the two implementations give the same results on every input of the test, however the input is cut; for two implementations of one algorithm (portable or SHA instructions or SSSE3 or AVX2, compile time or run time) they return true.",
  "every pair of algorithms, backends, digest sizes and hosts, all rounds and piece sizes of the test", "running a test shows one outcome for one pair",
  [A+"hash/test.h: differential", A+"mac/test.h: differential", A+"kdf/test.h: differential", A+"cipher/test.h: differential"])
p("Running out of memory harms nothing",
  "When a container that is to receive a result cannot grow, the call throws std::bad_alloc (the process is not terminated), the container keeps its content, and the object behaves as if the call had not been made, except that a digest has ended the message as any digest does: later calls give the right results.",
  "every object of every class, every history of calls with any calls running out of memory, every container; every free function", "allocation fails at points a test cannot choose, in any combination",
  [I+"utility.h: resize", A+"hash/apie.h: digest", A+"mac/apie.h: digest", A+"kdf/apie.h: derive", A+"cipher/apie.h: encrypt, decrypt", A+"aead/apie.h: encrypt, decrypt, digest", A+"codec/apie.h: encode, decode"])
p("Who does not know the key cannot forge tags",
  "Counting one-time keys: any tag of n bytes fits a message under exactly 2^128 * 256^(16-n) of the 2^256 Poly1305 keys, so a tag says nothing about the message; and of the keys that fit a "
  "message and its tag, at most the fraction 2^(131-8n) * blocks / 2^106 makes a given tag right for a given other message. For the AEAD: whoever saw associated data, ciphertext and tag "
  "and submits any list of other triples under the same nonce finds decrypt accepting one of them for at most sum(8 * blocks) * 2^22 of the 2^128 one-time keys that fit; associated data and "
  "ciphertext are unambiguously encoded (bytes cannot be moved from one to the other).",
  "all pairs of different messages, all tags, tag lengths, hosts, lists of attempts, keys, nonces and backends",
  "a forgery that works for one key in 2^60 is out of reach of any test; the bound is an argument about roots of polynomials over a field of 2^130-5 elements",
  [D+"mac/poly/poly_1305_impl_sw.h: initialize, update, finalize, digest", D+"aead/chacha/chacha_20_poly_1305.h", A+"aead/apie.h: digest, verify", A+"mac/apie.h: digest"])

p("The result may take the place of the input",
  "A text may be decoded into its own memory, a text encoded into the memory it lies in, and key material derived into the memory of the input key, salt or info the object retains: the result is the one "
  "with memory of its own. The same holds when one container is passed for input and result.",
  "every content of the memory, every place of input and result in it, every container, every text, host and length derived",
  "overlaps are never among the tested inputs, and what is lost depends on every byte and offset",
  [A+"codec/apie.h: encode, decode", D+"codec/base_16.h: encode, decode", D+"codec/base_64.h: encode, decode", A+"kdf/apie.h: derive", D+"kdf/hkdf.h: derive", D+"kdf/pbkdf_2.h: derive"])

p("Different messages give different digests unless the compression function is broken",
  "Two hash objects of one class (on any hosts, after any earlier use, however the messages are cut into updates) that write the same n digest bytes got the same message, or the evaluations of the "
  "FIPS 180-4 compression function made for these two messages contain two different inputs with the same result (in the n bytes kept, for the last one). For HMAC the same tag means the same message and "
  "keys RFC 2104 makes equal; for HKDF the same key bytes mean the same input key and info and equivalent salts: or one of the hash computations in it is broken in that sense.",
  "all pairs of messages, keys, salts and infos up to the length FIPS 180-4 allows, all hosts, update splittings, digest sizes and earlier uses",
  "a padding or encoding flaw that makes two messages collide shows only for the pair concerned, and tests compare single messages with known answers",
  [D+"hash/sha/sha_2_256_impl_sw.h: update, finalize, digest", D+"hash/sha/sha_1_160_impl_sw.h", D+"mac/hmac/hmac.h", D+"kdf/hkdf.h"])

p("Branches and array positions do not depend on secrets",
  "Two uses of a hash, mac, kdf, cipher or aead object that differ only in the bytes of keys, nonces, messages, texts, tags, memory contents and old buffer contents (the same calls, sizes, positions and "
  "iteration counts) take the same branches and access the same array positions in the portable C++ code; for the aead api this holds given the same verdicts of verify, so where a wrong tag differs is not observed.",
  "all sequences of calls on each class, all contents of the same sizes, all hosts, byte orders and back ends",
  "a test compares outputs, and a timing experiment compares a few inputs on one machine; the claim is about every pair of secrets",
  [I+"memory.h: memory_match, memory_equal, memory_load, memory_stor, memory_copy", I+"update.h", D+"hash/sha/sha_2_512_impl_sw.h", D+"mac/hmac/hmac.h", D+"mac/poly/poly_1305_impl_sw.h", D+"kdf/hkdf.h", D+"kdf/pbkdf_2.h", A+"aead/apie.h: verify", "doc/reference_aead.md: 156"])

p("PBKDF2 refuses keys that are too long",
  "RFC 8018 5.2 step 1: asked for more than (2^32 - 1) blocks in total, PBKDF2 must refuse instead of delivering key bytes that repeat or that the standard does not define.",
  "all passwords, salts, iteration counts, requests of any number of bytes in total, all hash functions",
  "a run over the limit would take 2^32 blocks (80 GB of output) before the first wrong byte",
  [D+"kdf/pbkdf_2.h: derive", "doc/reference_kdf.md"])

p("Codecs work for every text the machine can hold",
  "On a machine whose size_t has w bits (32 as well as 64), the container overloads of the codecs give the container the room for the result, and the result is the right one, for every input whose result the machine can address.",
  "all inputs and texts of fewer than 2^w bytes, all w from 4 to 64, all previous contents of the container",
  "the inputs concerned are gigabytes long, and tests run on 64-bit machines, where they would have to be exabytes",
  [D+"codec/base_64.h: encode_size, decode_size", D+"codec/base_16.h: encode_size, decode_size", A+"codec/apie.h: encode, decode"])

p("Members of an object are found again",
  "In the application's values (app::type::object), what is assigned under a name is what is read under that name afterwards, in whatever form the name is given (literal, std::string, std::string_view, number); "
  "a name never assigned is reported as missing, and each name is there (and in the JSON text) once.",
  "all histories of assignments, all names and values, all hash functions, numbers of buckets and node orders a standard library may choose",
  "whether two forms of a name meet in one bucket depends on hash values, on the number of members and on the standard library; a test sees one of these",
  [Q+"type.h: var::hash, var::compare, std::hash<var>, object::operator[]"])

p("Values are equal when their contents are",
  "operator== of two values (app::type::var) is true exactly when they hold the same text, number or truth value, whatever C++ type each is held as; so it is symmetric and transitive.",
  "all pairs of texts, 64-bit signed and unsigned integers, doubles and truth values",
  "the comparison converts one side to the type of the other, and the values where the conversion loses something (fractions, signs, 2^53 + 1) are not those a test uses",
  [Q+"type.h: var::compare, operator=="])

p("Reading a value as a type it does not have is refused",
  "Converting an app::type::var to size_t, bool or a reference to the stored type gives the value, and throws std::logic_error if it holds something else; an array is only read inside its bounds.",
  "all values, all types asked for, all arrays and indices",
  "undefined behaviour on the wrong type need not show in a test run, and the types asked for are chosen by template arguments",
  [Q+"type.h: operator size_t, operator bool, operator const t_type&, var::as, array::operator[]"])

p("A digest covers all data given since initialize",
  "Every byte given to update of a hash or mac object (or encrypted or decrypted by an aead object) since the last initialize (or construction) is covered by every digest taken later, also when another digest was taken in between; or such a call is refused. "
  "(The manual asks for initialize before reuse; nothing checks it.)",
  "all sequences of calls in any order, all messages, keys and algorithms, all hosts",
  "tests take one digest per message; whether data after a digest changes the next one depends on the lengths of both",
  [A+"hash/apie.h: do_finalize, update, digest", A+"mac/apie.h: do_finalize, update, digest", A+"aead/apie.h: encrypt, decrypt, do_finalize", D+"hash/sha/sha_1_160.h: finalize", D+"hash/sha/sha_2_256.h: finalize", D+"hash/sha/sha_2_512.h: finalize", D+"mac/hmac/hmac.h: finalize", "doc/reference_hash.md: 159", "doc/reference_mac.md: 167"])

if __name__ == "__main__":
    out = os.path.join(os.path.dirname(os.path.abspath(__file__)), "..", "properties.jsonl")
    with open(out, "w") as f:
        for x in P: f.write(json.dumps(x) + "\n")
    for x in P: print(x["id"], x["title"])
