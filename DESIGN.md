# Formal model of milosob/milo in Lean 4

## 1. Layout

* `lean/Verif/Model/*`   – the model, function by function; each definition cites the file and lines in `/repo` it models and says where it simplifies.
* `lean/Verif/Spec/*`    – small specifications. The algorithms (`Codec`: RFC 4648, `Sha`: FIPS 180-4, `Mac`: RFC 2104, `Poly1305` and `ChaCha`: RFC 8439,
  `Kdf`: RFC 5869 and RFC 8018, `Bytes`, the algorithm part of `Aead`) are written from the standards on lists of bytes and natural numbers and use nothing
  of the model but the abbreviation `Byte`. The files that say *what a call sequence must output* (`ShaAlg`, `MacAlg`, `Output`, `KdfUse`, `Cipher`, `Aead`, `Dispatch`,
  `Destroy`) necessarily mention the types of the API calls (`Call`, `Container`, `DigestReq`, …), which are declared in the model; they use no
  function of the model that computes a result.
* `lean/Verif/Proof/*`   – lemmas: representation invariants, refinement, arithmetic.
* `lean/Verif/Props/*`   – the property theorems `Cnn_…`, each with an `example` that meets its hypotheses. Known-answer `example`s are labelled as tests.
* `seeded/`              – wrong-program experiments: the scripts and `LOG.jsonl`.
* `tools/props.py`, `tools/status.py`, `tools/manifest.py` – sources of `properties.jsonl` and `MANIFEST.json`; `tools/vectors.py` runs the model on the
  repository's own test vectors.

Naming: `Cnn_…_partial` proves part of a property (its comment says what is missing); `Cnn_…_wrong` (and `_actual`, `_repeats`, `_terminates`, …) prove that the full
property is false of the code, and what the code does instead. Where a full statement is false it is kept as a definition (`C03_Statement`, …) or in the comment.

## 2. Modelling conventions

* byte = `BitVec 8`, words = `BitVec 32` / `BitVec 64` (all C++ unsigned arithmetic is modular).
* A `(pointer, size)` input pair is a `List Byte`: the caller's obligation that the span is readable is thereby assumed. Where input and output may be the same
  memory (cipher, aead) both are areas of one memory.
* Memory the library owns or writes is a `List Byte` (or list of words) of fixed length; every read/write goes through bounds-checked accessors in
  `Option`, and `none` is **undefined behaviour**. "No UB" is part of every theorem, because each conclusion has the shape `= some …`.
* `size_t` values are `Nat`; where wrap-around could matter (encode_size, processed-byte counters, HKDF's 8-bit and PBKDF2's
  32-bit counter, ChaCha's 32-bit counter) the wrap is explicit.
* Host properties the language leaves open are parameters (`Host`): byte order, constant evaluation or run time, and which SHA backend the
  dispatcher chose (`Host.sha`); signedness of `char` is a parameter of the codecs. ChaCha's backend is a parameter `CipherBackend`, with the garbage in its registers.
* Class objects are structures, member functions return the new structure; a history is a list of calls (`run`). Uninitialised members of a fresh object are
  arbitrary where the code leaves them so.
* Exceptions: a call ends with `Ended.returned`, `.thrown e` or `.terminated` (an exception leaving a `noexcept` function).
* Class templates are structures of functions (`HashImpl`, `MacImpl`, `KdfImpl`, `Codec.Impl`), and the generic layers (HMAC, HKDF, PBKDF2, apie) are proved once for every
  implementation meeting the laws (`LawfulHash`, `LawfulMac`, …).
* The assembly is a list of instructions, macro by macro, run by an interpreter (`Model/X86`). Programs are run over an abstract algebra of instructions, so
  that a straight-line run on unknown register contents is a computation the kernel does (`kernel_rfl`).

## 3. Plan per property

| id | modelled | proof |
|----|----------|-------|
| C01–C04 | base_16.h with literal mask arithmetic, `char` signedness parameter, pointer-advance writes into a bounds-checked buffer | whole-table `decide +kernel` on the per-character functions, induction on the text. C03/C04 are false of the code: negation with witness + `_partial` |
| C05 | both codecs | induction; output buffer of exactly the advertised size never yields `none` |
| C06–C09 | base_64.h | induction on groups; C08, C09 false: negation + `_partial` |
| C10 | codec/apie.h | unfolding + codec theorems |
| C11–C13 | memory.h/endian.h | byte-representation lemma, induction |
| C14–C19 | sha classes, `update_block_soak`, hash/apie.h | representation invariant (absorbed message), refinement to FIPS 180-4 |
| C20–C23 | hmac.h, poly_1305*.h, mac/apie.h | refinement on top of an abstract "lawful hash"; Poly1305 by limb arithmetic in `Nat` |
| C24 | poly_1305 on a big-endian host | false: the value computed there is characterised for all keys and messages, negation; partial: hosts of one byte order |
| C25–C28 | hkdf.h, pbkdf_2.h, kdf/apie.h | stream refinement; C27 false: the block repeated is named, and the whole output beyond 255 blocks described (C27_hkdf_actual) |
| C29–C34 | chacha*.h, `update_block_prod_xor`, cipher/apie.h | stream refinement with the number of blocks per step as parameter; one memory for source and destination |
| C35–C41, C52, C53 | chacha_20_poly_1305.h, aead/apie.h | composition of cipher and mac invariants; C38–C41, C52, C53 partly false: general negations + `_partial` |
| C42–C43 | impl.h, option.h, arch/x86_64.h, every list of candidates | decision logic for every CPUID answer; OS support and initialisation order as negations |
| C44–C46 | the three .asm files on a SIMD machine | symbolic execution by the kernel, lane-wise, induction on blocks and rounds |
| C47–C48 | destructors; local arrays | invariant over all histories; C48 false: the array and its content are named |
| C49–C50, C54 | apie containers; kdf views | unfolding/non-interference; C50 against a reference that reads the buffers when a block is computed; C54 false for codec, cipher, aead |
| C51 | objects used partly in constant evaluation, partly at run time | invariant independent of the backend; for cipher and aead a simulation between objects with different backends, equal at block boundaries; false inside a block |
| C55 | size returned with a decoding error | induction on groups; Base16 false |
| C56 | the .asm functions on a machine with general registers, stack, byte memory with permissions, alignment faults, both calling conventions | simulation: every vector instruction of C44–C46 is the machine's on lowered operands, frame invariant, induction on rounds and blocks |
| C57 | pattern.h with the `std::string_view` searches it uses | loop invariant against an inductive `Glob` relation; false at both ends: counterexamples, partial theorems, and what the shortest-match search accepts exactly (C57_shortest_partial) |
| C58–C61 | app.h's argument parser, run.h, benchmark.h's table of names and groups, the documented command line as `Spec.App.Usage` | parser lemmas for every list of arguments, then whole runs; the table is finite and checked by the kernel |
| C62 | the metric computations on 64-bit words | exact rationals; false: overflow |
| C63 | type.h's `to_json`, the values benchmark.h and run.h build | RFC 8259 grammar as an inductive relation; false: escapes, infinities (a scanner that accepts every JSON text rejects them) |
| C64 | the machine of C56, observed: lines executed, addresses accessed | a static information flow check (public registers and flag, per label), proved sound for pairs of runs, evaluated by the kernel on each function; on Windows the prologue of C56 gives the argument on the stack |
| C65 | copy, move, assignment, destruction of all classes; the heap blocks `memory_view` owns in constant evaluation | ghost state: each object stands for the calls behind its value; for the heap an ownership invariant (every live block is owned by exactly one view of one live object). False for default-constructed mac::apie, aead, aead::apie |
| C66 | the `digest`, `derive`, `encrypt`, `decrypt`, `encode` functions of test.h, comparisons and caught exceptions included | the one-shot theorems (C18, C23, C29, C35, C38, C49, codecs) and exactness of the comparisons (C13). False where the function tested is: codecs, big-endian |
| C67 | the `differential` functions of test.h: both loops, swapped and growing piece sizes, keys and inputs changing from round to round | loop invariants over the lawful interfaces of hash, mac, kdf, cipher: a round ends with the state expected if the results agree, else with false |
| C68 | the member and free functions that write to containers, with `resize` failing at any growth (`mem` flags), exceptions and `noexcept` | each class refines, call by call, the history without the failed calls (`lost` says what they did to the object); then the functional theorems of that class apply. False for Base16 decode errors |
| C69 | nothing new: C23, C35–C38 reduce tags to Poly1305 | one-time keys counted: a collision makes the clamped `r` a root of one of eight non-zero polynomials over Z/(2^130-5), whose primality is proved by a Pratt certificate (Mathlib's `lucas_primality`); `s` is determined by the tag |
| C70 | codecs with input and result in one memory, `encode(c, c)`, `decode(c, c)`; key derivation into memory the object retains | simulation of the functions with separate memories as long as what is not yet read is intact (`Unread`); container overloads by computing what `resize` leaves; key derivation: loop invariant against `overwritten` (block by block over the memory read), which is the stream of the standard if what is read is not reached |
| C71 | the digests of two runs of any hash class, HMAC or HKDF (models of C14, C20, C25) | equal digests are traced back through the chain of FIPS 180-4 compressions: the last block holds the message length, so messages of different length collide in the last compression, messages of equal length somewhere along the chain; HMAC and HKDF by undoing the exclusive or with the pads and the block structure of the inputs |
| C72 | every model function of the hash, mac, kdf, cipher and aead classes a second time in a monad that also lists branches, array positions, pointer moves and calls of assembly (Model/Timed/) | each copy is proved to compute what the model computes; a relation "same shape" (sizes, counters and flags equal, contents arbitrary) is preserved by every step and determines what is listed; induction on loops, blocks and calls |
| C73 | no new model; `Spec.pbkdf2Wrapped` numbers blocks modulo 2^32 | the PBKDF2 refinement proof repeated with a stream of any number of blocks; false of the code, so what happens instead is proved |
| C74 | the four size functions of the codecs for `size_t` of any width (Model/Width) | equality with the 64-bit sizes below the limits, room lemmas (C54) beyond |
| C75 | `var` keys, their hashes (those of the standard library arbitrary), `std::unordered_map` as a relation that allows every chained implementation (Model/AppVar) | invariant over histories of assignments; two-step runs for the negative theorems |
| C76 | `compare` with doubles as exact magnitudes in units of 2^-1074, rounding and truncation defined | cases by the two types against contents as whole numbers of units |
| C77 | the conversion operators and `array::operator[]` | cases |
| C78 | no new model: the hash, mac and AEAD classes, `apie` wrappers; calls in any order | simulation by abstract machines (Spec.Resume: FIPS 180-4 and RFC 2104 in steps, finalizing keeps the incomplete block), call by call; the documented order by induction on the calls; falsity from that and two evaluations of the standard; Poly1305: the accumulator invariant of C24 started from the tag, and for the recovered key the count of C69 over the field of C69; AEAD: the session of C35, whose mac is then such a Poly1305 |

## 4. Trusted base

* **Lean 4.33.0's kernel** and the axioms `propext`, `Classical.choice`, `Quot.sound`; no theorem depends on any other (`vcheck` prints them). No `sorry`, no `native_decide`, no
  `bv_decide`, no own axiom. `decide +kernel` is kernel evaluation of a decision procedure. The tactic `kernel_rfl` (Proof/KernelRfl.lean) only assigns `Eq.refl` to the goal
  without elaborator checks; the kernel checks it as it checks everything.
* **The reading of the C++ and assembly sources.** Nothing of /repo is executed here. To test the reading, `tools/vectors.py` runs the model (by Lean's
  interpreter) on the test vectors of /repo/test (hashes, HMAC, Poly1305, HKDF, PBKDF2, ChaCha20, AEAD, codecs): no mismatch. That run is a test, not part of any proof.
* **Instruction semantics** (Model/X86.lean, Model/X64.lean), after the Intel Software Developer's Manual.
* The C++ rules used by the model: integral promotions, modular unsigned arithmetic, order of destruction, static initialisation order (C43).
* The specifications in `Spec/`, which the reader should compare with the standards; the vectors run tests them as well.

### Modelled

| files of /repo/src/milo | model |
|---|---|
| internal/memory.h, endian.h, bit.h (load, stor, copy, set, compare, erase; all byte orders, aligned or not, constant evaluation or not) | Memory |
| internal/update.h (`update_block_soak`, `update_block_prod_xor`) | Update, ChaCha |
| internal/utility.h (`resize`) | Container; with failing allocation Alloc |
| the container overloads of primitive/*/apie.h when memory runs out | Alloc |
| codec and kdf functions whose input and result overlap | InPlace, InPlaceKdf |
| the branches and positions of memory.h, update.h and the hash, mac, kdf, cipher and aead classes | Timed/Base, Sha, Mac, Kdf, ChaCha, Aead, Calls |
| internal/impl.h, option.h, arch/x86_64.h (selection, CPUID bits) | Dispatch |
| primitive/detail/codec/base_16.h, base_64.h; primitive/codec/apie.h, literals | Base16, Base64, CodecApie; other sizes of `size_t` Width |
| primitive/detail/hash/sha/* (SHA-1, SHA-224/256, SHA-384/512, SHA-512/224, SHA-512/256; portable and SHA-NI) ; primitive/hash/apie.h | Sha1, Sha256, Sha512, Sha1Asm, Sha256Asm, ShaAlg, HashImpl, HashApie |
| primitive/detail/mac/hmac/hmac.h, mac/poly/*; primitive/mac/apie.h | MacImpl, Hmac, Poly1305, MacAlg |
| primitive/detail/kdf/hkdf.h, pbkdf_2.h; primitive/kdf/apie.h | Kdf, Hkdf, Pbkdf2 |
| primitive/detail/cipher/chacha/* (portable, SSSE3, AVX2); primitive/cipher/apie.h | ChaCha, ChaChaAsm, Cipher |
| primitive/detail/aead/chacha/*; primitive/aead/apie.h | Aead |
| primitive/{hash,mac,kdf,cipher,aead,codec}/test.h | SelfTest |
| destructors, local arrays of all of these | Destroy, Residue |
| copy and move constructors and assignments of all of these, internal/memory.h `memory_view` (retain, copy, move, destroy) | Copies |
| the .asm files with prologue, epilogue, loops, stack, and internal/arch/x86_64/abi.asm, cpuid.asm | X64 |
| app/main.cpp, app/include/milo/app/{app,pattern,parameter,run,type}.h, command/benchmark.h, command/version.h (the algorithms benchmarked are those above) | App, AppJson, AppVar |

### Not modelled

* tool/ (code generators), the CMake files. Of the application: the rounding of quotients, negative `double`s in JSON, the clock (an arbitrary function), texts of standard exceptions, allocation failure.
* meta.h (concepts) and attribute/compiler macros: they decide what compiles, not what it does. Overloads that do not compile (the cipher one-shot pointer overloads
  call a constructor that does not exist) are outside.
* Allocation failure elsewhere than in the container overloads of apie.h (C68); pointers not valid for the size given; data races (objects are not shared between threads).
* What the compiler does with `memory_erase` and with copies of secrets in registers or spill slots.
* Timing of the code as compiled: C72 is about the branches and positions of the C++ source, C64 about lines and addresses of the assembly. What the compiler makes of a branchless expression, instruction timing, caches below the granularity of an array position, allocation and resizing of containers are not modelled. That the copies in Model/Timed/ list every condition and access of the source is by reading, as for the other models.
* Windows unwind tables of the assembly functions (the files have none: an exception or a debugger cannot unwind through them; none is thrown there).
* `size_t` of other than 64 bits outside the codecs. (By reading: hashes and aead count in `uint64_t`, everything else is bounded by the length of an array.)
* `noexcept` except where it changes the outcome (AEAD decrypt, C38).

## 5. Findings (theorems)

Codec: C03/C08 signed `char` makes bytes ≥ 0x80 digits; C04 odd hexadecimal text is mis-decoded; C09 non-canonical Base64 accepted; C55 Base16 returns characters, not bytes.
C24/C35 Poly1305 wrong on big-endian hosts. C27 HKDF beyond 255 blocks repeats key material. C38 inverted `noexcept` in AEAD decrypt: a wrong tag terminates the process.
C39 plaintext released before verification. C40/C52 padding of associated data left out without `encrypt`/`aadover`. C41 late associated data accepted, tags of different messages
coincide. C53 texts beyond the RFC limit are encrypted with the one-time mac key. C51 a cipher object that passes from constant evaluation to run time inside a block
outputs plaintext, and so does an aead object. C42 the operating system is not asked for AVX state. C43 use before static initialisation calls a null pointer; Poly1305 ignores its options. C47 AEAD
counters survive; C48 local arrays keep keys. C54 fixed containers without room are overrun by codecs, cipher and aead.
C68 Base16 decode with an error argument grows the container on malformed texts (C55) and may throw after overwriting it; a `digest` that ran out of memory has silently ended the message.
C70 `codec::encode(c, c)` resizes `c` and then encodes the grown `c` into itself: an overrun for every non-empty `c`; `codec::decode(c, c)` cuts the text before reading it and returns part of the result without an error; HKDF over its info and PBKDF2 over its inputs go wrong from the second block on.
C73 PBKDF2 has no length check: the 32-bit block counter wraps, block 0 (not defined by RFC 8018) follows block 2^32 - 1, and then the key repeats.
C74 Base64 containers are overrun on 32-bit machines from 2^30 bytes (encoding) and 1431655768 characters (decoding) on: the size computation overflows.
C65 copying a default-constructed mac::apie, aead or aead::apie object reads indeterminate members.
Application: C57 patterns are not anchored at the beginning (`mac-*` runs, or fails on, the key derivation benchmarks: C61) and compared at the end only where
the last part first occurs; C59 `--key-size-max=5` is taken for `--key-size`, `16k` for 16, an empty value for 0; C60 undefined behaviour without arguments and for
`--key-size=0`; C62 cycles overflow after 5.3 s at 3.5 GHz; C63 no escapes in JSON, `inf`.
C75 `var` hashes mix in the C++ type although `==` does not look at it: a text stored as a literal is not found as a `std::string`. C76 `==` of `var` is neither symmetric nor transitive. C77 reading a `var`
by reference as another type follows a null pointer; array indices are not checked. C78 data given after a digest is ignored unless it completes a block, and otherwise continues from the digest; with
HMAC it never reaches the keyed inner hash, with Poly1305 the second tag is a linear function of the multiplier and gives the key away; with AEAD the text is processed but up to 15 bytes of it are not authenticated. The manual asks for `initialize` first, nothing checks it.

## 6. Seeded wrong programs

`seeded/seed.py roundN.py` applies one edit of the model at a time in a scratch copy, rebuilds what depends on it, and appends to `seeded/LOG.jsonl` which property theorems fail.
Edits that survived led to tightened theorems (recorded in the log). `seeded/automut.py` makes mechanical edits (operators, literals, swapped arguments,
dropped cases, boundary comparisons) of every definition of the model and records in `seeded/AUTO.jsonl` whether the edit fails to compile (stillborn), is killed or survives.
