# Formal model of `cosmian_abe_gpsw` in Lean 4

## 1. Layout

| path | content |
|---|---|
| `lean/Verif/Model/*.lean` | executable model of the Rust code, function by function, with file/line citations |
| `lean/Verif/Spec/*.lean` | small independent specifications (satisfaction of a formula, grammar of formula texts, byte layouts, buffer protocol, histories of calls, attack strategies, the security game) that do not use the model's helpers |
| `lean/Verif/Proofs/*.lean` | helper lemmas and invariants |
| `lean/Verif/Props/*.lean` | the property theorems of `MANIFEST.json` (named `Cnn_…`), each followed by an `example` meeting its hypotheses on concrete data; `Demo*.lean` hold that data |
| `properties.jsonl` | the properties in English |
| `seeded/LOG.jsonl` | deliberately wrong models and the theorems that stopped proving |

Model files and the code they cover:

| model file | Rust source | covers |
|---|---|---|
| `Res` | `src/error.rs` | outcomes (`ok`/`err`/`panic`), error constructors with their messages, slices, targets, hash maps |
| `Errors` | `src/error.rs:14-83,130-148` | `Display` of errors |
| `Msp` | `src/core/msp.rs:17-24,135-284` | `Node`, `MonotoneSpanProgram`, `to_msp`, accessors, conversion of entries |
| `Parse` | `src/core/msp.rs:150-159,202-212,290-408` | `Node::parse`, `MonotoneSpanProgram::parse`, `Display for Node` |
| `ParseStack` | `src/core/msp.rs:290-408` | `Node::parse` with room for a given number of nested calls |
| `Policy` | `src/core/msp.rs:412-487` | `policy_to_msp`, `policy_to_formula`, `policy_to_node`; the external `abe_policy` operations |
| `Bilinear` | `src/core/bilinear_map/*.rs` | the trait `BilinearMap` as a structure, its instance for BLS12-381 over abstract groups, `Scalar` division and `From<i32>` |
| `Scheme` | `src/core/gpsw/scheme.rs:12-92,283-294,333-671` | master keys, key generation, delegation, randomisation, encryption, decryption, the linear solver |
| `Engine` | `src/core/engine.rs:36-111` | the engine on access policies |
| `Codec` | `src/core/gpsw/mod.rs`, `msp.rs:26-107`, `scheme.rs:101-232,321-329`, `bls12_381.rs:93-216` | all `AsBytes` implementations |
| `Alloc` | `gpsw/mod.rs:63-100`, `msp.rs:45-107`, `scheme.rs:113-227` | the same decoders recording every `with_capacity`, and the capacity overflow |
| `Show` | `scheme.rs:47-99`, `msp.rs:17,109-117` | `Display` of keys and span programs, equality of user keys |
| `Hybrid` | `src/core/engine.rs:116-155`, `hybrid_crypto/statics.rs`, `bls12_381.rs:249-260` | key encapsulation, headers, blocks, `msg_to_scalar` |
| `Lib`, `Py` | `src/interfaces/pyo3/*.rs` | all twelve Python functions |
| `Ffi` | `src/interfaces/ffi/*.rs` | all C functions, the last error, cache registries, threads |
| `Wasm` | `src/interfaces/wasm_bindgen/*.rs` | all JavaScript functions, cache registries, effect of traps |
| `RepoTests` | `src/core/demo.rs`, `src/core/tests/{engine,gpsw}_tests.rs` | the demonstration and three tests, as programs |
| `RepoBytesTests` | `src/core/tests/{msp,gpsw,policy}_tests.rs`, `src/core/bilinear_map/bls12_381.rs:346-380`, `src/interfaces/hybrid_crypto/tests/mod.rs:26-103` | the tests on text, bytes and headers, as programs; the key files of the header test are arguments |
| `RepoFfiTests` | `src/interfaces/ffi/tests.rs` | the two tests of the C interface, as programs over the state of the process; key files and the JSON of the attributes are arguments |
| `RepoFileTests` | `src/core/tests/engine_tests.rs:15-170` | `symmetric_key_test` and the two tests that write files; the contents of files are values, writing always succeeds, `hex` is modelled |
| `RepoJsTests` | `src/interfaces/wasm_bindgen/tests.rs` | the tests of the JavaScript interface; key files are arguments |
| `RepoPolicyTests` | `src/core/tests/policy_tests.rs:8-57,88-106` | the tests of policies and attributes as texts, with the functions of `Json` |
| `AesGcm` | `Aes256GcmCrypto` of `cosmian_crypto_base` (external), from FIPS 197 and SP 800-38D | AES-256, GCM, the layout of blocks as in the stored ciphertext of `wasm_bindgen/tests.rs:158`; the derivation function, the metadata format and the eight bytes of a block number stay arguments |
| `Points` | `to_compressed`/`from_compressed` of `G1Affine`, `G2Affine` of `cosmian_bls12_381` (external), used at `bls12_381.rs:123-179`; `README.md:184-192` | from the published format, confirmed by the stored keys, whose points all decode; the test of the subgroup is multiplication by the order |
| `RandomScalar` | `core/bilinear_map/bls12_381.rs:238-243`, `core/bilinear_map/mod.rs:95-105`; `Field::random` of the scalars of `cosmian_bls12_381` (external) | from the published procedure: 64 bytes, low byte first, reduced by the order; the generator `Hc128Rng` gives independent uniform bytes |
| `Shake` | `Shake256` of `sha3` (external), from FIPS 202; used at `core/engine.rs:128-132,150-154` | on 25 lanes with the tables of rotations and round constants; the refusal of lengths that do not fit in memory is left out |
| `Json` | `serde_json` (external), from RFC 8259; the formats of `abe_policy` and `Metadata` from `core/tests/policy.txt`, `policy_tests.rs:28-57,90`, `hybrid_crypto/tests/fin_top_secret_user_key.json`, `pyo3/tests/demo.py:6-47` | reading and writing of JSON, of policies, access policies, attributes, axes, metadata; an instance of `Serde` up to the parser of expressions; assumed: attributes are read from any JSON string (a derivation from `&str` would refuse escapes), values of unknown fields are valid JSON within the nesting limit |
| `RepoBench` | `benches/benches.rs` | the six benchmarks; the number of iterations and the randomness of each are arguments, time is left out |
| `RepoPyDemo` | `src/interfaces/pyo3/tests/demo.py` | the demonstration script; JSON texts are arguments, printing is left out |
| `RepoPyNotebook` | `src/interfaces/pyo3/tests/notebooks/confidential-data-access.ipynb` | the notebook; JSON texts are arguments (those of the notebook: C103), what is printed is reduced to the clear text or nothing |

`Props/Fixtures.lean` is a check of the model against the implementation: the key files of the tests (bytes written by the Rust code) decode in the model
to keys with the span program that the model computes, and re-encode to the same bytes; the policies of the JSON fixtures are reachable in the model; the
assertions of `msp_tests.rs`, and of `policy_tests.rs` where they concern this crate, hold.  It contains no property theorem.

Not modelled: `Debug` of errors, the conversions between error types (applied where they occur), derived `PartialEq` (except of span programs)/`Clone`, `Deref`, `Default`,
`Engine::random_message`/`gen_random_msg_in_gt` (a random element, an argument in the model; its distribution: C111), the operators `&`/`|` on `Node` (constructors),
the tests of `policy_tests.rs` on the parser of boolean expressions and on the equality of access policies (both of `abe_policy` alone), the notebook confidential-data-access-full.ipynb (it uses another library), and time in the benchmarks.

## 2. Modelling conventions

* **Outcomes.** `Res ε α = ok a | err e | panic`.  A Rust `Result` is `ok`/`err`; an index out of bounds, `unwrap` on `None`, a failed slice,
  a checked arithmetic overflow or `panic!` is `panic`.  Nothing is totalised silently: every index and slice of the modelled code goes
  through an operation that returns `panic`.  In the C interface there is in addition `ub` (a read or write outside of an allocation, a null
  dereference).
* **Arithmetic on `usize`** whose operands come from untrusted bytes depends on a `Target` (pointer width of any number of bits, overflow
  checks on or off).  Codec theorems hold for every target of at least 32 bits and every byte string of at most `isize::MAX` bytes, the limit
  of a Rust slice (`InSlice`), or state another bound; sizes of objects already in memory are natural numbers.
* **Randomness** is an explicit argument; theorems quantify over all its values.  Where a Rust loop draws a vector, the argument is a stream.
* **Mutation** returns the new value.  The C interface is a state monad over the caller's memory, the thread's last error and the registries.
* **`HashMap`** is an association list whose order is the (arbitrary) iteration order; theorems quantify over every order, and policies may be reordered at any point
  of their life (`Policy.Reachable.reorder`, `Policy.Evolves.reorder`), as happens when a policy is written to JSON and read back.  `BinaryHeap` is a
  list in internal order with the sift-up of `push` (`serde` reads it by pushes); `peek` is its root; iteration is in internal order.
* **Scalars.** The scheme is over an arbitrary field with decidable equality; for the scalar field of BLS12-381 (`ZMod q`, `q` proved prime
  by the Lucas test, checked by the kernel) the byte codec is modelled concretely.
* **Groups.** `G1Affine`, `G2Affine`, `Gt` are modules over the scalar field (additive notation as in `bls12_381.rs`), with a bilinear
  pairing (`Curve`).  This is the assumed behaviour of the external crate `cosmian_bls12_381`: a structure parameter, not an axiom; instances
  over `ℚ` and `ZMod 11` are used in the examples.
* **Errors.** Errors carry the messages of the code, also formatted ones.  Errors of other crates are constructors without payload; their texts are a
  parameter (`Texts`).  In the C interface messages are kept, with the texts of `Errors`; in the Python and JavaScript interfaces the constructors.

## 3. Trusted base

* Lean's kernel, and the axioms below.  No own axiom, `sorry`, `native_decide` or `bv_decide`.
* The correspondence of the model with the Rust source, established by reading.
* The laws assumed of external crates, each a structure that appears as hypothesis of the theorems and is inhabited by an example:
  * `Curve` (`cosmian_bls12_381`): modules over the scalar field, bilinear pairing; `gen_t` is the pairing of the generators.
  * `Codecs.Lawful`: compressed points have fixed sizes 32/48/96/288, decode to themselves, are canonical, decoding never panics,
    and a decoded element belongs to the group (whether the crate checks this for `Gt` is not visible in this repository).  C110 proves all this of scalars, G1 and
    G2 with the published format of points, which leaves the encoding of `Gt`; it also
    shows that `Curve` and `Codecs.Lawful` hold together with the real groups and generators (that the pairing of the crate is bilinear stays assumed).
  * `Policy` operations (`abe_policy`): reconstructed from uses, tests and the JSON fixture, since the source is not in the repository.
  * `External.Lawful` (`cosmian_crypto_base`, `sha3`): symmetric keys and nonces of fixed size, decryption inverts encryption, encryption
    adds a constant overhead, block decryption inverts block encryption, no panics; blocks are only assumed to be accepted if clear text and
    identifier have at most 4 GiB each (AES-GCM refuses both above 64 GiB).  C101 proves all this of AES-256-GCM, given the sizes of SHAKE256 and of block
    numbers and that the encoding of metadata does not panic; C107 proves the sizes of SHAKE256.  C104 bounds forgeries and
    leaks of AES-256-GCM by the advantage in telling AES-256 from a random function, which stays unproved, and C105 those of hybrid messages.  No secrecy or authenticity is assumed, hence theorems
    about wrong keys (C33, C39, C64) only use that decapsulation fails.  `BytesScanner` is modelled from its uses.
  * `Serde` (`serde_json`, the parsers of `abe_policy`): arbitrary partial functions; where a policy travels through them, `KeepsPolicies`
    (reachable policies with spelled names are read again, up to the order of hash maps).  C103 proves this of the JSON written out in `Json`, and what the
    Python demonstration assumes of its texts; the parser of boolean expressions stays arbitrary.
  * `regex`: `^\d+` is the longest non-empty prefix of digits.
* Not covered: quality of randomness (C111 treats the reduction of uniform bytes to scalars), timing, memory exhaustion (C32 and C70 treat the requested capacities; the allocator failing below `isize::MAX` is not
  modelled), stack size in bytes (C79 counts nested calls of the parser; the recursion over the tree that follows is as deep as the tree is high), lock poisoning, computational
  security (C15, C16, C61 are statements about the algebra; C76 and C78 bound attackers who use the groups as black boxes; C80 is a reduction to the
  decisional bilinear Diffie-Hellman problem, an explicit definition, whose running time is not part of the theorem; C81 extends it to delegation, C82 to hybrid messages, relative to the symmetric scheme, C83 to a late choice of the challenge, C84 to many ciphertexts, C85 to histories of policies, C91 to all messages over such a history).
* C interface: distinct pointer arguments do not overlap; calls are atomic except cache creation, which takes its identifier and inserts in two
  steps interleaved with other threads.
* JavaScript interface: a panic is a trap which unwinds nothing (`panic = "abort"` of the target); the standard library's `RwLock` for targets
  without threads (writing while held, or reading while held for writing, aborts).

Axioms (`#print axioms`): all property theorems depend on exactly `propext`, `Classical.choice`, `Quot.sound`, except
`C21_distinct`, `C24_no_slot_refuted`, `C26_no_attribute_refuted`, `C28_injective`, `C32_results`, `C38_blocks`, `C47_retry`, `C52_ffi_ambiguous`, `C52_python`,
`C52_js`, `C60_js_blocks` (only `propext`, `Quot.sound`) and `C38_block_sizes`, `C50_wraps` (only
`propext`).

## 4. Properties

All are proved for all inputs; sizes are bounded only where the code itself has a limit (stated in the theorem).  Theorem names are in
`MANIFEST.json`.

| id | model | proof |
|---|---|---|
| C01, C02 | `Engine`, `Scheme`, `Msp`, `Policy` | composition of C03, C04, C06 with bilinearity; exact outcome of decryption for every reachable policy, attribute list, and chain of delegations/randomisations |
| C03 | `Node.toMsp` (queue loop) | loop invariant: the target is in the span of the γ-rows and the satisfied queue entries iff it was before the step; change of basis |
| C04 | `spanCoefs` (Gauss-Jordan, panicking index operations) | invariant: solutions of the augmented system unchanged + reduced echelon shape; extraction loop |
| C05 | `Node.toMsp` | queue invariant on lengths, labels, entries |
| C06, C07 | `policyToNode`, `policyToFormula`, `policyToMsp` | structural induction; meaning of the expansion at attribute level |
| C08, C09, C10, C53 | `Policy`, engine | invariant of policies under `add_axis`/`rotate`; refutation of the documentation by a concrete policy |
| C11, C12, C13, C14 | `keyRandomization`, `keyDelegation` | recursive description of share vectors of a formula, proved equal to the image of the matrix; restriction relation on formulas; algebra for `Or`→`And` |
| C15, C16 | `keyGeneration` | share-space description: unauthorised shares extend to any secret; linear functionals on the share space |
| C17, C18 | `encrypt`, `generateMasterKey` | case analysis; concrete policy for the off-by-one |
| C19, C20, C62, C63 | `decrypt` | exact description of decryption at scheme level |
| C21–C30, C68, C69 | `Codec` | byte arithmetic, induction on decoding loops, composition of lawful codecs; a description of the accepted inputs that does not mention the target, by exact computation of the wrapping size checks |
| C31 | `decrypt`, `Codec` | panic-freedom under consistency; crafted bytes for every key/ciphertext |
| C32, C70 | `Alloc`: decoders in a monad recording requested capacities | erasure to the decoders of `Codec`; bounds on the recorded requests; concrete witnesses |
| C33, C35–C39, C54, C55 | `Hybrid` | scanner lemmas, C01/C02, C26, laws of the symmetric scheme |
| C34 | `msgToScalar` | little-endian numerals |
| C40, C50 | `Py` | composition of the codecs with C33, C35; modular arithmetic |
| C41–C43, C66, C67 | `Node.parse` on character lists, `Msp.parse`, `Node.display` | induction on the length; an inductive grammar as specification; C03 and C01's lemmas for C66 |
| C44–C46 | `Ffi` state machine with threads | inductive invariants over all interleavings, refinement to an abstract map of handles |
| C47–C49, C51, C52, C56 | `Ffi` memory | case analysis of every call for all sizes and pointers; specification of the buffer protocol |
| C57–C60 | `Wasm` state machine | induction on histories of calls; composition as for C56 |
| C61 | `Scheme` | a strategy is a fixed list of group elements/pairings with coefficients; polynomial identity in the randomness, via C15's share space |
| C92 | `Ffi` messages | exact text of the error of a refused call; base-ten digits are read back from its UTF-8 bytes for all numbers |
| C64, C65 | `Py`, `Ffi`, `Wasm` | inductive predicates "bytes produced by some interface of some build"; every producer yields an encoding of a key/ciphertext from the same family, every consumer decodes it |
| C73 | `Ffi` memory and threads | every step of every call preserves the memory outside of the announced buffers; invariant over the pending creations of a history |
| C71, C72 | engine, `Policy` | invariant of every policy change relating values and formulas of the policies before and after (`Later`); induction over the ways a key can be issued |
| C74 | `RepoTests`, `RepoPolicyTests`, `RepoBytesTests`, `RepoFfiTests`, `RepoFileTests`, `RepoJsTests`, `RepoPyDemo`, `RepoPyNotebook`, `RepoBench` | composition of C01, C09, C12, C14, C18, C24–C27, C33, C35, C36, C38, C39, C41, C46, C47, C66, C75, C86, C100, C102 and C103 along each program |
| C75 | `Policy`, engine | lookups do not depend on the order of a map without repeated keys; confluence of policy changes up to order; C71 for keys of All |
| C76 | `Scheme`, engine | every element of the view is a polynomial in the random draws over a common denominator; C61 shows that a comparison holds identically for both messages or for none; Schwartz–Zippel bounds the draws for which it holds by accident; induction over the attacker |
| C77 | `keyRandomization`, `keyDelegation` | the parent's shares are the image of a vector (C03's share space), by which the draws are shifted; counting by the resulting bijection |
| C78 | `Scheme`, engine | reduction to C76: encrypting zero instead, the candidates are independent of the element; sum over all elements |
| C79 | `ParseStack` | induction on the room for calls; grammar with nesting depth; chain and nested parentheses as witnesses |
| C80 | `Scheme`, engine | probability distributions (`PMF`); perfect simulation of keys by a sharing of one that vanishes on the challenge, bijections between the draws; one-time pad for random instances |
| C81 | engine | lazy sampling: hidden keys are made when they are obtained; delegation as a shift of the draws (C77); induction on the attacker |
| C82 | `Hybrid`, engine | a hybrid message splits into an encapsulation and a symmetric message; game hop with an unrelated element for the key; C80 for the hop |
| C83 | `Scheme`, engine | induction on the attacker, summing over the committed attackers; at a key request the lists it opens drop out |
| C84 | `Scheme`, engine | hybrid argument as a telescoping sum; the other ciphertexts are made with the public key |
| C85 | engine, policies | C80; values and attributes are related along the history as for C71 |
| C86 | codecs, compilation, policies | lengths of the encoders; columns counted along the compilation of the access policy, rows are the granted values (C07); growth from the effect of a rotation |
| C87 | `Scheme`, compilation, engine | the values of the left children of all `And` can be prescribed, so the linear map from draws to shares is surjective between spaces of the same dimension, hence injective; the pairing is non-degenerate |
| C88 | `Show`, codecs | hexadecimal is read back byte by byte, then C24/C25; for matrices, unique splitting of the text at separators |
| C89 | `Show`, `Scheme`, codecs | invariant of all ways to obtain a key: prepared elements and the index are functions of the compared fields; equality of hash maps is that of all lookups (same length and inclusion give a permutation) |
| C90 | `Hybrid`, `Codec`, `encrypt` | the modified header is identified with the output of `encrypt_hybrid_header` for other randomness or attributes; game with an opening oracle in `Spec/Chosen` (`remake`, `refresh`, `narrow` are the attacker's programs) |
| C93 | `decrypt`, `Hybrid`, `Codec` | decryption reads only the masked element and the components at labels of the key (`decrypt_congr`), so each key sees an honest ciphertext with its own scalar; keys for single labels force equal scalars |
| C94 | `decrypt`, `spanCoefs` | the code, generic in the bilinear map, is run on one that records its pairings; rows with a coefficient are pivots of the reduced matrix, so coefficients supported there are unique, hence labels are minimal |
| C95 | `Hybrid`, codecs, policies | a reader of bytes (`Spec/Reveal`) that only knows the offsets and the policy; values are never reassigned along the history, so they name the same attribute later |
| C96 | `encrypt`, `keyGeneration`, `Hybrid` | the outsiders' programs (`Spec/Draws`: `peek`, `transfer`, `spliced`) are run on the outputs of the code; counting by a union bound |
| C97 | `Scheme`, `Engine`, `Hybrid` | a relation between two runs (`Spec/Silent`: `SameKind`, `Alike`) carried through every function; the groups of the two runs may differ |
| C98 | `Hybrid`, `Engine`, `Scheme` | games in `Spec/Integrity` (one message) and `Spec/SystemIntegrity` (many messages, policies of their moments); two explicit reductions (`kemForger` to C80's game, `demForger` to `symmetricForgery`) and a simulation of all messages but one (`only`), exact for each message |
| C99 | `Errors`, `Codec`, `Hybrid`, `Ffi` | the texts allowed are listed in `Spec/Messages`; every way to an error is followed through decoders, solver and header; in the C interface by a rule for what a part of a function may record |
| C100 | `Hybrid`, `Py`, engine | the header does what the ciphertext in it does; C71 for the ciphertext, and which of the two errors; empty attribute lists apart |
| C101 | `AesGcm` | counter mode is an involution, the tag is a function of key, nonce, data and ciphertext; the table and the stored ciphertext (C74) by evaluation in the kernel |
| C102 | `Ffi` | induction on the number of calls over the contracts of C47; sizes of headers by C36 |
| C103 | `Json`, `Policy`, `Ffi` | reader proved sound and complete for a grammar (induction on depth and items); what is read as a struct, a map, a heap, an attribute, an access policy characterised by relations in `Spec/Json` (filters of members; induction from the last member; heap order of pushes); induction on access policies; refutations by concrete policies |
| C104 | `AesGcm` | irreducibility by Rabin's test evaluated in the kernel; hashes as values of polynomials, counted by their roots; forgeries by an involution on pairs of a function and a block that keeps all ciphertexts received, so that each course is shared by 2^128 functions of which few accept; secrecy by an injection on functions changing the first clear texts into the second ones; blocks by simulation |
| C105 | `AesGcm`, `Hybrid`, `Engine`, `Scheme` | tests of a function on blocks in `Spec/CipherGame` (`messageTest`, `forgeryTest`); C82/C91/C98 reduce to the games under a symmetric key; secrecy by C104's argument for all lists of nonces without repetition; forgeries by induction on the attacker, with the requests so far as invariant (`Known`), ending in C104's bound; repeated nonces counted; messages of a system one by one |
| C106 | `Policy`, `Engine`, `Scheme`, `Ffi`, `Py`, `Wasm`, `Json` | look-ups, values and missing entries specified in `Spec/Crafted` without formulas; three exclusive outcomes by induction on the access policy, for all policies; `toMsp_spec` and `keyGeneration_cases` as for C01; a policy text evaluated in the kernel |
| C107 | `Shake`, `Hybrid`, `AesGcm` | FIPS 202 on bits in `Spec/Shake`, with the walk and the shift register in place of tables; lanes related to bits by `testBit`, preserved by each step (θ, ρ and π, χ, ι), by the rounds, absorption and squeezing by induction; the two tables compared in the kernel; published values as examples |
| C108 | `Py`, `Ffi`, `Wasm`, engine | bytes of keys issued over time as an inductive predicate, decoded to the keys of C71 by induction; C100 for the header on every target, then every interface as in C64; each rotation call is a list of changes and a reordering, by C53 and C47 |
| C109 | `Policy` | invariant (numbered list of attributes) kept by adding axes, induction on names and axes; fold over lower levels; induction on rotations; the README's order of axes refuted by an instance |
| C110 | `Points`, `Codec` | the base field by a point of order `q` over every prime factor of its modulus (Goldwasser and Kilian), multiplication of points evaluated in the kernel; flags and abscissas by division; roots as powers, in the extension by algorithm 9 of eprint 2012/685; a point of an odd order has an ordinate other than zero, so its flag is determined; the order of G1 since a power of `q` below the number of points; that of G2 from a point whose order is a prime of 448 bits (Lucas' criterion, recursively), which leaves no room for the square of `q`; pairings by their value at generators |
| C111 | `RandomScalar`, `Scheme`, engine, `Hybrid` | numbers below `256^k` with a given remainder are counted, one more or less than the mean; distributions are compared by all tests, distances add up over successive draws; induction over attackers with a budget of scalars for keys, each header of a message being made once; then C80 and C105; fibres of homomorphisms have the same size |
| C91 | `Hybrid`, engine, policies | hybrid argument over the messages (each attacker makes the other messages itself with the public key), then C82; keys are judged by attributes along the history as in C85 |

## 5. Statements the code does not satisfy

Proved as negations (theorems with `refuted`, `refutation`, `panic`, `crafted`, `broken`, `ambiguous`, `wraps`, `overwritten`, `disabled` in
their name, or as a part of the theorem), next to the strongest true variant.

| finding | theorem |
|---|---|
| Keys for the access policy All are affected by rotation, contrary to the documentation | C10 |
| Delegating `a \| b` to `a & b` gives a key that decrypts to wrong messages, contrary to the documentation; the unused key of the demonstration is of this kind | C13, C74 |
| The files written by `generate_non_regression_files` cannot replace the stored ones: with them `symmetric_key_test` panics for every outcome of the random generator | C74 |
| `test_encrypt_hybrid_header` of the JavaScript interface passes the string `"12345678"` to the constructor of `Uint8Array`, which reads it as a length: the identifier is 12345678 zero bytes (read off the ECMAScript rules, see `RepoJs.uid`) | C74 |
| A policy that used its whole budget makes encryption and delegation panic (off by one) | C17, C14 |
| Delegation cannot be used to refresh a key after a rotation, and is refused or panics instead | C72, C14 |
| A vector with count zero panics (checked build) or may be accepted as one element (release) | C23, C28 |
| Empty vectors, zero-slot keys, ciphertexts without attribute, zero-dimension matrices do not round-trip | C22, C24, C26, C27 |
| `i32` decoding panics on short input | C21 |
| Crafted keys, ciphertexts and headers make decryption panic | C31, C39, C59 |
| Eight bytes announce a matrix row of 2^32-1 scalars which is reserved before any check; on wasm32 this is a capacity overflow panic | C32, C70 |
| On wasm32 the wrapping size checks let 8 bytes (a user key of 108 bytes) panic the decoder, and 36 bytes request 2^27+1 scalars | C27, C68, C32 |
| Messages differing in trailing zero bytes are encoded alike | C34 |
| Header structures panic on short input | C37 |
| Removing the metadata of a header, or appending bytes, is not detected | C54, C55 |
| Python: decryption of short or cut input panics; the budget wraps modulo 2^32 | C40, C50 |
| The parser's parenthesis counter overflows on texts of 2^31 opening parentheses | C41 |
| The recursion of the parser grows with the text: `1&1&…&1` or `((…1…))` overflows any stack instead of being refused | C79 |
| C: after 2^32 creations a live handle is overwritten | C44 |
| C: block functions do not report the needed size; a negative capacity disables the size check; the symmetric key is written before the header buffer is checked | C47 |
| C: the message of `h_rotate_attributes` for a small buffer is not formatted: it reads "need {len} bytes, allocated {allocated}" | C92 |
| C: null length or handle pointers are dereferenced; `get_last_error` fails without recording an error | C49 |
| C: header size panics on 1 to 3 bytes, is negative from 2^31 on, and the error code 1 is ambiguous | C52 |
| JavaScript: the output of header encryption cannot be passed to header decryption unsplit | C57 |
| JavaScript: an unknown handle or a crafted header traps and permanently disables creation and destruction of caches; the cached encryption accepts an empty identifier | C58, C59 |
| Ciphertexts are malleable; headers can be refreshed or narrowed by anyone, and there is no security against chosen ciphertexts | C62, C90 |
| A header with a different scalar for each attribute opens without error to different symmetric keys for different users | C93 |
| The attributes of a header, and those granted by a user key, can be read by everyone | C95 |
| Set-up accepts the master secret 0, header encryption the scalar 0: then everyone reads the symmetric key (probability 1/q each) | C96 |
| A header without metadata is opened without error by the key of another authority with the same access policy, to a wrong symmetric key | C97 |
| `get_last_error` loses a message with a NUL inside, although its comment says that NUL bytes are cleaned up, and can cut a message inside a character, although it is documented to return UTF-8 | C48 |
| A C caller who decrypts a header without identifier or additional data and reuses the length variable (now 0) does not get those of the next header, the call returning 0 | C102 |
| The C interface refuses access policies with more than 63 nested `And`/`Or` (a chain of 65 attributes), which Rust accepts and writes, because of the nesting limit of `serde_json` | C103 |
| Attributes with `::`, white space at an end of a name, or an axis ending with `:` can be added to a policy, but the policy is not read again from its JSON, or is read with the attribute lost | C103 |
| If the crate accepts clear texts of 2^36 bytes, as its documented limit says, the last bytes are encrypted with the value that hides the hash in the tag (the standard stops 32 bytes earlier); blocks of the library are far below | C104 |
| A policy text that lists an attribute without entry in `attribute_to_int` is accepted and makes key generation and delegation panic (indexing of a hash map), through all interfaces; a text may give one value to several attributes, whose keys are then interchangeable | C106 |
| The length of a symmetric key is not bound to its encapsulation: the same encapsulation opens to a key of any length, shorter keys being the beginnings of longer ones | C107 |
| A negative block number means different numbers on different builds | C65 |
| Printing (`Display`) a private or user key writes the whole secret key | C88 |
| All keys for the same access policy without `And` are identical, and randomising or delegating them changes nothing | C87 |
| The notebook confidential-data-access.ipynb imports `abe_gpsw`, but the module is called `cosmian_abe_gpsw` (pyo3/mod.rs:23), so it does not run as it stands (read from the source, not a theorem); with the name corrected it shows its stored results | C74 |
| The README's table of attribute values holds only if the departments are added before the levels; its JSON lists the levels first (and is not valid JSON) | C109 |
| Random scalars are not uniform: 64 bytes are reduced by the order (the bias is below `2^-257` for each scalar, which C111 adds to the bounds of the games) | C111 |
