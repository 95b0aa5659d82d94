{"id": "C01", "title": "Authorised decryption returns the exact message", "statement": "If a user key is generated for an access policy and a message is encrypted under attributes that satisfy this access policy, decryption with that key returns exactly the encrypted message.", "quantifier": "every well-formed policy, access policy, attribute list satisfying it, message, and every outcome of the random generator in set-up, key generation and encryption", "why_tests_cant": "The claim ranges over all formula shapes and all random draws; a test fixes a handful of policies and one seed.", "anchors": ["src/core/engine.rs:Engine::{generate_master_key,generate_user_key,encrypt,decrypt}", "src/core/gpsw/scheme.rs:Gpsw::{key_generation,encrypt,decrypt}"]}
{"id": "C02", "title": "Unauthorised decryption never returns a message", "statement": "If the ciphertext attributes do not satisfy the access policy of the key, decryption returns no message: Ok(None) when key and ciphertext share an attribute value, an error when they share none.", "quantifier": "every well-formed policy, access policy, attribute list not satisfying it, message and randomness", "why_tests_cant": "A single leaking combination of policy and attributes breaks it; the space of pairs is infinite.", "anchors": ["src/core/gpsw/scheme.rs:Gpsw::decrypt", "src/core/gpsw/scheme.rs:Gpsw::span_coefs"]}
{"id": "C03", "title": "The share matrix of a formula realises the formula", "statement": "For a boolean formula compiled to its share-generating matrix, the rows labelled by an attribute set can be combined into the all-ones vector exactly when the set satisfies the formula.", "quantifier": "every formula (any nesting of And/Or), every attribute set, every scalar field", "why_tests_cant": "Universally quantified over trees and sets; unit tests check five literal matrices.", "anchors": ["src/core/msp.rs:Node::to_msp"]}
{"id": "C04", "title": "The reconstruction solver is sound, complete and does not crash", "statement": "On a rectangular matrix the coefficient solver returns coefficients whose combination of the rows is the all-ones vector whenever such coefficients exist, returns None exactly when none exist, and never panics.", "quantifier": "every rectangular matrix of every size over every field", "why_tests_cant": "Elimination has data-dependent pivoting; the two unit tests fix two matrices.", "anchors": ["src/core/gpsw/scheme.rs:Gpsw::span_coefs"]}
{"id": "C05", "title": "Matrix shape, entry range and duplicate rejection", "statement": "Compiling a formula fails exactly when an attribute occurs in two leaves; otherwise the matrix has one row per leaf, one column more than the number of And nodes, each attribute labels exactly the row found by lookup, and all i32 entries lie in -1..2 (so the i32 arithmetic cannot overflow).", "quantifier": "every formula", "why_tests_cant": "Overflow and duplicate handling must hold for arbitrarily large formulas.", "anchors": ["src/core/msp.rs:Node::to_msp", "src/core/msp.rs:MonotoneSpanProgram::{get_attr_from_row,get_row_from_attr}"]}
{"id": "C06", "title": "Hierarchical axes give access to lower levels and only those", "statement": "A key for attribute L of a hierarchical axis decrypts ciphertexts carrying any attribute of that axis ranked at or below L, and none carrying only attributes ranked above L; on a flat axis only L itself.", "quantifier": "every well-formed policy, every axis size, every attribute and every ciphertext attribute list", "why_tests_cant": "Ranges over all axis sizes and all rank pairs.", "anchors": ["src/core/msp.rs:policy_to_node"]}
{"id": "C07", "title": "When a user key can be generated", "statement": "For a well-formed policy, user key generation succeeds exactly when the access policy mentions only known attributes, contains no All below And/Or, and its expansion mentions no attribute value twice, and all values are below the master key size; otherwise it returns an error and does not panic.", "quantifier": "every well-formed policy, access policy, master key with non-zero secrets and randomness", "why_tests_cant": "The error set is a condition over all expansions of all access policies.", "anchors": ["src/core/engine.rs:Engine::generate_user_key", "src/core/msp.rs:policy_to_msp", "src/core/msp.rs:policy_to_formula", "src/core/msp.rs:policy_to_node", "src/core/gpsw/scheme.rs:Gpsw::key_generation"]}
{"id": "C08", "title": "An All key reads every ciphertext with a value known at its creation", "statement": "A user key for the special access policy All decrypts a ciphertext exactly when the ciphertext carries at least one attribute value that existed in the policy when the key was generated.", "quantifier": "every well-formed policy at key generation, every (possibly later) policy at encryption, every attribute list", "why_tests_cant": "Ranges over all policy histories.", "anchors": ["src/core/msp.rs:policy_to_msp", "src/core/engine.rs:Engine::{generate_user_key,encrypt,decrypt}"]}
{"id": "C09", "title": "Rotation revokes old keys and preserves refreshed ones", "statement": "After rotating attributes, a key generated before decrypts a new ciphertext exactly when the ciphertext attributes that were not rotated satisfy its access policy, while a key generated after the rotations decrypts old and new ciphertexts exactly when all their attributes satisfy it; otherwise decryption returns nothing if the policy grants one of the attributes that count, and the error for an empty matrix if it grants none.", "quantifier": "every well-formed policy, every finite sequence of rotations, every access policy and attribute list", "why_tests_cant": "Quantifies over histories of rotations of unbounded length.", "anchors": ["src/core/msp.rs:policy_to_node", "src/core/engine.rs:Engine::encrypt", "src/interfaces/ffi/generate_gpsw_keys.rs:h_rotate_attributes", "src/core/tests/engine_tests.rs"]}
{"id": "C10", "title": "All keys are not exempt from rotation", "statement": "The demo documentation says the All access policy is not subject to attribute revocation. This fails: once every attribute of a ciphertext has been rotated after the key was generated, the All key cannot read it.", "quantifier": "existence of a policy, rotation and ciphertext (refutation), together with the exact condition for every policy", "why_tests_cant": "The shipped demo rotates only one of two attributes, so it passes.", "anchors": ["src/core/msp.rs:policy_to_msp", "src/core/demo.rs"]}
{"id": "C11", "title": "Randomising a user key does not change what it opens", "statement": "Delegating a user key with access policy All yields a key with the same policy that decrypts exactly the same ciphertexts to the same messages; the result is a key that key generation itself could have produced, and every such key can be produced by some randomness.", "quantifier": "every user key produced by generation or earlier randomisations, every randomness, every ciphertext", "why_tests_cant": "Requires an algebraic identity over all randomness and key sizes.", "anchors": ["src/core/gpsw/scheme.rs:Gpsw::key_randomization", "src/core/engine.rs:Engine::delegate_user_key"]}
{"id": "C12", "title": "Delegation to a pruned policy works", "statement": "If the new policy is a restriction of the old one (Or nodes replaced by one of their children or by an Or of such restrictions, any number of times, e.g. lower levels of a hierarchical axis), delegation succeeds and the delegated key decrypts exactly the ciphertexts whose attributes satisfy the new policy; it can be delegated again.", "quantifier": "every formula, every pruning, every attribute set, every randomness, every delegation depth", "why_tests_cant": "Quantifies over all formulas and all prunings; the column layout of the matrix changes with each pruning.", "anchors": ["src/core/gpsw/scheme.rs:Gpsw::key_delegation", "src/core/engine.rs:Engine::delegate_user_key"]}
{"id": "C13", "title": "Delegating Or to And is documented but produces broken keys", "statement": "The documentation of delegation allows replacing an Or node by an And. This fails: the key delegated from `a | b` to `a & b` is produced without error but decrypts a ciphertext carrying a and b to a wrong message, for all secrets and randomness with non-zero master secret and non-zero encryption randomness.", "quantifier": "every choice of the randomness (refutation of the documented claim)", "why_tests_cant": "The tests and the demo never decrypt with such a key.", "anchors": ["src/core/gpsw/scheme.rs:Gpsw::key_delegation", "src/core/engine.rs:Engine::delegate_user_key", "src/core/demo.rs"]}
{"id": "C14", "title": "Delegation cannot widen access", "statement": "Delegation under any policy succeeds exactly when the values granted by the new access policy are values of the user key; otherwise it is the error 'new attribute is not allowed' when all of them are within the delegation key, and an out of bounds access when some are not and the others belong to the user key. Whatever new policy is used, the part of the delegated key usable against a ciphertext that the parent key could not open carries no information about the master secret.", "quantifier": "every parent formula, every new matrix, every attribute set not satisfying the parent, every randomness", "why_tests_cant": "It is a statement about all keys that could be derived, not about outcomes of particular ones.", "anchors": ["src/core/gpsw/scheme.rs:Gpsw::key_delegation"]}
{"id": "C15", "title": "Unauthorised key parts are independent of the master secret", "statement": "For attributes not satisfying the policy of a key, the key components for those attributes have exactly the same distribution whatever the master secret: there is a bijection of the randomness used by key generation that maps keys under one master secret to keys under another with identical components for those attributes.", "quantifier": "every formula, every unauthorised attribute set, every pair of master secrets", "why_tests_cant": "A distribution statement; sampling cannot establish equality.", "anchors": ["src/core/gpsw/scheme.rs:Gpsw::key_generation"]}
{"id": "C16", "title": "Keys cannot be pooled by linear combination", "statement": "If fixed coefficients combine the components of several user keys (for attributes of a ciphertext) into the master secret for all randomness, then one of the keys alone is authorised for this ciphertext.", "quantifier": "every finite family of formulas, every attribute set, every coefficient family", "why_tests_cant": "Quantifies over all attackers' linear strategies and all key randomness.", "anchors": ["src/core/gpsw/scheme.rs:Gpsw::key_generation"]}
{"id": "C17", "title": "When encryption succeeds", "statement": "Encryption errs exactly when the number of attributes reaches the public key size or an attribute is unknown, and otherwise succeeds when all attribute values are below the public key size; it panics when a value is out of range. (For public keys with at least one slot.) A policy that has used its whole creation budget has such a value, so encryption under its last attribute panics.", "quantifier": "every public key and attribute list; existence for the refutation", "why_tests_cant": "Tests keep a large unused budget.", "anchors": ["src/core/gpsw/scheme.rs:Gpsw::encrypt", "src/core/engine.rs:Engine::{generate_master_key,encrypt}"]}
{"id": "C18", "title": "Master keys are consistent", "statement": "Set-up returns a public key and a delegation key whose entries are the published images of the private scalars and of their inverses; it panics exactly when a sampled scalar is zero.", "quantifier": "every size, every randomness", "why_tests_cant": "Ranges over all random outputs including zero, which is never sampled in practice.", "anchors": ["src/core/gpsw/scheme.rs:Gpsw::generate_master_key", "src/core/bilinear_map/bls12_381.rs:Div for Scalar"]}
{"id": "C19", "title": "Attribute order and repetition are irrelevant", "statement": "Two ciphertexts of the same message whose attribute lists contain the same values (in any order and multiplicity) are decrypted alike by every key.", "quantifier": "every key, every pair of attribute lists with the same elements, every randomness", "why_tests_cant": "Elimination follows row order; tests use one order.", "anchors": ["src/core/gpsw/scheme.rs:Gpsw::{encrypt,decrypt,span_coefs}"]}
{"id": "C20", "title": "Access is monotone", "statement": "If a key decrypts ciphertexts under an attribute list then it decrypts ciphertexts under every list containing these attributes; and weakening a policy never removes access.", "quantifier": "every key, attribute list and superset", "why_tests_cant": "Quantifies over all supersets and all policies.", "anchors": ["src/core/msp.rs:Node::to_msp", "src/core/gpsw/scheme.rs:Gpsw::decrypt"]}
{"id": "C21", "title": "Primitive encodings round-trip and are canonical", "statement": "u32, i32 and scalar encodings have the announced length, decode to the encoded value whatever bytes follow, reject short input with an error (i32 decoding panics instead), and two different accepted encodings of the announced length denote different values. Integers are big-endian (two's complement if signed), scalars little-endian.", "quantifier": "every value, every byte string", "why_tests_cant": "2^256 scalars and all byte strings.", "anchors": ["src/core/gpsw/mod.rs:AsBytes for u32", "src/core/gpsw/mod.rs:AsBytes for i32", "src/core/bilinear_map/bls12_381.rs:AsBytes for Scalar"]}
{"id": "C22", "title": "Vectors round-trip", "statement": "A non-empty vector decodes to itself from its encoding followed by arbitrary bytes, and its declared length is the number of bytes produced; an empty vector encodes to no bytes and therefore decodes only when nothing follows.", "quantifier": "every vector of every length (below 2^32-1), every lawful element encoding, every trailing bytes", "why_tests_cant": "All lengths and contents.", "anchors": ["src/core/gpsw/mod.rs:AsBytes for Vec<T>"]}
{"id": "C23", "title": "Vector decoding never crashes except on a zero count", "statement": "Decoding a vector from arbitrary bytes never panics in a release build; in a build with overflow checks it panics exactly when the first element decodes and the count is zero or the size it announces overflows usize (impossible on 64-bit targets); in a release build a zero count is an error or, for 4-byte elements, is accepted as a one-element vector.", "quantifier": "every byte string, both build modes, every pointer width of at least 32 bits", "why_tests_cant": "Untrusted input: all byte strings.", "anchors": ["src/core/gpsw/mod.rs:AsBytes for Vec<T>::try_from_bytes"]}
{"id": "C24", "title": "Master keys round-trip", "statement": "Private, public and delegation keys with at least one slot (and fewer than 2^32-1) decode to themselves; with zero slots the private and public key encodings do not round-trip.", "quantifier": "every key of every size; existence for the refutation", "why_tests_cant": "All sizes and contents.", "anchors": ["src/core/gpsw/scheme.rs:AsBytes for GpswMasterPrivateKey", "src/core/gpsw/scheme.rs:AsBytes for GpswMasterPublicKey", "src/core/gpsw/scheme.rs:AsBytes for GpswMasterPublicDelegationKey"]}
{"id": "C25", "title": "User keys round-trip", "statement": "Every user key produced by generation, delegation or randomisation decodes to itself from its encoding, followed by any bytes, and so decrypts the same ciphertexts.", "quantifier": "every user key obtainable by the API", "why_tests_cant": "All keys of all sizes.", "anchors": ["src/core/gpsw/scheme.rs:AsBytes for GpswDecryptionKey", "src/core/msp.rs:AsBytes for MonotoneSpanProgram"]}
{"id": "C26", "title": "Ciphertexts round-trip", "statement": "Every ciphertext produced by encryption under at least one attribute decodes to itself; a ciphertext with no attribute does not round-trip.", "quantifier": "every ciphertext; existence for the refutation", "why_tests_cant": "All attribute counts and contents.", "anchors": ["src/core/gpsw/scheme.rs:AsBytes for GpswCipherText", "src/core/gpsw/mod.rs:AsBytes for Vec<T>"]}
{"id": "C27", "title": "Share matrices round-trip and malformed ones are rejected", "statement": "A non-empty rectangular matrix with distinct labels decodes to itself; bytes with a repeated label, or too short for the announced dimensions, are rejected with an error on 64-bit targets; the inputs on which decoding panics are characterised for every target (on 64 bits none without overflow checks, and with them none below 2^29 bytes; eight chosen bytes on wasm32); a zero dimension is accepted and yields an inconsistent matrix.", "quantifier": "every matrix; every byte string; existence for the refutation", "why_tests_cant": "All dimensions.", "anchors": ["src/core/msp.rs:AsBytes for MonotoneSpanProgram"]}
{"id": "C28", "title": "Decoding is canonical", "statement": "If bytes decode to a key or ciphertext with non-empty vectors then re-encoding it gives back the bytes consumed; two byte strings of the announced length decoding to the same object are equal. Exception proved: without overflow checks a ciphertext with one label has a second encoding of the same length, which announces zero labels.", "quantifier": "every byte string", "why_tests_cant": "All byte strings.", "anchors": ["src/core/gpsw/mod.rs:AsBytes", "src/core/gpsw/scheme.rs:AsBytes", "src/core/msp.rs:AsBytes"]}
{"id": "C29", "title": "Truncated objects are rejected with an error", "statement": "Every strict prefix of the encoding of a master key, user key or ciphertext is rejected with an error, without panic (the empty prefix of a delegation key is accepted as an empty key).", "quantifier": "every object, every truncation point (crash/transfer cut at any byte)", "why_tests_cant": "All objects and all cut points.", "anchors": ["src/core/gpsw/mod.rs:AsBytes", "src/core/gpsw/scheme.rs:AsBytes", "src/core/msp.rs:AsBytes"]}
{"id": "C30", "title": "The announced ciphertext length is exact", "statement": "The ciphertext length computed in advance from the number of attributes equals the length of the encoding of every ciphertext with that many (at least one) attributes.", "quantifier": "every ciphertext", "why_tests_cant": "All attribute counts.", "anchors": ["src/core/gpsw/scheme.rs:Gpsw::ciphertext_len", "src/core/gpsw/scheme.rs:AsBytes for GpswCipherText::len_bytes"]}
{"id": "C31", "title": "Crafted ciphertexts and keys can crash decryption", "statement": "Decryption with a key and ciphertext whose component counts are consistent never panics; but decoding does not enforce consistency, and there are byte strings accepted as ciphertext (respectively as user key) on which decryption panics.", "quantifier": "every consistent key and ciphertext; existence for the refutation", "why_tests_cant": "Tests only decode honestly produced objects.", "anchors": ["src/core/gpsw/scheme.rs:Gpsw::decrypt", "src/core/gpsw/scheme.rs:AsBytes for GpswCipherText", "src/core/gpsw/scheme.rs:AsBytes for GpswDecryptionKey"]}
{"id": "C32", "title": "Memory requested while decoding", "statement": "In builds with overflow checks or with 64-bit pointers, vector decoding only reserves capacity bounded by the input size, and so does matrix decoding for labels and rows; the number of columns is reserved as announced, so eight bytes request an allocation of 2^32-1 scalars; on wasm32 without overflow checks 36 bytes request 2^27+1 scalars. Accepted inputs never cause a request of more elements than a quarter of their bytes, on any target.", "quantifier": "every byte string; existence for the refutation", "why_tests_cant": "Worst-case over all inputs.", "anchors": ["src/core/gpsw/mod.rs:AsBytes for Vec<T>::try_from_bytes", "src/core/msp.rs:AsBytes for MonotoneSpanProgram::try_from_bytes"]}
{"id": "C33", "title": "Symmetric key encapsulation round-trips", "statement": "The symmetric key decapsulated by an authorised user key equals the one generated with the encapsulation and has the requested length; an unauthorised user key gets no key, and an error if there is some attribute (without attribute the encapsulation may also make a build with overflow checks panic).", "quantifier": "every policy, key, attribute list, requested length and randomness", "why_tests_cant": "All policies and random draws.", "anchors": ["src/core/engine.rs:Engine::{generate_symmetric_key,decrypt_symmetric_key}"]}
{"id": "C34", "title": "Message encoding collides only on trailing zero bytes", "statement": "Encoding a byte message fails exactly when it is longer than 32 bytes or denotes (little-endian) a number not below the group order; two messages are encoded to the same element exactly when they differ only in trailing zero bytes.", "quantifier": "every pair of byte strings", "why_tests_cant": "All byte strings.", "anchors": ["src/core/bilinear_map/bls12_381.rs:BilinearMap::{msg_to_scalar,msg_encode}"]}
{"id": "C35", "title": "Hybrid headers round-trip", "statement": "Decrypting with an authorised key a header produced by header encryption returns the same symmetric key and the same metadata (the default metadata if none was given).", "quantifier": "every policy, user key, attributes, metadata and randomness, for every symmetric scheme that decrypts what it encrypts", "why_tests_cant": "All inputs and randomness.", "anchors": ["src/interfaces/hybrid_crypto/statics.rs:encrypt_hybrid_header", "src/interfaces/hybrid_crypto/statics.rs:decrypt_hybrid_header"]}
{"id": "C36", "title": "Header layout", "statement": "An encrypted header is a 4-byte big-endian length, the encapsulated key of that length, and, if metadata is given, a nonce, a 4-byte length and an encrypted metadata block of that length; its total length is determined by the attribute count and metadata size.", "quantifier": "every header", "why_tests_cant": "All inputs.", "anchors": ["src/interfaces/hybrid_crypto/statics.rs:encrypt_hybrid_header", "src/interfaces/hybrid_crypto/statics.rs:u32_len"]}
{"id": "C37", "title": "Header structures round-trip but can crash on short input", "statement": "The byte forms of the encrypted and the clear-text header structures decode to themselves; there are short byte strings on which their decoding panics, and none at least as long as announced.", "quantifier": "every header structure; every byte string", "why_tests_cant": "All byte strings.", "anchors": ["src/interfaces/hybrid_crypto/statics.rs:EncryptedHeader::{try_into_bytes,try_from_bytes}", "src/interfaces/hybrid_crypto/statics.rs:ClearTextHeader::{try_into_bytes,try_from_bytes}"]}
{"id": "C38", "title": "Hybrid blocks round-trip within size limits", "statement": "For identifiers of up to 4 GiB, block encryption fails exactly on empty or oversized input. Whenever it succeeds, for whatever identifier, block decryption with the same key, uid and block number returns the clear text, and the encrypted size exceeds the clear size by the announced overhead.", "quantifier": "every key, uid, block number, clear text, nonce, for every lawful AEAD", "why_tests_cant": "All inputs.", "anchors": ["src/interfaces/hybrid_crypto/statics.rs:encrypt_hybrid_block", "src/interfaces/hybrid_crypto/statics.rs:decrypt_hybrid_block", "src/interfaces/hybrid_crypto/statics.rs:symmetric_encryption_overhead"]}
{"id": "C39", "title": "Unauthorised or malformed headers yield an error, never a key", "statement": "Header decryption with a key not authorised for the header attributes never returns a key, and returns an error if there is some attribute; malformed framing (shorter than 4 bytes, announced length beyond the end) is an error and not a panic; panics occur exactly when the encapsulated ciphertext itself makes decoding or decryption panic, and such headers exist for every key.", "quantifier": "every key, header and byte string", "why_tests_cant": "All byte strings.", "anchors": ["src/interfaces/hybrid_crypto/statics.rs:decrypt_hybrid_header"]}
{"id": "C40", "title": "One-shot encryption round-trips", "statement": "The one-shot Python encryption followed by one-shot decryption with keys generated or delegated through the Python interface returns the clear text if the access policy is satisfied and otherwise returns nothing, raising an error if there is some attribute; decryption of a byte string cut inside the header panics instead of returning an error.", "quantifier": "every input; existence for the refutation", "why_tests_cant": "All inputs and cut points.", "anchors": ["src/interfaces/pyo3/hybrid_gpsw_aes.rs:encrypt", "src/interfaces/pyo3/hybrid_gpsw_aes.rs:decrypt"]}
{"id": "C41", "title": "The boolean formula parser is total", "statement": "Parsing any string of fewer than 2^31 characters terminates and returns a formula or an error, never a panic (a string of 2^31 opening parentheses overflows a counter); every accepted string uses only the authorised characters and has balanced parentheses.", "quantifier": "every string below 2^31 characters; existence for the exception", "why_tests_cant": "All strings.", "anchors": ["src/core/msp.rs:Node::parse"]}
{"id": "C42", "title": "Parsing inverts printing", "statement": "Parsing the fully parenthesised text of a formula gives back this formula, spaces are ignored anywhere, and unparenthesised operators associate to the right whatever the operators.", "quantifier": "every formula, every placement of spaces", "why_tests_cant": "All formulas.", "anchors": ["src/core/msp.rs:Node::parse"]}
{"id": "C43", "title": "The parser rejects foreign characters and large numbers", "statement": "A string containing a character other than digits, &, |, parentheses and space, or a number above 2^32-1, is rejected with an error (strings of fewer than 2^31 characters).", "quantifier": "every string", "why_tests_cant": "All strings.", "anchors": ["src/core/msp.rs:Node::parse"]}
{"id": "C44", "title": "Cache handles are unique under concurrency", "statement": "Under every interleaving of cache creations and destructions by any number of threads with fewer than 2^32 creations, a created handle designates the cache it was created with until it is destroyed, and no two live handles are equal; after 2^32 creations a live handle is overwritten.", "quantifier": "every schedule and history; existence for the refutation", "why_tests_cant": "All thread interleavings and unbounded histories.", "anchors": ["src/interfaces/ffi/hybrid_gpsw_aes.rs:h_aes_create_encryption_cache", "src/interfaces/ffi/hybrid_gpsw_aes.rs:h_aes_destroy_encryption_cache", "src/interfaces/ffi/hybrid_gpsw_aes.rs:h_aes_create_decryption_cache", "src/interfaces/ffi/hybrid_gpsw_aes.rs:h_aes_destroy_decryption_cache"]}
{"id": "C45", "title": "Destroyed or unknown handles are refused", "statement": "Using a handle that was never created or was destroyed returns an error code without writing output; destroying any handle succeeds and affects no other handle.", "quantifier": "every history", "why_tests_cant": "All histories.", "anchors": ["src/interfaces/ffi/hybrid_gpsw_aes.rs:h_aes_encrypt_header_using_cache", "src/interfaces/ffi/hybrid_gpsw_aes.rs:h_aes_decrypt_header_using_cache", "src/interfaces/ffi/hybrid_gpsw_aes.rs:h_aes_destroy_encryption_cache"]}
{"id": "C46", "title": "Cached and uncached calls agree", "statement": "Encrypting (decrypting) a header through a cache created from given policy and key bytes has the same result as the uncached call with the same bytes and randomness.", "quantifier": "every policy, key, attributes, randomness, buffers", "why_tests_cant": "All inputs.", "anchors": ["src/interfaces/ffi/hybrid_gpsw_aes.rs:h_aes_encrypt_header", "src/interfaces/ffi/hybrid_gpsw_aes.rs:h_aes_encrypt_header_using_cache", "src/interfaces/ffi/hybrid_gpsw_aes.rs:h_aes_decrypt_header", "src/interfaces/ffi/hybrid_gpsw_aes.rs:h_aes_decrypt_header_using_cache"]}
{"id": "C47", "title": "Output buffer protocol", "statement": "A foreign call returning 0 has written exactly the reported number of bytes, at most the announced capacity when it is non-negative; a call refused for lack of space leaves the buffer unchanged and reports the required size, such that repeating with this size succeeds; block calls do not report the required size, and a negative capacity disables the check.", "quantifier": "every buffer size and payload; existence for the refutations", "why_tests_cant": "All sizes.", "anchors": ["src/interfaces/ffi/generate_gpsw_keys.rs:h_generate_master_keys", "src/interfaces/ffi/generate_gpsw_keys.rs:h_generate_user_private_key", "src/interfaces/ffi/generate_gpsw_keys.rs:h_rotate_attributes", "src/interfaces/ffi/hybrid_gpsw_aes.rs:h_aes_encrypt_block", "src/interfaces/ffi/hybrid_gpsw_aes.rs:h_aes_decrypt_block", "src/interfaces/ffi/hybrid_gpsw_aes.rs:h_aes_encrypt_header"]}
{"id": "C48", "title": "Last error reporting", "statement": "After a failing foreign call, the next request for the last error on the same thread returns its message cut to the buffer size minus one and zero-terminated, clears it, and calls on other threads neither see nor change it. A message with a NUL inside is lost: the request fails and records another error. The cut may fall inside a character: what is written need not be UTF-8 although the message is.", "quantifier": "every message, buffer size, every interleaving of threads; existence for the two exceptions", "why_tests_cant": "All histories and schedules.", "anchors": ["src/interfaces/ffi/error.rs:set_last_error", "src/interfaces/ffi/error.rs:get_last_error", "src/interfaces/ffi/error.rs:set_error"]}
{"id": "C49", "title": "Invalid foreign arguments are refused without effect", "statement": "A null pointer or a zero length for a mandatory argument makes a foreign call return 1, with an error recorded and no output written; except that null pointers to output lengths and to the handle are dereferenced unchecked, and that get_last_error records nothing.", "quantifier": "every argument combination", "why_tests_cant": "All combinations.", "anchors": ["src/interfaces/ffi/hybrid_gpsw_aes.rs", "src/interfaces/ffi/generate_gpsw_keys.rs", "src/interfaces/ffi/error.rs:ffi_not_null"]}
{"id": "C50", "title": "Policy creation from Python truncates the creation budget", "statement": "Creating a policy from Python with a budget of 2^32 or more silently wraps modulo 2^32; below it, the budget is kept.", "quantifier": "every budget", "why_tests_cant": "All values.", "anchors": ["src/interfaces/pyo3/generate_gpsw_keys.rs:generate_policy"]}
{"id": "C51", "title": "Packaged master keys split correctly", "statement": "The single buffer returned by master key generation splits, using its 4-byte length prefix, into the private and the public key.", "quantifier": "every key pair (private key shorter than 2^32)", "why_tests_cant": "All sizes.", "anchors": ["src/interfaces/ffi/generate_gpsw_keys.rs:h_generate_master_keys", "src/interfaces/wasm_bindgen/generate_gpsw_keys.rs"]}
{"id": "C52", "title": "Announced header size", "statement": "The header size function returns the header length stored at the start of an encrypted message below 2^31; for longer values it is negative, and for inputs of one to three bytes it panics. The Python and JavaScript functions return the size for every input of at least 4 bytes and an error otherwise.", "quantifier": "every input", "why_tests_cant": "All inputs.", "anchors": ["src/interfaces/ffi/hybrid_gpsw_aes.rs:h_get_encrypted_header_size", "src/interfaces/pyo3/hybrid_gpsw_aes.rs:get_encrypted_header_size"]}
{"id": "C53", "title": "Rotation keeps the policy well formed", "statement": "Adding axes and rotating attributes keep attribute values distinct and within the creation budget, never remove old values, make the newest value current, and refuse once the budget is exhausted; a list of rotations through the foreign interface is applied entirely or has no output.", "quantifier": "every sequence of policy operations", "why_tests_cant": "All histories.", "anchors": ["src/interfaces/ffi/generate_gpsw_keys.rs:h_rotate_attributes", "src/core/msp.rs:policy_to_node"]}
{"id": "C54", "title": "Cutting a header is detected except before the metadata", "statement": "Decrypting a strict prefix of an encrypted header with an authorised key is an error, except when the cut is exactly between the encapsulated key and the metadata: then the key is returned with the default metadata, so removed metadata goes unnoticed.", "quantifier": "every header and cut point", "why_tests_cant": "All cut points of all headers.", "anchors": ["src/interfaces/hybrid_crypto/statics.rs:decrypt_hybrid_header"]}
{"id": "C55", "title": "Bytes following a header with metadata are ignored", "statement": "Appending any bytes to a header with metadata does not change the result of decrypting it with an authorised key.", "quantifier": "every header, every suffix", "why_tests_cant": "All suffixes.", "anchors": ["src/interfaces/hybrid_crypto/statics.rs:decrypt_hybrid_header"]}
{"id": "C56", "title": "End-to-end flow through the C interface", "statement": "With master keys, a user key and a header all produced by calls of the C interface from the same policy text, decrypting the header with the key through the C interface returns the same symmetric key, identifier and additional data when the attributes satisfy the access policy; otherwise the call never succeeds nor writes any output.", "quantifier": "every policy, access policy, attributes, randomness, metadata and buffers", "why_tests_cant": "All inputs of a composition of five calls.", "anchors": ["src/interfaces/ffi/generate_gpsw_keys.rs:h_generate_master_keys", "src/interfaces/ffi/generate_gpsw_keys.rs:h_generate_user_private_key", "src/interfaces/ffi/hybrid_gpsw_aes.rs:h_aes_encrypt_header", "src/interfaces/ffi/hybrid_gpsw_aes.rs:h_aes_decrypt_header"]}
{"id": "C57", "title": "End-to-end flow through the JavaScript interface", "statement": "With master keys, a user key and a header all produced by calls of the WebAssembly interface from the same policy, the header split at its announced key length: decrypting the second part with the user key returns the first part (the symmetric key) and the identifier when the attributes satisfy the access policy, otherwise never succeeds; decrypting the unsplit output never succeeds, whatever the key.", "quantifier": "every policy, access policy, attributes, randomness and identifier, on every target of at least 32 bits", "why_tests_cant": "All inputs of a composition of four calls, on a 32-bit target.", "anchors": ["src/interfaces/wasm_bindgen/generate_gpsw_keys.rs:webassembly_generate_master_keys", "src/interfaces/wasm_bindgen/generate_gpsw_keys.rs:webassembly_generate_user_private_key", "src/interfaces/wasm_bindgen/hybrid_gpsw_aes_encryption.rs:webassembly_encrypt_hybrid_header", "src/interfaces/wasm_bindgen/hybrid_gpsw_aes_decryption.rs:webassembly_decrypt_hybrid_header"]}
{"id": "C58", "title": "JavaScript cache handles", "statement": "In every history of calls without panic and with at most 2^32 creations, a handle returned by a cache creation gives the same results as the uncached call with the bytes of this creation until it is destroyed (for non-empty attributes and identifier: the uncached encryption refuses empty ones, the cached one accepts an empty identifier); a handle never returned, or not since its destruction, makes the call panic.", "quantifier": "every history of calls; existence for the exception", "why_tests_cant": "All histories.", "anchors": ["src/interfaces/wasm_bindgen/hybrid_gpsw_aes_encryption.rs:webassembly_create_encryption_cache", "src/interfaces/wasm_bindgen/hybrid_gpsw_aes_encryption.rs:webassembly_encrypt_hybrid_header_using_cache", "src/interfaces/wasm_bindgen/hybrid_gpsw_aes_decryption.rs:webassembly_create_decryption_cache", "src/interfaces/wasm_bindgen/hybrid_gpsw_aes_decryption.rs:webassembly_decrypt_hybrid_header_using_cache"]}
{"id": "C59", "title": "A panic during a cached call disables the JavaScript caches", "statement": "As a WebAssembly panic does not release the read lock, after one panicking cached call no cache of this kind can be created or destroyed, whatever calls follow; for every decryption cache, a 356-byte header received from outside has this effect.", "quantifier": "every state, every later history; existence of the header for every cache", "why_tests_cant": "All later histories.", "anchors": ["src/interfaces/wasm_bindgen/hybrid_gpsw_aes_encryption.rs:webassembly_encrypt_hybrid_header_using_cache", "src/interfaces/wasm_bindgen/hybrid_gpsw_aes_decryption.rs:webassembly_decrypt_hybrid_header_using_cache"]}
{"id": "C60", "title": "Blocks through the JavaScript interface", "statement": "With a 32-byte key and an identifier of up to 4 GiB, every block of 1 to 2^30 bytes encrypted through the WebAssembly interface is decrypted by it to the same bytes, where an omitted identifier means the empty one and an omitted number means 0; other key sizes, empty and larger blocks are refused with an error, and so are, for decryption, empty data and data longer than 2^30 bytes and the overhead of the symmetric scheme.", "quantifier": "every key, identifier, number and block", "why_tests_cant": "All inputs.", "anchors": ["src/interfaces/wasm_bindgen/hybrid_gpsw_aes_encryption.rs:webassembly_encrypt_hybrid_block", "src/interfaces/wasm_bindgen/hybrid_gpsw_aes_decryption.rs:webassembly_decrypt_hybrid_block"]}
{"id": "C61", "title": "No pairing attack by unauthorised coalitions", "statement": "Whatever fixed combination of group operations and pairings a coalition of users applies to the public key, the delegation key, their own keys and all ciphertexts they see, it can open every ciphertext for a list of attribute values if and only if these values satisfy the access policy of one of the users.", "quantifier": "every strategy, coalition, attribute list and other ciphertexts; the strategy must work for all randomness", "why_tests_cant": "Quantifies over all algebraic strategies and coalitions.", "anchors": ["src/core/gpsw/scheme.rs:Gpsw::{key_generation,encrypt,decrypt}", "src/core/engine.rs:Engine::{generate_user_key,encrypt}"]}
{"id": "C62", "title": "Ciphertexts are malleable", "statement": "Adding a group element to the masked message of any ciphertext adds it to the result of decryption with any key; adding two ciphertexts for the same values gives a ciphertext of the sum of the messages; removing an attribute from a ciphertext gives a ciphertext of the same message for the remaining attributes.", "quantifier": "every ciphertext, key, group element and attribute position", "why_tests_cant": "All ciphertexts and keys.", "anchors": ["src/core/gpsw/scheme.rs:Gpsw::{encrypt,decrypt}"]}
{"id": "C63", "title": "Keys of another authority do not decrypt", "statement": "For a key made from one master key and the ciphertexts made with another one, there is a single value z such that the decryption of authorised ciphertexts is the message shifted by s(y - z) times the generator, hence is right only when s = 0 or the other authority happened to draw y = z; unauthorised ciphertexts are not decrypted at all.", "quantifier": "every pair of master keys, access policy, attribute values, message and randomness", "why_tests_cant": "All pairs of independent authorities.", "anchors": ["src/core/gpsw/scheme.rs:Gpsw::{generate_master_key,key_generation,decrypt}"]}
{"id": "C64", "title": "Keys and headers can be exchanged between all interfaces", "statement": "Take master keys, a user key (also randomised or delegated in Python) and a header, each produced by any of the Python, C and JavaScript interfaces, compiled for possibly different pointer widths. If the attributes of the header satisfy the access policy of the key, every decryption function of every interface and build returns the same symmetric key and the original metadata; otherwise none of them returns a key.", "quantifier": "every combination of producing and consuming interfaces, builds of at least 32 bits, policies, attributes, randomness and metadata", "why_tests_cant": "All combinations of four interfaces in each role times all inputs.", "anchors": ["src/interfaces/ffi/generate_gpsw_keys.rs:h_generate_master_keys", "src/interfaces/ffi/generate_gpsw_keys.rs:h_generate_user_private_key", "src/interfaces/pyo3/generate_gpsw_keys.rs:generate_master_keys", "src/interfaces/wasm_bindgen/generate_gpsw_keys.rs:webassembly_generate_master_keys", "src/interfaces/ffi/hybrid_gpsw_aes.rs:h_aes_encrypt_header", "src/interfaces/ffi/hybrid_gpsw_aes.rs:h_aes_decrypt_header", "src/interfaces/pyo3/hybrid_gpsw_aes.rs:encrypt_hybrid_header", "src/interfaces/wasm_bindgen/hybrid_gpsw_aes_encryption.rs:webassembly_encrypt_hybrid_header", "src/interfaces/wasm_bindgen/hybrid_gpsw_aes_decryption.rs:webassembly_decrypt_hybrid_header"]}
{"id": "C65", "title": "Blocks can be exchanged between all interfaces", "statement": "A block encrypted by any interface of any build under a symmetric key, identifier and block number is decrypted by every interface of every build, given the same key, identifier and number, to the same bytes. Exception proved: a negative block number given to the C interface denotes different numbers on builds of different pointer widths.", "quantifier": "every interface, build, 32-byte key, identifier, non-negative number and block; existence for the exception", "why_tests_cant": "All combinations of interfaces times all inputs.", "anchors": ["src/interfaces/ffi/hybrid_gpsw_aes.rs:h_aes_encrypt_block", "src/interfaces/ffi/hybrid_gpsw_aes.rs:h_aes_decrypt_block", "src/interfaces/pyo3/hybrid_gpsw_aes.rs:encrypt_hybrid_block", "src/interfaces/wasm_bindgen/hybrid_gpsw_aes_encryption.rs:webassembly_encrypt_hybrid_block", "src/interfaces/wasm_bindgen/hybrid_gpsw_aes_decryption.rs:webassembly_decrypt_hybrid_block"]}
{"id": "C66", "title": "From the text of a formula to decryption", "statement": "Compiling the text of a formula of fewer than 2^31 characters to a span program never panics and succeeds exactly for the texts of the grammar without repeated label; the matrix realises exactly the formula the grammar assigns to the text. A key made from it exists exactly when all labels are below the number of slots of the master key, and decrypts a ciphertext to its message exactly when the labels of the ciphertext satisfy this formula.", "quantifier": "every text below 2^31 characters, field, master key, randomness, message and list of labels", "why_tests_cant": "Infinitely many texts and label sets.", "anchors": ["src/core/msp.rs:MonotoneSpanProgram::parse", "src/core/msp.rs:Node::parse", "src/core/msp.rs:Node::to_msp", "src/core/gpsw/scheme.rs:Gpsw::{key_generation,encrypt,decrypt}"]}
{"id": "C67", "title": "The display of a formula identifies it", "statement": "Two formulas with the same display are equal; the display of a formula is never accepted by the parser of formulas.", "quantifier": "every pair of formulas", "why_tests_cant": "Infinitely many formulas.", "anchors": ["src/core/msp.rs:impl Display for Node", "src/core/msp.rs:Node::parse"]}
{"id": "C68", "title": "When decoding a key or a ciphertext crashes", "statement": "For every build (pointer width of at least 32 bits, with or without overflow checks) the byte strings on which decoding a master key, delegation key, user key or ciphertext panics are exactly described; without overflow checks there are none, except for user keys on 32-bit targets, where 108 bytes suffice.", "quantifier": "every byte string that fits in a slice of the target, every build; existence for the exception", "why_tests_cant": "All byte strings times all builds; tests run on one 64-bit build.", "anchors": ["src/core/gpsw/scheme.rs:AsBytes", "src/core/gpsw/mod.rs:AsBytes for Vec<T>::try_from_bytes", "src/core/msp.rs:AsBytes for MonotoneSpanProgram::try_from_bytes"]}
{"id": "C69", "title": "All builds accept the same bytes", "statement": "Whatever pointer width and overflow checks, two builds accept the same byte strings as keys and decode them to the same key, although the size checks may wrap; likewise for ciphertexts, except that a ciphertext announcing zero labels may be accepted by builds without overflow checks only.", "quantifier": "every pair of builds, every byte string", "why_tests_cant": "All byte strings times all pairs of builds.", "anchors": ["src/core/gpsw/scheme.rs:AsBytes", "src/core/gpsw/mod.rs:AsBytes for Vec<T>::try_from_bytes", "src/core/msp.rs:AsBytes for MonotoneSpanProgram::try_from_bytes"]}
{"id": "C70", "title": "Capacity overflow while decoding", "statement": "On targets of at least 64 bits no byte string makes the decoding of a key or ciphertext request more than isize::MAX bytes at once, so the capacity overflow of Vec::with_capacity never occurs; on 32-bit targets 108 bytes, refused with an error otherwise, make the decoding of a user key panic for this reason.", "quantifier": "every byte string, every build, all element sizes up to 2^30 bytes; existence for the exception", "why_tests_cant": "All byte strings.", "anchors": ["src/core/gpsw/mod.rs:AsBytes for Vec<T>::try_from_bytes", "src/core/msp.rs:AsBytes for MonotoneSpanProgram::try_from_bytes", "src/core/gpsw/scheme.rs:AsBytes"]}
{"id": "C71", "title": "Decryption over the life of a policy", "statement": "Policies change by rotations, added axes and reordering of their hash maps; keys are generated, randomised (under any policy) and delegated to restrictions (under a later or earlier policy), any number of times. A key made under policy p opens a ciphertext made under a later policy exactly when the attributes of the ciphertext that were not rotated in between satisfy its access policy as p reads it, and a ciphertext made under an earlier policy exactly when the attributes of the ciphertext satisfy it; otherwise decryption returns nothing if the policy grants one of the attributes that count, and the error for an empty matrix if it grants none.", "quantifier": "every history of changes, every chain of operations on keys, every access policy, attribute list, message and randomness", "why_tests_cant": "All histories of a policy times all chains of key operations.", "anchors": ["src/core/engine.rs:Engine::{generate_user_key,delegate_user_key,encrypt,decrypt}", "src/core/gpsw/scheme.rs:Gpsw::{key_generation,key_delegation,decrypt}", "src/core/demo.rs"]}
{"id": "C72", "title": "Delegation across changes of the policy", "statement": "Delegating a key to a restriction under a later policy succeeds with the result it would have had under the policy of the key when no granted attribute was rotated in between, and never succeeds when one was: delegation cannot refresh a key. Delegating under an earlier policy always succeeds and gives a key that misses the values created since.", "quantifier": "every history of changes, every key, every restriction, all randomness", "why_tests_cant": "All histories times all access policies.", "anchors": ["src/core/engine.rs:Engine::delegate_user_key", "src/core/gpsw/scheme.rs:Gpsw::key_delegation"]}
{"id": "C73", "title": "Memory safety of the C interface", "statement": "If every pointer a caller passes is null (where that is allowed) or points to what is announced, no call of the C interface has undefined behaviour, and no byte outside of the announced output buffers is written; also when many threads create, use and destroy caches and read errors in any interleaving. A call may panic, but not corrupt memory.", "quantifier": "every function of the interface, every argument and buffer size, every history of calls of any number of threads", "why_tests_cant": "All buffer sizes and all interleavings.", "anchors": ["src/interfaces/ffi/hybrid_gpsw_aes.rs:all extern functions", "src/interfaces/ffi/generate_gpsw_keys.rs:all extern functions", "src/interfaces/ffi/error.rs:get_last_error,set_error"]}
{"id": "C74", "title": "The repository's demonstration and tests pass for every randomness", "statement": "The demonstration of demo.rs and the tests complex_access_policy_test, encrypt_decrypt_with_multiple_key_pair, encrypt_decrypt, verify_access_policy, policy_group (which reads the policy it wrote), policy_group_from_java (for every text of the policy), test_aes_hybrid_encryption, test_ffi_hybrid_header and test_ffi_hybrid_header_using_cache (for all key files that are what their names say; the last two also for every state of the caches, and they succeed only if the access policy of the key file is satisfied), symmetric_key_test, generate_non_regression_files, generate_another_non_regression_files, the tests of the JavaScript interface (that on a stored AES-GCM ciphertext for every encoding of block numbers for which 0 is eight zero bytes; those that read key files succeed exactly if the access policy of the key is satisfied), the demonstration script of the Python interface (in which the three decryptions that should fail do raise an exception, which the script does not check, and the key delegated at the end is a key for the access policy asked for), the notebook confidential-data-access (which shows the results stored in it, makes delegated keys for the access policies asked for and has two delegations refused), the six benchmarks (for any number of iterations, those that decrypt exactly if the access policy of the key is satisfied; the sizes printed are 404 and 508 bytes), test_non_reg_decrypt_hybrid_block of the hybrid scheme, those of msp_tests.rs (including the ones that should panic) and all *_as_bytes tests satisfy every assertion on every target, whatever the random generator yields and whatever order the hash maps have, unless one of the scalars of the master key is drawn as zero, in which case they panic. The key which the demonstration delegates to a Medium Secret marketing user from the super delegate and never uses does not decrypt: it yields the message shifted by s*y times the generator of Gt, contrary to the comment above it. With the files written by generate_non_regression_files in place of the stored ones symmetric_key_test always panics, since their key is for Confidential and the test asks for Top Secret; with those of generate_another_non_regression_files it succeeds for the first key and panics for the second.", "quantifier": "all random draws, all orders of the hash maps after each operation, all targets", "why_tests_cant": "A test runs with one draw and one order.", "anchors": ["src/core/demo.rs:abe", "src/core/tests/engine_tests.rs:complex_access_policy_test,symmetric_key_test,generate_non_regression_files,generate_another_non_regression_files", "src/core/tests/gpsw_tests.rs:encrypt_decrypt_with_multiple_key_pair,encrypt_decrypt,user_key_as_bytes,ciphertext_as_bytes,master_public_key_as_bytes,master_private_key_as_bytes,master_public_delegation_key_as_bytes", "src/core/tests/msp_tests.rs:parsing,test_equality,parsing_multi,parsing_fail,parsing_with_failures,parsing_with_bad_formula,msp_as_bytes,leaf_already_inserted", "src/core/tests/policy_tests.rs:verify_access_policy,policy_group,policy_group_from_java", "src/interfaces/hybrid_crypto/tests/mod.rs:test_aes_hybrid_encryption,test_non_reg_decrypt_hybrid_block", "benches/benches.rs", "src/interfaces/ffi/tests.rs:test_ffi_hybrid_header,test_ffi_hybrid_header_using_cache", "src/interfaces/wasm_bindgen/tests.rs:test_generate_keys,test_decrypt_hybrid_header,test_encrypt_hybrid_header,test_encrypt_hybrid_block,test_non_reg_decrypt_hybrid_block", "src/interfaces/pyo3/tests/demo.py", "src/interfaces/pyo3/tests/notebooks/confidential-data-access.ipynb", "src/core/bilinear_map/bls12_381.rs:scalar_as_bytes,g1_affine_as_bytes,g2_affine_as_bytes,gt_as_bytes", "src/core/engine.rs:Engine"]}
{"id": "C75", "title": "The order of hash maps does not matter", "statement": "Two policies that differ only in the order of their hash maps remain so under the same changes. With the same randomness they give the same master keys, ciphertexts, delegated keys, and user keys for every access policy except All, errors and panics included. For All the rows of the key follow the order of the hash map, but a key is made in the same cases and two such keys give the same result on every ciphertext, also under earlier and later policies.", "quantifier": "every reachable policy, every reordering, every history of changes, all keys, attributes and randomness", "why_tests_cant": "The order of a Rust HashMap is random in each run.", "anchors": ["src/core/msp.rs:policy_to_msp,policy_to_formula,policy_to_node", "src/core/engine.rs:Engine"]}
{"id": "C76", "title": "Security against generic attackers", "statement": "An attacker works with the group operations and the pairing only and compares results (generic bilinear group model). It asks for user keys at any time, adaptively, chooses two messages and the attribute values of a challenge in view of what it has, and guesses which message was encrypted. If none of the keys is authorised for the challenge, its advantage is at most n*(size+2)/q, where n is the number of comparisons, size the size of the master key and q the number of scalars. With one authorised key, an attacker with one comparison always succeeds when there is a master key.", "quantifier": "every adaptive attacker, every number of keys and comparisons, every access policy, attribute list and pair of messages", "why_tests_cant": "Security is about all attackers and the distribution of all random draws.", "anchors": ["src/core/gpsw/scheme.rs:Gpsw::{setup,key_generation,encrypt,decrypt}", "src/core/engine.rs:Engine::generate_user_key"]}
{"id": "C77", "title": "Delegated and randomised keys are distributed as fresh keys", "statement": "For every user key there is a shift of the random draws that turns its randomisation into the generation of a key for the same access policy, and its delegation to a restriction into the generation of a key for that restriction. So the distribution of a randomised or delegated key does not depend on the parent key: nobody can tell from which key, or from which access policy, it was derived.", "quantifier": "every policy, master key, user key (itself possibly randomised or delegated), restriction and all draws", "why_tests_cant": "A statement about probability distributions.", "anchors": ["src/core/gpsw/scheme.rs:Gpsw::{key_randomization,key_delegation,key_generation}", "src/core/engine.rs:Engine::delegate_user_key"]}
{"id": "C78", "title": "Encapsulated elements cannot be found by generic attackers", "statement": "When a random element of the target group is encrypted, as generate_symmetric_key does, a generic attacker none of whose keys is authorised, who makes n comparisons and proposes l candidates (inputs to the hash function), has found the element with a probability of at most ((n+l)*(size+2)+l)/q.", "quantifier": "every adaptive attacker, every number of keys, comparisons and candidates, every access policy and attribute list", "why_tests_cant": "Security is about all attackers and the distribution of all random draws.", "anchors": ["src/core/engine.rs:Engine::{generate_symmetric_key,random_message}", "src/core/gpsw/scheme.rs:Gpsw::{setup,key_generation,encrypt}"]}
{"id": "C79", "title": "Recursion of the formula parser", "statement": "Parsing a text takes at most one nested call of Node::parse more than it has opening parentheses and operators, also when the text is refused, and an accepted text takes exactly as many as its derivation is nested, which is at least the height of its formula. No bounded stack is enough: for every k there are accepted texts of 2k+1 characters, without parentheses or for a single leaf, that need more than k nested calls, and a stack overflow ends the process instead of returning an error.", "quantifier": "every text, every stack size; existence for the overflow", "why_tests_cant": "All texts and all stack sizes.", "anchors": ["src/core/msp.rs:Node::parse"]}
{"id": "C80", "title": "Selective security under the bilinear Diffie-Hellman assumption", "statement": "Attackers here are arbitrary: they see all group elements given to them (public key, delegation key, user keys, challenge) and may do anything with them, adaptively and with randomness of their own. They name the attribute values of the challenge first (selective game). An explicit reduction runs such an attacker once on an instance of the decisional bilinear Diffie-Hellman problem, using group operations only. On real instances it reproduces the game exactly, with the same probability distribution; on random instances it answers by a coin flip. So if no key is authorised for the challenge, the advantage of the attacker is the advantage of the reduction, times the probability that there is a master key. With an authorised key the game is always won.", "quantifier": "every attacker, every number of adaptive key requests for any policies and access policies, all messages and attribute values", "why_tests_cant": "Security is about all attackers and the distribution of all random draws.", "anchors": ["src/core/gpsw/scheme.rs:Gpsw::{setup,key_generation,encrypt,decrypt}", "src/core/engine.rs:Engine::generate_user_key"]}
{"id": "C81", "title": "Delegation between other users gives an attacker nothing", "statement": "In the game with delegation the attacker directs a whole system: it has keys made for any access policies, also authorised ones, has them randomised and delegated to restrictions, in any chains, and obtains those keys it asks for. As long as the keys it obtains are not authorised for the challenge, its chances are exactly those of an attacker in the game without delegation, so that C80 bounds them: it does not matter that the parents of its keys, which it does not see, open the challenge.", "quantifier": "every attacker, every number and order of generations, delegations and randomisations, all messages and attribute values", "why_tests_cant": "Security is about all attackers and the distribution of all random draws.", "anchors": ["src/core/gpsw/scheme.rs:Gpsw::{key_generation,key_randomization,key_delegation}", "src/core/engine.rs:Engine::{generate_user_key,delegate_user_key}"]}
{"id": "C82", "title": "Confidentiality of hybrid messages", "statement": "A message of the hybrid interface is a header, possibly with metadata, and any number of blocks under the key of the header. An arbitrary attacker names the attributes of the challenge first, obtains the public and the delegation key and user keys of its choice, none of them authorised for the challenge, and receives one of two messages of its choice, all random values (master key, encapsulated element, scalar, nonces) being drawn as in the code. Its advantage is at most that of an explicit attacker on the symmetric scheme alone, where the key is derived by SHAKE256 from a random element of the target group and used for nothing else, plus twice that of an explicit reduction to the decisional bilinear Diffie-Hellman problem. With an authorised key the metadata is always read.", "quantifier": "every attacker, every number of adaptive key requests, all messages, policies and attributes, every symmetric scheme", "why_tests_cant": "Security is about all attackers and the distribution of all random draws.", "anchors": ["src/core/engine.rs:Engine::{generate_symmetric_key,random_message,encrypt}", "src/interfaces/hybrid_crypto/statics.rs:encrypt_hybrid_header,encrypt_hybrid_block,decrypt_hybrid_header", "src/core/gpsw/scheme.rs:Gpsw::{setup,key_generation,encrypt}"]}
{"id": "C83", "title": "Attackers who choose the challenge late", "statement": "In the adaptive game the attacker names the attribute values of the challenge only with the challenge, after it has seen the public and the delegation key and user keys of its choice. Its advantage is exactly the sum, over the lists of values it may name, of the advantages in the selective game (C80) of the attackers committed to one of them, who give up when the guess turns out wrong. So it is at most the number of lists times the advantage of an explicit reduction, which guesses the list, to the decisional bilinear Diffie-Hellman problem.", "quantifier": "every attacker, every finite family of lists of values, every number of adaptive key requests, all messages", "why_tests_cant": "Security is about all attackers and the distribution of all random draws.", "anchors": ["src/core/gpsw/scheme.rs:Gpsw::{setup,key_generation,encrypt,decrypt}", "src/core/engine.rs:Engine::generate_user_key"]}
{"id": "C84", "title": "Security of many ciphertexts", "statement": "The attacker asks for any number of ciphertexts, each under its own attribute values and with fresh randomness; the pairs of messages may depend on the ciphertexts seen before. Either the first message of all pairs is encrypted or the second. The advantage of the attacker is exactly the sum, over the challenges, of the advantages in the selective game (C80) of the attackers who have one challenge and make the other ciphertexts themselves. So it is at most the number of challenges times the advantage of an explicit reduction to the decisional bilinear Diffie-Hellman problem.", "quantifier": "every attacker, every number of challenges and key requests, all messages and attribute values", "why_tests_cant": "Security is about all attackers and the distribution of all random draws.", "anchors": ["src/core/gpsw/scheme.rs:Gpsw::{setup,key_generation,encrypt,decrypt}", "src/core/engine.rs:Engine::generate_user_key"]}
{"id": "C85", "title": "Security over the life of a policy", "statement": "The game of C80 stated with attributes and the operations of the engine: the master key is made under one policy, the challenge is for some attributes under a later policy, and the attacker obtains user keys made under earlier or later policies. The rule is that none of them opens the challenge: for older keys the attributes rotated in between do not count. The advantage is bounded by C80. In particular, when all attributes of the challenge were rotated, an attacker with any keys made before that, for any access policies including All, has no more than that advantage.", "quantifier": "every attacker, every history of rotations, new axes and reorderings, every number of adaptive key requests, all messages and attributes", "why_tests_cant": "Security is about all attackers and the distribution of all random draws.", "anchors": ["src/core/engine.rs:Engine::{generate_master_key,generate_user_key,encrypt}", "src/core/gpsw/scheme.rs:Gpsw::{setup,key_generation,encrypt}"]}
{"id": "C86", "title": "Sizes of keys", "statement": "For a policy with a budget of n attribute values the encoded master keys take exactly 36 + 32n bytes (private), 292 + 48n (public) and 4 + 96n (delegation). An encoded user key, also a randomised or delegated one, takes exactly 12 + v(100 + 32(k + 1)) bytes, where v is the number of attribute values granted by its access policy and k the number of And in it. Rotating an attribute that the access policy grants makes every key issued afterwards 100 + 32(k + 1) bytes longer, other rotations do not change the size. The sizes of headers given in README.md (404 bytes for one partition, 508 for three) hold for all policies and keys.", "quantifier": "every policy, access policy, chain of delegations and randomisations, all random draws", "why_tests_cant": "The sizes depend on the policy, the access policy and the history of rotations; tests look at a few.", "anchors": ["src/core/gpsw/scheme.rs:{GpswMasterPrivateKey,GpswMasterPublicKey,GpswDelegationKey,GpswDecryptionKey}::{as_bytes,len_bytes}", "src/core/msp.rs:MonotoneSpanProgram::as_bytes", "src/core/engine.rs:Engine::policy_to_msp"]}
{"id": "C87", "title": "Randomness of user keys", "statement": "A user key is determined by exactly as many random scalars as its access policy has And, and determines them: there are q^k different keys for an access policy with k times And, over all ways to generate, delegate and randomise one. Randomising a key returns the same key exactly if all scalars used are zero. So all users with the same access policy without And have the same key, and randomising or delegating it does not change it: such keys cannot be told apart or traced to a user.", "quantifier": "every master key, policy, access policy, chain of delegations and randomisations, all random draws", "why_tests_cant": "Statements on all draws and on the number of keys; tests compare a few keys.", "anchors": ["src/core/gpsw/scheme.rs:Gpsw::{key_generation,key_delegation,key_randomization}", "src/core/msp.rs:Node::to_msp", "src/core/engine.rs:Engine::{generate_user_key,delegate_user_key}"]}
{"id": "C88", "title": "Printing keys discloses them", "statement": "Display of a master private, public or delegation key and of a user key prints the whole key in lower case hexadecimal: the text has twice as many characters as the encoding (C86), and anyone reads the key back from it. The text printed for a span program determines its labels, entries and dimensions.", "quantifier": "every policy with a budget from 1 to 2^32-2, access policy, history of delegations, every formula, all random draws", "why_tests_cant": "A test prints a few keys; that no character is lost or ambiguous is a statement on all keys.", "anchors": ["src/core/gpsw/scheme.rs:Display for {GpswDecryptionKey,GpswMasterPrivateKey,GpswMasterPublicKey,GpswMasterPublicDelegationKey}", "src/core/msp.rs:Display for MonotoneSpanProgram"]}
{"id": "C89", "title": "Equality of user keys", "statement": "The hand-written equality of user keys ignores the prepared elements. For all keys that can be held (generated, read from any bytes, delegated, randomised, in any order), it holds exactly if all fields are the same, so equal keys cannot behave differently. Span programs, whose lookup tables are hash maps, compare equal exactly if sizes, entries, labels and all lookups agree, in whatever order the tables were filled.", "quantifier": "every pair of keys obtained by any sequence of operations, also decoded from arbitrary bytes", "why_tests_cant": "The invariant that makes the comparison sound is on all ways to obtain keys.", "anchors": ["src/core/gpsw/scheme.rs:PartialEq for GpswDecryptionKey", "src/core/msp.rs:MonotoneSpanProgram"]}
{"id": "C90", "title": "Headers can be remade by anyone", "statement": "With the public key alone, anyone turns an encrypted header for at least one attribute into a different one that opens to the same symmetric key and metadata for the same keys: for a scalar r the result is exactly the header that encryption would have produced with s + r instead of s, so with a random r it cannot be linked to the original. Anyone can also remove an attribute: the header then opens for exactly the keys authorised by the remaining attributes. As a consequence headers are not secure against an attacker who can have other headers opened: such an attacker tells two metadata apart in every run, with no key.", "quantifier": "every policy, attribute list, metadata, random draw, scalar and authorised key; the distribution over all scalars", "why_tests_cant": "That no header resists and that distributions are equal are statements on all headers and draws.", "anchors": ["src/interfaces/hybrid_crypto/statics.rs:{encrypt_hybrid_header,decrypt_hybrid_header}", "src/core/engine.rs:Engine::{generate_symmetric_key,decrypt_symmetric_key}", "src/core/gpsw/scheme.rs:Gpsw::{encrypt,decrypt}"]}
{"id": "C91", "title": "Confidentiality of all messages over the life of a policy", "statement": "One master key is made, the policy then evolves; any number of hybrid messages (header, metadata, blocks) are sent, each for its own attributes under the policy of its moment, and the attacker may adaptively obtain any user keys, made before or after, that open none of them (attributes rotated between the key and the message do not count). Its advantage in telling which of two series of messages was sent is exactly the sum of its advantages on single messages, hence at most the sum, over the messages, of an advantage on the symmetric scheme with a key used for nothing else and twice an advantage on the decisional bilinear Diffie-Hellman problem.", "quantifier": "every attacker, number of messages, list of policies and attributes, metadata and blocks; the distribution over all random draws", "why_tests_cant": "Security is about all attackers and the distribution of all random draws.", "anchors": ["src/interfaces/hybrid_crypto/statics.rs:{encrypt_hybrid_header,encrypt_hybrid_block}", "src/core/engine.rs:Engine::{generate_master_key,generate_user_key,generate_symmetric_key}", "src/core/gpsw/scheme.rs:Gpsw::{key_generation,encrypt}"]}
{"id": "C92", "title": "Sizes told by the error messages of the C interface", "statement": "When a foreign call refuses an output buffer as too small, the first number in the text of the last error is the number of bytes needed by the first output which does not fit; for the block functions this is the only place where it is told. Rotation of attributes is an exception: its message is never formatted, it contains the placeholders and no number, and is the same for all arguments and sizes.", "quantifier": "every argument with an answer, every buffer content and capacity too small for it", "why_tests_cant": "All sizes and arguments.", "anchors": ["src/interfaces/ffi/generate_gpsw_keys.rs:{h_generate_master_keys,h_generate_user_private_key,h_rotate_attributes}", "src/interfaces/ffi/hybrid_gpsw_aes.rs:{h_aes_encrypt_header,h_aes_decrypt_header,h_aes_encrypt_block,h_aes_decrypt_block}", "src/interfaces/ffi/error.rs:ffi_bail"]}
{"id": "C93", "title": "Ciphertexts that are no encryptions", "statement": "Decryption does not check that a ciphertext was made by encryption. Anyone with the public key can use a different scalar for each attribute: a key whose own attributes all have the scalar r, and are sufficient, then obtains the masked element minus r Y, with no error. So the sender of one header can have two users, authorised by different attributes, derive symmetric keys from two different elements, both successfully. Conversely a ciphertext with one component per label and no repeated label is an encryption of msg if and only if every generated key authorised by its labels obtains msg.", "quantifier": "every policy, pair of keys, list of labels and scalars, message and target; every ciphertext, and all keys of all formulas", "why_tests_cant": "Agreement quantifies over all keys; the two users' results for all scalars and messages.", "anchors": ["src/core/gpsw/scheme.rs:Gpsw::{encrypt,decrypt}", "src/core/engine.rs:Engine::{decrypt,decrypt_symmetric_key}", "src/interfaces/hybrid_crypto/statics.rs:decrypt_hybrid_header"]}
{"id": "C94", "title": "Pairings computed by a decryption", "statement": "A decryption that succeeds computes one pairing for each label of a set of distinct labels of the ciphertext that satisfies the access policy of the key and from which none can be left out, each between the components of the key and of the ciphertext for this label; hence at most one more than the access policy has conjunctions, however many attributes the key and the ciphertext have. For any key and ciphertext, also malformed, there are no more pairings than labels in the ciphertext and than columns in the matrix of the key, and none has exponent 0.", "quantifier": "every policy, access policy, history of a user key, ciphertext; every key and ciphertext of any shape for the second bound", "why_tests_cant": "Minimality is a statement on all subsets of labels; tests do not count pairings.", "anchors": ["src/core/gpsw/scheme.rs:Gpsw::{decrypt,span_coefs}", "src/core/bilinear_map/bls12_381.rs:prod_gt_exp"]}
{"id": "C95", "title": "What headers and keys show to everyone", "statement": "The attributes for which a header was encrypted are written in clear in its bytes: with the policy of its moment or any later one, and no key, anyone reads the exact list off the header; two headers for different attribute lists are thus always told apart, whatever they contain. The same holds for user keys: their bytes show exactly which attributes they grant.", "quantifier": "every policy reachable by public operations and later state of it, attribute list, metadata, random draws, key in any history of delegations, target", "why_tests_cant": "The recovery is for all headers, keys and later policies.", "anchors": ["src/interfaces/hybrid_crypto/statics.rs:encrypt_hybrid_header", "src/core/gpsw/scheme.rs:AsBytes for {GpswCipherText,GpswDecryptionKey}", "src/core/engine.rs:Engine::generate_symmetric_key"]}
{"id": "C96", "title": "Random draws that are zero or repeated", "statement": "A header made with the scalar 0, and every header under a master secret 0 (which set-up does not refuse), shows its symmetric key to everyone; for no other scalar the masked element is the element itself. If two headers were made with the same scalar, whoever knows the element in one knows the symmetric key of the other, whatever its attributes; ciphertexts with a common label show whether their scalars agree. If set-up drew the same scalar for two slots, their labels can be exchanged in ciphertexts. If two user keys were made with the same draws, the two users hold together the key of every formula made of their rows: from a & b and a' & b' they get a & b', which opens what neither may open. Of all sequences of n draws from q scalars at most the fraction n/q contains a 0, and at most n(n-1)/2q a repetition.", "quantifier": "every policy, attribute list, metadata, label, scalar and target; all sequences of draws", "why_tests_cant": "Tests use good randomness; the statements are on all headers, keys and sequences.", "anchors": ["src/core/gpsw/scheme.rs:Gpsw::{generate_master_key,key_generation,encrypt}", "src/core/engine.rs:Engine::generate_symmetric_key", "src/interfaces/hybrid_crypto/statics.rs:encrypt_hybrid_header"]}
{"id": "C97", "title": "Failures tell nothing about secret values", "statement": "Whether an operation returns a result, no element, which error with which message, or panics does not depend on secret values. Two decryptions behave in the same way for all ciphertexts with the same labels and number of components, true encryptions or not, and all keys with the same matrix and number of components, of whatever authority; so do the recovery of a symmetric key and the opening of a header without metadata, with keys of the same length. Encryption behaves in the same way for all messages, scalars and public keys of the same size; set-up for all draws with zeros at the same places; key generation for all master keys with zeros at the same places and all draws; delegation and randomisation for all keys with the same matrix, all delegation keys of the same size and all draws; and the results have the same sizes.", "quantifier": "every two runs with the same public shape: ciphertexts, keys (also malformed), groups, messages, scalars, draws, targets", "why_tests_cant": "A statement on all pairs of runs; tests look at one run.", "anchors": ["src/core/gpsw/scheme.rs:Gpsw::{generate_master_key,key_generation,key_delegation,key_randomization,encrypt,decrypt,span_coefs}", "src/core/engine.rs:Engine::{generate_user_key,delegate_user_key,encrypt,decrypt_symmetric_key}", "src/interfaces/hybrid_crypto/statics.rs:decrypt_hybrid_header"]}
{"id": "C98", "title": "Integrity of hybrid messages", "statement": "An attacker, who may have any keys which do not open a message, may choose its metadata and blocks, and may give any blocks and any bytes behind the encapsulation to a reader with the key, makes the reader accept something not written for this place (a block with another content, uid or number, or other metadata) with probability at most that of a forgery with the symmetric scheme alone plus twice the advantage of an explicit reduction in the decisional bilinear Diffie-Hellman game. The same holds for any number of messages over the life of a policy, where also a block of another message counts as a forgery, with the sum over the messages; the probability there is exactly the sum over the attackers on one message. Whoever has a key which opens the message always wins. A block is made and accepted for an identifier and a number exactly if the symmetric scheme makes and accepts it for these.", "quantifier": "every symmetric scheme, curve, codec, policy reachable by public operations, attribute lists, adaptive attacker with any number of requests and tries, any number of messages", "why_tests_cant": "Probability of success over all adaptive attackers; tests try one modified ciphertext.", "anchors": ["src/interfaces/hybrid_crypto/statics.rs:{encrypt_hybrid_header,decrypt_hybrid_header,encrypt_hybrid_block,decrypt_hybrid_block}", "src/core/engine.rs:Engine::{generate_symmetric_key,decrypt_symmetric_key}", "src/core/gpsw/scheme.rs:Gpsw::{encrypt,key_generation}"]}
{"id": "C99", "title": "Messages of errors contain nothing of what was read but sizes", "statement": "The text of the error returned when a master private key, master public key, delegation key, user key or ciphertext cannot be read is one of twelve fixed texts, or one of four texts with a single number, at most the number of bytes given: no byte of the input is in it. The text of the error returned when a header is not opened, with any key, is one of these about the ciphertext, or says that the header is too short, that no row of the key matches, or that the data are invalid, or is an error of the symmetric library; the text for a block has two sizes, or is an error of the symmetric library. After a call of the C functions which decrypt a header, the last error of the thread is the one before the call or one of these texts, a text about a null pointer, an empty buffer, a buffer too small with the size needed, or an unknown cache. The same holds for the C functions which create a decryption cache, and which encrypt and decrypt a block.", "quantifier": "all bytes given as keys, ciphertexts, headers and blocks, all keys, targets, compressions, symmetric schemes, states of the C interface and arguments", "why_tests_cant": "Tests compare no error text; the statement is on all malformed inputs.", "anchors": ["src/error.rs:FormatErr", "src/core/bilinear_map/bls12_381.rs:AsBytes::try_from_bytes", "src/core/gpsw/mod.rs:Vec::try_from_bytes", "src/core/msp.rs:MonotoneSpanProgram::try_from_bytes", "src/interfaces/hybrid_crypto/statics.rs:{decrypt_hybrid_header,decrypt_hybrid_block}", "src/interfaces/ffi/hybrid_gpsw_aes.rs:{h_aes_decrypt_header,h_aes_decrypt_header_using_cache,h_aes_create_decryption_cache,h_aes_encrypt_block,h_aes_decrypt_block}", "src/interfaces/ffi/error.rs"]}
{"id": "C100", "title": "Hybrid messages over the life of a policy", "statement": "A user key made under some policy, directly or by delegation, opens a hybrid header encrypted after rotations of attributes and additions of axes exactly if the attributes of the header that were not rotated since the key was made satisfy its access policy, and a header encrypted before such changes exactly if the attributes satisfy it, rotated or not. Then it gives the symmetric key and the metadata. Otherwise the call returns an error if the header has some attribute, and never a header; for a header encrypted after the changes the error is 'invalid encrypted data' if the key covers some attribute of the header that was not rotated, and 'empty input matrix' otherwise. The same holds for whole messages made and read by the Python interface: one-shot decryption returns the clear text, or raises an exception.", "quantifier": "all keys, access policies, sequences of rotations and new axes, attributes, metadata, clear texts, targets and randomness", "why_tests_cant": "The tests rotate at most one attribute and read one header.", "anchors": ["src/interfaces/hybrid_crypto/statics.rs:{encrypt_hybrid_header,decrypt_hybrid_header}", "src/interfaces/pyo3/hybrid_gpsw_aes.rs:{encrypt,decrypt}", "src/interfaces/pyo3/generate_gpsw_keys.rs:rotate_attributes", "src/core/engine.rs:Engine::{generate_user_key,encrypt,decrypt}", "src/core/demo.rs:abe", "src/interfaces/pyo3/tests/demo.py"]}
{"id": "C101", "title": "AES-256-GCM does what is assumed of the symmetric scheme", "statement": "AES-256-GCM, written out from its standards, with blocks laid out as in the stored ciphertext of the tests (nonce, ciphertext, tag; identifier and eight bytes of block number authenticated), satisfies every assumption which the other properties make on the symmetric scheme. Moreover decryption accepts exactly what encryption with the same key, nonce and additional data returns, and block decryption exactly what block encryption with the same key, identifier and number returns for some nonce; a block is the nonce, the clear text in counter mode and the tag over identifier, number and ciphertext. Two clear texts of the same size under the same key and nonce have ciphertexts that differ as the clear texts do. The substitution table is the affine image of the inverse in the field of 256 elements.", "quantifier": "all keys, nonces, additional data, identifiers, block numbers, clear texts and byte strings; all SHAKE256 functions, encodings of metadata and of block numbers of the right sizes", "why_tests_cant": "All inputs.", "anchors": ["src/interfaces/wasm_bindgen/tests.rs:test_non_reg_decrypt_hybrid_block", "src/interfaces/hybrid_crypto/statics.rs:{encrypt_hybrid_block,decrypt_hybrid_block}", "src/interfaces/ffi/hybrid_gpsw_aes.rs:h_aes_*"]}
{"id": "C102", "title": "Calling the C functions again with what the call before left", "statement": "A program that calls the C functions repeatedly with the same buffers, without setting the lengths again, succeeds any number of times when it encrypts headers for the same attributes and metadata, with or without cache and for all random values, and when it decrypts the same header; after every call it reads the key and the header (or the key, the identifier and the additional data) of this call. After the decryption of one header the decryption of another succeeds exactly if its identifier is not longer than that of the first or that of the first was empty, and likewise for the additional data. In the empty case the call succeeds although the identifier or the additional data of the second header is not delivered. The functions with one output (keys, rotation, blocks), called in any order, all succeed exactly if each output is not longer than the one before and only the last is empty.", "quantifier": "all states of the caches, buffers with enough room for the first call, headers, keys, metadata, random values, numbers of calls", "why_tests_cant": "Any number of calls; the tests make one call with fresh buffers.", "anchors": ["src/interfaces/ffi/hybrid_gpsw_aes.rs:{h_aes_encrypt_header,h_aes_encrypt_header_using_cache,h_aes_decrypt_header,h_aes_decrypt_header_using_cache,h_aes_encrypt_block,h_aes_decrypt_block}", "src/interfaces/ffi/generate_gpsw_keys.rs", "benches/benches.rs"]}
{"id": "C103", "title": "JSON texts of policies, access policies, attributes, axes and metadata", "statement": "With JSON written out from its standard and the formats taken from the texts stored in the repository: bytes are read as a value exactly if they are a JSON text of it with at most 127 nested arrays and objects. What is written of a policy obtained by the operations of the library is a C string in UTF-8, and every text of it (any white space, escapes, order of fields, unknown fields) is read as the policy exactly if the names of its attributes are spelled: trimmed, not empty, without '::', the axis not ending with a colon. So are lists of attributes, in JSON and separated by commas, and access policies; axes and metadata are always read as themselves. Of the texts that anybody else may write, exactly the following are read: policies whose fields are there once each, as an object or an array, of whose repeated keys the last counts and whose current values are the greatest; access policies, lists of attributes, axes and metadata of the forms written, with white space (the characters with that property in Unicode) around names. An access policy has a JSON text that is read exactly if at most 63 And/Or are nested: there is a user key for a conjunction of 65 attributes in Rust, but the C interface refuses its text. A name with a space in front makes the policy that is read lose the value of the attribute.", "quantifier": "all byte strings, JSON values, policies reachable by any operations, access policies, lists of attributes, axes, metadata; all parsers of expressions", "why_tests_cant": "All texts and policies; the tests read a few texts.", "anchors": ["src/interfaces/ffi/hybrid_gpsw_aes.rs:{h_generate_user_private_key,h_rotate_attributes}", "src/interfaces/pyo3/hybrid_gpsw_aes.rs:{generate_policy,rotate_attributes,encrypt}", "src/core/tests/policy.txt", "src/core/tests/policy_tests.rs"]}
{"id": "C104", "title": "AES-GCM forges and leaks nothing as long as AES is as good as a random function", "statement": "The multiplication of blocks is the one of a field with 2^128 elements (the modulus is irreducible). For two different pairs of additional data and ciphertext, few of the 2^128 hash keys give hashes with a given difference. With a random function in place of the block cipher, whoever asks for ciphertexts of chosen clear texts, never with one nonce twice, and submits v ciphertexts of at most L blocks has one accepted that they did not receive with probability at most v(L+1)/2^128; and whoever asks for ciphertexts of one of two clear texts of the same size learns nothing about which. For blocks of the library the same holds up to the advantage in telling AES-256 from a random function: blocks moved to another number or identifier, truncated, extended or changed are refused.", "quantifier": "all adaptive sequences of encryption and decryption requests, all identifiers, numbers, nonces, clear texts and ciphertexts up to the limits of the standard, all distributions of keys, all functions on blocks", "why_tests_cant": "A probability over all functions on blocks and all adaptive attackers; the tests decrypt what they encrypted.", "anchors": ["src/interfaces/hybrid_crypto/statics.rs:{encrypt_hybrid_block,decrypt_hybrid_block}", "src/interfaces/ffi/hybrid_gpsw_aes.rs:{h_aes_encrypt_hybrid_block,h_aes_decrypt_hybrid_block}"]}
{"id": "C105", "title": "Hybrid messages with AES-256-GCM are confidential and authentic up to explicit bounds", "statement": "An attacker with any keys which do not open a message, who chooses two messages that differ in nothing but metadata and clear texts of the same sizes (with at most n blocks), guesses which one was sent with an advantage of at most n(n+1)/2^98 plus the advantage of an explicit test in telling AES-256 under the derived key from a random function plus twice the advantage of an explicit reduction to the bilinear Diffie-Hellman problem. One who asks for at most q headers and blocks and makes at most v attempts of at most L blocks of 128 bits makes a reader accept a block not made for its identifier and number, or other metadata, with probability at most v(L+1)/2^128 + q(q-1)/2^97 plus the two like terms. Over the life of a policy, with any number of messages under the policies of their moments, the bounds add up.", "quantifier": "all policies reachable by any operations, all lists of attributes, all adaptive attackers (keys, messages, blocks, attempts), all derivations of keys of 32 bytes, all encodings of metadata, all curves with a generated target group", "why_tests_cant": "Probabilities over all keys, nonces and adaptive attackers; the tests decrypt what they encrypted.", "anchors": ["src/interfaces/hybrid_crypto/statics.rs:{encrypt_hybrid_header,decrypt_hybrid_header,encrypt_hybrid_block,decrypt_hybrid_block}", "src/core/engine.rs:encrypt"]}
{"id": "C106", "title": "Policies that were not built by the library", "statement": "Every interface reads policies from texts without checking that the library could have built them. For any policy at all, key generation panics exactly if looking up the values of the access policy from left to right (an attribute, then those below it) meets a listed attribute without entry, all before having values; it gives a key exactly if the values are distinct and within the size of the private key; otherwise it returns an error. Delegation panics in the same cases, and so do the C, Python and JavaScript functions, whatever the buffers are. No access policy panics exactly if every listed attribute has an entry, which holds of policies built by the library. Encryption returns an error for an attribute without value, panics for a value beyond the public key, and succeeds otherwise. A ciphertext made under any policy opens with a key made under any policy exactly if the current values of its attributes satisfy the access policy: attributes which share a value are interchangeable.", "quantifier": "all policies (also contradictory ones), access policies, keys, random values, texts, states of the C interface", "why_tests_cant": "All policies, also those no operation of the library makes; the tests only use policies made by the library.", "anchors": ["src/core/msp.rs:{policy_to_msp,policy_to_formula,policy_to_node}", "src/core/engine.rs:{generate_user_key,delegate_user_key,encrypt,decrypt}", "src/interfaces/ffi/generate_gpsw_keys.rs:h_generate_user_private_key", "src/interfaces/pyo3/generate_gpsw_keys.rs:{generate_user_private_key,generate_delegated_key}", "src/interfaces/wasm_bindgen/generate_gpsw_keys.rs:webassembly_generate_user_private_key"]}
{"id": "C107", "title": "Symmetric keys are the SHAKE256 of the encapsulated element", "statement": "The symmetric key that is generated, and the one that is recovered from an encapsulation, is exactly the output of SHAKE256 as defined by FIPS 202 for the bytes of the encapsulated element of the target group, at the requested length; the outcome is an error exactly if the encryption or decryption or an encoding is. The output has the requested length and shorter outputs are beginnings of longer ones, so the length is not bound to the encapsulation. Different inputs are different strings of blocks once padded. With SHAKE256 and AES-256-GCM what is assumed elsewhere of the symmetric functions holds.", "quantifier": "all byte strings, lengths, elements, policies, keys, encapsulations", "why_tests_cant": "All inputs and lengths, against the bitwise definition of the standard; tests compare a few keys with themselves.", "anchors": ["src/core/engine.rs:{generate_symmetric_key,decrypt_symmetric_key}"]}
{"id": "C108", "title": "Keys and headers exchanged between all interfaces while attributes are rotated", "statement": "Take master keys, a user key (generated by any interface, randomised or delegated in Python, at any moments of the life of a policy) and a header, produced by any of the Python, C and JavaScript interfaces compiled for possibly different pointer widths, with rotations of attributes and new axes in between. If the header is made later than the policy of the key, every interface of every build opens it with the key if the attributes of the header that were not rotated since satisfy the access policy, and none opens it otherwise. If the header is made earlier, the attributes count whether rotated or not. Sequences of calls of the rotation functions of the three interfaces, each on the policy text returned by the one before, are such changes.", "quantifier": "every combination of producing and consuming interfaces, builds of at least 32 bits, all sequences of rotations and new axes, all keys obtained by any number of calls, all attributes, randomness and metadata", "why_tests_cant": "All histories of a policy times all combinations of interfaces; the tests rotate one attribute in one interface.", "anchors": ["src/interfaces/ffi/generate_gpsw_keys.rs:{h_generate_master_keys,h_generate_user_private_key,h_rotate_attributes}", "src/interfaces/pyo3/generate_gpsw_keys.rs:{generate_master_keys,generate_user_private_key,generate_delegated_key,rotate_attributes}", "src/interfaces/wasm_bindgen/generate_gpsw_keys.rs:{webassembly_generate_master_keys,webassembly_generate_user_private_key,webassembly_rotate_attributes}", "src/interfaces/ffi/hybrid_gpsw_aes.rs:{h_aes_encrypt_header,h_aes_decrypt_header}", "src/interfaces/pyo3/hybrid_gpsw_aes.rs:{encrypt_hybrid_header,decrypt_hybrid_header}", "src/interfaces/wasm_bindgen/hybrid_gpsw_aes_encryption.rs:webassembly_encrypt_hybrid_header", "src/interfaces/wasm_bindgen/hybrid_gpsw_aes_decryption.rs:webassembly_decrypt_hybrid_header"]}
{"id": "C109", "title": "The numbering of attributes and the formulas described in the README", "statement": "Axes can be made a policy one after the other exactly if their names differ, the attributes of each differ and there are at most as many attributes as the budget allows. Then the value of an attribute is its place in the list of all attributes of all axes in order, and an attribute in an access policy is translated to its value, followed on a hierarchical axis by the values of the lower attributes in ascending order, so that the formula 3 & (6 | 5) of the README is that of its example. Each rotation takes the next number: the values of an attribute are its places in the list of attributes followed by the rotations, the current one is the last place, and rotations succeed exactly if the attributes are known and the list is within the budget. The table of the README does not hold for its own list of axes: it needs the departments before the levels.", "quantifier": "all budgets, lists of axes and lists of rotations", "why_tests_cant": "The tests build a few policies with two or three axes.", "anchors": ["README.md", "src/core/msp.rs:{policy_to_formula,policy_to_node}", "src/core/demo.rs:abe"]}
{"id": "C110", "title": "The curve described in the README and the compressed encodings of its points", "statement": "The moduli given in the README come from its parameter z by its formulas, are prime and have 381 and 255 bits; the embedding degree is 12 and the scalar field has a root of unity of order exactly 2^32. The points of y^2 = x^3 + 4 over the field, and of y^2 = x^3 + 4(u+1) over its extension, that q kills are exactly q many each, and each is exactly one multiple below q of each other than zero; hence a bilinear pairing of the two groups that is not zero everywhere is zero only where a point is zero, and is determined by one value. A point of G1 is written in 48 bytes and one of G2 in 96; these many bytes are read as a point of the subgroup exactly if they are what is written for it, so no point has two encodings and everything else is refused. The bytes denote, as a big-endian number, the abscissa with a bit for the larger ordinate, one for zero and one that is always set; in the extension field the coefficient of u comes first. All encodings of the scheme are therefore exact if that of the target group is. Scalars multiply points as often as their number says. What is assumed of the curve and of its encodings elsewhere holds together with these groups, their published generators and these encodings, for every encoded target group.", "quantifier": "all points of the subgroups, all byte strings", "why_tests_cant": "All of about 2^255 points and all byte strings; the tests decode a few generated points.", "anchors": ["README.md", "src/core/bilinear_map/bls12_381.rs:{G1Affine,G2Affine}"]}
{"id": "C111", "title": "Random scalars are nearly uniform, and so are the games played with them", "statement": "gen_rand_scalar reduces 64 random bytes by the order of the groups. Every scalar may come up, each with the probability of a uniform draw up to 2^-512, but the draw is not uniform. No test, however long it computes, tells a vector of n such scalars from a uniform one with more than n/2^257. The selective game, the game of all messages and the game of forgeries over the life of a policy, played with the scalars that the code draws for master keys, user keys and ciphertexts, therefore differ from those with uniform scalars by at most the number of scalars drawn times q/2^512 (and for encapsulated elements the distance of their source from uniform), so that the bounds of C80 and C105 hold for them with this much added. Random messages are made by a homomorphism of a larger group onto the target group; they are as near to uniform as the elements they are made from.", "quantifier": "all tests and attackers, all numbers of scalars, policies, messages and keys asked for, every prime order and number of bytes", "why_tests_cant": "A bias of 2^-257 cannot be measured, and games range over all attackers.", "anchors": ["src/core/bilinear_map/bls12_381.rs:gen_rand_scalar_inner", "src/core/bilinear_map/mod.rs:{gen_random_scalar,gen_random_scalar_vector,gen_random_msg_in_gt}", "src/core/engine.rs:random_message"]}
