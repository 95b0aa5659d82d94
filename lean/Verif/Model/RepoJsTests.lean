import Verif.Model.Wasm
import Verif.Model.RepoFileTests

/-!
# The tests of the JavaScript interface

The tests of /repo/src/interfaces/wasm_bindgen/tests.rs.  The public
key, the policy and the user key, which the tests read from JSON files, are arguments (as bytes).  `Uint8Array::from` and `to_vec` are left out.  Every
`unwrap` of an error is a panic.
-/

namespace Abe.RepoJs

open RepoFiles (unwrapRes)

variable {K G1 G2 G3 Gt Key Nonce : Type} [Field K] [DecidableEq K] (lib : Lib K G1 G2 G3 Gt Key Nonce)

/-- `create_test_policy`, /repo/src/interfaces/wasm_bindgen/tests.rs:42-62. -/
def testPolicy : Out Policy := do
  let policy ← Res.unwrap ((Policy.new 100).addAxis RepoFiles.securityLevel)
  Res.unwrap (policy.addAxis RepoDemo.department)

/-- `test_generate_keys`, /repo/src/interfaces/wasm_bindgen/tests.rs:64-97. -/
def generateKeys (setup : Nat → K) (y : K) (key : Nat → K) : Out Unit := do
  let policy ← testPolicy
  let policyBytes ← Res.unwrap (lib.serde.policyEnc policy)
  let master ← unwrapRes (jsGenerateMasterKeys lib policyBytes setup y)
  let head ← slice master 0 4
  let stop ← lib.t.uadd 4 (ofBe32 head).toNat
  let privBytes ← slice master 4 stop
  let _ ← unwrapRes ((privKeyCodec lib.t lib.cs).dec privBytes)
  let rest ← sliceFrom master stop
  let _ ← unwrapRes ((pubKeyCodec lib.t lib.cs).dec rest)
  let _ ← unwrapRes (jsGenerateUserPrivateKey lib privBytes "Department::FIN && Security Level::Top Secret" policyBytes key)

/-- `test_decrypt_hybrid_header`, /repo/src/interfaces/wasm_bindgen/tests.rs:99-150. -/
def decryptHeader (publicKey policyBytes userKey : Bytes) (random : Gt) (s : K) (nonce : Nonce) : Out Unit := do
  let pub ← unwrapRes ((pubKeyCodec lib.t lib.cs).dec publicKey)
  let policy ← Res.unwrap (lib.serde.policyDec policyBytes)
  let attributes ← Res.unwrap (lib.serde.attributesParse "Department::FIN, Security Level::Top Secret")
  let header ← unwrapRes (encryptHybridHeader lib.e lib.bm lib.cs lib.t policy pub attributes (some RepoHybrid.metaData) random s nonce)
  let clear ← unwrapRes (jsDecryptHybridHeader lib userKey header.encryptedHeaderBytes)
  let _ ← unwrapRes (ClearTextHeader.tryFromBytes lib.e lib.t clear)

/-- `Uint8Array::new(&JsValue::from_str("12345678"))`, /repo/src/interfaces/wasm_bindgen/tests.rs:189.  In JavaScript, `new Uint8Array(x)` for a string
`x` takes `x` as a length (ECMAScript, TypedArray constructor: an argument that is not an object is converted by `ToIndex`): the array has 12345678
elements, all zero, and not the 8 characters. -/
def uid : Bytes := List.replicate 12345678 0

/-- `test_encrypt_hybrid_header`, /repo/src/interfaces/wasm_bindgen/tests.rs:168-217; the identifier is an argument, `uid` in the test. -/
def encryptHeader (id : Bytes) (publicKey policyBytes userKey : Bytes) (random : Gt) (s : K) (nonce : Nonce) : Out Unit := do
  let out ← unwrapRes (jsEncryptHybridHeader lib policyBytes publicKey "Department::FIN, Security Level::Top Secret" id random s nonce)
  let header ← unwrapRes (EncryptedHeader.tryFromBytes lib.e lib.t out)
  let key ← unwrapRes ((userKeyCodec lib.t lib.cs lib.bm).dec userKey)
  let _ ← unwrapRes (decryptHybridHeader lib.e lib.bm lib.cs lib.t key header.encryptedHeaderBytes)

/-- The key of `test_encrypt_hybrid_block`, /repo/src/interfaces/wasm_bindgen/tests.rs:221-222. -/
def blockKey : Bytes :=
  [0x80, 0x2d, 0xe9, 0x6f, 0x19, 0x58, 0x9f, 0xbc, 0x0e, 0xb2, 0xf2, 0x67, 0x05, 0xdc, 0x1e, 0xd2, 0x61, 0xe9, 0xc8, 0x0f, 0x2f, 0xec, 0x30, 0x1c, 0xa7,
    0xd0, 0xec, 0xea, 0x31, 0x76, 0x40, 0x5b]

/-- The identifier of `test_encrypt_hybrid_block`, /repo/src/interfaces/wasm_bindgen/tests.rs:223-224. -/
def blockUid : Bytes :=
  [0xcd, 0x8c, 0xa2, 0xee, 0xb6, 0x54, 0xb5, 0xf3, 0x9f, 0x34, 0x7f, 0x4e, 0x3f, 0x91, 0xb3, 0xa1, 0x5c, 0x45, 0x0c, 0x1e, 0x52, 0xc4, 0x07, 0x16, 0x23,
    0x7b, 0x4c, 0x18, 0x51, 0x0f, 0x65, 0xb4]

/-- The ciphertext of `test_non_reg_decrypt_hybrid_block`, /repo/src/interfaces/wasm_bindgen/tests.rs:158. -/
def nonRegBlock : Bytes :=
  [0xe0, 0x9b, 0xa1, 0x7f, 0xdf, 0xf9, 0x0a, 0xfb, 0xb1, 0x85, 0x46, 0x21, 0x12, 0x68, 0xb8, 0xae, 0xf6, 0x51, 0x7a, 0x73, 0xb7, 0x01, 0x28, 0x3a,
    0xb3, 0x34, 0xc0, 0x72, 0x03, 0x72, 0xf5, 0x65, 0xc7, 0x51, 0xa3, 0x11, 0xc1, 0xec, 0x09, 0xa6, 0xbb, 0xb0, 0x70, 0xf8, 0xa1, 0x96, 0x1c, 0xa3,
    0xf0, 0x48, 0xb2, 0x80, 0xea, 0x36, 0xa5, 0x78, 0xa0, 0x06, 0x8e, 0xde, 0xa8, 0x40, 0x8f, 0x3c, 0xf4, 0xab, 0x26, 0xf5, 0xa7, 0x19, 0x33, 0xdf,
    0xfe, 0xd3, 0x84, 0xea, 0x7d, 0x33, 0xe4, 0x2c, 0x16, 0xfe, 0x17, 0xa1, 0x02, 0x69, 0x37, 0xa3, 0x45, 0x38, 0x6b, 0xb9, 0x80, 0x91, 0x7d, 0x6d,
    0x21, 0x75, 0xa4, 0x8b, 0x6d, 0x69, 0xe8, 0x32, 0x26, 0x89, 0xdd, 0xe0, 0xbf, 0x99, 0xce, 0xe9, 0xd2, 0xda, 0x5b, 0xbe, 0xe1, 0xf2, 0x9b, 0x20,
    0x05, 0x72, 0x5b, 0x69, 0x69, 0x02, 0x14, 0x62, 0xe6, 0x60, 0x82, 0x84, 0xa5, 0x13, 0x56, 0x77, 0xb0, 0x3d, 0x8f, 0xcc, 0xe0, 0x35, 0x63, 0xcc,
    0x4d, 0x89, 0x88, 0xf4, 0x55, 0xd2, 0x7b, 0x95, 0xef, 0x62, 0x08, 0x0f, 0x4c, 0x2f, 0x18, 0xe7, 0x89, 0x76, 0x36, 0xac, 0x69, 0xe9, 0xd2, 0x16,
    0x66, 0x87, 0x65, 0xd2, 0x02, 0x5f, 0x66, 0xc8, 0x05, 0xd5, 0x49, 0xc4, 0xef, 0x77, 0x9c, 0x32, 0xac, 0x32, 0x86, 0xbe, 0xe8, 0xd3, 0x5c, 0x1b,
    0x75, 0x8b, 0x51, 0xf1, 0x68, 0x6d, 0x2a, 0xea, 0x99, 0x6c, 0xc1, 0xf3, 0xbf, 0xff, 0x2a, 0xea, 0x7d, 0x60, 0x5c, 0xce, 0x96, 0x3e, 0x5b, 0xc6,
    0x9f, 0x77, 0xf2, 0x84, 0xa1, 0xc0, 0x5b, 0x80, 0x3d, 0xf0, 0x8f, 0xcd, 0xec, 0x6a, 0x6d, 0x4f, 0x0c, 0x74, 0xad, 0x8f, 0x60, 0x76, 0xd9, 0xca,
    0x69, 0x26, 0x42, 0xdc, 0xdf, 0xf6, 0x4a, 0x34, 0xd1, 0xfb, 0xbb, 0x4d, 0x57, 0xae, 0xa7, 0x76, 0xce, 0x80, 0x32, 0xb0, 0x3d, 0x63, 0xc9, 0xe3,
    0x76, 0x37, 0x7f, 0xb9, 0x57, 0x25, 0xb6, 0xd3, 0xac, 0x6b, 0xe3, 0xa2, 0x9f, 0x47, 0xd1, 0x5e, 0xb2, 0x2b, 0x5c, 0x81, 0xbf, 0x61, 0x68, 0x78,
    0x58, 0x44, 0xda, 0x8d, 0x22, 0x91, 0x40, 0x76, 0x41, 0x59, 0x57, 0xd9, 0xe2, 0x53, 0x14, 0x2f, 0x14, 0xc5, 0xc6, 0x8f, 0xbe, 0x11, 0x08, 0xd7,
    0x48, 0x32, 0xe2, 0x34, 0x74, 0x25, 0xf8, 0x9b, 0x46, 0x32, 0x1a, 0xc0, 0xc7, 0xb9, 0x39, 0xf7, 0x93, 0xe3, 0xc3, 0x9e, 0x5d, 0xbb, 0x83, 0xd9,
    0xe6, 0xbe, 0x29, 0xdb, 0x4a, 0xa3, 0xdf, 0x0e, 0x64, 0x5c, 0xc8, 0x59, 0xaa, 0xc9, 0xa0, 0x32, 0x4d, 0x54, 0x6b, 0x70, 0x85, 0x6e, 0x2a, 0xe8,
    0x9c, 0x77, 0xb8, 0x7a, 0x8e, 0x25, 0xea, 0xc9, 0x0f, 0x92, 0x65, 0x64, 0x2b, 0xbd, 0x8c, 0x40, 0x7f, 0x0a, 0xa3, 0x07, 0xae, 0xf6, 0x13, 0xbd,
    0x79, 0xfa, 0x8f, 0xd6, 0xc9, 0x59, 0xc9, 0x59, 0x00, 0x77, 0x91, 0x62, 0x1e, 0x5f, 0xe0, 0x47, 0xed, 0xfc, 0xad, 0xae, 0x2c, 0x19, 0x5b, 0xb6,
    0x81, 0xb6, 0x62, 0x1a, 0x95, 0x83, 0xc8, 0xd5, 0x19, 0x11, 0xe3, 0x9d, 0xf5, 0x03, 0x31, 0xb4, 0x95, 0xb6, 0x03, 0xfb, 0xf8, 0x26, 0xee, 0xbe,
    0xff, 0xe2, 0x6c, 0xd2, 0xbc, 0x02, 0x87, 0xa2, 0x80, 0x80, 0x1b, 0xc5, 0x4c, 0xfa, 0x9f, 0xed, 0x12, 0x79, 0xa5, 0x88, 0x43, 0xbb, 0x8e, 0xa1,
    0x26, 0x29, 0x82, 0x75, 0x34, 0x81, 0xdc, 0x61, 0x85, 0x2c, 0xca, 0x49, 0x27, 0x9d, 0x0d, 0xe5, 0xe2, 0x87, 0xf6, 0xa4, 0x3d, 0xca, 0x38]

/-- `test_non_reg_decrypt_hybrid_block`, /repo/src/interfaces/wasm_bindgen/tests.rs:152-166, with the same key and identifier as the test of block encryption:
the clear text, which the test does not look at. -/
def nonRegDecryptBlock (e : External Key Nonce) : Out Bytes :=
  unwrapRes (jsDecryptHybridBlock e blockKey (some blockUid) (some 0) nonRegBlock)

/-- `test_non_reg_decrypt_hybrid_block`, /repo/src/interfaces/hybrid_crypto/tests/mod.rs:104-120: the same key, identifier and ciphertext, without the JavaScript interface.  The clear
text, which the test does not look at. -/
def nonRegDecryptBlockDirect (e : External Key Nonce) : Out Bytes := do
  let key ← e.keyDec blockKey
  decryptHybridBlock e maxClearTextSize key blockUid 0 nonRegBlock

/-- `test_encrypt_hybrid_block`, /repo/src/interfaces/wasm_bindgen/tests.rs:219-247: the clear text. -/
def encryptBlock (e : External Key Nonce) (nonce : Nonce) : Out Bytes := do
  let key ← unwrapRes (e.keyDec blockKey)
  let ct ← unwrapRes (jsEncryptHybridBlock e blockKey (some blockUid) (some 0) [1, 2, 3, 4, 5, 6, 7, 8] nonce)
  unwrapRes (decryptHybridBlock e maxClearTextSize key blockUid 0 ct)

end Abe.RepoJs
