import Verif.Model.Ffi
import Verif.Model.RepoBytesTests

/-!
# The tests of the C interface

The two tests of /repo/src/interfaces/ffi/tests.rs, as programs which take the state of the process (last error and caches) and give it back.  The public
key, the policy and the user key, which the tests read from JSON files, are arguments (the keys as bytes), and so is the JSON text of the two attributes.
An undefined behaviour counts as a panic: in both cases the test does not succeed.  The variants `NulError` and `Utf8Error` of `FormatErr`, absent from
the model, are replaced by `cryptoError`.
-/

namespace Abe.RepoFfi

/-- `vec![0u8; n]` with its length as a `c_int`, for example /repo/src/interfaces/ffi/tests.rs:49-51. -/
def zeros (n : Nat) : OutBuf := ⟨some (List.replicate n 0), some (asCInt n)⟩

/-- `v.as_ptr()` and `v.len() as i32`, for example /repo/src/interfaces/ffi/tests.rs:60-62. -/
def pointer (v : Bytes) : InBuf := ⟨some v, asCInt v.length⟩

/-- `CString::new(text)?` and its pointer, for example /repo/src/interfaces/ffi/tests.rs:57-58. -/
def cstring (text : Bytes) : Out (Option Bytes) := if 0 ∈ text then .err .cryptoError else .ok (some (text ++ [0]))

/-- `std::slice::from_raw_parts(ptr, len as usize)` for a buffer filled by a call, for example /repo/src/interfaces/ffi/tests.rs:91-95. -/
def contents (t : Target) (b : OutBuf) : Out Bytes :=
  match b.mem, b.len with
  | some m, some n => if asUsize t n ≤ m.length then .ok (m.take (asUsize t n)) else .panic
  | _, _ => .panic

/-- A buffer which the call does not have.  Calls are those of /repo/src/interfaces/ffi/tests.rs:26-336. -/
def absent : OutBuf := ⟨none, none⟩

/-- The buffers given for the encryption of a header, /repo/src/interfaces/ffi/tests.rs:49-55 and 222-228. -/
def encryptionMemory : CMem where
  slots
    | .symKey => zeros 32
    | .header => zeros 4096
    | _ => absent
  handle := none

/-- The buffers given for the decryption of a header, /repo/src/interfaces/ffi/tests.rs:117-127 and 291-301. -/
def decryptionMemory : CMem where
  slots
    | .symKey => zeros 32
    | .uid => zeros 4096
    | .additional => zeros 4096
    | _ => absent
  handle := none

/-- `let mut cache_handle: i32 = 0`, /repo/src/interfaces/ffi/tests.rs:208 and 283. -/
def handleMemory : CMem := ⟨fun _ => absent, some 0⟩

/-- `unwrap_ffi_error`, /repo/src/interfaces/ffi/tests.rs:167-181, applied to a call. -/
def unwrapFfiError {E D : Type} (display : Option FormatErr → Bytes) (r : Flow Int32 × FState E D) : Out (FState E D) :=
  match r with
  | (.ret code, s) =>
    if code = 0 then .ok s
    else
      match ((hGetLastError display).run { s with mem := ⟨fun _ => zeros 4096, none⟩ }) with
      | (.ret _, s') =>
        match (s'.mem.slots .out).mem with
        | some m =>
          if 0 ∈ m then
            match String.fromUTF8? ⟨(m.takeWhile (· ≠ 0)).toArray⟩ with
            | some text => .err (.internalOperation ("ERROR: " ++ text))
            | none => .err .cryptoError
          else .panic
        | none => .panic
      | _ => .panic
  | _ => .panic

/-- `handle` after the creation of a cache.  /repo/src/interfaces/ffi/tests.rs:208 and 283. -/
def handleOf {E D : Type} (s : FState E D) : Out Int32 :=
  match s.mem.handle with
  | some h => .ok h
  | none => .panic

section
variable {K G1 G2 G3 Gt Key Nonce : Type} [Field K] [DecidableEq K] (lib : FfiLib K G1 G2 G3 Gt Key Nonce)

/-- The state of the process of the tests.  For /repo/src/interfaces/ffi/tests.rs:338-383. -/
abbrev Process (K G1 G2 G3 Gt : Type) := FState (EncryptionCache G2 Gt) (DecryptionKey K G1 G3)

/-- `CString::new(serde_json::to_string(&policy)?.as_str())?`, /repo/src/interfaces/ffi/tests.rs:57 and 201. -/
def policyString (policy : Policy) : Out (Option Bytes) :=
  match lib.serde.policyEnc policy with
  | some b => cstring b
  | none => .err .cryptoError

/-- `meta_data.additional_data.as_ref().unwrap()`, /repo/src/interfaces/ffi/tests.rs:78-84 and 242-248. -/
def additionalOf (md : Metadata) : Out Bytes :=
  match md.additionalData with
  | some b => .ok b
  | none => .panic

/-- The end of `encrypt_header` and `encrypt_header_using_cache`: the key and the header in the buffers, /repo/src/interfaces/ffi/tests.rs:87-95
and 251-259. -/
def readHeader (st : Process K G1 G2 G3 Gt) : Out (EncryptedHeader Key) := do
  let kb ← contents lib.t (st.mem.slots .symKey)
  let key ← lib.e.keyDec kb
  let header ← contents lib.t (st.mem.slots .header)
  return ⟨key, header⟩

/-- `encrypt_header`, /repo/src/interfaces/ffi/tests.rs:26-100. -/
def encryptHeader (publicKey : Bytes) (policy : Policy) (attributesJson : Bytes) (md : Metadata) (random : Gt) (s : K) (nonce : Nonce)
    (st : Process K G1 G2 G3 Gt) : Out (EncryptedHeader Key × Process K G1 G2 G3 Gt) := do
  let pub ← (pubKeyCodec lib.t lib.cs).dec publicKey
  let policyPtr ← policyString lib policy
  let pubBytes ← (pubKeyCodec lib.t lib.cs).enc pub
  let attributesPtr ← cstring attributesJson
  let ad ← additionalOf md
  let st ← unwrapFfiError lib.display ((hEncryptHeader lib ⟨policyPtr, pointer pubBytes⟩
    ⟨attributesPtr, pointer md.uid, pointer ad, random, s, nonce⟩).run { st with mem := encryptionMemory })
  let h ← readHeader lib st
  return (h, st)

/-- `encrypt_header_using_cache`, /repo/src/interfaces/ffi/tests.rs:183-267. -/
def encryptHeaderUsingCache (publicKey : Bytes) (policy : Policy) (attributesJson : Bytes) (md : Metadata) (random : Gt) (s : K) (nonce : Nonce)
    (st : Process K G1 G2 G3 Gt) : Out (EncryptedHeader Key × Process K G1 G2 G3 Gt) := do
  let pub ← (pubKeyCodec lib.t lib.cs).dec publicKey
  let policyPtr ← policyString lib policy
  let pubBytes ← (pubKeyCodec lib.t lib.cs).enc pub
  let st ← unwrapFfiError lib.display ((hCreateEncryptionCache lib ⟨policyPtr, pointer pubBytes⟩).run { st with mem := handleMemory })
  let handle ← handleOf st
  let attributesPtr ← cstring attributesJson
  let ad ← additionalOf md
  let st ← unwrapFfiError lib.display ((hEncryptHeaderUsingCache lib handle
    ⟨attributesPtr, pointer md.uid, pointer ad, random, s, nonce⟩).run { st with mem := encryptionMemory })
  let h ← readHeader lib st
  let st ← unwrapFfiError lib.display (Prog.run (hDestroyEncryptionCache handle) st)
  return (h, st)

/-- The end of `decrypt_header` and `decrypt_header_using_cache`: the key and the metadata in the buffers, /repo/src/interfaces/ffi/tests.rs:146-156
and 315-325. -/
def readClearHeader (st : Process K G1 G2 G3 Gt) : Out (ClearTextHeader Key) := do
  let kb ← contents lib.t (st.mem.slots .symKey)
  let key ← lib.e.keyDec kb
  let uid ← contents lib.t (st.mem.slots .uid)
  let ad ← contents lib.t (st.mem.slots .additional)
  return ⟨key, ⟨uid, some ad⟩⟩

/-- `decrypt_header`, /repo/src/interfaces/ffi/tests.rs:107-165. -/
def decryptHeader (userKey : Bytes) (header : EncryptedHeader Key) (st : Process K G1 G2 G3 Gt) : Out (ClearTextHeader Key × Process K G1 G2 G3 Gt) := do
  let key ← (userKeyCodec lib.t lib.cs lib.bm).dec userKey
  let keyBytes ← (userKeyCodec lib.t lib.cs lib.bm).enc key
  let st ← unwrapFfiError lib.display ((hDecryptHeader lib (pointer header.encryptedHeaderBytes) (pointer keyBytes)).run { st with mem := decryptionMemory })
  let h ← readClearHeader lib st
  return (h, st)

/-- `decrypt_header_using_cache`, /repo/src/interfaces/ffi/tests.rs:269-336. -/
def decryptHeaderUsingCache (userKey : Bytes) (header : EncryptedHeader Key) (st : Process K G1 G2 G3 Gt) :
    Out (ClearTextHeader Key × Process K G1 G2 G3 Gt) := do
  let key ← (userKeyCodec lib.t lib.cs lib.bm).dec userKey
  let keyBytes ← (userKeyCodec lib.t lib.cs lib.bm).enc key
  let st ← unwrapFfiError lib.display ((hCreateDecryptionCache lib (pointer keyBytes)).run { st with mem := handleMemory })
  let handle ← handleOf st
  let st ← unwrapFfiError lib.display ((hDecryptHeaderUsingCache lib (pointer header.encryptedHeaderBytes) handle).run { st with mem := decryptionMemory })
  let h ← readClearHeader lib st
  let st ← unwrapFfiError lib.display (Prog.run (hDestroyDecryptionCache handle) st)
  return (h, st)

/-- The assertions of the two tests, /repo/src/interfaces/ffi/tests.rs:349-357 and 372-380. -/
def check (h : EncryptedHeader Key) (h' : ClearTextHeader Key) : Out Unit := do
  assert (lib.e.keyEnc h.symmetricKey == lib.e.keyEnc h'.symmetricKey)
  assert (RepoHybrid.metaData.uid == h'.metaData.uid)
  assert (RepoHybrid.metaData.additionalData == h'.metaData.additionalData)

/-- `test_ffi_hybrid_header`, /repo/src/interfaces/ffi/tests.rs:338-360. -/
def test (publicKey : Bytes) (policy : Policy) (attributesJson userKey : Bytes) (random : Gt) (s : K) (nonce : Nonce) (st : Process K G1 G2 G3 Gt) :
    Out Unit := do
  let r ← encryptHeader lib publicKey policy attributesJson RepoHybrid.metaData random s nonce st
  let r' ← decryptHeader lib userKey r.1 r.2
  check lib r.1 r'.1

/-- `test_ffi_hybrid_header_using_cache`, /repo/src/interfaces/ffi/tests.rs:362-383. -/
def testUsingCache (publicKey : Bytes) (policy : Policy) (attributesJson userKey : Bytes) (random : Gt) (s : K) (nonce : Nonce)
    (st : Process K G1 G2 G3 Gt) : Out Unit := do
  let r ← encryptHeaderUsingCache lib publicKey policy attributesJson RepoHybrid.metaData random s nonce st
  let r' ← decryptHeaderUsingCache lib userKey r.1 r.2
  check lib r.1 r'.1

end

end Abe.RepoFfi
