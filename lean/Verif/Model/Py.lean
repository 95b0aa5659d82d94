import Verif.Model.Lib

/-!
# The Python interface

Model of /repo/src/interfaces/pyo3/hybrid_gpsw_aes.rs and /repo/src/interfaces/pyo3/generate_gpsw_keys.rs.  Random values are
arguments.  Every error becomes the exception `PyTypeError` (`map_err` in these files, and `From<FormatErr> for PyErr`,
/repo/src/interfaces/pyo3/mod.rs:15-19, for `?`); its message is dropped.  A Rust panic is `panic` (pyo3 turns it into `PanicException`).
-/

namespace Abe

/-- A Python exception raised by an error, without its message.
For example /repo/src/interfaces/pyo3/generate_gpsw_keys.rs:25; /repo/src/interfaces/pyo3/mod.rs:15-19. -/
inductive PyErr where
  | typeError
  deriving DecidableEq, Repr

/-- For example /repo/src/interfaces/pyo3/generate_gpsw_keys.rs:25; /repo/src/interfaces/pyo3/mod.rs:15-19. -/
abbrev PyOut (α : Type) := Res PyErr α

/-- Conversion of an error to an exception.  For example /repo/src/interfaces/pyo3/generate_gpsw_keys.rs:25; /repo/src/interfaces/pyo3/mod.rs:15-19. -/
def py {α : Type} (x : Out α) : PyOut α := x.mapErr fun _ => .typeError

/-- `serde_json::from_slice(..).map_err(..)?` and similar.  For example /repo/src/interfaces/pyo3/generate_gpsw_keys.rs:24-25. -/
def pyArg {α : Type} (x : Option α) : PyOut α := Res.ofOption .typeError x

section
variable {K G1 G2 G3 Gt Key Nonce : Type} [Field K] [DecidableEq K] (lib : Lib K G1 G2 G3 Gt Key Nonce)

/-- `generate_master_keys`, /repo/src/interfaces/pyo3/generate_gpsw_keys.rs:23-37. -/
def pyGenerateMasterKeys (policyBytes : Bytes) (rnd : Nat → K) (y : K) : PyOut (Bytes × Bytes × Bytes) := do
  let policy ← pyArg (lib.serde.policyDec policyBytes)
  let mk ← py (engineGenerateMasterKey lib.bm policy rnd y)
  let priv ← py ((privKeyCodec lib.t lib.cs).enc mk.privKey)
  let pub ← py ((pubKeyCodec lib.t lib.cs).enc mk.pubKey)
  let del ← py ((delKeyCodec lib.t lib.cs).enc mk.delKey)
  .ok (priv, pub, del)

/-- `generate_user_private_key`, /repo/src/interfaces/pyo3/generate_gpsw_keys.rs:45-64. -/
def pyGenerateUserPrivateKey (privBytes : Bytes) (accessPolicy : String) (policyBytes : Bytes) (rnd : Nat → K) : PyOut Bytes := do
  let priv ← py ((privKeyCodec lib.t lib.cs).dec privBytes)
  let policy ← pyArg (lib.serde.policyDec policyBytes)
  let ap ← pyArg (lib.serde.accessPolicyParse accessPolicy)
  let key ← py (engineGenerateUserKey lib.bm policy priv ap rnd)
  py ((userKeyCodec lib.t lib.cs lib.bm).enc key)

/-- `generate_delegated_key`, /repo/src/interfaces/pyo3/generate_gpsw_keys.rs:82-105. -/
def pyGenerateDelegatedKey (delBytes keyBytes : Bytes) (accessPolicy : String) (policyBytes : Bytes) (rnd : Nat → K) :
    PyOut Bytes := do
  let del ← py ((delKeyCodec lib.t lib.cs).dec delBytes)
  let key ← py ((userKeyCodec lib.t lib.cs lib.bm).dec keyBytes)
  let ap ← pyArg (lib.serde.accessPolicyParse accessPolicy)
  let policy ← pyArg (lib.serde.policyDec policyBytes)
  let key' ← py (engineDelegateUserKey lib.bm policy del key ap rnd)
  py ((userKeyCodec lib.t lib.cs lib.bm).enc key')

/-- `generate_policy`, /repo/src/interfaces/pyo3/generate_gpsw_keys.rs:113-135.  `max_attribute_creations` is a `usize`, cast with
`as u32`.  `PolicyAxis::new` applied to the parts of an axis gives the axis again. -/
def pyGeneratePolicy (serde : Serde) (axesBytes : Bytes) (maxAttributeCreations : Nat) : PyOut Bytes := do
  let axes ← pyArg (serde.axesDec axesBytes)
  let policy ← foldRes (fun p ax => pyArg (p.addAxis ax)) (Policy.new maxAttributeCreations.toUInt32) axes
  pyArg (serde.policyEnc policy)

/-- `rotate_attributes`, /repo/src/interfaces/pyo3/generate_gpsw_keys.rs:141-154. -/
def pyRotateAttributes (serde : Serde) (attributesBytes policyBytes : Bytes) : PyOut Bytes := do
  let attributes ← pyArg (serde.attributesDec attributesBytes)
  let policy ← pyArg (serde.policyDec policyBytes)
  let policy' ← foldRes (fun p a => pyArg (p.rotate a)) policy attributes
  pyArg (serde.policyEnc policy')

/-- `get_encrypted_header_size`, /repo/src/interfaces/pyo3/hybrid_gpsw_aes.rs:48-60. -/
def pyGetEncryptedHeaderSize (encrypted : Bytes) : PyOut UInt32 :=
  if encrypted.length < 4 then .err .typeError
  else do
    let b ← slice encrypted 0 4
    .ok (ofBe32 b)

/-- `encrypt_hybrid_header`, /repo/src/interfaces/pyo3/hybrid_gpsw_aes.rs:75-105: the symmetric key and the header. -/
def pyEncryptHybridHeader (metadataBytes policyBytes attributesBytes pubBytes : Bytes) (random : Gt) (s : K) (nonce : Nonce) :
    PyOut (Bytes × Bytes) := do
  let metadata ← pyArg (lib.serde.metadataDec metadataBytes)
  let policy ← pyArg (lib.serde.policyDec policyBytes)
  let attributes ← pyArg (lib.serde.attributesDec attributesBytes)
  let pub ← py ((pubKeyCodec lib.t lib.cs).dec pubBytes)
  let h ← py (encryptHybridHeader lib.e lib.bm lib.cs lib.t policy pub attributes (some metadata) random s nonce)
  .ok (lib.e.keyEnc h.symmetricKey, h.encryptedHeaderBytes)

/-- `decrypt_hybrid_header` and `internal_decrypt_hybrid_header`, /repo/src/interfaces/pyo3/hybrid_gpsw_aes.rs:112-146. -/
def pyDecryptHybridHeader (keyBytes header : Bytes) : PyOut (Bytes × Bytes) := do
  let key ← py ((userKeyCodec lib.t lib.cs lib.bm).dec keyBytes)
  let h ← py (decryptHybridHeader lib.e lib.bm lib.cs lib.t key header)
  let m ← py (lib.e.metaEnc h.metaData)
  .ok (lib.e.keyEnc h.symmetricKey, m)

/-- `encrypt_hybrid_block`, /repo/src/interfaces/pyo3/hybrid_gpsw_aes.rs:154-175. -/
def pyEncryptHybridBlock (e : External Key Nonce) (keyBytes uid : Bytes) (blockNumber : Nat) (plaintext : Bytes) (nonce : Nonce) :
    PyOut Bytes := do
  let key ← py (e.keyDec keyBytes)
  py (encryptHybridBlock e maxClearTextSize key uid blockNumber plaintext nonce)

/-- `decrypt_hybrid_block` and `internal_decrypt_hybrid_block`, /repo/src/interfaces/pyo3/hybrid_gpsw_aes.rs:177-217. -/
def pyDecryptHybridBlock (e : External Key Nonce) (keyBytes uid : Bytes) (blockNumber : Nat) (encrypted : Bytes) :
    PyOut Bytes := do
  let key ← py (e.keyDec keyBytes)
  py (decryptHybridBlock e maxClearTextSize key uid blockNumber encrypted)

/-- `encrypt`, /repo/src/interfaces/pyo3/hybrid_gpsw_aes.rs:222-247 (`header.1.len() as u32` truncates). -/
def pyEncrypt (metadataBytes policyBytes attributesBytes pubBytes plaintext : Bytes) (random : Gt) (s : K)
    (nonce nonce' : Nonce) : PyOut Bytes := do
  let metadata ← pyArg (lib.serde.metadataDec metadataBytes)
  let header ← pyEncryptHybridHeader lib metadataBytes policyBytes attributesBytes pubBytes random s nonce
  let ciphertext ← pyEncryptHybridBlock lib.e header.1 metadata.uid 0 plaintext nonce'
  .ok (be32 header.2.length.toUInt32 ++ header.2 ++ ciphertext)

/-- `decrypt`, /repo/src/interfaces/pyo3/hybrid_gpsw_aes.rs:251-262. -/
def pyDecrypt (keyBytes encrypted : Bytes) : PyOut Bytes := do
  let size ← pyGetEncryptedHeaderSize encrypted
  let stop ← lib.t.uadd 4 size.toNat
  let header ← slice encrypted 4 stop
  let stop' ← lib.t.uadd 4 size.toNat
  let ciphertext ← sliceFrom encrypted stop'
  let h ← pyDecryptHybridHeader lib keyBytes header
  let metadata ← py (lib.e.metaDec h.2)
  pyDecryptHybridBlock lib.e h.1 metadata.uid 0 ciphertext

end

end Abe
