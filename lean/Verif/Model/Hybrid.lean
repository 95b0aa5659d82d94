import Verif.Model.Engine
import Verif.Model.Codec

/-!
# Hybrid encryption

Model of the end of /repo/src/core/engine.rs and of /repo/src/interfaces/hybrid_crypto/statics.rs.

Code of other crates (`sha3`, `cosmian_crypto_base`) is a parameter: see `External`.  Random values (message, scalar, nonce)
are arguments.
-/

namespace Abe

/-- `cosmian_crypto_base::symmetric_crypto::Metadata` (external). -/
structure Metadata where
  uid : Bytes
  additionalData : Option Bytes
  deriving DecidableEq, Repr

/-- `Metadata::default()` (external, derived). -/
def Metadata.default : Metadata := ⟨[], none⟩

/-- External functions: SHAKE256 and a symmetric scheme `S: SymmetricCrypto` with its metadata and block formats. -/
structure External (Key Nonce : Type) where
  /-- `Shake256::default().chain(bytes).finalize_xof().read_boxed(len)` -/
  shake : Bytes → Nat → Bytes
  /-- `<S::Key as KeyTrait>::Length` -/
  keyLen : Nat
  /-- `S::Key::try_from_bytes` -/
  keyDec : Bytes → Out Key
  /-- `S::Key::to_bytes`, `as_bytes` -/
  keyEnc : Key → Bytes
  /-- `S::Nonce::LENGTH` -/
  nonceLen : Nat
  /-- `S::Nonce::try_from_bytes` -/
  nonceDec : Bytes → Out Nonce
  /-- `S::Nonce::as_slice` -/
  nonceEnc : Nonce → Bytes
  /-- `S::encrypt(key, bytes, nonce, additional_data)` -/
  encrypt : Key → Bytes → Nonce → Option Bytes → Out Bytes
  /-- `S::decrypt(key, bytes, nonce, additional_data)` -/
  decrypt : Key → Bytes → Nonce → Option Bytes → Out Bytes
  /-- `Metadata::try_to_bytes` -/
  metaEnc : Metadata → Out Bytes
  /-- `Metadata::try_from_bytes` -/
  metaDec : Bytes → Out Metadata
  /-- `Block::<S, MAX>::ENCRYPTION_OVERHEAD`; `Block::<S, MAX>::MAX_ENCRYPTED_LENGTH` is `MAX` plus this overhead -/
  overhead : Nat
  /-- `Block::<S, MAX>::new()` followed by `write(0, plaintext)` and `to_encrypted_bytes(rng, key, uid, block_number)` -/
  blockEnc : Nat → Key → Bytes → Nat → Bytes → Nonce → Out Bytes
  /-- `Block::<S, MAX>::from_encrypted_bytes(bytes, key, uid, block_number)` followed by `clear_text_owned()` -/
  blockDec : Nat → Key → Bytes → Nat → Bytes → Out Bytes

/-- `u32_len`, /repo/src/interfaces/hybrid_crypto/statics.rs:290-298 (`CryptoBaseError::InvalidSize` converted by
/repo/src/error.rs:104). -/
def u32Len (b : Bytes) : Out Bytes := if b.length < 2 ^ 32 then .ok (be32 b.length.toUInt32) else
  .err (.invalidSize "Slice of bytes is too big to fit in 2^32 bytes")

/-- `BytesScanner::next` (external): the next `n` bytes and the remaining ones.  The errors are converted by the callers to
`FormatErr::CryptoError`. -/
def scanNext (b : Bytes) (n : Nat) : Out (Bytes × Bytes) :=
  if n ≤ b.length then .ok (b.take n, b.drop n) else .err .cryptoError

/-- `BytesScanner::read_u32` (external), big-endian. -/
def scanU32 (b : Bytes) : Out (Nat × Bytes) := do
  let r ← scanNext b 4
  .ok ((ofBe32 r.1).toNat, r.2)

variable {K G1 G2 G3 Gt Key Nonce : Type} [Field K] [DecidableEq K]

/-- `Engine::generate_symmetric_key`, /repo/src/core/engine.rs:116-134: the key and its encapsulation. -/
def generateSymmetricKey (e : External Key Nonce) (bm : BilinearMap K G1 G2 G3 Gt) (cs : Codecs K G2 G3 Gt) (t : Target)
    (policy : Policy) (pub : MasterPublicKey G2 Gt) (attrs : List Attribute) (len : Nat) (random : Gt) (s : K) :
    Out (Bytes × Bytes) := do
  let enc ← engineEncrypt bm t policy pub attrs random s
  let encSymKey ← (cipherTextCodec t cs).enc enc
  let b ← cs.gt.enc random
  .ok (e.shake b len, encSymKey)

/-- `Engine::decrypt_symmetric_key`, /repo/src/core/engine.rs:137-155. -/
def decryptSymmetricKey (e : External Key Nonce) (bm : BilinearMap K G1 G2 G3 Gt) (cs : Codecs K G2 G3 Gt) (t : Target)
    (key : DecryptionKey K G1 G3) (encSymKey : Bytes) (len : Nat) : Out Bytes := do
  let ct ← (cipherTextCodec t cs).dec encSymKey
  let r ← engineDecrypt bm ct key
  let random ← Res.ofOption .invalidEncryptedData r
  let b ← cs.gt.enc random
  .ok (e.shake b len)

/-- `struct EncryptedHeader`, /repo/src/interfaces/hybrid_crypto/statics.rs:17-23. -/
structure EncryptedHeader (Key : Type) where
  symmetricKey : Key
  encryptedHeaderBytes : Bytes

/-- `EncryptedHeader::try_into_bytes`, /repo/src/interfaces/hybrid_crypto/statics.rs:26-33. -/
def EncryptedHeader.tryIntoBytes (e : External Key Nonce) (h : EncryptedHeader Key) : Out Bytes :=
  .ok (be32 e.keyLen.toUInt32 ++ e.keyEnc h.symmetricKey ++ h.encryptedHeaderBytes)

/-- `EncryptedHeader::try_from_bytes`, /repo/src/interfaces/hybrid_crypto/statics.rs:35-50. -/
def EncryptedHeader.tryFromBytes (e : External Key Nonce) (t : Target) (header : Bytes) : Out (EncryptedHeader Key) :=
  if header.length < 4 then .err (.invalidHeaderSize header.length)
  else do
    let b ← slice header 0 4
    let len := (ofBe32 b).toNat
    let stop ← t.uadd 4 len
    let keyBytes ← slice header 4 stop
    let rest ← sliceFrom header stop
    let key ← e.keyDec keyBytes
    .ok ⟨key, rest⟩

/-- `struct ClearTextHeader`, /repo/src/interfaces/hybrid_crypto/statics.rs:53-59. -/
structure ClearTextHeader (Key : Type) where
  symmetricKey : Key
  metaData : Metadata

/-- `ClearTextHeader::try_into_bytes`, /repo/src/interfaces/hybrid_crypto/statics.rs:62-69. -/
def ClearTextHeader.tryIntoBytes (e : External Key Nonce) (h : ClearTextHeader Key) : Out Bytes := do
  let m ← e.metaEnc h.metaData
  .ok (be32 e.keyLen.toUInt32 ++ e.keyEnc h.symmetricKey ++ m)

/-- `ClearTextHeader::try_from_bytes`, /repo/src/interfaces/hybrid_crypto/statics.rs:71-86. -/
def ClearTextHeader.tryFromBytes (e : External Key Nonce) (t : Target) (header : Bytes) : Out (ClearTextHeader Key) :=
  if header.length < 4 then .err (.invalidHeaderSize header.length)
  else do
    let b ← slice header 0 4
    let len := (ofBe32 b).toNat
    let stop ← t.uadd 4 len
    let keyBytes ← slice header 4 stop
    let rest ← sliceFrom header stop
    let key ← e.keyDec keyBytes
    let m ← e.metaDec rest
    .ok ⟨key, m⟩

/-- `encrypt_hybrid_header`, /repo/src/interfaces/hybrid_crypto/statics.rs:94-135. -/
def encryptHybridHeader (e : External Key Nonce) (bm : BilinearMap K G1 G2 G3 Gt) (cs : Codecs K G2 G3 Gt) (t : Target)
    (policy : Policy) (pub : MasterPublicKey G2 Gt) (attrs : List Attribute) (metaData : Option Metadata)
    (random : Gt) (s : K) (nonce : Nonce) : Out (EncryptedHeader Key) := do
  let r ← generateSymmetricKey e bm cs t policy pub attrs e.keyLen random s
  let symmetricKey ← e.keyDec r.1
  let size ← u32Len r.2
  let headerBytes := size ++ r.2
  match metaData with
  | none => .ok ⟨symmetricKey, headerBytes⟩
  | some m => do
    let mb ← e.metaEnc m
    let em ← e.encrypt symmetricKey mb nonce none
    let emSize ← u32Len em
    .ok ⟨symmetricKey, headerBytes ++ e.nonceEnc nonce ++ emSize ++ em⟩

/-- `decrypt_hybrid_header`, /repo/src/interfaces/hybrid_crypto/statics.rs:139-205. -/
def decryptHybridHeader (e : External Key Nonce) (bm : BilinearMap K G1 G2 G3 Gt) (cs : Codecs K G2 G3 Gt) (t : Target)
    (key : DecryptionKey K G1 G3) (header : Bytes) : Out (ClearTextHeader Key) :=
  if header.length < 4 then .err (.invalidHeaderSize header.length)
  else do
    let r ← scanU32 header
    let r' ← scanNext r.2 r.1
    let kb ← decryptSymmetricKey e bm cs t key r'.1 e.keyLen
    let symmetricKey ← e.keyDec kb
    let m ← (if r'.2.isEmpty then .ok Metadata.default else do
      let n ← scanNext r'.2 e.nonceLen
      let nonce ← e.nonceDec n.1
      let sz ← scanU32 n.2
      let em ← scanNext sz.2 sz.1
      let mb ← e.decrypt symmetricKey em.1 nonce none
      (e.metaDec mb).mapErr fun _ => .cryptoError : Out Metadata)
    .ok ⟨symmetricKey, m⟩

/-- `symmetric_encryption_overhead`, /repo/src/interfaces/hybrid_crypto/statics.rs:210-215. -/
def symmetricEncryptionOverhead (e : External Key Nonce) : Nat := e.overhead

/-- `encrypt_hybrid_block`, /repo/src/interfaces/hybrid_crypto/statics.rs:227-252. -/
def encryptHybridBlock (e : External Key Nonce) (max : Nat) (key : Key) (uid : Bytes) (blockNumber : Nat) (plaintext : Bytes)
    (nonce : Nonce) : Out Bytes :=
  if plaintext.isEmpty then .err .emptyPlaintext
  else if plaintext.length > max then
    .err (.invalidSize ("The data to encrypt is too large: " ++ toString plaintext.length ++ " bytes, max size: " ++ toString max ++ " "))
  else e.blockEnc max key uid blockNumber plaintext nonce

/-- `decrypt_hybrid_block`, /repo/src/interfaces/hybrid_crypto/statics.rs:258-286. -/
def decryptHybridBlock (e : External Key Nonce) (max : Nat) (key : Key) (uid : Bytes) (blockNumber : Nat) (ciphertext : Bytes) :
    Out Bytes :=
  if ciphertext.isEmpty then .err .emptyCiphertext
  else if ciphertext.length > max + e.overhead then
    .err (.invalidSize ("The encrypted data to decrypt is too large: " ++ toString ciphertext.length ++ " bytes, max size: " ++ toString (max + e.overhead) ++ " "))
  else e.blockDec max key uid blockNumber ciphertext

/-! ### Message encoding -/

/-- `msg_to_scalar`, /repo/src/core/bilinear_map/bls12_381.rs:249-260. -/
def msgToScalar (q : Nat) (msg : Bytes) : Out (ZMod q) :=
  if msg.length > 32 then .err (.invalidSize "message too long")
  else
    match scalarFromBytes q (resize msg 32 0) with
    | none => .err .conversionFailed
    | some x => .ok x

/-- `msg_to_gt`, /repo/src/core/bilinear_map/mod.rs:115-118. -/
def msgToGt {G1' G2' G3' Gt' : Type} (q : Nat) (bm : BilinearMap (ZMod q) G1' G2' G3' Gt') (msg : Bytes) : Out Gt' := do
  let x ← msgToScalar q msg
  .ok (bm.gtGenExp x)

end Abe
