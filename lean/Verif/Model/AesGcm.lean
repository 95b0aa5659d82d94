import Verif.Model.Hybrid

/-!
# AES-256-GCM

The symmetric scheme used by all interfaces (`Aes256GcmCrypto` of `cosmian_crypto_base::symmetric_crypto::aes_256_gcm_pure`,
/repo/src/interfaces/ffi/hybrid_gpsw_aes.rs:13, /repo/src/interfaces/pyo3/hybrid_gpsw_aes.rs:10,
/repo/src/interfaces/wasm_bindgen/hybrid_gpsw_aes_encryption.rs:14, /repo/src/interfaces/wasm_bindgen/hybrid_gpsw_aes_decryption.rs:14).
Its source is not in the repository: AES is written here from FIPS 197, GCM from NIST SP 800-38D, and the layout of a block is the one of the ciphertext
of `test_non_reg_decrypt_hybrid_block`, /repo/src/interfaces/wasm_bindgen/tests.rs:152-166.  Bytes of the cipher's state are numbers below 256, the state is the list of its
sixteen bytes, column by column.
-/

namespace Abe

namespace Aes

/-- The substitution table of FIPS 197, section 5.1.1, as one number: entry `x` at the bits from `8 * x`. -/
def sboxTable : Nat :=
  0x16bb54b00f2d99416842e6bf0d89a18cdf2855cee9871e9b948ed9691198f8e19e1dc186b95735610ef6034866b53e708a8bbd4b1f74dde8c6b4a61c2e2578ba08ae7a65eaf4566ca94ed58d6d37c8e779e4959162acd3c25c2406490a3a32e0db0b5ede14b8ee4688902a22dc4f816073195d643d7ea7c41744975fec130ccdd2f3ff1021dab6bcf5389d928f40a351a89f3c507f02f94585334d43fbaaefd0cf584c4a39becb6a5bb1fc20ed00d153842fe329b3d63b52a05a6e1b1a2c830975b227ebe28012079a059618c323c7041531d871f1e5a534ccf73f362693fdb7c072a49cafa2d4adf04759fa7dc982ca76abd7fe2b670130c56f6bf27b777c63

/-- `SubBytes` on one byte.
External (crate `cosmian_crypto_base`): the cipher `Aes256GcmCrypto` used at /repo/src/interfaces/ffi/hybrid_gpsw_aes.rs:206 and 750. -/
def sbox (x : Nat) : Nat := (sboxTable >>> (8 * x)) % 256

/-- Multiplication by `x` in GF(2^8), FIPS 197, section 4.2.1. -/
def xtime (a : Nat) : Nat := if a < 128 then 2 * a else (2 * a) ^^^ 0x11b

/-- Bytewise exclusive or.
External (crate `cosmian_crypto_base`): the cipher `Aes256GcmCrypto` used at /repo/src/interfaces/ffi/hybrid_gpsw_aes.rs:206 and 750. -/
def xor (a b : List Nat) : List Nat := List.zipWith (· ^^^ ·) a b

/-- `RotWord`, FIPS 197, section 5.2. -/
def rotWord : List Nat → List Nat
  | [] => []
  | a :: w => w ++ [a]

/-- Four words, each the sum of the one before and the given one of the round before; FIPS 197, section 5.2. -/
def chain : List Nat → List (List Nat) → List (List Nat)
  | _, [] => []
  | t, w :: ws => xor w t :: chain (xor w t) ws

/-- The next eight words of the key schedule of a 256-bit key, FIPS 197, section 5.2. -/
def nextWords (rc : Nat) (w : List (List Nat)) : List (List Nat) :=
  let a := chain (xor ((rotWord (w.getD 7 [])).map sbox) [rc, 0, 0, 0]) (w.take 4)
  a ++ chain ((a.getD 3 []).map sbox) (w.drop 4)

/-- The words of the key schedule, eight per round constant, FIPS 197, section 5.2. -/
def schedule : List Nat → List (List Nat) → List (List Nat)
  | [], w => w
  | rc :: rcs, w => w ++ schedule rcs (nextWords rc w)

/-- The round keys of a 256-bit key (one more than the fifteen that are used), FIPS 197, section 5.2. -/
def roundKeys (key : List Nat) : List (List Nat) :=
  let words := schedule [0x01, 0x02, 0x04, 0x08, 0x10, 0x20, 0x40] ((List.range 8).map fun i => (key.drop (4 * i)).take 4)
  (List.range 15).map fun i => ((words.drop (4 * i)).take 4).flatten

/-- `ShiftRows`, FIPS 197, section 5.1.2: row `i` moves by `i` columns. -/
def shiftRows (s : List Nat) : List Nat := (List.range 16).map fun j => s.getD ((j + 4 * (j % 4)) % 16) 0

/-- `MixColumns`, FIPS 197, section 5.1.3. -/
def mixColumns : List Nat → List Nat
  | a :: b :: c :: d :: s =>
    (xtime a ^^^ (xtime b ^^^ b) ^^^ c ^^^ d) :: (a ^^^ xtime b ^^^ (xtime c ^^^ c) ^^^ d) ::
      (a ^^^ b ^^^ xtime c ^^^ (xtime d ^^^ d)) :: ((xtime a ^^^ a) ^^^ b ^^^ c ^^^ xtime d) :: mixColumns s
  | _ => []

/-- The rounds, the last one without `MixColumns`, FIPS 197, section 5.1. -/
def rounds : List (List Nat) → List Nat → List Nat
  | [], s => s
  | [k], s => xor (shiftRows (s.map sbox)) k
  | k :: ks, s => rounds ks (xor (mixColumns (shiftRows (s.map sbox))) k)

/-- `Cipher`, FIPS 197, section 5.1, given the round keys. -/
def cipher (ks : List (List Nat)) (b : Bytes) : Bytes :=
  let s := rounds ks.tail (xor (b.map UInt8.toNat) (ks.headD []))
  (List.range 16).map fun i => (s.getD i 0).toUInt8

/-- AES-256 of a block of sixteen bytes under a key of thirty-two.
External (crate `cosmian_crypto_base`): the cipher `Aes256GcmCrypto` used at /repo/src/interfaces/ffi/hybrid_gpsw_aes.rs:206 and 750. -/
def aes256 (key : Bytes) (b : Bytes) : Bytes := cipher (roundKeys (key.map UInt8.toNat)) b

end Aes

namespace Gcm

/-- The number denoted by big-endian bytes.
External (crate `cosmian_crypto_base`): the cipher `Aes256GcmCrypto` used at /repo/src/interfaces/ffi/hybrid_gpsw_aes.rs:206 and 750. -/
def number (b : Bytes) : Nat := b.foldl (fun n x => 256 * n + x.toNat) 0

/-- Sixteen big-endian bytes.
External (crate `cosmian_crypto_base`): the cipher `Aes256GcmCrypto` used at /repo/src/interfaces/ffi/hybrid_gpsw_aes.rs:206 and 750. -/
def bytes16 (n : Nat) : Bytes := (List.range 16).map fun i => (n >>> (8 * (15 - i))).toUInt8

/-- The steps of the multiplication of blocks, SP 800-38D, section 6.3: `z` is the sum so far, `v` the multiple of the second factor, and the bits of the first
factor are taken from the highest of the `k` lowest. -/
def mulSteps (x : Nat) : Nat → Nat → Nat → Nat
  | 0, z, _ => z
  | k + 1, z, v => mulSteps x k (if x.testBit k then z ^^^ v else z) (if v.testBit 0 then (v >>> 1) ^^^ (0xe1 <<< 120) else v >>> 1)

/-- Multiplication of blocks, SP 800-38D, section 6.3. -/
def mul (x y : Nat) : Nat := mulSteps x 128 0 y

/-- The blocks of sixteen bytes, the last one filled with zeros, SP 800-38D, section 7.1, step 4. -/
def blocks (b : Bytes) : List Nat :=
  (List.range ((b.length + 15) / 16)).map fun i => number (((b.drop (16 * i)).take 16 ++ List.replicate 16 0).take 16)

/-- GHASH, SP 800-38D, section 6.4. -/
def ghash (h : Nat) (bs : List Nat) : Nat := bs.foldl (fun y b => mul (y ^^^ b) h) 0

/-- The blocks which are hashed, SP 800-38D, section 7.1, step 5: additional data, ciphertext, and their sizes in bits. -/
def hashed (ad body : Bytes) : List Nat := blocks ad ++ blocks body ++ [((8 * ad.length) <<< 64) + 8 * body.length]

/-- The authentication tag, SP 800-38D, section 7.1, steps 1, 2, 5 and 6, for a nonce of twelve bytes. -/
def tag (E : Bytes → Bytes) (nonce ad body : Bytes) : Bytes :=
  List.zipWith (· ^^^ ·) (bytes16 (ghash (number (E (List.replicate 16 0))) (hashed ad body))) (E (nonce ++ be32 1))

/-- The first `n` blocks of the key stream, SP 800-38D, section 6.5, with the counter beginning at 2. -/
def keyStream (E : Bytes → Bytes) (nonce : Bytes) (n : Nat) : Bytes :=
  (List.range n).flatMap fun i => E (nonce ++ be32 (i + 2).toUInt32)

/-- Encryption and decryption in counter mode, SP 800-38D, section 6.5. -/
def ctr (E : Bytes → Bytes) (nonce m : Bytes) : Bytes := List.zipWith (· ^^^ ·) m (keyStream E nonce ((m.length + 15) / 16))

/-- The limit on clear text and additional data in the crate `aes-gcm` (external). -/
def limit : Nat := 2 ^ 36

/-- `S::encrypt` (external): the ciphertext followed by the tag. -/
def encrypt (E : Bytes → Bytes) (nonce ad m : Bytes) : Out Bytes :=
  if limit < m.length ∨ limit < ad.length then .err .cryptoError
  else .ok (ctr E nonce m ++ tag E nonce ad (ctr E nonce m))

/-- `S::decrypt` (external). -/
def decrypt (E : Bytes → Bytes) (nonce ad c : Bytes) : Out Bytes :=
  if c.length < 16 then .err .cryptoError
  else
    let body := c.take (c.length - 16)
    if limit < body.length ∨ limit < ad.length then .err .cryptoError
    else if c.drop (c.length - 16) = tag E nonce ad body then .ok (ctr E nonce body)
    else .err .cryptoError

end Gcm

/-- Keys of `Aes256GcmCrypto` (external). -/
abbrev AesKey := { b : Bytes // b.length = 32 }
/-- Nonces of `Aes256GcmCrypto` (external). -/
abbrev AesNonce := { b : Bytes // b.length = 12 }

/-- `Aes256GcmCrypto` with `Block<Aes256GcmCrypto, MAX>` (external).  A block is the nonce followed by the ciphertext and the tag; identifier and block
number are the additional data.  What is left open: SHAKE256, the encoding of the metadata, and the eight bytes `num i` that stand for the number of a block.  Blocks
shorter than nonce and tag are errors here; the crate may treat the empty one differently, which `decrypt_hybrid_block` does not hand over
(/repo/src/interfaces/hybrid_crypto/statics.rs:268-270). -/
def aesGcm (shake : Bytes → Nat → Bytes) (metaEnc : Metadata → Out Bytes) (metaDec : Bytes → Out Metadata) (num : Nat → Bytes) :
    External AesKey AesNonce where
  shake := shake
  keyLen := 32
  keyDec b := if h : b.length = 32 then .ok ⟨b, h⟩ else .err .cryptoError
  keyEnc k := k.val
  nonceLen := 12
  nonceDec b := if h : b.length = 12 then .ok ⟨b, h⟩ else .err .cryptoError
  nonceEnc n := n.val
  encrypt k m n ad := Gcm.encrypt (Aes.aes256 k.val) n.val (ad.getD []) m
  decrypt k m n ad := Gcm.decrypt (Aes.aes256 k.val) n.val (ad.getD []) m
  metaEnc := metaEnc
  metaDec := metaDec
  overhead := 28
  blockEnc max k uid i p n :=
    if max < p.length then .err .cryptoError
    else do
      let c ← Gcm.encrypt (Aes.aes256 k.val) n.val (uid ++ num i) p
      .ok (n.val ++ c)
  blockDec max k uid i c :=
    if max + 28 < c.length ∨ c.length < 28 then .err .cryptoError
    else Gcm.decrypt (Aes.aes256 k.val) (c.take 12) (uid ++ num i) (c.drop 12)

end Abe
