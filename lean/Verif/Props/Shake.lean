import Verif.Proofs.Shake
import Verif.Props.AesGcm

/-!
# C107: symmetric keys are the SHAKE256 of the encapsulated element

The function that derives the symmetric keys is the one of FIPS 202, given in `Verif.Spec.Shake` on bits, and what this says of the keys of the engine.
-/

namespace Abe

open Keccak

theorem bits_inj {b c : Bytes} (h : Fips202.bits b = Fips202.bits c) : b = c := by
  have hl : b.length = c.length := by have := congrArg List.length h; rw [bits_length, bits_length] at this; omega
  refine List.ext_getElem hl fun i hb hc => UInt8.toNat.inj (Nat.eq_of_testBit_eq fun z => ?_)
  by_cases hz : z < 8
  · have := congrArg (fun l => l.getD (8 * i + z) false) h
    simp only [bits_getD] at this
    have e1 : (8 * i + z) / 8 = i := by omega
    have e2 : (8 * i + z) % 8 = z := by omega
    rwa [e1, e2, List.getD_eq_getElem _ _ hb, List.getD_eq_getElem _ _ hc] at this
  · have hp : ∀ x : UInt8, x.toNat.testBit z = false := fun x =>
      Nat.testBit_lt_two_pow (Nat.lt_of_lt_of_le x.toNat_lt (Nat.pow_le_pow_right (by omega) (Nat.le_of_not_lt hz)))
    rw [hp, hp]

/-- **C107.** The derivation function is SHAKE256: for all inputs and all lengths, its bits are those of FIPS 202. -/
theorem C107_shake (b : Bytes) (n : Nat) : Fips202.bits (shake256 b n) = Fips202.shake256 (Fips202.bits b) (8 * n) := shake256_bits b n

/-- **C107.** The output has the requested length, and a shorter output is the beginning of a longer one. -/
theorem C107_sizes (b : Bytes) (n : Nat) : (shake256 b n).length = n ∧ ∀ m ≤ n, shake256 b m = (shake256 b n).take m :=
  ⟨shake256_length b n, fun _ h => (shake256_take b h).symm⟩

/-- **C107.** Different inputs are different strings of whole blocks, once padded: nothing is confused before the permutation. -/
theorem C107_pad (b c : Bytes) :
    1088 ∣ (Fips202.bits b ++ [true, true, true, true] ++ Fips202.pad 1088 (Fips202.bits b ++ [true, true, true, true]).length).length ∧
    (Fips202.bits b ++ [true, true, true, true] ++ Fips202.pad 1088 (Fips202.bits b ++ [true, true, true, true]).length =
      Fips202.bits c ++ [true, true, true, true] ++ Fips202.pad 1088 (Fips202.bits c ++ [true, true, true, true]).length → b = c) := by
  rw [← bits_pad, ← bits_pad]
  exact ⟨⟨b.length / 136 + 1, by rw [bits_length, pad_length]; omega⟩, fun h => pad_inj (bits_inj h)⟩

variable {K G1 G2 G3 Gt Key Nonce : Type} [Field K] [DecidableEq K]

omit [Field K] [DecidableEq K] in
/-- **C107.** `generate_symmetric_key` returns exactly the SHAKE256 of the bytes of the random element, of the requested length, with the bytes of its encryption. -/
theorem C107_generate {e : External Key Nonce} (he : e.shake = shake256) (bm : BilinearMap K G1 G2 G3 Gt) (cs : Codecs K G2 G3 Gt) (t : Target) (policy : Policy)
    (pub : MasterPublicKey G2 Gt) (attrs : List Attribute) (len : Nat) (random : Gt) (s : K) (k c : Bytes) :
    generateSymmetricKey e bm cs t policy pub attrs len random s = .ok (k, c) ↔
      ∃ enc g, engineEncrypt bm t policy pub attrs random s = .ok enc ∧ (cipherTextCodec t cs).enc enc = .ok c ∧ cs.gt.enc random = .ok g ∧
        Fips202.bits k = Fips202.shake256 (Fips202.bits g) (8 * len) := by
  simp only [generateSymmetricKey, Res.bind_eq_ok, he]
  constructor
  · rintro ⟨enc, h1, c', h2, g, h3, h4⟩
    cases h4
    exact ⟨enc, g, h1, h2, h3, C107_shake g len⟩
  · rintro ⟨enc, g, h1, h2, h3, h4⟩
    rw [← C107_shake] at h4
    exact ⟨enc, h1, c, h2, g, h3, by rw [bits_inj h4]⟩

/-- **C107.** `decrypt_symmetric_key` returns exactly the SHAKE256 of the bytes of the element that decryption finds, of the requested length. -/
theorem C107_decrypt {e : External Key Nonce} (he : e.shake = shake256) (bm : BilinearMap K G1 G2 G3 Gt) (cs : Codecs K G2 G3 Gt) (t : Target)
    (key : DecryptionKey K G1 G3) (c : Bytes) (len : Nat) (k : Bytes) :
    decryptSymmetricKey e bm cs t key c len = .ok k ↔
      ∃ ct random g, (cipherTextCodec t cs).dec c = .ok ct ∧ engineDecrypt bm ct key = .ok (some random) ∧ cs.gt.enc random = .ok g ∧
        Fips202.bits k = Fips202.shake256 (Fips202.bits g) (8 * len) := by
  simp only [decryptSymmetricKey, Res.bind_eq_ok, he]
  constructor
  · rintro ⟨ct, h1, r, h2, random, h3, g, h4, h5⟩
    cases h5
    cases r with
    | none => cases h3
    | some r => cases h3; exact ⟨ct, random, g, h1, h2, h4, C107_shake g len⟩
  · rintro ⟨ct, random, g, h1, h2, h3, h4⟩
    rw [← C107_shake] at h4
    exact ⟨ct, h1, some random, h2, random, rfl, g, h3, by rw [bits_inj h4]⟩

/-- **C107.** The length is not bound to the key: with the same random values the encapsulation does not depend on it, and whoever opens an encapsulation gets a key of any
length they ask for, the shorter ones being the beginnings of the longer ones. -/
theorem C107_lengths {e : External Key Nonce} (he : e.shake = shake256) (bm : BilinearMap K G1 G2 G3 Gt) (cs : Codecs K G2 G3 Gt) (t : Target) {m n : Nat} (h : m ≤ n) :
    (∀ policy pub attrs random s k c, generateSymmetricKey e bm cs t policy pub attrs n random s = .ok (k, c) →
      k.length = n ∧ generateSymmetricKey e bm cs t policy pub attrs m random s = .ok (k.take m, c)) ∧
    (∀ key c k, decryptSymmetricKey e bm cs t key c n = .ok k → k.length = n ∧ decryptSymmetricKey e bm cs t key c m = .ok (k.take m)) ∧
    (∀ key c k, decryptSymmetricKey e bm cs t key c m = .ok k → ∃ k', decryptSymmetricKey e bm cs t key c n = .ok k' ∧ k = k'.take m) := by
  simp only [generateSymmetricKey, decryptSymmetricKey, Res.bind_eq_ok, he]
  refine ⟨?_, ?_, ?_⟩
  · rintro policy pub attrs random s k c ⟨enc, h1, c', h2, g, h3, h4⟩
    cases h4
    exact ⟨shake256_length _ _, enc, h1, _, h2, g, h3, by rw [shake256_take g h]⟩
  · rintro key c k ⟨ct, h1, r, h2, random, h3, g, h4, h5⟩
    cases h5
    exact ⟨shake256_length _ _, ct, h1, r, h2, random, h3, g, h4, by rw [shake256_take g h]⟩
  · rintro key c k ⟨ct, h1, r, h2, random, h3, g, h4, h5⟩
    cases h5
    exact ⟨_, ⟨ct, h1, r, h2, random, h3, g, h4, rfl⟩, (shake256_take g h).symm⟩

/-- **C107.** With SHAKE256 and AES-256-GCM, what the theorems on hybrid encryption assume of the symmetric functions holds, given only that the functions on metadata do not
panic and that block numbers take eight bytes. -/
theorem C107_lawful {metaEnc : Metadata → Out Bytes} {metaDec : Bytes → Out Metadata} {num : Nat → Bytes} (he : ∀ m, metaEnc m ≠ .panic) (hd : ∀ b, metaDec b ≠ .panic)
    (hn : ∀ i, (num i).length = 8) : (aesGcm shake256 metaEnc metaDec num).Lawful 16 := C101_lawful shake256_length he hd hn

/-! ## Examples -/

/-- The value of SHAKE256 for the empty message published by NIST. -/
example : shake256 [] 32 = [0x46, 0xb9, 0xdd, 0x2b, 0x0b, 0xa8, 0x8d, 0x13, 0x23, 0x3b, 0x3f, 0xeb, 0x74, 0x3e, 0xeb, 0x24, 0x3f, 0xcd, 0x52, 0xea, 0x62, 0xb8, 0x1b, 0x82,
    0xb5, 0x0c, 0x27, 0x64, 0x6e, 0xd5, 0x76, 0x2f] := by decide +kernel

/-- The beginning of the value for a message of more than one block (1600 bits, 0xa3 repeated), published by NIST. -/
example : shake256 (List.replicate 200 0xa3) 8 = [0xcd, 0x8a, 0x92, 0x0e, 0xd1, 0x41, 0xaa, 0x04] := by decide +kernel

/-- The padding of a message which leaves one byte in its block. -/
example : Keccak.pad (List.replicate 135 7) = List.replicate 135 7 ++ [0x9f] ∧ (Keccak.pad (List.replicate 136 7)).length = 272 := by decide +kernel

/-- Two messages, one of which continues the other by a zero byte, are padded differently. -/
example : Keccak.pad [1] ≠ Keccak.pad [1, 0] := fun h => absurd (pad_inj h) (by decide)

namespace Demo

/-- SHAKE256 and AES-256-GCM, with the metadata of the concrete scheme of the examples and big-endian block numbers. -/
def shaken : External AesKey AesNonce := aesGcm shake256 symmetric.metaEnc symmetric.metaDec fun i => (Gcm.bytes16 i).drop 8

theorem shaken_lawful : shaken.Lawful 16 := C107_lawful symmetric_lawful.metaEnc_total symmetric_lawful.metaDec_total fun i => by simp [Gcm.bytes16]

/-- An encapsulation of a key of 32 bytes; asked for 16 bytes with the same random values, the engine gives the same encapsulation and the first half of the key.  The holder of
a key that opens it gets the key of 32 bytes, which is the SHAKE256 of the bytes of the random element, or its first half. -/
example : ∃ key k c g, UserKey curveF policy mkF ap key ∧
    generateSymmetricKey shaken (bls curveF) codecs .debug64 policy mkF.pubKey [low, hr] 32 5 7 = .ok (k, c) ∧
    generateSymmetricKey shaken (bls curveF) codecs .debug64 policy mkF.pubKey [low, hr] 16 5 7 = .ok (k.take 16, c) ∧
    decryptSymmetricKey shaken (bls curveF) codecs .release64 key c 32 = .ok k ∧ decryptSymmetricKey shaken (bls curveF) codecs .release64 key c 16 = .ok (k.take 16) ∧
    codecs.gt.enc 5 = .ok g ∧ Fips202.bits k = Fips202.shake256 (Fips202.bits g) 256 ∧ (k.take 16).length = 16 := by
  obtain ⟨key, hkey⟩ := keyF_exists
  obtain ⟨⟨k, c⟩, h⟩ : ∃ r, generateSymmetricKey shaken (bls curveF) codecs .debug64 policy mkF.pubKey [low, hr] 32 5 7 = .ok r := exists_of_isOk (by decide +kernel)
  have hl : c.length < 2 ^ 64 := by
    obtain ⟨enc, gb, h1, h2, _, _⟩ := generateSymmetricKey_inv h
    have := ((capsule (t' := .release64) curveF codecs_lawful (reachable_wf policy_reachable) mkF_eq h1 h2).1 (by simp)).2
    rw [this]
    decide
  have hd := (C33_authorised (t' := .release64) curveF codecs_lawful shaken_lawful (reachable_wf policy_reachable) mkF_eq (.generate _ hkey) h hl ap_sat).1
  obtain ⟨_, g, _, _, h3, h4⟩ := (C107_generate rfl _ _ _ _ _ _ _ _ _ _ _).1 h
  have h16 := (C107_lengths (e := shaken) rfl (bls curveF) codecs .debug64 (by decide : 16 ≤ 32)).1 _ _ _ _ _ _ _ h
  exact ⟨key, k, c, g, .generate _ hkey, h, h16.2, hd, ((C107_lengths rfl _ _ _ (by decide : 16 ≤ 32)).2.1 _ _ _ hd).2, h3, h4, by rw [List.length_take, h16.1]; rfl⟩

end Demo

end Abe
