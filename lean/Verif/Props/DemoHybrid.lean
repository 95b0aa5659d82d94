import Verif.Props.DemoBytes
import Verif.Proofs.Hybrid

/-!
# A concrete symmetric scheme for the examples

32-byte keys, 12-byte nonces, 16-byte tags (the sizes of AES-256-GCM); the data is only tagged with the first bytes of the key.
-/

namespace Abe.Demo

abbrev SymKey := { b : Bytes // b.length = 32 }
abbrev SymNonce := { b : Bytes // b.length = 12 }

def symmetric : External SymKey SymNonce where
  shake b n := (b ++ List.replicate n 0).take n
  keyLen := 32
  keyDec b := if h : b.length = 32 then .ok ⟨b, h⟩ else .err .cryptoError
  keyEnc k := k.val
  nonceLen := 12
  nonceDec b := if h : b.length = 12 then .ok ⟨b, h⟩ else .err .cryptoError
  nonceEnc n := n.val
  encrypt k m _ _ := .ok (k.val.take 16 ++ m)
  decrypt k m _ _ := if m.take 16 = k.val.take 16 then .ok (m.drop 16) else .err .cryptoError
  metaEnc m := .ok (be32 m.uid.length.toUInt32 ++ m.uid ++ m.additionalData.getD [])
  metaDec b :=
    if b.length < 4 then .err .cryptoError
    else if b.length < 4 + (ofBe32 b).toNat then .err .cryptoError
    else .ok ⟨(b.drop 4).take (ofBe32 b).toNat,
      if b.drop (4 + (ofBe32 b).toNat) = [] then none else some (b.drop (4 + (ofBe32 b).toNat))⟩
  overhead := 28
  blockEnc _ k _ _ p n := .ok (n.val ++ (k.val.take 16 ++ p))
  blockDec _ k _ _ c := if (c.drop 12).take 16 = k.val.take 16 then .ok (c.drop 28) else .err .cryptoError

theorem symmetric_lawful : symmetric.Lawful 16 where
  shake_length b n := by simp [symmetric]
  keyLen_lt := by decide
  keyEnc_length k := k.2
  keyDec_keyEnc k := by simp [symmetric, k.2]
  keyDec_size b h := ⟨⟨b, h⟩, dif_pos h, rfl⟩
  keyDec_other b h := ⟨.cryptoError, dif_neg h⟩
  nonceEnc_length n := n.2
  nonceDec_nonceEnc n := by simp [symmetric, n.2]
  nonceDec_total b := by simp only [symmetric]; split <;> simp
  encrypt_length k m n a c h := by
    simp only [symmetric, Res.ok.injEq] at h
    subst h
    simp [k.2]
    omega
  decrypt_encrypt k m n a c h := by
    simp only [symmetric, Res.ok.injEq] at h
    subst h
    have h16 : (k.val.take 16).length = 16 := by simp [k.2]
    simp only [symmetric]
    rw [List.take_left' h16, if_pos rfl, List.drop_left' h16]
  encrypt_total k m n a := by simp [symmetric]
  decrypt_total k m n a := by simp only [symmetric]; split <;> simp
  metaEnc_total m := by simp [symmetric]
  metaDec_total b := by simp only [symmetric]; split <;> [simp; (split <;> simp)]
  block_total max k uid i p n _ _ _ _ := ⟨_, rfl⟩
  block max k uid i p n c _ _ h := by
    have h16 : (k.val.take 16).length = 16 := by simp [k.2]
    simp only [symmetric, Res.ok.injEq] at h
    subst h
    refine ⟨?_, ?_⟩
    · simp [symmetric, k.2, n.2]; omega
    · simp only [symmetric]
      rw [List.drop_left' n.2, List.take_left' h16, if_pos rfl, show 28 = 12 + 16 from rfl, ← List.drop_drop,
        List.drop_left' n.2, List.drop_left' h16]

/-- Metadata of the examples. -/
def metadata : Metadata := ⟨[1, 2, 3, 4], some [9, 8]⟩

theorem metadata_kept : symmetric.Keeps metadata := ⟨[0, 0, 0, 4, 1, 2, 3, 4, 9, 8], by decide, by decide⟩

/-- Nonce of the examples. -/
def nonce : SymNonce := ⟨[1, 2, 3, 4, 5, 6, 7, 8, 9, 10, 11, 12], rfl⟩

/-- Encryption of a key for `[low, hr]`. -/
theorem capsule_exists : ∃ r, generateSymmetricKey symmetric (bls curveF) codecs .debug64 policy mkF.pubKey [low, hr] 32 5 7 = .ok r :=
  exists_of_isOk (by decide +kernel)

/-- A header for `[low, hr]` with metadata. -/
theorem header_exists : ∃ h, encryptHybridHeader symmetric (bls curveF) codecs .debug64 policy mkF.pubKey [low, hr] (some metadata)
    5 7 nonce = .ok h := exists_of_isOk (by decide +kernel)

/-- A header for `[low]`, without metadata. -/
theorem header_low_exists : ∃ h, encryptHybridHeader symmetric (bls curveF) codecs .debug64 policy mkF.pubKey [low] none
    5 7 nonce = .ok h := exists_of_isOk (by decide +kernel)

end Abe.Demo
