import Verif.Model.AesGcm
import Verif.Spec.AesGcm
import Verif.Spec.Hybrid

/-!
# AES-256-GCM: lemmas
-/

namespace Abe.Gcm

variable {E : Bytes → Bytes}

theorem aes256_length (k b : Bytes) : (Aes.aes256 k b).length = 16 := by simp [Aes.aes256, Aes.cipher]

theorem keyStream_length (hE : ∀ b, (E b).length = 16) (nonce : Bytes) (n : Nat) : (keyStream E nonce n).length = 16 * n := by
  simp [keyStream, List.length_flatMap, hE, Nat.mul_comm]

theorem xor_xor : ∀ (m s : Bytes), m.length ≤ s.length →
    List.zipWith (· ^^^ ·) (List.zipWith (· ^^^ ·) m s) s = m
  | [], _, _ => by simp
  | x :: m, [], h => by simp at h
  | x :: m, y :: s, h => by
    simp only [List.zipWith_cons_cons, List.length_cons, Nat.add_le_add_iff_right] at h ⊢
    rw [xor_xor m s h, UInt8.xor_assoc, UInt8.xor_self, UInt8.xor_zero]

theorem ctr_length (hE : ∀ b, (E b).length = 16) (nonce m : Bytes) : (ctr E nonce m).length = m.length := by
  simp only [ctr, List.length_zipWith, keyStream_length hE]
  omega

theorem ctr_ctr (hE : ∀ b, (E b).length = 16) (nonce m : Bytes) : ctr E nonce (ctr E nonce m) = m := by
  have h := ctr_length hE nonce m
  rw [ctr, h, ctr]
  apply xor_xor
  rw [keyStream_length hE]
  omega

theorem tag_length (hE : ∀ b, (E b).length = 16) (nonce ad body : Bytes) : (tag E nonce ad body).length = 16 := by
  simp [tag, bytes16, hE]

theorem encrypt_eq_ok {nonce ad m c : Bytes} :
    encrypt E nonce ad m = .ok c ↔ m.length ≤ limit ∧ ad.length ≤ limit ∧ c = ctr E nonce m ++ tag E nonce ad (ctr E nonce m) := by
  unfold encrypt
  split
  · simp only [reduceCtorEq, false_iff]
    omega
  · simp only [Res.ok.injEq]
    constructor
    · rintro rfl
      exact ⟨by omega, by omega, rfl⟩
    · rintro ⟨_, _, rfl⟩
      rfl

theorem decrypt_eq_ok (hE : ∀ b, (E b).length = 16) {nonce ad m c : Bytes} :
    decrypt E nonce ad c = .ok m ↔ encrypt E nonce ad m = .ok c := by
  rw [encrypt_eq_ok]
  constructor
  · intro h
    unfold decrypt at h
    by_cases h16 : c.length < 16
    · simp [h16] at h
    rw [if_neg h16] at h
    simp only at h
    by_cases hl : limit < (c.take (c.length - 16)).length ∨ limit < ad.length
    · rw [if_pos hl] at h
      cases h
    rw [if_neg hl] at h
    by_cases ht : c.drop (c.length - 16) = tag E nonce ad (c.take (c.length - 16))
    · rw [if_pos ht] at h
      cases h
      rw [ctr_ctr hE, ctr_length hE, ← ht, List.take_append_drop]
      exact ⟨by omega, by omega, rfl⟩
    · rw [if_neg ht] at h
      cases h
  · rintro ⟨h1, h2, rfl⟩
    have hl : (ctr E nonce m ++ tag E nonce ad (ctr E nonce m)).length = m.length + 16 := by
      rw [List.length_append, ctr_length hE, tag_length hE]
    have hc : (ctr E nonce m).length = m.length + 16 - 16 := by rw [ctr_length hE]; omega
    unfold decrypt
    rw [hl, if_neg (by omega)]
    simp only
    rw [List.take_left' hc, List.drop_left' hc, if_neg (by rw [ctr_length hE]; omega), if_pos rfl, ctr_ctr hE]

theorem encrypt_length (hE : ∀ b, (E b).length = 16) {nonce ad m c : Bytes} (h : encrypt E nonce ad m = .ok c) : c.length = m.length + 16 := by
  obtain ⟨_, _, rfl⟩ := encrypt_eq_ok.1 h
  rw [List.length_append, ctr_length hE, tag_length hE]

theorem encrypt_total (nonce ad m : Bytes) : encrypt E nonce ad m ≠ .panic := by
  unfold encrypt
  split <;> simp

theorem decrypt_total (nonce ad c : Bytes) : decrypt E nonce ad c ≠ .panic := by
  unfold decrypt
  split
  · simp
  · simp only
    split
    · simp
    · split <;> simp

end Abe.Gcm
