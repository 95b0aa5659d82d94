import Verif.Spec.Hybrid
import Verif.Proofs.CodecKeys

/-!
# Lemmas on hybrid encryption
-/

namespace Abe

set_option linter.unusedSectionVars false

theorem bigEndian_be32 (n : UInt32) : bigEndian (be32 n) = n.toNat := by
  have := n.toNat_lt
  simp only [bigEndian, be32, List.foldl_cons, List.foldl_nil, UInt8.toNat_ofNat', Nat.toUInt8]
  omega

theorem bigEndian_eq {b : Bytes} (h : b.length = 4) : bigEndian b = (ofBe32 b).toNat := by
  have h1 := be32_ofBe32 (b := b) (by omega)
  rw [List.take_of_length_le (by omega)] at h1
  conv_lhs => rw [← h1]
  exact bigEndian_be32 _

theorem announces_iff {b body : Bytes} (hl : b.length = 4) : Announces b body ↔ (ofBe32 b).toNat = body.length := by
  rw [Announces, bigEndian_eq hl]; simp [hl]

theorem announces_be32 {body : Bytes} (h : body.length < 2 ^ 32) : Announces (be32 body.length.toUInt32) body := by
  rw [announces_iff (be32_length _)]
  have := ofBe32_be32 body.length.toUInt32 []
  rw [List.append_nil] at this
  rw [this, toNat_toUInt32 h]

theorem u32Len_ok {b : Bytes} (h : b.length < 2 ^ 32) : u32Len b = .ok (be32 b.length.toUInt32) := if_pos h

theorem u32Len_inv {b l : Bytes} (h : u32Len b = .ok l) : b.length < 2 ^ 32 ∧ l = be32 b.length.toUInt32 := by
  unfold u32Len at h
  split at h
  · rename_i hl
    exact ⟨hl, by simpa using h.symm⟩
  · simp at h

theorem scanNext_append (a r : Bytes) : scanNext (a ++ r) a.length = .ok (a, r) := by
  unfold scanNext
  rw [if_pos (by simp), List.take_left, List.drop_left]

theorem scanNext_append' {a r : Bytes} {n : Nat} (h : a.length = n) : scanNext (a ++ r) n = .ok (a, r) := by
  subst h; exact scanNext_append a r

theorem scanU32_append (n : UInt32) (r : Bytes) : scanU32 (be32 n ++ r) = .ok (n.toNat, r) := by
  unfold scanU32
  rw [scanNext_append' (be32_length n), Res.ok_bind]
  have := ofBe32_be32 n []
  rw [List.append_nil] at this
  rw [this]

theorem scanNext_total (b : Bytes) (n : Nat) : scanNext b n ≠ .panic := by
  unfold scanNext; split <;> simp

theorem scanU32_total (b : Bytes) : scanU32 b ≠ .panic := by
  unfold scanU32
  intro h
  rcases Res.bind_eq_panic.1 h with h | ⟨r, _, h⟩
  · exact scanNext_total _ _ h
  · simp at h

theorem scanNext_cases (b : Bytes) (n : Nat) :
    (n ≤ b.length ∧ scanNext b n = .ok (b.take n, b.drop n)) ∨ (b.length < n ∧ scanNext b n = .err .cryptoError) := by
  unfold scanNext
  split
  · exact Or.inl ⟨by assumption, rfl⟩
  · exact Or.inr ⟨by omega, rfl⟩

theorem scanU32_cases (b : Bytes) :
    (4 ≤ b.length ∧ scanU32 b = .ok ((ofBe32 b).toNat, b.drop 4)) ∨ (b.length < 4 ∧ scanU32 b = .err .cryptoError) := by
  unfold scanU32
  rcases scanNext_cases b 4 with ⟨h, h'⟩ | ⟨h, h'⟩
  · rw [h', Res.ok_bind, ofBe32_take h]; exact Or.inl ⟨h, rfl⟩
  · rw [h']; exact Or.inr ⟨h, rfl⟩

variable {K G1 G2 G3 Gt Key Nonce : Type} [Field K] [DecidableEq K]
variable {e : External Key Nonce} {bm : BilinearMap K G1 G2 G3 Gt} {cs : Codecs K G2 G3 Gt} {t t' : Target} {tag : Nat}

theorem generateSymmetricKey_inv {p : Policy} {pub : MasterPublicKey G2 Gt} {attrs : List Attribute} {len : Nat} {random : Gt}
    {s : K} {r : Bytes × Bytes} (h : generateSymmetricKey e bm cs t p pub attrs len random s = .ok r) :
    ∃ enc gb, engineEncrypt bm t p pub attrs random s = .ok enc ∧ (cipherTextCodec t cs).enc enc = .ok r.2 ∧
      cs.gt.enc random = .ok gb ∧ r.1 = e.shake gb len := by
  unfold generateSymmetricKey at h
  obtain ⟨enc, h1, h⟩ := Res.bind_eq_ok.1 h
  obtain ⟨b, h2, h⟩ := Res.bind_eq_ok.1 h
  obtain ⟨gb, h3, h⟩ := Res.bind_eq_ok.1 h
  simp only [Res.ok.injEq] at h
  subst h
  exact ⟨enc, gb, h1, h2, h3, rfl⟩

theorem cipherText_enc_target (enc : CipherText G2 Gt) : (cipherTextCodec t cs).enc enc = (cipherTextCodec t' cs).enc enc := rfl

/-- Decryption of an encapsulation that decodes. -/
theorem decryptSymmetricKey_of {key : DecryptionKey K G1 G3} {b : Bytes} {len : Nat} {enc : CipherText G2 Gt}
    (hd : (cipherTextCodec t cs).dec b = .ok enc) :
    decryptSymmetricKey e bm cs t key b len = (engineDecrypt bm enc key >>= fun r => do
      let random ← Res.ofOption .invalidEncryptedData r
      let gb ← cs.gt.enc random
      .ok (e.shake gb len)) := by
  unfold decryptSymmetricKey
  rw [hd, Res.ok_bind]

theorem decryptSymmetricKey_panic (hcs : cs.Lawful) {key : DecryptionKey K G1 G3} {b : Bytes} {len : Nat} :
    decryptSymmetricKey e bm cs t key b len = .panic ↔
      (cipherTextCodec t cs).dec b = .panic ∨
      ∃ enc, (cipherTextCodec t cs).dec b = .ok enc ∧ engineDecrypt bm enc key = .panic := by
  unfold decryptSymmetricKey
  rw [Res.bind_eq_panic]
  refine or_congr_right (exists_congr fun enc => and_congr_right fun _ => ?_)
  rw [Res.bind_eq_panic]
  constructor
  · rintro (h | ⟨r, _, h⟩)
    · exact h
    · exfalso
      rcases Res.bind_eq_panic.1 h with h | ⟨g, _, h⟩
      · cases r <;> simp [Res.ofOption] at h
      · obtain ⟨b', hb', _⟩ := hcs.gt.enc g
        rw [hb'] at h
        simp at h
  · exact Or.inl

/-- An encapsulation made for no attribute never decodes. -/
theorem dec_no_attribute (hcs : cs.Lawful) {b : Bytes} (hb : b.length = 288) (enc : CipherText G2 Gt) :
    (cipherTextCodec t cs).dec b ≠ .ok enc := by
  intro h
  simp only [cipherTextCodec] at h
  obtain ⟨gamma, hg, h⟩ := Res.bind_eq_ok.1 h
  obtain ⟨rest, _, h⟩ := Res.bind_eq_ok.1 h
  obtain ⟨eI, _, h⟩ := Res.bind_eq_ok.1 h
  obtain ⟨rest', hr, h⟩ := Res.bind_eq_ok.1 h
  obtain ⟨ep, hp, _⟩ := Res.bind_eq_ok.1 h
  have hpos : 0 < vecLen u32Codec gamma := by
    cases gamma with
    | nil =>
      exfalso
      unfold vecDec at hg
      rw [if_neg (by cases b <;> simp at hb ⊢)] at hg
      obtain ⟨x, _, hg⟩ := Res.bind_eq_ok.1 hg
      obtain ⟨y, _, hg⟩ := Res.bind_eq_ok.1 hg
      simp at hg
    | cons a l => simp [vecLen]
  unfold sliceFrom at hr
  split at hr
  · simp only [Res.ok.injEq] at hr
    subst hr
    obtain ⟨x, hx⟩ := hcs.gt.short (b.drop (vecLen u32Codec gamma + vecLen cs.g2 eI)) (by rw [List.length_drop]; omega)
    rw [hx] at hp
    simp at hp
  · simp at hr

/-- Steps of header decryption on a well framed header. -/
theorem decryptHybridHeader_frame {key : DecryptionKey K G1 G3} {ek r : Bytes} (hek : ek.length < 2 ^ 32) :
    decryptHybridHeader e bm cs t key (be32 ek.length.toUInt32 ++ ek ++ r) = (do
      let kb ← decryptSymmetricKey e bm cs t key ek e.keyLen
      let symmetricKey ← e.keyDec kb
      let m ← (if r.isEmpty then .ok Metadata.default else do
        let n ← scanNext r e.nonceLen
        let nonce ← e.nonceDec n.1
        let sz ← scanU32 n.2
        let em ← scanNext sz.2 sz.1
        let mb ← e.decrypt symmetricKey em.1 nonce none
        (e.metaDec mb).mapErr fun _ => .cryptoError : Out Metadata)
      .ok ⟨symmetricKey, m⟩) := by
  unfold decryptHybridHeader
  rw [if_neg (by simp [be32_length]), List.append_assoc, scanU32_append, Res.ok_bind]
  dsimp only
  rw [scanNext_append' (toNat_toUInt32 hek).symm, Res.ok_bind]

theorem encryptHybridHeader_inv {p : Policy} {pub : MasterPublicKey G2 Gt} {attrs : List Attribute} {md : Option Metadata}
    {random : Gt} {s : K} {nonce : Nonce} {h : EncryptedHeader Key}
    (heq : encryptHybridHeader e bm cs t p pub attrs md random s nonce = .ok h) :
    ∃ kb ek, generateSymmetricKey e bm cs t p pub attrs e.keyLen random s = .ok (kb, ek) ∧ e.keyDec kb = .ok h.symmetricKey ∧
      ek.length < 2 ^ 32 ∧
      ((md = none ∧ h.encryptedHeaderBytes = be32 ek.length.toUInt32 ++ ek) ∨
        ∃ m mb em, md = some m ∧ e.metaEnc m = .ok mb ∧ e.encrypt h.symmetricKey mb nonce none = .ok em ∧ em.length < 2 ^ 32 ∧
          h.encryptedHeaderBytes = be32 ek.length.toUInt32 ++ ek ++ (e.nonceEnc nonce ++ (be32 em.length.toUInt32 ++ em))) := by
  unfold encryptHybridHeader at heq
  obtain ⟨⟨kb, ek⟩, h1, heq⟩ := Res.bind_eq_ok.1 heq
  obtain ⟨k, h2, heq⟩ := Res.bind_eq_ok.1 heq
  obtain ⟨l, h3, heq⟩ := Res.bind_eq_ok.1 heq
  obtain ⟨hl, rfl⟩ := u32Len_inv h3
  dsimp only at h2 hl heq
  cases md with
  | none =>
    simp only [Res.ok.injEq] at heq
    subst heq
    exact ⟨kb, ek, h1, h2, hl, Or.inl ⟨rfl, rfl⟩⟩
  | some m =>
    simp only at heq
    obtain ⟨mb, h4, heq⟩ := Res.bind_eq_ok.1 heq
    obtain ⟨em, h5, heq⟩ := Res.bind_eq_ok.1 heq
    obtain ⟨l', h6, heq⟩ := Res.bind_eq_ok.1 heq
    obtain ⟨hl', rfl⟩ := u32Len_inv h6
    simp only [Res.ok.injEq] at heq
    subst heq
    exact ⟨kb, ek, h1, h2, hl, Or.inr ⟨m, mb, em, rfl, h4, h5, hl', by simp [List.append_assoc]⟩⟩

/-- Header decryption panics exactly when the framing of the encapsulation is right and its decoding or decryption panics. -/
theorem decryptHybridHeader_panic (hcs : cs.Lawful) (he : e.Lawful tag) {key : DecryptionKey K G1 G3} {b : Bytes} :
    decryptHybridHeader e bm cs t key b = .panic ↔
      4 ≤ b.length ∧ (ofBe32 b).toNat ≤ (b.drop 4).length ∧
      ((cipherTextCodec t cs).dec ((b.drop 4).take (ofBe32 b).toNat) = .panic ∨
        ∃ enc, (cipherTextCodec t cs).dec ((b.drop 4).take (ofBe32 b).toNat) = .ok enc ∧ engineDecrypt bm enc key = .panic) := by
  unfold decryptHybridHeader
  by_cases h4 : b.length < 4
  · rw [if_pos h4]
    simp
    omega
  rw [if_neg h4]
  rcases scanU32_cases b with ⟨_, h1⟩ | ⟨h1, _⟩
  swap
  · omega
  rw [h1, Res.ok_bind]
  dsimp only
  rcases scanNext_cases (b.drop 4) (ofBe32 b).toNat with ⟨h2, h3⟩ | ⟨h2, h3⟩
  swap
  · rw [h3]
    simp only [Res.err_bind]
    constructor
    · intro h; simp at h
    · rintro ⟨_, h, _⟩; omega
  rw [h3, Res.ok_bind]
  dsimp only
  rw [Res.bind_eq_panic, decryptSymmetricKey_panic hcs]
  constructor
  · rintro (h | ⟨kb, hkb, h⟩)
    · exact ⟨by omega, h2, h⟩
    · exfalso
      rcases Res.bind_eq_panic.1 h with h | ⟨k, _, h⟩
      · by_cases hl : kb.length = e.keyLen
        · obtain ⟨k, hk, _⟩ := he.keyDec_size kb hl
          rw [hk] at h; simp at h
        · obtain ⟨x, hx⟩ := he.keyDec_other kb hl
          rw [hx] at h; simp at h
      · rcases Res.bind_eq_panic.1 h with h | ⟨m, _, h⟩
        · split at h
          · simp at h
          · rcases Res.bind_eq_panic.1 h with h | ⟨n, _, h⟩
            · exact scanNext_total _ _ h
            rcases Res.bind_eq_panic.1 h with h | ⟨no, _, h⟩
            · exact he.nonceDec_total _ h
            rcases Res.bind_eq_panic.1 h with h | ⟨sz, _, h⟩
            · exact scanU32_total _ h
            rcases Res.bind_eq_panic.1 h with h | ⟨em, _, h⟩
            · exact scanNext_total _ _ h
            rcases Res.bind_eq_panic.1 h with h | ⟨mb, _, h⟩
            · exact he.decrypt_total _ _ _ _ h
            · cases hm : e.metaDec mb with
              | panic => exact he.metaDec_total _ hm
              | ok m => rw [hm] at h; simp [Res.mapErr] at h
              | err x => rw [hm] at h; simp [Res.mapErr] at h
        · simp at h
  · rintro ⟨_, _, h⟩
    exact Or.inl h

end Abe
