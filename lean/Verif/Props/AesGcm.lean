import Verif.Proofs.AesGcm
import Verif.Props.Hybrid
import Verif.Props.Integrity
import Verif.Props.DemoHybrid
import Verif.Props.RepoJsTests

/-!
# Property C101: AES-256-GCM satisfies what is assumed of the symmetric scheme

And property C74, continued: the stored ciphertext of /repo/src/interfaces/wasm_bindgen/tests.rs.
-/

set_option linter.unusedSectionVars false

namespace Abe

open Gcm

variable {shake : Bytes → Nat → Bytes} {metaEnc : Metadata → Out Bytes} {metaDec : Bytes → Out Metadata} {num : Nat → Bytes}

/-- **C101**: AES-256-GCM, with blocks laid out as in the stored ciphertext, satisfies all assumptions made on the symmetric scheme, if SHAKE256 outputs as many bytes as
asked for, the encoding of metadata does not panic and the number of a block takes eight bytes. -/
theorem C101_lawful (hs : ∀ b n, (shake b n).length = n) (he : ∀ m, metaEnc m ≠ .panic) (hd : ∀ b, metaDec b ≠ .panic) (hn : ∀ i, (num i).length = 8) :
    (aesGcm shake metaEnc metaDec num).Lawful 16 where
  shake_length := hs
  keyLen_lt := show 32 < 2 ^ 32 by decide
  keyEnc_length k := k.2
  keyDec_keyEnc k := dif_pos k.2
  keyDec_size b h := ⟨⟨b, h⟩, dif_pos h, rfl⟩
  keyDec_other b h := ⟨.cryptoError, dif_neg h⟩
  nonceEnc_length n := n.2
  nonceDec_nonceEnc n := dif_pos n.2
  nonceDec_total b := by simp only [aesGcm]; split <;> simp
  encrypt_length k m n a c h := encrypt_length (aes256_length _) h
  decrypt_encrypt k m n a c h := (decrypt_eq_ok (aes256_length _)).2 h
  encrypt_total k m n a := encrypt_total _ _ _
  decrypt_total k m n a := decrypt_total _ _ _
  metaEnc_total := he
  metaDec_total := hd
  block max k uid i p n c _ hp h := by
    simp only [aesGcm] at h ⊢
    rw [if_neg (by omega)] at h
    obtain ⟨x, h1, h2⟩ := Res.bind_eq_ok.1 h
    cases h2
    have hl := encrypt_length (aes256_length _) h1
    have h12 : n.val.length = 12 := n.2
    have hl' : (n.val ++ x).length = p.length + 28 := by rw [List.length_append, hl, h12]; omega
    refine ⟨hl', ?_⟩
    rw [hl', if_neg (by omega), List.take_left' h12, List.drop_left' h12]
    exact (decrypt_eq_ok (aes256_length _)).2 h1
  block_total max k uid i p n _ hp h1 h2 := by
    have h : Gcm.encrypt (Aes.aes256 k.val) n.val (uid ++ num i) p = .ok _ := encrypt_eq_ok.2 ⟨by unfold limit; omega, by
      rw [List.length_append, hn]
      unfold limit
      omega, rfl⟩
    simp only [aesGcm]
    rw [if_neg (by omega), h]
    exact ⟨_, rfl⟩

/-- **C101**: nothing else is accepted: what decryption accepts is exactly what encryption with the same key, nonce and additional data returns, and what block decryption
accepts is exactly what block encryption with the same key, identifier and number returns for some nonce. -/
theorem C101_exact : (aesGcm shake metaEnc metaDec num).Exact where
  message k c n a m := decrypt_eq_ok (aes256_length _)
  block max k uid i c p := by
    simp only [aesGcm]
    constructor
    · intro h
      by_cases hl : max + 28 < c.length ∨ c.length < 28
      · rw [if_pos hl] at h
        cases h
      rw [if_neg hl] at h
      have h' := (decrypt_eq_ok (aes256_length _)).1 h
      have hp := encrypt_length (aes256_length _) h'
      rw [List.length_drop] at hp
      refine ⟨⟨c.take 12, by rw [List.length_take]; omega⟩, ?_⟩
      rw [if_neg (by omega), h']
      simp
    · rintro ⟨n, h⟩
      by_cases hp : max < p.length
      · rw [if_pos hp] at h
        cases h
      rw [if_neg hp] at h
      obtain ⟨x, h1, h2⟩ := Res.bind_eq_ok.1 h
      cases h2
      have hl := encrypt_length (aes256_length _) h1
      have h12 : n.val.length = 12 := n.2
      rw [List.length_append, h12, if_neg (by omega), List.take_left' h12, List.drop_left' h12]
      exact (decrypt_eq_ok (aes256_length _)).2 h1

/-- **C101**, the bytes of a block made or accepted by the functions of the repository: the nonce, the clear text in counter mode and the tag over the identifier, the
number and the ciphertext. -/
theorem C101_layout {max : Nat} (hmax : max ≤ limit) (hn : ∀ i, (num i).length = 8) (k : AesKey) {uid : Bytes} (hu : uid.length + 8 ≤ limit) (i : Nat) (p c : Bytes) :
    (∀ n : AesNonce, encryptHybridBlock (aesGcm shake metaEnc metaDec num) max k uid i p n = .ok c ↔ p ≠ [] ∧ p.length ≤ max ∧
      c = n.val ++ (ctr (Aes.aes256 k.val) n.val p ++ tag (Aes.aes256 k.val) n.val (uid ++ num i) (ctr (Aes.aes256 k.val) n.val p))) ∧
    (decryptHybridBlock (aesGcm shake metaEnc metaDec num) max k uid i c = .ok p ↔ p.length ≤ max ∧ ∃ n : AesNonce,
      c = n.val ++ (ctr (Aes.aes256 k.val) n.val p ++ tag (Aes.aes256 k.val) n.val (uid ++ num i) (ctr (Aes.aes256 k.val) n.val p))) := by
  have hb : ∀ n : AesNonce, p.length ≤ max → ((aesGcm shake metaEnc metaDec num).blockEnc max k uid i p n = .ok c ↔
      c = n.val ++ (ctr (Aes.aes256 k.val) n.val p ++ tag (Aes.aes256 k.val) n.val (uid ++ num i) (ctr (Aes.aes256 k.val) n.val p))) := by
    intro n hp
    simp only [aesGcm]
    rw [if_neg (by omega), Res.bind_eq_ok]
    constructor
    · rintro ⟨x, h1, h2⟩
      cases h2
      rw [(encrypt_eq_ok.1 h1).2.2]
    · rintro rfl
      exact ⟨_, encrypt_eq_ok.2 ⟨by omega, by rw [List.length_append, hn]; omega, rfl⟩, rfl⟩
  have hp : ∀ n : AesNonce, (aesGcm shake metaEnc metaDec num).blockEnc max k uid i p n = .ok c → p.length ≤ max := by
    intro n h
    by_contra hp
    simp only [aesGcm] at h
    rw [if_pos (by omega)] at h
    cases h
  constructor
  · intro n
    rw [(C98_places _ _ _ _ _ _ _).1]
    constructor
    · rintro ⟨h1, h2, h3⟩
      exact ⟨h1, h2, (hb n h2).1 h3⟩
    · rintro ⟨h1, h2, h3⟩
      exact ⟨h1, h2, (hb n h2).2 h3⟩
  · rw [(C98_places _ _ _ _ _ _ _).2, C101_exact.block]
    constructor
    · rintro ⟨_, _, n, h⟩
      exact ⟨hp n h, n, (hb n (hp n h)).1 h⟩
    · rintro ⟨h1, n, h⟩
      have hl : c.length = p.length + 28 := by
        rw [h]
        simp only [List.length_append, ctr_length (aes256_length _), tag_length (aes256_length _), n.2]
        omega
      refine ⟨?_, ?_, n, (hb n h1).2 h⟩
      · rintro rfl
        simp at hl
      · change c.length ≤ max + 28
        omega

/-- Squares and products giving the power 254 in the field of 256 elements, the inverse. -/
def gf256Inv (x : Nat) : Nat :=
  let x2 := gf256Mul x x
  let x4 := gf256Mul x2 x2
  let x8 := gf256Mul x4 x4
  let x16 := gf256Mul x8 x8
  let x32 := gf256Mul x16 x16
  let x64 := gf256Mul x32 x32
  let x128 := gf256Mul x64 x64
  gf256Mul x2 (gf256Mul x4 (gf256Mul x8 (gf256Mul x16 (gf256Mul x32 (gf256Mul x64 x128)))))

instance (b c : Nat) : Decidable (Affine b c) := inferInstanceAs (Decidable (_ ∧ _))

/-- **C101**: the table of the cipher maps every byte to the affine image of its inverse in the field of 256 elements, and zero to the affine image of zero. -/
theorem C101_sbox (x : Nat) (hx : x < 256) :
    ∃ y < 256, (x = 0 → y = 0) ∧ (x ≠ 0 → gf256Mul x y = 1) ∧ Affine y (Aes.sbox x) := by
  have h : ∀ x < 256, gf256Inv x < 256 ∧ (x = 0 → gf256Inv x = 0) ∧ (x ≠ 0 → gf256Mul x (gf256Inv x) = 1) ∧ Affine (gf256Inv x) (Aes.sbox x) := by
    decide +kernel
  exact ⟨_, h x hx⟩

theorem xor_cancel : ∀ (a b s : Bytes), a.length = b.length → a.length ≤ s.length →
    List.zipWith (· ^^^ ·) (List.zipWith (· ^^^ ·) a s) (List.zipWith (· ^^^ ·) b s) = List.zipWith (· ^^^ ·) a b
  | [], _, _, _, _ => by simp
  | x :: a, [], _, h, _ => by simp at h
  | x :: a, y :: b, [], _, h => by simp at h
  | x :: a, y :: b, z :: s, h, h' => by
    simp only [List.zipWith_cons_cons, List.length_cons, Nat.add_right_cancel_iff, Nat.add_le_add_iff_right] at h h' ⊢
    rw [xor_cancel a b s h h', show (x ^^^ z) ^^^ (y ^^^ z) = x ^^^ y by
      rw [UInt8.xor_comm y z, ← UInt8.xor_assoc, UInt8.xor_assoc x z z, UInt8.xor_self, UInt8.xor_zero]]

/-- **C101**, why every block needs a fresh nonce: two clear texts of the same size encrypted under the same key and nonce have ciphertexts whose difference is the difference
of the clear texts, whatever the additional data. -/
theorem C101_nonce_reuse (k : AesKey) (n : AesNonce) (a a' : Option Bytes) {m m' c c' : Bytes} (hl : m.length = m'.length)
    (h : (aesGcm shake metaEnc metaDec num).encrypt k m n a = .ok c) (h' : (aesGcm shake metaEnc metaDec num).encrypt k m' n a' = .ok c') :
    List.zipWith (· ^^^ ·) (c.take m.length) (c'.take m.length) = List.zipWith (· ^^^ ·) m m' := by
  obtain ⟨_, _, rfl⟩ := encrypt_eq_ok.1 h
  obtain ⟨_, _, rfl⟩ := encrypt_eq_ok.1 h'
  rw [List.take_left' (ctr_length (aes256_length _) _ _), List.take_left' (by rw [ctr_length (aes256_length _), hl]), ctr, ctr, hl]
  apply xor_cancel _ _ _ hl
  rw [keyStream_length (aes256_length _)]
  omega

/-- The clear text of the stored ciphertext. -/
def RepoJs.nonRegClear : String :=
  "{\"Sn\":\"DUPONT\",\"givenName\":\"Martin\",\"departmentNumber\":\"377\",\"title\":\"CONSEILLER GRANDE CLIENTELE\",\"caYellowPagesCategory\":\"AGRI CHARGE AGRICOLE\",\"uid\":\"J5123456\",\"employeeNumber\":\"J5123456\",\"Mail\":\"Martin.DUPONT@ca-paris.fr\",\"TelephoneNumber\":\"+33.1.23.45.67.89\",\"Mobile\":\"06.11.22.33.44\",\"facsimileTelephoneNumber\":\"123456\",\"caPersonLocalisation\":\"J4123456\",\"Cn\":\"DOMAINE FLUX ET JUDICIAIRE\",\"caUnitdn\":\"2345\",\"department\":\"Marketing\",\"co\":\"France\"}"

theorem RepoJs.nonReg_decrypt : Gcm.decrypt (Aes.aes256 RepoJs.blockKey) (RepoJs.nonRegBlock.take 12) (RepoJs.blockUid ++ List.replicate 8 0) (RepoJs.nonRegBlock.drop 12) =
    .ok (RepoJs.nonRegClear.toList.map fun c => c.toNat.toUInt8) := by
  decide +kernel

theorem aesGcm_keyDec {b : Bytes} (h : b.length = 32) : (aesGcm shake metaEnc metaDec num).keyDec b = .ok ⟨b, h⟩ := by
  simp only [aesGcm]
  rw [dif_pos h]

theorem aesGcm_blockDec {max : Nat} (k : AesKey) (uid : Bytes) (i : Nat) {c : Bytes} (h : 28 ≤ c.length) (h' : c.length ≤ max + 28) :
    (aesGcm shake metaEnc metaDec num).blockDec max k uid i c = Gcm.decrypt (Aes.aes256 k.val) (c.take 12) (uid ++ num i) (c.drop 12) := by
  simp only [aesGcm]
  rw [if_neg (by omega)]

/-- **C74**, the two tests `test_non_reg_decrypt_hybrid_block`: they succeed, the clear text being a JSON object, for every SHAKE256, every encoding of metadata and every encoding
of block numbers for which the number 0 is eight zero bytes. -/
theorem C74_js_non_reg_block (h0 : num 0 = List.replicate 8 0) :
    RepoJs.nonRegDecryptBlock (aesGcm shake metaEnc metaDec num) = .ok (RepoJs.nonRegClear.toList.map fun c => c.toNat.toUInt8) ∧
    RepoJs.nonRegDecryptBlockDirect (aesGcm shake metaEnc metaDec num) = .ok (RepoJs.nonRegClear.toList.map fun c => c.toNat.toUInt8) := by
  have hk : (aesGcm shake metaEnc metaDec num).keyDec RepoJs.blockKey = .ok ⟨RepoJs.blockKey, by decide⟩ :=
    aesGcm_keyDec _
  have hb : (aesGcm shake metaEnc metaDec num).blockDec maxClearTextSize ⟨RepoJs.blockKey, by decide⟩ RepoJs.blockUid 0 RepoJs.nonRegBlock =
      .ok (RepoJs.nonRegClear.toList.map fun c => c.toNat.toUInt8) := by
    rw [aesGcm_blockDec _ _ _ (by decide +kernel) (by decide +kernel), h0, RepoJs.nonReg_decrypt]
  have hd : decryptHybridBlock (aesGcm shake metaEnc metaDec num) maxClearTextSize ⟨RepoJs.blockKey, by decide⟩ RepoJs.blockUid 0 RepoJs.nonRegBlock =
      .ok (RepoJs.nonRegClear.toList.map fun c => c.toNat.toUInt8) := by
    unfold decryptHybridBlock
    rw [if_neg (by decide +kernel), if_neg, hb]
    change ¬ RepoJs.nonRegBlock.length > maxClearTextSize + 28
    decide +kernel
  constructor
  · unfold RepoJs.nonRegDecryptBlock jsDecryptHybridBlock
    rw [if_neg (by decide), if_neg (by decide +kernel), hk, js_ok, Res.ok_bind]
    simp only [Option.getD_some]
    rw [hd]
    rfl
  · unfold RepoJs.nonRegDecryptBlockDirect
    rw [hk, Res.ok_bind, hd]

/-! ## Examples -/

namespace Demo

/-- AES-256-GCM with the other functions of the concrete scheme of the examples, and big-endian block numbers. -/
def aes : External AesKey AesNonce := aesGcm symmetric.shake symmetric.metaEnc symmetric.metaDec fun i => (Gcm.bytes16 i).drop 8

theorem aes_lawful : aes.Lawful 16 :=
  C101_lawful symmetric_lawful.shake_length symmetric_lawful.metaEnc_total symmetric_lawful.metaDec_total fun i => by simp [Gcm.bytes16]

/-- A key of the cipher, a nonce and its encryption of a message with additional data, of which decryption returns the message, and nothing for other additional data. -/
example : aes.encrypt ⟨List.replicate 32 1, rfl⟩ [104, 105] ⟨List.replicate 12 7, rfl⟩ (some [1]) =
      .ok [229, 154, 38, 248, 26, 153, 140, 105, 103, 22, 15, 230, 19, 55, 109, 16, 234, 253] ∧
    aes.decrypt ⟨List.replicate 32 1, rfl⟩ [229, 154, 38, 248, 26, 153, 140, 105, 103, 22, 15, 230, 19, 55, 109, 16, 234, 253] ⟨List.replicate 12 7, rfl⟩ (some [1]) =
      .ok [104, 105] ∧
    aes.decrypt ⟨List.replicate 32 1, rfl⟩ [229, 154, 38, 248, 26, 153, 140, 105, 103, 22, 15, 230, 19, 55, 109, 16, 234, 253] ⟨List.replicate 12 7, rfl⟩ (some [2]) =
      .err .cryptoError := by
  decide +kernel

/-- The block functions of the repository with AES-256-GCM. -/
example (k : AesKey) (n : AesNonce) : ∃ ct, encryptHybridBlock aes maxClearTextSize k [1, 2] 5 [3, 4, 5] n = .ok ct ∧ ct.length = 31 ∧
    decryptHybridBlock aes maxClearTextSize k [1, 2] 5 ct = .ok [3, 4, 5] := by
  obtain ⟨ct, h1, h2, h3⟩ := (C38_blocks aes_lawful (max := maxClearTextSize) (by decide) k (uid := [1, 2]) (by decide) 5 [3, 4, 5] n).2.2 (by simp) (by decide)
  exact ⟨ct, h1, h3, h2⟩

/-- The twenty-eight bytes which stand for the empty clear text are accepted, though the empty clear text is not encrypted. -/
example (k : AesKey) (n : AesNonce) : ∃ c, decryptHybridBlock aes maxClearTextSize k [1, 2] 5 c = .ok [] ∧ c.length = 28 ∧
    encryptHybridBlock aes maxClearTextSize k [1, 2] 5 [] n ≠ .ok c := by
  refine ⟨_, ((C101_layout (by decide) (fun i => by simp [Gcm.bytes16]) k (by decide) 5 [] _).2).2 ⟨by decide, n, rfl⟩, ?_, ?_⟩
  · simp [Gcm.ctr, tag_length (aes256_length _), n.2]
  · intro h
    exact (((C101_layout (by decide) (fun i => by simp [Gcm.bytes16]) k (by decide) 5 [] _).1 n).1 h).1 rfl

example : Aes.sbox 0x53 = 0xed ∧ gf256Mul 0x53 0xca = 1 := by decide +kernel

/-- The example of FIPS 197, appendix C.3. -/
example : Aes.aes256 ((List.range 32).map Nat.toUInt8) ((List.range 16).map fun i => (17 * i).toUInt8) =
    [0x8e, 0xa2, 0xb7, 0xca, 0x51, 0x67, 0x45, 0xbf, 0xea, 0xfc, 0x49, 0x90, 0x4b, 0x49, 0x60, 0x89] := by
  decide +kernel

example : ∃ c c', aes.encrypt ⟨List.replicate 32 1, rfl⟩ [104, 105] ⟨List.replicate 12 7, rfl⟩ (some [1]) = .ok c ∧
    aes.encrypt ⟨List.replicate 32 1, rfl⟩ [98, 121] ⟨List.replicate 12 7, rfl⟩ none = .ok c' ∧
    List.zipWith (· ^^^ ·) (c.take 2) (c'.take 2) = [10, 16] := by
  have he : ∀ k m n a, (m : Bytes).length ≤ Gcm.limit → ((a : Option Bytes).getD []).length ≤ Gcm.limit → ∃ c, aes.encrypt k m n a = .ok c :=
    fun k m n a h h' => ⟨_, Gcm.encrypt_eq_ok.2 ⟨h, h', rfl⟩⟩
  obtain ⟨c, h⟩ := he ⟨List.replicate 32 1, rfl⟩ [104, 105] ⟨List.replicate 12 7, rfl⟩ (some [1]) (by decide) (by decide)
  obtain ⟨c', h'⟩ := he ⟨List.replicate 32 1, rfl⟩ [98, 121] ⟨List.replicate 12 7, rfl⟩ none (by decide) (by decide)
  exact ⟨c, c', h, h', C101_nonce_reuse _ _ _ _ (m := [104, 105]) (m' := [98, 121]) rfl h h'⟩

example : RepoJs.nonRegDecryptBlock aes = .ok (RepoJs.nonRegClear.toList.map fun c => c.toNat.toUInt8) := (C74_js_non_reg_block (by decide +kernel)).1

end Demo

end Abe
