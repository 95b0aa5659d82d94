import Verif.Props.Codec
import Verif.Props.DemoHybrid

/-!
# Hybrid encryption

Properties C33–C39.  `e` is the external symmetric scheme, assumed lawful (`External.Lawful`).  Encryption is done on any target
`t`, decryption on a 64-bit (or wider) target `t'`.
-/

namespace Abe

set_option linter.unusedSectionVars false

variable {K P Q QP T Key Nonce : Type} [Field K] [DecidableEq K] [AddCommGroup P] [Module K P] [AddCommGroup Q] [Module K Q]
  [AddCommGroup T] [Module K T]
variable {e : External Key Nonce} {cs : Codecs K P Q T} {t t' : Target} {tag : Nat}
variable {p : Policy} {rnd : Nat → K} {y : K} {mk : MasterKey K P Q T} {ap : AccessPolicy} {key : DecryptionKey K QP Q}
  {atts : List Attribute}

/-- The bytes of an encapsulation: of known length, decoded to the ciphertext if there is at least one attribute. -/
theorem capsule (c : Curve K P Q QP T) (hcs : cs.Lawful) (hw : p.WF)
    (hmk : engineGenerateMasterKey (bls c) p rnd y = .ok mk) {random : T} {s : K} {enc : CipherText P T}
    (henc : engineEncrypt (bls c) t p mk.pubKey atts random s = .ok enc) {ek : Bytes}
    (hek : (cipherTextCodec t cs).enc enc = .ok ek) :
    (atts ≠ [] → (ek.length < t'.modulus → (cipherTextCodec t' cs).dec ek = .ok enc) ∧ ek.length = ciphertextLen atts.length) ∧
    (atts = [] → ek.length = 288) := by
  obtain ⟨tI, hlen, hnz, rfl⟩ := generateMasterKey_inv c hmk
  obtain ⟨vs, hv, _, _, hl, hlt, _, rfl⟩ := engineEncrypt_inv c hw henc
  have henc' : encrypt (bls c) t random vs (pubOf c tI y) s = .ok (ctOf c tI y s random vs) := by
    unfold engineEncrypt at henc
    rw [hv, Res.ok_bind] at henc
    exact henc
  have hmax : tI.length < 2 ^ 32 := by rw [hlen]; exact UInt32.toNat_lt _
  constructor
  · intro hne
    have hvs : vs ≠ [] := by
      rintro rfl
      exact hne (List.length_eq_zero_iff.1 hl.symm)
    obtain ⟨b, h1, _, h3⟩ := C26_ciphertext_round_trip (t := t') hcs (bls c) henc' hvs (by omega)
    obtain ⟨b', g1, g2, _⟩ := C30_ciphertext_len (t := t') hcs (bls c) henc' hvs (by omega)
    rw [cipherText_enc_target (t' := t')] at hek
    obtain rfl : ek = b := by rw [hek] at h1; simpa using h1
    obtain rfl : ek = b' := by rw [hek] at g1; simpa using g1
    rw [hl] at g2
    exact ⟨fun hB => by simpa using h3 [] (by simpa using hB), g2⟩
  · rintro rfl
    have hvs : vs = [] := List.length_eq_zero_iff.1 (by simpa using hl)
    subst hvs
    obtain ⟨b, h1, h2⟩ := hcs.gt.enc (random + (s * y) • c.genT)
    simp [cipherTextCodec, ctOf, vecEnc, h1] at hek
    rw [← hek, h2]

/-- An authorised key can only be authorised by some attribute. -/
theorem authorised_nonempty (c : Curve K P Q QP T) (hw : p.WF) (hmk : engineGenerateMasterKey (bls c) p rnd y = .ok mk)
    (hkey : UserKey c p mk ap key) {random : T} {s : K} {enc : CipherText P T}
    (henc : engineEncrypt (bls c) t p mk.pubKey atts random s = .ok enc) (hsat : ap.Sat p (· ∈ atts)) : atts ≠ [] := by
  rintro rfl
  have h := C01_authorised_decryption c hw hmk hkey henc hsat
  obtain ⟨tI, hlen, hnz, rfl⟩ := generateMasterKey_inv c hmk
  obtain ⟨vs, hv, _, _, hl, hlt, _, rfl⟩ := engineEncrypt_inv c hw henc
  have hvs : vs = [] := List.length_eq_zero_iff.1 (by simpa using hl)
  subst hvs
  simp [engineDecrypt, decrypt, ctOf, selectRows, spanCoefs] at h

/-! ### C33 -/

/-- **C33**, authorised: the decapsulated key is the encapsulated one, of the requested length. -/
theorem C33_authorised (c : Curve K P Q QP T) (hcs : cs.Lawful) (he : e.Lawful tag) (hw : p.WF)
    (hmk : engineGenerateMasterKey (bls c) p rnd y = .ok mk) (hkey : UserKey c p mk ap key) {len : Nat} {random : T} {s : K}
    {sk ek : Bytes} (hgen : generateSymmetricKey e (bls c) cs t p mk.pubKey atts len random s = .ok (sk, ek))
    (hB : ek.length < t'.modulus) (hsat : ap.Sat p (· ∈ atts)) :
    decryptSymmetricKey e (bls c) cs t' key ek len = .ok sk ∧ sk.length = len := by
  obtain ⟨enc, gb, h1, h2, h3, h4⟩ := generateSymmetricKey_inv hgen
  obtain ⟨g1, _⟩ := (capsule (t' := t') c hcs hw hmk h1 h2).1 (authorised_nonempty c hw hmk hkey h1 hsat)
  dsimp only at h4
  constructor
  · rw [decryptSymmetricKey_of (g1 hB), C01_authorised_decryption c hw hmk hkey h1 hsat, Res.ok_bind]
    simp only [Res.ofOption, Res.ok_bind, h3, h4]
  · rw [h4, he.shake_length]

/-- **C33**, unauthorised: no key is returned; it is an error if there was some attribute (without attribute, the bytes may also
make a build with overflow checks panic, see C31). -/
theorem C33_unauthorised (c : Curve K P Q QP T) (hcs : cs.Lawful) (hw : p.WF)
    (hmk : engineGenerateMasterKey (bls c) p rnd y = .ok mk) (hkey : UserKey c p mk ap key) {len : Nat} {random : T} {s : K}
    {sk ek : Bytes} (hgen : generateSymmetricKey e (bls c) cs t p mk.pubKey atts len random s = .ok (sk, ek))
    (hB : ek.length < t'.modulus) (hsat : ¬ ap.Sat p (· ∈ atts)) (len' : Nat) :
    (∀ k, decryptSymmetricKey e (bls c) cs t' key ek len' ≠ .ok k) ∧
    (atts ≠ [] → (decryptSymmetricKey e (bls c) cs t' key ek len').isErr) := by
  obtain ⟨enc, gb, h1, h2, _, _⟩ := generateSymmetricKey_inv hgen
  obtain ⟨g1, g2⟩ := capsule (t' := t') c hcs hw hmk h1 h2
  have herr : atts ≠ [] → (decryptSymmetricKey e (bls c) cs t' key ek len').isErr := by
    intro hne
    rw [decryptSymmetricKey_of ((g1 hne).1 hB)]
    obtain ⟨h5, h6⟩ := C02_unauthorised_decryption c hw hmk hkey h1 hsat
    by_cases hg : ∃ b ∈ atts, ap.Grants p b
    · rw [h5 hg]; simp [Res.ofOption, Res.isErr]
    · push Not at hg
      rw [h6 hg]; simp [Res.isErr]
  refine ⟨?_, herr⟩
  intro k hk
  by_cases hne : atts = []
  · unfold decryptSymmetricKey at hk
    obtain ⟨enc', hd, _⟩ := Res.bind_eq_ok.1 hk
    exact dec_no_attribute hcs (g2 hne) enc' hd
  · have := herr hne
    rw [hk] at this
    simp [Res.isErr] at this

/-! ### C34 -/

theorem ofLe_zeros (n : Nat) : ofLe (List.replicate n 0) = 0 := by
  induction n with
  | zero => rfl
  | succ n ih => simp [List.replicate_succ, ofLe, ih]

theorem ofLe_append_zeros (b : Bytes) (n : Nat) : ofLe (b ++ List.replicate n 0) = ofLe b := by
  induction b with
  | nil => exact ofLe_zeros n
  | cons x b ih => simp [ofLe, ih]

theorem ofLe_eq_zero {b : Bytes} (h : ofLe b = 0) : b = List.replicate b.length 0 := by
  have h1 := leBytes_ofLe b
  have h2 := leBytes_ofLe (List.replicate b.length 0)
  rw [ofLe_zeros, List.length_replicate] at h2
  rw [h] at h1
  exact h1.symm.trans h2

theorem ofLe_eq_iff (b b' : Bytes) : ofLe b = ofLe b' ↔ SameUpToZeros b b' := by
  constructor
  · intro h
    induction b generalizing b' with
    | nil =>
      exact ⟨[], 0, b'.length, rfl, by simpa using ofLe_eq_zero h.symm⟩
    | cons x b ih =>
      cases b' with
      | nil => exact ⟨[], (x :: b).length, 0, by simpa using ofLe_eq_zero h, rfl⟩
      | cons x' b' =>
        simp only [ofLe] at h
        have h1 := x.toNat_lt
        have h2 := x'.toNat_lt
        obtain rfl : x = x' := UInt8.toNat_inj.1 (by omega)
        obtain ⟨c, i, j, hc1, hc2⟩ := ih b' (by omega)
        exact ⟨x :: c, i, j, by simp [hc1], by simp [hc2]⟩
  · rintro ⟨c, i, j, rfl, rfl⟩
    rw [ofLe_append_zeros, ofLe_append_zeros]

theorem msgToScalar_cases (q : Nat) (msg : Bytes) :
    (msg.length ≤ 32 ∧ ofLe msg < q ∧ msgToScalar q msg = .ok (ofLe msg : ZMod q)) ∨
    (32 < msg.length ∧ msgToScalar q msg = .err (.invalidSize "message too long")) ∨
    (msg.length ≤ 32 ∧ q ≤ ofLe msg ∧ msgToScalar q msg = .err .conversionFailed) := by
  unfold msgToScalar
  by_cases h : msg.length > 32
  · rw [if_pos h]; exact Or.inr (Or.inl ⟨h, rfl⟩)
  rw [if_neg h]
  have hr : ofLe (resize msg 32 0) = ofLe msg := by
    unfold resize
    rw [List.take_of_length_le (by omega), ofLe_append_zeros]
  unfold scalarFromBytes
  rw [hr]
  by_cases hq : ofLe msg < q
  · rw [if_pos hq]; exact Or.inl ⟨by omega, hq, rfl⟩
  · rw [if_neg hq]; exact Or.inr (Or.inr ⟨by omega, by omega, rfl⟩)

/-- **C34.** Encoding never panics and fails exactly on messages longer than 32 bytes or not below the order (little-endian). -/
theorem C34_encodable {q : Nat} [Fact q.Prime] {P Q QP T : Type} [AddCommGroup P] [Module (ZMod q) P] [AddCommGroup Q]
    [Module (ZMod q) Q] [AddCommGroup T] [Module (ZMod q) T] (c : Curve (ZMod q) P Q QP T) (msg : Bytes) :
    ((∃ g, msgToGt q (bls c) msg = .ok g) ↔ msg.length ≤ 32 ∧ ofLe msg < q) ∧
    ((∃ x, msgToGt q (bls c) msg = .err x) ↔ 32 < msg.length ∨ q ≤ ofLe msg) := by
  unfold msgToGt
  rcases msgToScalar_cases q msg with ⟨h1, h2, h3⟩ | ⟨h1, h3⟩ | ⟨h1, h2, h3⟩
  · rw [h3]
    exact ⟨⟨fun _ => ⟨h1, h2⟩, fun _ => ⟨_, rfl⟩⟩, ⟨fun ⟨x, h⟩ => by simp at h, fun h => by omega⟩⟩
  · rw [h3]
    exact ⟨⟨fun ⟨x, h⟩ => by simp at h, fun h => by omega⟩, ⟨fun _ => Or.inl h1, fun _ => ⟨_, rfl⟩⟩⟩
  · rw [h3]
    exact ⟨⟨fun ⟨x, h⟩ => by simp at h, fun h => by omega⟩, ⟨fun _ => Or.inr h2, fun _ => ⟨_, rfl⟩⟩⟩

/-- **C34.** Two encodable messages are encoded to the same element exactly when they differ only in trailing zero bytes. -/
theorem C34_collisions {q : Nat} [Fact q.Prime] {P Q QP T : Type} [AddCommGroup P] [Module (ZMod q) P] [AddCommGroup Q]
    [Module (ZMod q) Q] [AddCommGroup T] [Module (ZMod q) T] (c : Curve (ZMod q) P Q QP T) {msg msg' : Bytes} {g g' : T}
    (h : msgToGt q (bls c) msg = .ok g) (h' : msgToGt q (bls c) msg' = .ok g') : g = g' ↔ SameUpToZeros msg msg' := by
  obtain ⟨h1, h2⟩ := (C34_encodable c msg).1.1 ⟨g, h⟩
  obtain ⟨h1', h2'⟩ := (C34_encodable c msg').1.1 ⟨g', h'⟩
  rw [← ofLe_eq_iff]
  unfold msgToGt at h h'
  rcases msgToScalar_cases q msg with ⟨_, _, h3⟩ | ⟨_, h3⟩ | ⟨_, _, h3⟩ <;> [skip; omega; omega]
  rcases msgToScalar_cases q msg' with ⟨_, _, h3'⟩ | ⟨_, h3'⟩ | ⟨_, _, h3'⟩ <;> [skip; omega; omega]
  rw [h3] at h
  rw [h3'] at h'
  simp only [Res.ok_bind, Res.ok.injEq] at h h'
  subst h h'
  show (ofLe msg : ZMod q) • c.genT = (ofLe msg' : ZMod q) • c.genT ↔ _
  constructor
  · intro heq
    have h0 : ((ofLe msg : ZMod q) - (ofLe msg' : ZMod q)) • c.genT = 0 := by rw [sub_smul, heq, sub_self]
    rcases smul_eq_zero.1 h0 with h0 | h0
    · rw [sub_eq_zero] at h0
      have := congrArg ZMod.val h0
      rwa [ZMod.val_cast_of_lt h2, ZMod.val_cast_of_lt h2'] at this
    · exact absurd h0 c.genT_ne_zero
  · intro heq; rw [heq]

/-- Two messages of the group of BLS12-381 that collide, and one that does not. -/
example : SameUpToZeros [1, 2] [1, 2, 0] ∧ ¬ SameUpToZeros [1, 2] [0, 1, 2] := by
  rw [← ofLe_eq_iff, ← ofLe_eq_iff]; decide

/-- In a group of order 11: `[5]` and `[5, 0]` collide, `[11]` is refused. -/
example : msgToGt 11 (bls Demo.curveF) [5] = .ok 5 ∧ msgToGt 11 (bls Demo.curveF) [5, 0] = .ok 5 ∧
    msgToGt 11 (bls Demo.curveF) [11] = .err .conversionFailed := by decide +kernel

/-! ### C35 -/

theorem fits32 {t : Target} (ht : 32 ≤ t.bits) {n : Nat} (hn : n < 2 ^ 32) : n < t.modulus :=
  lt_of_lt_of_le hn (Nat.pow_le_pow_right (by decide) ht)

section Header

variable {md : Option Metadata} {random : T} {s : K} {nonce : Nonce} {h : EncryptedHeader Key}

/-- **C35.** An authorised key recovers the symmetric key and the metadata (the default one if none was given). -/
theorem C35_header_round_trip (c : Curve K P Q QP T) (ht : 32 ≤ t'.bits) (hcs : cs.Lawful) (he : e.Lawful tag) (hw : p.WF)
    (hmk : engineGenerateMasterKey (bls c) p rnd y = .ok mk) (hkey : UserKey c p mk ap key)
    (hmeta : ∀ m ∈ md, e.Keeps m)
    (henc : encryptHybridHeader e (bls c) cs t p mk.pubKey atts md random s nonce = .ok h) (hsat : ap.Sat p (· ∈ atts)) :
    decryptHybridHeader e (bls c) cs t' key h.encryptedHeaderBytes = .ok ⟨h.symmetricKey, md.getD ⟨[], none⟩⟩ := by
  obtain ⟨kb, ek, hg, hk, hl, hcase⟩ := encryptHybridHeader_inv henc
  obtain ⟨hd, _⟩ := C33_authorised (t' := t') c hcs he hw hmk hkey hg (fits32 ht hl) hsat
  rcases hcase with ⟨rfl, hb⟩ | ⟨m, mb, em, rfl, hm, hem, hel, hb⟩
  · have := decryptHybridHeader_frame (e := e) (bm := bls c) (cs := cs) (t := t') (key := key) (r := []) hl
    rw [List.append_nil] at this
    rw [hb, this, hd, Res.ok_bind, hk, Res.ok_bind]
    rfl
  · rw [hb, decryptHybridHeader_frame hl, hd, Res.ok_bind, hk, Res.ok_bind, if_neg (by simp [be32]),
      scanNext_append' (he.nonceEnc_length nonce), Res.ok_bind]
    dsimp only
    rw [he.nonceDec_nonceEnc, Res.ok_bind, scanU32_append, Res.ok_bind]
    dsimp only
    have h1 := scanNext_append' (a := em) (r := []) (toNat_toUInt32 hel).symm
    rw [List.append_nil] at h1
    rw [h1, Res.ok_bind]
    dsimp only
    rw [he.decrypt_encrypt _ _ _ _ _ hem, Res.ok_bind]
    obtain ⟨mb', g1, g2⟩ := hmeta m rfl
    obtain rfl : mb = mb' := by rw [hm] at g1; simpa using g1
    rw [g2]
    rfl

/-- **C35**, success: header encryption fails only if the encryption of the random message fails, the metadata cannot be encoded or
encrypted, or a length does not fit in 32 bits. -/
theorem C35_header_encrypts (c : Curve K P Q QP T) (hcs : cs.Lawful) (he : e.Lawful tag) (hw : p.WF)
    (hmk : engineGenerateMasterKey (bls c) p rnd y = .ok mk) {enc : CipherText P T}
    (henc : engineEncrypt (bls c) t p mk.pubKey atts random s = .ok enc) (hlen : ciphertextLen atts.length < 2 ^ 32)
    (hmeta : ∀ m ∈ md, ∃ mb, e.metaEnc m = .ok mb ∧ mb.length + tag < 2 ^ 32 ∧ ∀ k, ∃ em, e.encrypt k mb nonce none = .ok em) :
    ∃ h, encryptHybridHeader e (bls c) cs t p mk.pubKey atts md random s nonce = .ok h := by
  obtain ⟨gb, hgb, _⟩ := hcs.gt.enc random
  obtain ⟨ek, hek⟩ : ∃ ek, (cipherTextCodec t cs).enc enc = .ok ek := by
    obtain ⟨tI, hl, hnz, rfl⟩ := generateMasterKey_inv c hmk
    obtain ⟨vs, hv, _, _, hl', hlt, _, rfl⟩ := engineEncrypt_inv c hw henc
    have hmax : tI.length < 2 ^ 32 := by rw [hl]; exact UInt32.toNat_lt _
    have : ∃ a, vecEnc u32Codec vs = .ok a := by
      by_cases h0 : vs = []
      · subst h0; exact ⟨[], rfl⟩
      · obtain ⟨bs, h1, h2⟩ := vecEnc_ok u32Codec_fixed h0 (by omega)
        exact ⟨_, h2.1⟩
    obtain ⟨a, ha⟩ := this
    have : ∃ b, vecEnc cs.g2 (ctOf c tI y s random vs).eI = .ok b := by
      by_cases h0 : vs = []
      · subst h0; exact ⟨[], rfl⟩
      · obtain ⟨bs, h1, h2⟩ := vecEnc_ok (l := (ctOf c tI y s random vs).eI) hcs.g2 (by simpa [ctOf] using h0)
          (by simp [ctOf]; omega)
        exact ⟨_, h2.1⟩
    obtain ⟨b, hb⟩ := this
    obtain ⟨g, hg, _⟩ := hcs.gt.enc (ctOf c tI y s random vs).ePrime
    refine ⟨a ++ b ++ g, ?_⟩
    simp only [cipherTextCodec]
    rw [show (ctOf c tI y s random vs).gamma = vs from rfl, ha, hb, hg]
    rfl
  have hcap := capsule (t' := .release64) c hcs hw hmk henc hek
  have hekl : ek.length < 2 ^ 32 := by
    by_cases h0 : atts = []
    · rw [hcap.2 h0]; decide
    · rw [(hcap.1 h0).2]; exact hlen
  have hgen : generateSymmetricKey e (bls c) cs t p mk.pubKey atts e.keyLen random s = .ok (e.shake gb e.keyLen, ek) := by
    unfold generateSymmetricKey
    rw [henc, Res.ok_bind, hek, Res.ok_bind, hgb, Res.ok_bind]
  obtain ⟨k, hk, _⟩ := he.keyDec_size (e.shake gb e.keyLen) (he.shake_length _ _)
  unfold encryptHybridHeader
  rw [hgen, Res.ok_bind]
  dsimp only
  rw [hk, Res.ok_bind, u32Len_ok hekl, Res.ok_bind]
  cases md with
  | none => exact ⟨_, rfl⟩
  | some m =>
    obtain ⟨mb, h1, h2, h3⟩ := hmeta m rfl
    obtain ⟨em, h4⟩ := h3 k
    simp only
    rw [h1, Res.ok_bind, h4, Res.ok_bind, u32Len_ok (by rw [he.encrypt_length _ _ _ _ _ h4]; exact h2), Res.ok_bind]
    exact ⟨_, rfl⟩

/-! ### C36 -/

/-- **C36.** Layout of an encrypted header. -/
theorem C36_layout (c : Curve K P Q QP T) (hcs : cs.Lawful) (he : e.Lawful tag) (hw : p.WF)
    (hmk : engineGenerateMasterKey (bls c) p rnd y = .ok mk)
    (henc : encryptHybridHeader e (bls c) cs t p mk.pubKey atts md random s nonce = .ok h) :
    ∃ head ek, Announces head ek ∧ ek.length = (if atts = [] then 288 else 296 + 52 * atts.length) ∧
      (md = none → h.encryptedHeaderBytes = head ++ ek) ∧
      ∀ m ∈ md, ∃ mb head' em, e.metaEnc m = .ok mb ∧ Announces head' em ∧ em.length = mb.length + tag ∧
        e.encrypt h.symmetricKey mb nonce none = .ok em ∧
        h.encryptedHeaderBytes = head ++ ek ++ e.nonceEnc nonce ++ head' ++ em := by
  obtain ⟨kb, ek, hg, hk, hl, hcase⟩ := encryptHybridHeader_inv henc
  obtain ⟨enc, gb, h1, h2, _, _⟩ := generateSymmetricKey_inv hg
  obtain ⟨g1, g2⟩ := capsule (t' := .release64) c hcs hw hmk h1 h2
  refine ⟨be32 ek.length.toUInt32, ek, announces_be32 hl, ?_, ?_, ?_⟩
  · split
    · exact g2 (by assumption)
    · have := (g1 (by assumption)).2
      rw [this]
      simp only [ciphertextLen]
      omega
  · intro hn
    rcases hcase with ⟨_, hb⟩ | ⟨m, mb, em, rfl, _⟩
    · exact hb
    · simp at hn
  · intro m hm
    rcases hcase with ⟨rfl, hb⟩ | ⟨m', mb, em, rfl, hm', hem, hel, hb⟩
    · simp at hm
    · simp only [Option.mem_def, Option.some.injEq] at hm
      subst hm
      exact ⟨mb, _, em, hm', announces_be32 hel, he.encrypt_length _ _ _ _ _ hem, hem, by rw [hb]; simp [List.append_assoc]⟩

/-- **C36**, total length for at least one attribute. -/
theorem C36_length (c : Curve K P Q QP T) (hcs : cs.Lawful) (he : e.Lawful tag) (hw : p.WF)
    (hmk : engineGenerateMasterKey (bls c) p rnd y = .ok mk) (h0 : atts ≠ [])
    (henc : encryptHybridHeader e (bls c) cs t p mk.pubKey atts md random s nonce = .ok h) :
    (md = none → h.encryptedHeaderBytes.length = 300 + 52 * atts.length) ∧
    ∀ m ∈ md, ∀ mb, e.metaEnc m = .ok mb →
      h.encryptedHeaderBytes.length = 300 + 52 * atts.length + e.nonceLen + 4 + mb.length + tag := by
  obtain ⟨head, ek, h1, h2, h3, h4⟩ := C36_layout c hcs he hw hmk henc
  rw [if_neg h0] at h2
  constructor
  · intro hn
    rw [h3 hn, List.length_append, h1.1, h2]; omega
  · intro m hm mb hmb
    obtain ⟨mb', head', em, g1, g2, g3, _, g4⟩ := h4 m hm
    obtain rfl : mb = mb' := by rw [hmb] at g1; simpa using g1
    rw [g4]
    simp only [List.length_append]
    rw [h1.1, h2, he.nonceEnc_length, g2.1, g3]; omega

end Header

/-- The key for `Lvl::High && (Dpt::HR || Dpt::MKG)` opens the header for `[low, hr]`, of 446 bytes, and its metadata. -/
example : ∃ key h, UserKey Demo.curveF Demo.policy Demo.mkF Demo.ap key ∧
    encryptHybridHeader Demo.symmetric (bls Demo.curveF) Demo.codecs .debug64 Demo.policy Demo.mkF.pubKey [Demo.low, Demo.hr]
      (some Demo.metadata) 5 7 Demo.nonce = .ok h ∧ h.encryptedHeaderBytes.length = 446 ∧
    decryptHybridHeader Demo.symmetric (bls Demo.curveF) Demo.codecs .release64 key h.encryptedHeaderBytes =
      .ok ⟨h.symmetricKey, Demo.metadata⟩ := by
  obtain ⟨key, hkey⟩ := Demo.keyF_exists
  obtain ⟨h, hh⟩ := Demo.header_exists
  have hw := reachable_wf Demo.policy_reachable
  refine ⟨key, h, .generate _ hkey, hh, ?_, ?_⟩
  · rw [(C36_length Demo.curveF Demo.codecs_lawful Demo.symmetric_lawful hw Demo.mkF_eq (by simp) hh).2 _ rfl
      [0, 0, 0, 4, 1, 2, 3, 4, 9, 8] (by decide)]
    rfl
  · exact C35_header_round_trip Demo.curveF (by decide) Demo.codecs_lawful Demo.symmetric_lawful hw Demo.mkF_eq
      (.generate _ hkey) (by rintro m ⟨⟩; exact Demo.metadata_kept) hh Demo.ap_sat

/-! ### C37 -/

theorem append_slice {a b r : Bytes} (h : a.length = 4) : (slice (a ++ b ++ r) 4 (4 + b.length) : Out Bytes) = .ok b := by
  rw [slice_ok ⟨by omega, by simp [h]⟩, List.take_left' (by simp [h]), List.drop_left' h]

theorem append_sliceFrom {a b r : Bytes} (h : a.length = 4) : (sliceFrom (a ++ b ++ r) (4 + b.length) : Out Bytes) = .ok r := by
  rw [sliceFrom_ok (by simp [h]), List.drop_left' (by simp [h])]

theorem split_header {t : Target} {k r : Bytes} (hk : k.length < 2 ^ 32) (ht : 4 + k.length < 2 ^ t.bits) {α : Type}
    (f : Bytes → Bytes → Out α) :
    (if (be32 k.length.toUInt32 ++ k ++ r).length < 4 then
      .err (.invalidHeaderSize (be32 k.length.toUInt32 ++ k ++ r).length) else do
      let b ← slice (be32 k.length.toUInt32 ++ k ++ r) 0 4
      let stop ← t.uadd 4 (ofBe32 b).toNat
      let kb ← slice (be32 k.length.toUInt32 ++ k ++ r) 4 stop
      let rest ← sliceFrom (be32 k.length.toUInt32 ++ k ++ r) stop
      f kb rest : Out α) = f k r := by
  rw [if_neg (by simp [be32_length]), slice_zero (by simp [be32_length]), Res.ok_bind,
    ofBe32_take (by simp [be32_length]), List.append_assoc, ofBe32_be32, ← List.append_assoc, toNat_toUInt32 hk,
    uadd_ok ht, Res.ok_bind, append_slice (be32_length _), Res.ok_bind, append_sliceFrom (be32_length _), Res.ok_bind]

/-- **C37**, round trip of the encrypted header structure, on every target able to address the key. -/
theorem C37_encrypted_header (he : e.Lawful tag) (ht : 4 + e.keyLen < 2 ^ t.bits) (h : EncryptedHeader Key) :
    ∃ b, h.tryIntoBytes e = .ok b ∧ EncryptedHeader.tryFromBytes e t b = .ok h := by
  refine ⟨_, rfl, ?_⟩
  have hl := he.keyEnc_length h.symmetricKey
  have := split_header (t := t) (k := e.keyEnc h.symmetricKey) (r := h.encryptedHeaderBytes) (by rw [hl]; exact he.keyLen_lt)
    (by rw [hl]; exact ht) (fun kb rest => do
      let key ← e.keyDec kb
      .ok (⟨key, rest⟩ : EncryptedHeader Key))
  rw [hl, he.keyDec_keyEnc] at this
  exact this

/-- **C37**, round trip of the clear-text header structure. -/
theorem C37_clear_header (he : e.Lawful tag) (ht : 4 + e.keyLen < 2 ^ t.bits) (h : ClearTextHeader Key) (hm : e.Keeps h.metaData) :
    ∃ b, h.tryIntoBytes e = .ok b ∧ ClearTextHeader.tryFromBytes e t b = .ok h := by
  obtain ⟨mb, h1, h2⟩ := hm
  refine ⟨_, by unfold ClearTextHeader.tryIntoBytes; rw [h1]; rfl, ?_⟩
  have hl := he.keyEnc_length h.symmetricKey
  have := split_header (t := t) (k := e.keyEnc h.symmetricKey) (r := mb) (by rw [hl]; exact he.keyLen_lt)
    (by rw [hl]; exact ht) (fun kb rest => do
      let key ← e.keyDec kb
      let m ← e.metaDec rest
      .ok (⟨key, m⟩ : ClearTextHeader Key))
  rw [hl, he.keyDec_keyEnc, Res.ok_bind, h2] at this
  exact this

theorem split_panic {t : Target} (ht : 32 ≤ t.bits) {header : Bytes} (hB : header.length < 2 ^ t.bits) {α : Type}
    {f : Bytes → Bytes → Out α} (hf : ∀ a b, f a b ≠ .panic) :
    (if header.length < 4 then .err (.invalidHeaderSize header.length) else do
      let b ← slice header 0 4
      let stop ← t.uadd 4 (ofBe32 b).toNat
      let kb ← slice header 4 stop
      let rest ← sliceFrom header stop
      f kb rest : Out α) = .panic ↔ 4 ≤ header.length ∧ header.length < 4 + bigEndian (header.take 4) := by
  by_cases h4 : header.length < 4
  · rw [if_pos h4]
    constructor
    · intro h; simp at h
    · rintro ⟨h, _⟩; omega
  rw [if_neg h4, slice_zero (by omega), Res.ok_bind, bigEndian_eq (by simp; omega)]
  generalize hn : (ofBe32 (header.take 4)).toNat = n
  have hlt : n < 2 ^ 32 := by rw [← hn]; exact UInt32.toNat_lt _
  have hmod : 2 ^ 32 ≤ t.modulus := Nat.pow_le_pow_right (by decide) ht
  have hB' : header.length < t.modulus := hB
  by_cases hfit : 4 + n < t.modulus
  · rw [uadd_ok hfit, Res.ok_bind]
    by_cases hlen : 4 + n ≤ header.length
    · rw [slice_ok ⟨by omega, hlen⟩, Res.ok_bind, sliceFrom_ok hlen, Res.ok_bind]
      constructor
      · intro h; exact absurd h (hf _ _)
      · rintro ⟨_, h⟩; omega
    · have : (slice header 4 (4 + n) : Out Bytes) = .panic := by unfold slice; rw [if_neg (by omega)]
      rw [this]
      simp only [Res.panic_bind, true_iff]
      omega
  · have : 4 ≤ header.length ∧ header.length < 4 + n := by omega
    refine ⟨fun _ => this, fun _ => ?_⟩
    unfold Target.uadd
    rw [if_neg hfit]
    split
    · rfl
    · rw [Res.ok_bind]
      have hm : (4 + n) % t.modulus < 4 := by
        rw [Nat.mod_eq_sub_mod (by omega), Nat.mod_eq_of_lt (by omega)]; omega
      have : (slice header 4 ((4 + n) % t.modulus) : Out Bytes) = .panic := by unfold slice; rw [if_neg (by omega)]
      rw [this]
      rfl

/-- **C37**, panics: decoding either structure panics exactly when at least 4 bytes are given, but fewer than announced. -/
theorem C37_panic (he : e.Lawful tag) (ht : 32 ≤ t.bits) {b : Bytes} (hB : b.length < 2 ^ t.bits) :
    (EncryptedHeader.tryFromBytes e t b = .panic ↔ 4 ≤ b.length ∧ b.length < 4 + bigEndian (b.take 4)) ∧
    (ClearTextHeader.tryFromBytes e t b = .panic ↔ 4 ≤ b.length ∧ b.length < 4 + bigEndian (b.take 4)) := by
  have hkey : ∀ kb, e.keyDec kb ≠ .panic := by
    intro kb h
    by_cases hl : kb.length = e.keyLen
    · obtain ⟨k, hk, _⟩ := he.keyDec_size kb hl
      rw [hk] at h; simp at h
    · obtain ⟨x, hx⟩ := he.keyDec_other kb hl
      rw [hx] at h; simp at h
  constructor
  · refine split_panic ht hB (f := fun kb rest => (do
      let key ← e.keyDec kb
      .ok ⟨key, rest⟩ : Out (EncryptedHeader Key))) ?_
    intro a r h
    rcases Res.bind_eq_panic.1 h with h | ⟨_, _, h⟩
    · exact hkey _ h
    · simp at h
  · refine split_panic ht hB (f := fun kb rest => (do
      let key ← e.keyDec kb
      let m ← e.metaDec rest
      .ok ⟨key, m⟩ : Out (ClearTextHeader Key))) ?_
    intro a r h
    rcases Res.bind_eq_panic.1 h with h | ⟨_, _, h⟩
    · exact hkey _ h
    · rcases Res.bind_eq_panic.1 h with h | ⟨_, _, h⟩
      · exact he.metaDec_total _ h
      · simp at h

/-- **C37**, refutation: four bytes make both decoders panic. -/
theorem C37_short_refuted (he : e.Lawful tag) (ht : 32 ≤ t.bits) :
    EncryptedHeader.tryFromBytes e t [0, 0, 0, 32] = .panic ∧ ClearTextHeader.tryFromBytes e t [0, 0, 0, 32] = .panic := by
  have hB : ([0, 0, 0, 32] : Bytes).length < 2 ^ t.bits :=
    lt_of_lt_of_le (by decide : 4 < 2 ^ 32) (Nat.pow_le_pow_right (by decide) ht)
  obtain ⟨h1, h2⟩ := C37_panic (e := e) he ht hB
  exact ⟨h1.2 (by decide), h2.2 (by decide)⟩

example : ∃ b, (⟨⟨List.replicate 32 7, rfl⟩, [1, 2, 3]⟩ : EncryptedHeader Demo.SymKey).tryIntoBytes Demo.symmetric = .ok b ∧
    EncryptedHeader.tryFromBytes Demo.symmetric .release32 b = .ok ⟨⟨List.replicate 32 7, rfl⟩, [1, 2, 3]⟩ :=
  C37_encrypted_header Demo.symmetric_lawful (by decide) _

example : ∃ b, (⟨⟨List.replicate 32 7, rfl⟩, Demo.metadata⟩ : ClearTextHeader Demo.SymKey).tryIntoBytes Demo.symmetric = .ok b ∧
    ClearTextHeader.tryFromBytes Demo.symmetric .debug32 b = .ok ⟨⟨List.replicate 32 7, rfl⟩, Demo.metadata⟩ :=
  C37_clear_header Demo.symmetric_lawful (by decide) _ Demo.metadata_kept

/-! ### C38 -/

/-- **C38.** Block encryption fails exactly on empty or oversized clear texts, otherwise block decryption returns the clear text and
the size grows by the announced overhead. -/
theorem C38_blocks (he : e.Lawful tag) {max : Nat} (hmax : max ≤ 2 ^ 32) (k : Key) {uid : Bytes} (hu : uid.length ≤ 2 ^ 32) (i : Nat) (plain : Bytes)
    (n : Nonce) :
    (encryptHybridBlock e max k uid i plain n = .err .emptyPlaintext ↔ plain = []) ∧
    (encryptHybridBlock e max k uid i plain n = .err (.invalidSize
      ("The data to encrypt is too large: " ++ toString plain.length ++ " bytes, max size: " ++ toString max ++ " ")) ↔ max < plain.length) ∧
    (plain ≠ [] → plain.length ≤ max → ∃ c, encryptHybridBlock e max k uid i plain n = .ok c ∧
      decryptHybridBlock e max k uid i c = .ok plain ∧ c.length = plain.length + symmetricEncryptionOverhead e) := by
  by_cases h0 : plain = []
  · subst h0
    have : encryptHybridBlock e max k uid i [] n = .err .emptyPlaintext := rfl
    rw [this]
    simp
  by_cases hl : plain.length ≤ max
  · obtain ⟨c, h1⟩ := he.block_total max k uid i plain n h0 hl (hl.trans hmax) hu
    obtain ⟨h2, h3⟩ := he.block max k uid i plain n c h0 hl h1
    have hpos : 0 < plain.length := List.length_pos_iff.2 h0
    have henc : encryptHybridBlock e max k uid i plain n = .ok c := by
      unfold encryptHybridBlock
      rw [if_neg (by simpa using h0), if_neg (by omega), h1]
    rw [henc]
    refine ⟨by simp [h0], by simp [hl], fun _ _ => ⟨c, rfl, ?_, h2⟩⟩
    unfold decryptHybridBlock
    rw [if_neg (by simp; rintro rfl; simp at h2; omega), if_neg (by omega), h3]
  · have : encryptHybridBlock e max k uid i plain n =
      .err (.invalidSize ("The data to encrypt is too large: " ++ toString plain.length ++ " bytes, max size: " ++ toString max ++ " ")) := by
      unfold encryptHybridBlock
      rw [if_neg (by simpa using h0), if_pos (by omega)]
    rw [this]
    refine ⟨by simp [h0], by simp; omega, fun _ h => absurd h hl⟩

/-- **C38**, whatever the sizes: a block that was encrypted comes from a clear text which is neither empty nor oversized, is decrypted to it, and is longer by
the announced overhead. -/
theorem C38_block_decrypts (he : e.Lawful tag) {max : Nat} {k : Key} {uid : Bytes} {i : Nat} {plain : Bytes} {n : Nonce} {c : Bytes}
    (h : encryptHybridBlock e max k uid i plain n = .ok c) :
    plain ≠ [] ∧ plain.length ≤ max ∧ decryptHybridBlock e max k uid i c = .ok plain ∧ c.length = plain.length + symmetricEncryptionOverhead e := by
  unfold encryptHybridBlock at h
  split at h
  · simp at h
  split at h
  · simp at h
  rename_i h0 hl
  replace h0 : plain ≠ [] := by simpa using h0
  have hpos : 0 < plain.length := List.length_pos_iff.2 h0
  obtain ⟨h2, h3⟩ := he.block max k uid i plain n c h0 (by omega) h
  refine ⟨h0, by omega, ?_, h2⟩
  unfold decryptHybridBlock
  rw [if_neg (by simp; rintro rfl; simp at h2; omega), if_neg (by omega), h3]

/-- **C38**, decryption refuses empty and oversized blocks. -/
theorem C38_block_sizes (max : Nat) (k : Key) (uid : Bytes) (i : Nat) (c : Bytes) :
    (c = [] → decryptHybridBlock e max k uid i c = .err .emptyCiphertext) ∧
    (max + symmetricEncryptionOverhead e < c.length →
      decryptHybridBlock e max k uid i c = .err (.invalidSize ("The encrypted data to decrypt is too large: " ++ toString c.length ++ " bytes, max size: " ++
        toString (max + symmetricEncryptionOverhead e) ++ " "))) := by
  constructor
  · rintro rfl; rfl
  · intro h
    unfold symmetricEncryptionOverhead at h
    unfold decryptHybridBlock
    rw [if_neg (by cases c <;> simp at h ⊢), if_pos h]
    rfl

example : ∃ c, encryptHybridBlock Demo.symmetric (2 ^ 30) ⟨List.replicate 32 7, rfl⟩ [1] 3 [5, 6] Demo.nonce = .ok c ∧
    decryptHybridBlock Demo.symmetric (2 ^ 30) ⟨List.replicate 32 7, rfl⟩ [1] 3 c = .ok [5, 6] ∧ c.length = 2 + 28 :=
  (C38_blocks Demo.symmetric_lawful (by decide) _ (by decide) _ _ _).2.2 (by simp) (by simp)

example : decryptHybridBlock Demo.symmetric 5 ⟨List.replicate 32 7, rfl⟩ [1] 3 (Demo.nonce.val ++ (List.replicate 16 7 ++ [5, 6])) = .ok [5, 6] :=
  (C38_block_decrypts Demo.symmetric_lawful (n := Demo.nonce) (by decide)).2.2.1

/-! ### C39 -/

/-- **C39**, unauthorised keys get no header: an error if there was some attribute. -/
theorem C39_unauthorised (c : Curve K P Q QP T) (ht : 32 ≤ t'.bits) (hcs : cs.Lawful) (hw : p.WF)
    (hmk : engineGenerateMasterKey (bls c) p rnd y = .ok mk) (hkey : UserKey c p mk ap key)
    {md : Option Metadata} {random : T} {s : K} {nonce : Nonce} {h : EncryptedHeader Key}
    (henc : encryptHybridHeader e (bls c) cs t p mk.pubKey atts md random s nonce = .ok h)
    (hsat : ¬ ap.Sat p (· ∈ atts)) :
    (∀ r, decryptHybridHeader e (bls c) cs t' key h.encryptedHeaderBytes ≠ .ok r) ∧
    (atts ≠ [] → (decryptHybridHeader e (bls c) cs t' key h.encryptedHeaderBytes).isErr) := by
  obtain ⟨kb, ek, hg, hk, hl, hcase⟩ := encryptHybridHeader_inv henc
  obtain ⟨r, hb⟩ : ∃ r, h.encryptedHeaderBytes = be32 ek.length.toUInt32 ++ ek ++ r := by
    rcases hcase with ⟨_, hb⟩ | ⟨m, mb, em, _, _, _, _, hb⟩
    · exact ⟨[], by rw [hb, List.append_nil]⟩
    · exact ⟨_, hb⟩
  obtain ⟨h1, h2⟩ := C33_unauthorised (t' := t') c hcs hw hmk hkey hg (fits32 ht hl) hsat e.keyLen
  rw [hb, decryptHybridHeader_frame hl]
  constructor
  · intro x hx
    obtain ⟨k, hk', _⟩ := Res.bind_eq_ok.1 hx
    exact h1 k hk'
  · intro hne
    have := h2 hne
    generalize decryptSymmetricKey e (bls c) cs t' key ek e.keyLen = d at this
    cases d with
    | ok a => simp [Res.isErr] at this
    | panic => simp [Res.isErr] at this
    | err x => simp [Res.isErr]

/-- **C39**, framing: bytes too short for the announced length, or for a length, are refused with an error. -/
theorem C39_framing {G1 : Type} {bm : BilinearMap K G1 P Q T} {key : DecryptionKey K G1 Q} {b : Bytes} :
    (b.length < 4 → decryptHybridHeader e bm cs t key b = .err (.invalidHeaderSize b.length)) ∧
    (4 ≤ b.length → b.length < 4 + bigEndian (b.take 4) → decryptHybridHeader e bm cs t key b = .err .cryptoError) := by
  constructor
  · intro h
    unfold decryptHybridHeader
    rw [if_pos h]
  · intro h4 h
    rw [bigEndian_eq (by simp; omega), ofBe32_take h4] at h
    unfold decryptHybridHeader
    rw [if_neg (by omega)]
    rcases scanU32_cases b with ⟨_, h1⟩ | ⟨h1, _⟩ <;> [skip; omega]
    rw [h1, Res.ok_bind]
    dsimp only
    rcases scanNext_cases (b.drop 4) (ofBe32 b).toNat with ⟨h2, _⟩ | ⟨_, h3⟩
    · rw [List.length_drop] at h2; omega
    · rw [h3]; rfl

/-- **C39**, panics: header decryption panics exactly when the framing of the encapsulation is right and decoding or decrypting
the encapsulated ciphertext panics (see C31). -/
theorem C39_panic {G1 : Type} {bm : BilinearMap K G1 P Q T} {key : DecryptionKey K G1 Q} (hcs : cs.Lawful) (he : e.Lawful tag)
    (b : Bytes) :
    decryptHybridHeader e bm cs t key b = .panic ↔ ∃ head ek r, b = head ++ ek ++ r ∧ Announces head ek ∧
      ((cipherTextCodec t cs).dec ek = .panic ∨
        ∃ enc, (cipherTextCodec t cs).dec ek = .ok enc ∧ engineDecrypt bm enc key = .panic) := by
  rw [decryptHybridHeader_panic hcs he]
  constructor
  · rintro ⟨h4, hl, h⟩
    refine ⟨b.take 4, (b.drop 4).take (ofBe32 b).toNat, (b.drop 4).drop (ofBe32 b).toNat, ?_, ?_, h⟩
    · rw [List.append_assoc, List.take_append_drop, List.take_append_drop]
    · rw [announces_iff (by simp; omega), ofBe32_take h4]
      simpa using (by simpa using hl : (ofBe32 b).toNat ≤ b.length - 4)
  · rintro ⟨head, ek, r, rfl, ha, h⟩
    have h4 := ha.1
    have hb : ofBe32 (head ++ ek ++ r) = ofBe32 head := by
      rw [← ofBe32_take (by simp; omega), List.append_assoc, List.take_left' h4]
    rw [announces_iff h4] at ha
    have hd : (head ++ ek ++ r).drop 4 = ek ++ r := by rw [List.append_assoc, List.drop_left' h4]
    rw [hb, hd, ha, List.take_left]
    exact ⟨by simp; omega, by simp, h⟩

/-- **C39**, refutation: for every user key obtained from the API, a 356-byte header makes header decryption panic. -/
theorem C39_crafted_header (ht : 32 ≤ t.bits) (hcs : cs.Lawful) (he : e.Lawful tag) (c : Curve K P Q QP T)
    (hk : Obtained c key) : ∃ b, b.length = 356 ∧ decryptHybridHeader e (bls c) cs t key b = .panic := by
  obtain ⟨ek, enc, h0, h1, h2⟩ := C31_crafted_ciphertext ht hcs c hk
  refine ⟨be32 ek.length.toUInt32 ++ ek ++ [], by simp [be32_length, h0], ?_⟩
  rw [C39_panic hcs he]
  exact ⟨_, ek, [], rfl, announces_be32 (by rw [h0]; decide), Or.inr ⟨enc, h1, h2⟩⟩

/-- The demo key does not open a header for `[low]` only. -/
example : ∃ key h, UserKey Demo.curveF Demo.policy Demo.mkF Demo.ap key ∧
    encryptHybridHeader Demo.symmetric (bls Demo.curveF) Demo.codecs .debug64 Demo.policy Demo.mkF.pubKey [Demo.low] none 5 7
      Demo.nonce = .ok h ∧
    (decryptHybridHeader Demo.symmetric (bls Demo.curveF) Demo.codecs .release64 key h.encryptedHeaderBytes).isErr := by
  obtain ⟨key, hkey⟩ := Demo.keyF_exists
  obtain ⟨h, hh⟩ := Demo.header_low_exists
  refine ⟨key, h, .generate _ hkey, hh, ?_⟩
  refine (C39_unauthorised Demo.curveF (by decide) Demo.codecs_lawful (reachable_wf Demo.policy_reachable) Demo.mkF_eq
    (.generate _ hkey) hh ?_).2 (by simp)
  rintro ⟨_, ⟨b, ⟨_, _, _, _, _, h1, _⟩, hb⟩ | ⟨b, ⟨_, _, _, _, _, h1, _⟩, hb⟩⟩
  all_goals
    simp only [List.mem_cons, List.not_mem_nil, or_false] at hb
    subst hb
    exact absurd h1 (by decide +kernel)

example : ∃ key b, Obtained Demo.curveF key ∧
    decryptHybridHeader Demo.symmetric (bls Demo.curveF) Demo.codecs .release64 key b = .panic := by
  obtain ⟨key, hkey⟩ := Demo.keyF_exists
  obtain ⟨b, _, hb⟩ := C39_crafted_header (t := .release64) (by decide) Demo.codecs_lawful Demo.symmetric_lawful Demo.curveF
    (.generate _ _ _ _ hkey)
  exact ⟨key, b, .generate _ _ _ _ hkey, hb⟩

/-! ### C54, C55 -/

/-- **C54.** A header cut anywhere is refused with an error, except between the encapsulated key and the metadata: then the key
is returned with the default metadata, as if none had been given. -/
theorem C54_truncated_header (c : Curve K P Q QP T) (ht : 32 ≤ t'.bits) (hcs : cs.Lawful) (he : e.Lawful tag) (hw : p.WF)
    (hmk : engineGenerateMasterKey (bls c) p rnd y = .ok mk) (hkey : UserKey c p mk ap key)
    {md : Option Metadata} {random : T} {s : K} {nonce : Nonce} {h : EncryptedHeader Key}
    (henc : encryptHybridHeader e (bls c) cs t p mk.pubKey atts md random s nonce = .ok h) (hsat : ap.Sat p (· ∈ atts))
    {k : Nat} (hk : k < h.encryptedHeaderBytes.length) :
    (k ≠ 300 + 52 * atts.length → (decryptHybridHeader e (bls c) cs t' key (h.encryptedHeaderBytes.take k)).isErr) ∧
    (k = 300 + 52 * atts.length → decryptHybridHeader e (bls c) cs t' key (h.encryptedHeaderBytes.take k) =
      .ok ⟨h.symmetricKey, ⟨[], none⟩⟩) := by
  obtain ⟨kb, ek, hg, hsk, hl, hcase⟩ := encryptHybridHeader_inv henc
  obtain ⟨hd, _⟩ := C33_authorised (t' := t') c hcs he hw hmk hkey hg (fits32 ht hl) hsat
  have hekl : ek.length = 296 + 52 * atts.length := by
    obtain ⟨enc, gb, h1, h2, _, _⟩ := generateSymmetricKey_inv hg
    rw [((capsule (t' := .release64) c hcs hw hmk h1 h2).1 (authorised_nonempty c hw hmk hkey h1 hsat)).2]
    simp only [ciphertextLen]
    omega
  obtain ⟨r, hb, hr⟩ : ∃ r, h.encryptedHeaderBytes = be32 ek.length.toUInt32 ++ ek ++ r ∧
      (r = [] ∨ ∃ em, em.length < 2 ^ 32 ∧ r = e.nonceEnc nonce ++ (be32 em.length.toUInt32 ++ em)) := by
    rcases hcase with ⟨_, hb⟩ | ⟨m, mb, em, _, _, _, h1, hb⟩
    · exact ⟨[], by rw [hb, List.append_nil], Or.inl rfl⟩
    · exact ⟨_, hb, Or.inr ⟨em, h1, rfl⟩⟩
  rw [hb] at hk ⊢
  simp only [List.length_append, be32_length] at hk
  by_cases h1 : k < 300 + 52 * atts.length
  · refine ⟨fun _ => ?_, fun h => by omega⟩
    have htk : ((be32 ek.length.toUInt32 ++ ek ++ r).take k).length = k := by
      rw [List.length_take]; simp [be32_length]; omega
    by_cases h4 : k < 4
    · rw [C39_framing.1 (by rw [htk]; exact h4)]; trivial
    · rw [C39_framing.2 (by rw [htk]; omega)]
      · trivial
      · rw [htk, List.take_take, Nat.min_eq_left (by omega), List.append_assoc, List.take_left' (be32_length _),
          bigEndian_be32, toNat_toUInt32 hl]
        omega
  · have htk : (be32 ek.length.toUInt32 ++ ek ++ r).take k = be32 ek.length.toUInt32 ++ ek ++ r.take (k - (4 + ek.length)) := by
      rw [List.take_append]
      simp only [List.length_append, be32_length]
      rw [List.take_of_length_le (by simp [be32_length]; omega)]
    rw [htk, decryptHybridHeader_frame hl, hd, Res.ok_bind, hsk, Res.ok_bind]
    constructor
    · intro hne
      rcases hr with rfl | ⟨em, hem, rfl⟩
      · simp at hk; omega
      have hnl := he.nonceEnc_length nonce
      simp only [List.length_append, be32_length] at hk
      obtain ⟨j, hj⟩ : ∃ j, k - (4 + ek.length) = j + 1 := ⟨k - (4 + ek.length) - 1, by omega⟩
      rw [hj]
      have hjl : (List.take (j + 1) (e.nonceEnc nonce ++ (be32 em.length.toUInt32 ++ em))).length = j + 1 := by
        rw [List.length_take]; simp [be32_length]; omega
      rw [if_neg (by rw [List.isEmpty_iff]; intro h0; rw [h0] at hjl; simp at hjl)]
      by_cases hn : j + 1 < e.nonceLen
      · rcases scanNext_cases (List.take (j + 1) (e.nonceEnc nonce ++ (be32 em.length.toUInt32 ++ em))) e.nonceLen with ⟨h2, _⟩ | ⟨_, h2⟩
        · omega
        · rw [h2]; trivial
      rw [List.take_append, List.take_of_length_le (by omega), scanNext_append' hnl, Res.ok_bind]
      dsimp only
      rw [he.nonceDec_nonceEnc, Res.ok_bind, hnl]
      by_cases h4 : j + 1 - e.nonceLen < 4
      · rcases scanU32_cases (List.take (j + 1 - e.nonceLen) (be32 em.length.toUInt32 ++ em)) with ⟨h2, _⟩ | ⟨_, h2⟩
        · rw [List.length_take] at h2; omega
        · rw [h2]; trivial
      rw [List.take_append, List.take_of_length_le (by rw [be32_length]; omega), scanU32_append, Res.ok_bind]
      dsimp only
      rcases scanNext_cases (List.take (j + 1 - e.nonceLen - (be32 em.length.toUInt32).length) em) em.length.toUInt32.toNat with
        ⟨h2, _⟩ | ⟨_, h2⟩
      · rw [toNat_toUInt32 hem, List.length_take, be32_length] at h2; omega
      · rw [h2]; trivial
    · intro heq
      rw [show k - (4 + ek.length) = 0 by omega, List.take_zero]
      rfl

/-- **C55.** Whatever follows a header with metadata is ignored. -/
theorem C55_trailing_bytes (c : Curve K P Q QP T) (ht : 32 ≤ t'.bits) (hcs : cs.Lawful) (he : e.Lawful tag) (hw : p.WF)
    (hmk : engineGenerateMasterKey (bls c) p rnd y = .ok mk) (hkey : UserKey c p mk ap key)
    {m : Metadata} (hmeta : e.Keeps m) {random : T} {s : K} {nonce : Nonce} {h : EncryptedHeader Key}
    (henc : encryptHybridHeader e (bls c) cs t p mk.pubKey atts (some m) random s nonce = .ok h) (hsat : ap.Sat p (· ∈ atts))
    (r : Bytes) :
    decryptHybridHeader e (bls c) cs t' key (h.encryptedHeaderBytes ++ r) = .ok ⟨h.symmetricKey, m⟩ := by
  obtain ⟨kb, ek, hg, hk, hl, hcase⟩ := encryptHybridHeader_inv henc
  obtain ⟨hd, _⟩ := C33_authorised (t' := t') c hcs he hw hmk hkey hg (fits32 ht hl) hsat
  rcases hcase with ⟨h0, _⟩ | ⟨m', mb, em, hmm, hm, hem, hel, hb⟩
  · simp at h0
  · simp only [Option.some.injEq] at hmm
    subst hmm
    rw [hb, List.append_assoc, decryptHybridHeader_frame hl, hd, Res.ok_bind, hk, Res.ok_bind, if_neg (by simp [be32]),
      List.append_assoc, scanNext_append' (he.nonceEnc_length nonce), Res.ok_bind]
    dsimp only
    rw [he.nonceDec_nonceEnc, Res.ok_bind, List.append_assoc, scanU32_append, Res.ok_bind]
    dsimp only
    rw [scanNext_append' (toNat_toUInt32 hel).symm, Res.ok_bind]
    dsimp only
    rw [he.decrypt_encrypt _ _ _ _ _ hem, Res.ok_bind]
    obtain ⟨mb', g1, g2⟩ := hmeta
    obtain rfl : mb = mb' := by rw [hm] at g1; simpa using g1
    rw [g2]
    rfl

/-- Cutting the 446-byte header of the example at 404 bytes loses the metadata silently; appending is not noticed. -/
example : ∃ key h, encryptHybridHeader Demo.symmetric (bls Demo.curveF) Demo.codecs .debug64 Demo.policy Demo.mkF.pubKey
      [Demo.low, Demo.hr] (some Demo.metadata) 5 7 Demo.nonce = .ok h ∧
    decryptHybridHeader Demo.symmetric (bls Demo.curveF) Demo.codecs .release64 key (h.encryptedHeaderBytes.take 404) =
      .ok ⟨h.symmetricKey, ⟨[], none⟩⟩ ∧
    (decryptHybridHeader Demo.symmetric (bls Demo.curveF) Demo.codecs .release64 key (h.encryptedHeaderBytes.take 410)).isErr ∧
    decryptHybridHeader Demo.symmetric (bls Demo.curveF) Demo.codecs .release64 key (h.encryptedHeaderBytes ++ [1, 2, 3]) =
      .ok ⟨h.symmetricKey, Demo.metadata⟩ := by
  obtain ⟨key, hkey⟩ := Demo.keyF_exists
  obtain ⟨h, hh⟩ := Demo.header_exists
  have hw := reachable_wf Demo.policy_reachable
  have hl := (C36_length Demo.curveF Demo.codecs_lawful Demo.symmetric_lawful hw Demo.mkF_eq (by simp) hh).2 _ rfl
      [0, 0, 0, 4, 1, 2, 3, 4, 9, 8] (by decide)
  simp [Demo.symmetric] at hl
  refine ⟨key, h, hh, ?_, ?_, ?_⟩
  · exact (C54_truncated_header Demo.curveF (by decide) Demo.codecs_lawful Demo.symmetric_lawful hw Demo.mkF_eq
      (.generate _ hkey) hh Demo.ap_sat (by omega)).2 rfl
  · exact (C54_truncated_header Demo.curveF (by decide) Demo.codecs_lawful Demo.symmetric_lawful hw Demo.mkF_eq
      (.generate _ hkey) hh Demo.ap_sat (by omega)).1 (by simp)
  · exact C55_trailing_bytes Demo.curveF (by decide) Demo.codecs_lawful Demo.symmetric_lawful hw Demo.mkF_eq
      (.generate _ hkey) Demo.metadata_kept hh Demo.ap_sat _

/-- The hypotheses of `C33_authorised`, `C33_unauthorised` and `C35_header_encrypts` are met by the demo data. -/
example : ∃ key sk ek, UserKey Demo.curveF Demo.policy Demo.mkF Demo.ap key ∧
    generateSymmetricKey Demo.symmetric (bls Demo.curveF) Demo.codecs .debug64 Demo.policy Demo.mkF.pubKey [Demo.low, Demo.hr]
      32 5 7 = .ok (sk, ek) ∧
    decryptSymmetricKey Demo.symmetric (bls Demo.curveF) Demo.codecs .release64 key ek 32 = .ok sk ∧ sk.length = 32 := by
  obtain ⟨key, hkey⟩ := Demo.keyF_exists
  obtain ⟨⟨sk, ek⟩, hr⟩ := Demo.capsule_exists
  have hl : ek.length < 2 ^ 64 := by
    obtain ⟨enc, gb, h1, h2, _, _⟩ := generateSymmetricKey_inv hr
    have := ((capsule (t' := .release64) Demo.curveF Demo.codecs_lawful (reachable_wf Demo.policy_reachable) Demo.mkF_eq h1 h2).1
      (by simp)).2
    rw [this]
    decide
  exact ⟨key, sk, ek, .generate _ hkey, hr, C33_authorised Demo.curveF Demo.codecs_lawful Demo.symmetric_lawful
    (reachable_wf Demo.policy_reachable) Demo.mkF_eq (.generate _ hkey) hr hl Demo.ap_sat⟩

example : ∃ h, encryptHybridHeader Demo.symmetric (bls Demo.curveF) Demo.codecs .debug64 Demo.policy Demo.mkF.pubKey
    [Demo.low, Demo.hr] (some Demo.metadata) 5 7 Demo.nonce = .ok h := by
  obtain ⟨enc, henc⟩ := Demo.encF_exists
  exact C35_header_encrypts Demo.curveF Demo.codecs_lawful Demo.symmetric_lawful (reachable_wf Demo.policy_reachable) Demo.mkF_eq
    henc (by decide) (by rintro m ⟨⟩; exact ⟨_, rfl, by decide, fun k => ⟨_, rfl⟩⟩)

end Abe
