import Verif.Props.History
import Verif.Props.Py
import Verif.Proofs.PolicyDecide

/-!
# Hybrid messages over the life of a policy

Property C100: which keys open the header of a message, and the whole message, when attributes are rotated and axes added between the making of the key and
the encryption.
-/

namespace Abe

set_option linter.unusedSectionVars false

variable {K P Q QP T Key Nonce : Type} [Field K] [DecidableEq K] [AddCommGroup P] [Module K P] [AddCommGroup Q] [Module K Q]
  [AddCommGroup T] [Module K T]
variable {e : External Key Nonce} {cs : Codecs K P Q T} {t t' : Target} {tag : Nat}
variable {p q : Policy} {size : Nat} {rnd : Nat → K} {y : K} {mk : MasterKey K P Q T} {ap : AccessPolicy} {key : DecryptionKey K QP Q}
  {atts : List Attribute}

/-- The bytes of an encapsulation, for a master key of any size. -/
theorem capsule_sized (c : Curve K P Q QP T) (hcs : cs.Lawful) (hw : p.WF) (hsize : size < 2 ^ 32)
    (hmk : generateMasterKey (bls c) size rnd y = .ok mk) {random : T} {s : K} {enc : CipherText P T}
    (henc : engineEncrypt (bls c) t p mk.pubKey atts random s = .ok enc) {ek : Bytes}
    (hek : (cipherTextCodec t cs).enc enc = .ok ek) :
    (atts ≠ [] → (ek.length < t'.modulus → (cipherTextCodec t' cs).dec ek = .ok enc) ∧ ek.length = ciphertextLen atts.length) ∧
    (atts = [] → ek.length = 288) := by
  obtain ⟨tI, hlen, hnz, rfl⟩ := generateMasterKey_inv c hmk
  obtain ⟨vs, hv, _, _, hl, hlt, _, rfl⟩ := engineEncrypt_inv c hw henc
  have henc' : encrypt (bls c) t random vs (pubOf c tI y) s = .ok (ctOf c tI y s random vs) := by
    unfold engineEncrypt at henc
    rw [hv, Res.ok_bind] at henc
    exact henc
  have hmax : tI.length < 2 ^ 32 := by rw [hlen]; exact hsize
  constructor
  · intro hne
    have hvs : vs ≠ [] := by
      rintro rfl
      exact hne (List.length_eq_zero_iff.1 hl.symm)
    obtain ⟨b, h1, _, h3⟩ := C26_ciphertext_round_trip (t := t') hcs (bls c) henc' hvs (by omega)
    obtain ⟨b', g1, g2, _⟩ := C30_ciphertext_len (t := t') hcs (bls c) henc' hvs (by omega)
    rw [cipherText_enc_target (t' := t')] at hek
    obtain rfl : ek = b := by rw [hek] at h1; simpa using h1
    obtain rfl : ek = b' := by rw [hek] at g1; simpa using g1
    rw [hl] at g2
    exact ⟨fun hB => by simpa using h3 [] (by simpa using hB), g2⟩
  · rintro rfl
    have hvs : vs = [] := List.length_eq_zero_iff.1 (by simpa using hl)
    subst hvs
    obtain ⟨b, h1, h2⟩ := hcs.gt.enc (random + (s * y) • c.genT)
    simp [cipherTextCodec, ctOf, vecEnc, h1] at hek
    rw [← hek, h2]

/-- What the decryption of the header of a message does is what the decryption of the ciphertext in it does. -/
theorem header_follows (c : Curve K P Q QP T) (ht : 32 ≤ t'.bits) (hcs : cs.Lawful) (he : e.Lawful tag) (hw : p.WF) (hsize : size < 2 ^ 32)
    (hmk : generateMasterKey (bls c) size rnd y = .ok mk) {md : Option Metadata} (hmeta : ∀ m ∈ md, e.Keeps m) {random : T} {s : K} {nonce : Nonce}
    {h : EncryptedHeader Key} (henc : encryptHybridHeader e (bls c) cs t p mk.pubKey atts md random s nonce = .ok h) (hne : atts ≠ [])
    (key : DecryptionKey K QP Q) :
    ∃ enc, engineEncrypt (bls c) t p mk.pubKey atts random s = .ok enc ∧
      (engineDecrypt (bls c) enc key = .ok (some random) →
        decryptHybridHeader e (bls c) cs t' key h.encryptedHeaderBytes = .ok ⟨h.symmetricKey, md.getD ⟨[], none⟩⟩) ∧
      (engineDecrypt (bls c) enc key = .ok none →
        decryptHybridHeader e (bls c) cs t' key h.encryptedHeaderBytes = .err .invalidEncryptedData) ∧
      (∀ x, engineDecrypt (bls c) enc key = .err x → decryptHybridHeader e (bls c) cs t' key h.encryptedHeaderBytes = .err x) := by
  obtain ⟨kb, ek, hg, hk, hl, hcase⟩ := encryptHybridHeader_inv henc
  obtain ⟨enc, gb, h1, h2, h3, h4⟩ := generateSymmetricKey_inv hg
  have hdec := ((capsule_sized (t' := t') c hcs hw hsize hmk h1 h2).1 hne).1 (fits32 ht hl)
  obtain ⟨r, hb⟩ : ∃ r, h.encryptedHeaderBytes = be32 ek.length.toUInt32 ++ ek ++ r := by
    rcases hcase with ⟨_, hb⟩ | ⟨m, mb, em, _, _, _, _, hb⟩
    · exact ⟨[], by rw [hb, List.append_nil]⟩
    · exact ⟨_, hb⟩
  refine ⟨enc, h1, fun ho => ?_, fun ho => ?_, fun x ho => ?_⟩
  · have hd : decryptSymmetricKey e (bls c) cs t' key ek e.keyLen = .ok kb := by
      dsimp only at h4
      rw [decryptSymmetricKey_of hdec, ho, Res.ok_bind]
      simp only [Res.ofOption, Res.ok_bind, h3, h4]
    rcases hcase with ⟨rfl, hb⟩ | ⟨m, mb, em, rfl, hm, hem, hel, hb⟩
    · have := decryptHybridHeader_frame (e := e) (bm := bls c) (cs := cs) (t := t') (key := key) (r := []) hl
      rw [List.append_nil] at this
      rw [hb, this, hd, Res.ok_bind, hk, Res.ok_bind]
      rfl
    · rw [hb, decryptHybridHeader_frame hl, hd, Res.ok_bind, hk, Res.ok_bind, if_neg (by simp [be32]),
        scanNext_append' (he.nonceEnc_length nonce), Res.ok_bind]
      dsimp only
      rw [he.nonceDec_nonceEnc, Res.ok_bind, scanU32_append, Res.ok_bind]
      dsimp only
      have h1 := scanNext_append' (a := em) (r := []) (toNat_toUInt32 hel).symm
      rw [List.append_nil] at h1
      rw [h1, Res.ok_bind]
      dsimp only
      rw [he.decrypt_encrypt _ _ _ _ _ hem, Res.ok_bind]
      obtain ⟨mb', g1, g2⟩ := hmeta m rfl
      obtain rfl : mb = mb' := by rw [hm] at g1; simpa using g1
      rw [g2]
      rfl
  · rw [hb, decryptHybridHeader_frame hl, decryptSymmetricKey_of hdec, ho]
    rfl
  · rw [hb, decryptHybridHeader_frame hl, decryptSymmetricKey_of hdec, ho]
    rfl

/-- Without attribute, no header is opened. -/
theorem header_no_attribute (c : Curve K P Q QP T) (hcs : cs.Lawful) (hw : p.WF) (hsize : size < 2 ^ 32)
    (hmk : generateMasterKey (bls c) size rnd y = .ok mk) {md : Option Metadata} {random : T} {s : K} {nonce : Nonce}
    {h : EncryptedHeader Key} (henc : encryptHybridHeader e (bls c) cs t p mk.pubKey [] md random s nonce = .ok h)
    (key : DecryptionKey K QP Q) (r : ClearTextHeader Key) : decryptHybridHeader e (bls c) cs t' key h.encryptedHeaderBytes ≠ .ok r := by
  obtain ⟨kb, ek, hg, hk, hl, hcase⟩ := encryptHybridHeader_inv henc
  obtain ⟨enc, gb, h1, h2, h3, h4⟩ := generateSymmetricKey_inv hg
  have h288 := (capsule_sized (t' := t') c hcs hw hsize hmk h1 h2).2 rfl
  obtain ⟨r', hb⟩ : ∃ r, h.encryptedHeaderBytes = be32 ek.length.toUInt32 ++ ek ++ r := by
    rcases hcase with ⟨_, hb⟩ | ⟨m, mb, em, _, _, _, _, hb⟩
    · exact ⟨[], by rw [hb, List.append_nil]⟩
    · exact ⟨_, hb⟩
  intro hr
  rw [hb, decryptHybridHeader_frame hl] at hr
  obtain ⟨k, hk', _⟩ := Res.bind_eq_ok.1 hr
  unfold decryptSymmetricKey at hk'
  obtain ⟨enc', hd, _⟩ := Res.bind_eq_ok.1 hk'
  exact dec_no_attribute hcs h288 enc' hd

/-- Only satisfied by some attribute. -/
theorem AccessPolicy.Sat.some_attribute {S : Attribute → Prop} : ∀ {ap : AccessPolicy}, ap.Sat p S → ∃ b, S b
  | .attr _, ⟨b, _, h⟩ => ⟨b, h⟩
  | .and _ _, ⟨h, _⟩ => h.some_attribute
  | .or _ _, .inl h => h.some_attribute
  | .or _ _, .inr h => h.some_attribute
  | .all, ⟨b, _, h⟩ => ⟨b, h⟩

/-- **C100**, headers made later: a key opens the header, and gets the symmetric key and the metadata, exactly when the attributes of the message that were
not rotated since satisfy its access policy.  Otherwise the call returns an error if there is some attribute, and never a header. -/
theorem C100_later_header (c : Curve K P Q QP T) (ht : 32 ≤ t'.bits) (hcs : cs.Lawful) (he : e.Lawful tag) (hsize : size < 2 ^ 32)
    (hmk : generateMasterKey (bls c) size rnd y = .ok mk) (hk : Issued c mk p ap key) {l : List Change} (hev : p.Evolves l q)
    {md : Option Metadata} (hmeta : ∀ m ∈ md, e.Keeps m) {random : T} {s : K} {nonce : Nonce} {h : EncryptedHeader Key}
    (henc : encryptHybridHeader e (bls c) cs t q mk.pubKey atts md random s nonce = .ok h) :
    (ap.Sat p (fun b => b ∈ atts ∧ ¬ Rotated l b) →
      decryptHybridHeader e (bls c) cs t' key h.encryptedHeaderBytes = .ok ⟨h.symmetricKey, md.getD ⟨[], none⟩⟩) ∧
    (¬ ap.Sat p (fun b => b ∈ atts ∧ ¬ Rotated l b) →
      (∀ r, decryptHybridHeader e (bls c) cs t' key h.encryptedHeaderBytes ≠ .ok r) ∧
      (atts ≠ [] → (decryptHybridHeader e (bls c) cs t' key h.encryptedHeaderBytes).isErr)) := by
  obtain ⟨hp, _⟩ : p.Reachable ∧ True := by
    obtain ⟨tI, _, hnz, rfl⟩ := generateMasterKey_inv c hmk
    obtain ⟨hp, _⟩ := issued_ok c hnz hk
    exact ⟨hp, trivial⟩
  have hw := (evolves_later hev (reachable_wf hp)).wf
  by_cases h0 : atts = []
  · subst h0
    refine ⟨fun hs => ?_, fun _ => ⟨header_no_attribute c hcs hw hsize hmk henc key, fun h => absurd rfl h⟩⟩
    obtain ⟨b, hb, _⟩ := hs.some_attribute
    simp at hb
  · obtain ⟨enc, h1, h2, h3, h4⟩ := header_follows (t' := t') c ht hcs he hw hsize hmk hmeta henc h0 key
    obtain ⟨g1, g2⟩ := C71_later_ciphertext c hmk hk hev h1
    refine ⟨fun hs => h2 (g1 hs), fun hs => ?_⟩
    have herr : (decryptHybridHeader e (bls c) cs t' key h.encryptedHeaderBytes).isErr := by
      by_cases hg : ∃ b ∈ atts, ¬ Rotated l b ∧ ap.Grants p b
      · rw [h3 ((g2 hs).1 hg)]; simp [Res.isErr]
      · push Not at hg
        rw [h4 _ ((g2 hs).2 hg)]; simp [Res.isErr]
    refine ⟨fun r hr => ?_, fun _ => herr⟩
    rw [hr] at herr
    simp [Res.isErr] at herr

/-- **C100**, headers made earlier: a key opens the header exactly when the attributes of the message satisfy its access policy, rotated or not. -/
theorem C100_earlier_header (c : Curve K P Q QP T) (ht : 32 ≤ t'.bits) (hcs : cs.Lawful) (he : e.Lawful tag) (hsize : size < 2 ^ 32)
    (hmk : generateMasterKey (bls c) size rnd y = .ok mk) (hk : Issued c mk p ap key) {l : List Change} (hq : q.Reachable) (hev : q.Evolves l p)
    {md : Option Metadata} (hmeta : ∀ m ∈ md, e.Keeps m) {random : T} {s : K} {nonce : Nonce} {h : EncryptedHeader Key}
    (henc : encryptHybridHeader e (bls c) cs t q mk.pubKey atts md random s nonce = .ok h) :
    (ap.Sat p (· ∈ atts) →
      decryptHybridHeader e (bls c) cs t' key h.encryptedHeaderBytes = .ok ⟨h.symmetricKey, md.getD ⟨[], none⟩⟩) ∧
    (¬ ap.Sat p (· ∈ atts) →
      (∀ r, decryptHybridHeader e (bls c) cs t' key h.encryptedHeaderBytes ≠ .ok r) ∧
      (atts ≠ [] → (decryptHybridHeader e (bls c) cs t' key h.encryptedHeaderBytes).isErr)) := by
  have hw := reachable_wf hq
  by_cases h0 : atts = []
  · subst h0
    refine ⟨fun hs => ?_, fun _ => ⟨header_no_attribute c hcs hw hsize hmk henc key, fun h => absurd rfl h⟩⟩
    obtain ⟨b, hb⟩ := hs.some_attribute
    simp at hb
  · obtain ⟨enc, h1, h2, h3, h4⟩ := header_follows (t' := t') c ht hcs he hw hsize hmk hmeta henc h0 key
    obtain ⟨g1, g2⟩ := C71_earlier_ciphertext c hmk hk hq hev h1
    refine ⟨fun hs => h2 (g1 hs), fun hs => ?_⟩
    have herr : (decryptHybridHeader e (bls c) cs t' key h.encryptedHeaderBytes).isErr := by
      by_cases hg : ∃ b ∈ atts, ap.Grants p b
      · rw [h3 ((g2 hs).1 hg)]; simp [Res.isErr]
      · push Not at hg
        rw [h4 _ ((g2 hs).2 hg)]; simp [Res.isErr]
    refine ⟨fun r hr => ?_, fun _ => herr⟩
    rw [hr] at herr
    simp [Res.isErr] at herr

/-- **C100**, the error for headers made later with some attribute: "invalid encrypted data" if the access policy grants some attribute of the message that was not
rotated since, "empty input matrix" otherwise.  The outputs stored in /repo/src/interfaces/pyo3/tests/notebooks/confidential-data-access.ipynb show both. -/
theorem C100_later_error (c : Curve K P Q QP T) (ht : 32 ≤ t'.bits) (hcs : cs.Lawful) (he : e.Lawful tag) (hsize : size < 2 ^ 32)
    (hmk : generateMasterKey (bls c) size rnd y = .ok mk) (hk : Issued c mk p ap key) {l : List Change} (hev : p.Evolves l q)
    {md : Option Metadata} (hmeta : ∀ m ∈ md, e.Keeps m) {random : T} {s : K} {nonce : Nonce} {h : EncryptedHeader Key}
    (henc : encryptHybridHeader e (bls c) cs t q mk.pubKey atts md random s nonce = .ok h) (hne : atts ≠ [])
    (hsat : ¬ ap.Sat p (fun b => b ∈ atts ∧ ¬ Rotated l b)) :
    ((∃ b ∈ atts, ¬ Rotated l b ∧ ap.Grants p b) →
      decryptHybridHeader e (bls c) cs t' key h.encryptedHeaderBytes = .err .invalidEncryptedData) ∧
    ((∀ b ∈ atts, ¬ Rotated l b → ¬ ap.Grants p b) →
      decryptHybridHeader e (bls c) cs t' key h.encryptedHeaderBytes = .err (.internalOperation "empty input matrix")) := by
  obtain ⟨hp, _⟩ : p.Reachable ∧ True := by
    obtain ⟨tI, _, hnz, rfl⟩ := generateMasterKey_inv c hmk
    obtain ⟨hp, _⟩ := issued_ok c hnz hk
    exact ⟨hp, trivial⟩
  obtain ⟨enc, h1, h2, h3, h4⟩ := header_follows (t' := t') c ht hcs he (evolves_later hev (reachable_wf hp)).wf hsize hmk hmeta henc hne key
  obtain ⟨_, g2⟩ := C71_later_ciphertext c hmk hk hev h1
  exact ⟨fun hg => h3 ((g2 hsat).1 hg), fun hg => h4 _ ((g2 hsat).2 hg)⟩

/-! ### Whole messages -/

section
variable {lib : Lib K QP P Q T Key Nonce} {mdB polB attB pub plain ct kb : Bytes} {random : T} {s : K} {n n' : Nonce} {md : Metadata}

/-- What one-shot decryption in Python does follows from what the decryption of the header does. -/
theorem pyDecrypt_follows (ht : 32 ≤ lib.t.bits) (he : lib.e.Lawful tag) {pk : MasterPublicKey P T}
    (hkd : (userKeyCodec lib.t lib.cs lib.bm).dec kb = .ok key) (hpub : (pubKeyCodec lib.t lib.cs).dec pub = .ok pk)
    (hpol : lib.serde.policyDec polB = some q) (hatt : lib.serde.attributesDec attB = some atts) (hmd : lib.serde.metadataDec mdB = some md)
    (hkeep : lib.e.Keeps md) (henc : pyEncrypt lib mdB polB attB pub plain random s n n' = .ok ct) (hlen : ct.length < 2 ^ 32) :
    ∃ h, encryptHybridHeader lib.e lib.bm lib.cs lib.t q pk atts (some md) random s n = .ok h ∧
      (decryptHybridHeader lib.e lib.bm lib.cs lib.t key h.encryptedHeaderBytes = .ok ⟨h.symmetricKey, md⟩ → pyDecrypt lib kb ct = .ok plain) ∧
      ((∀ r, decryptHybridHeader lib.e lib.bm lib.cs lib.t key h.encryptedHeaderBytes ≠ .ok r) → ∀ x, pyDecrypt lib kb ct ≠ .ok x) ∧
      ((decryptHybridHeader lib.e lib.bm lib.cs lib.t key h.encryptedHeaderBytes).isErr → pyDecrypt lib kb ct = .err .typeError) := by
  obtain ⟨hd, block, k, h1, h2, h3, rfl⟩ := pyEncrypt_inv hpol hatt hmd hpub henc
  rw [he.keyDec_keyEnc] at h2
  simp only [Res.ok.injEq] at h2
  subst h2
  have hl : 4 + hd.encryptedHeaderBytes.length < 2 ^ 32 := by
    simp only [List.length_append, be32_length] at hlen; omega
  rw [pyDecrypt_frame ht hl]
  unfold pyDecryptHybridHeader
  rw [hkd, py_ok, Res.ok_bind]
  refine ⟨hd, h1, fun hdec => ?_, fun hno x hx => ?_, fun herr => ?_⟩
  · obtain ⟨mb, hm1, hm2⟩ := hkeep
    rw [hdec, py_ok, Res.ok_bind]
    dsimp only
    rw [hm1, py_ok, Res.ok_bind, Res.ok_bind, hm2, py_ok, Res.ok_bind]
    unfold pyDecryptHybridBlock
    rw [he.keyDec_keyEnc, py_ok, Res.ok_bind, py_eq_ok]
    exact (C38_block_decrypts he h3).2.2.1
  · obtain ⟨r, hr, _⟩ := Res.bind_eq_ok.1 hx
    obtain ⟨r', hr', _⟩ := Res.bind_eq_ok.1 hr
    exact hno r' (py_eq_ok.1 hr')
  · rw [(py_eq_err (z := .typeError)).2 herr]
    rfl

/-- **C100**, whole messages made later, through the Python interface: one-shot decryption returns the clear text exactly if the attributes of the message
that were not rotated since satisfy the access policy of the key; otherwise it raises an exception if there is some attribute, and never returns a text. -/
theorem C100_later_message (c : Curve K P Q QP T) (hbm : lib.bm = bls c) (ht : 32 ≤ lib.t.bits) (hcs : lib.cs.Lawful) (he : lib.e.Lawful tag)
    (hsize : size < 2 ^ 32) (hmk : generateMasterKey (bls c) size rnd y = .ok mk) (hk : Issued c mk p ap key) {l : List Change} (hev : p.Evolves l q)
    (hkd : (userKeyCodec lib.t lib.cs lib.bm).dec kb = .ok key) (hpub : (pubKeyCodec lib.t lib.cs).dec pub = .ok mk.pubKey)
    (hpol : lib.serde.policyDec polB = some q) (hatt : lib.serde.attributesDec attB = some atts) (hmd : lib.serde.metadataDec mdB = some md)
    (hkeep : lib.e.Keeps md) (henc : pyEncrypt lib mdB polB attB pub plain random s n n' = .ok ct) (hlen : ct.length < 2 ^ 32) :
    (ap.Sat p (fun b => b ∈ atts ∧ ¬ Rotated l b) → pyDecrypt lib kb ct = .ok plain) ∧
    (¬ ap.Sat p (fun b => b ∈ atts ∧ ¬ Rotated l b) →
      (∀ x, pyDecrypt lib kb ct ≠ .ok x) ∧ (atts ≠ [] → pyDecrypt lib kb ct = .err .typeError)) := by
  obtain ⟨h, h1, h2, h3, h4⟩ := pyDecrypt_follows ht he hkd hpub hpol hatt hmd hkeep henc hlen
  rw [hbm] at h1 h2 h3 h4
  obtain ⟨g1, g2⟩ := C100_later_header (t' := lib.t) c ht hcs he hsize hmk hk hev (md := some md)
    (by intro m hm; cases hm; exact hkeep) h1
  exact ⟨fun hs => h2 (g1 hs), fun hs => ⟨h3 (g2 hs).1, fun h0 => h4 ((g2 hs).2 h0)⟩⟩

/-- **C100**, whole messages made earlier, through the Python interface. -/
theorem C100_earlier_message (c : Curve K P Q QP T) (hbm : lib.bm = bls c) (ht : 32 ≤ lib.t.bits) (hcs : lib.cs.Lawful) (he : lib.e.Lawful tag)
    (hsize : size < 2 ^ 32) (hmk : generateMasterKey (bls c) size rnd y = .ok mk) (hk : Issued c mk p ap key) {l : List Change} (hq : q.Reachable)
    (hev : q.Evolves l p) (hkd : (userKeyCodec lib.t lib.cs lib.bm).dec kb = .ok key) (hpub : (pubKeyCodec lib.t lib.cs).dec pub = .ok mk.pubKey)
    (hpol : lib.serde.policyDec polB = some q) (hatt : lib.serde.attributesDec attB = some atts) (hmd : lib.serde.metadataDec mdB = some md)
    (hkeep : lib.e.Keeps md) (henc : pyEncrypt lib mdB polB attB pub plain random s n n' = .ok ct) (hlen : ct.length < 2 ^ 32) :
    (ap.Sat p (· ∈ atts) → pyDecrypt lib kb ct = .ok plain) ∧
    (¬ ap.Sat p (· ∈ atts) → (∀ x, pyDecrypt lib kb ct ≠ .ok x) ∧ (atts ≠ [] → pyDecrypt lib kb ct = .err .typeError)) := by
  obtain ⟨h, h1, h2, h3, h4⟩ := pyDecrypt_follows ht he hkd hpub hpol hatt hmd hkeep henc hlen
  rw [hbm] at h1 h2 h3 h4
  obtain ⟨g1, g2⟩ := C100_earlier_header (t' := lib.t) c ht hcs he hsize hmk hk hq hev (md := some md)
    (by intro m hm; cases hm; exact hkeep) h1
  exact ⟨fun hs => h2 (g1 hs), fun hs => ⟨h3 (g2 hs).1, fun h0 => h4 ((g2 hs).2 h0)⟩⟩

/-- A key made by the Python interface, as a key of the history of the policy. -/
theorem py_issued (c : Curve K P Q QP T) (hbm : lib.bm = bls c) (hcs : lib.cs.Lawful) (hp : p.Reachable)
    (hmax : p.maxAttributeCreations.toNat < 2 ^ 32 - 1) (hmk : engineGenerateMasterKey (bls c) p rnd y = .ok mk) {priv : Bytes}
    (hpriv : (privKeyCodec lib.t lib.cs).dec priv = .ok mk.privKey) {str : String} {rnd' : Nat → K} (hpol : lib.serde.policyDec polB = some p)
    (hap : lib.serde.accessPolicyParse str = some ap) (h : pyGenerateUserPrivateKey lib priv str polB rnd' = .ok kb) (hkb : kb.length < lib.t.modulus) :
    ∃ key, Issued c mk p ap key ∧ (userKeyCodec lib.t lib.cs lib.bm).dec kb = .ok key := by
  unfold pyGenerateUserPrivateKey at h
  rw [hpriv, py_ok, Res.ok_bind, hpol, pyArg_some, Res.ok_bind, hap, pyArg_some, Res.ok_bind, hbm] at h
  obtain ⟨key, h1, h2⟩ := Res.bind_eq_ok.1 h
  rw [py_eq_ok] at h1 h2
  have hu : UserKey c p mk ap key := .generate rnd' h1
  have hn := hu.nbRow_le (reachable_wf hp) hmk
  obtain ⟨b, g1, _, g3⟩ := C25_user_key_round_trip (t := lib.t) hcs c hu.obtained (by omega)
  rw [h2] at g1
  simp only [Res.ok.injEq] at g1
  subst g1
  have := g3 []
  rw [List.append_nil, ← hbm] at this
  exact ⟨key, .generate rnd' hp h1, this hkb⟩

end

/-! ### Concrete cases -/

theorem sat_after_rotation {a : Attribute} : ap.Sat p (fun b => b ∈ atts ∧ ¬ Rotated [.rotate a] b) ↔ ap.Sat p (· ∈ atts.filter (· ≠ a)) :=
  AccessPolicy.sat_congr (fun b _ => by simp [Rotated]) ap

theorem sat_unchanged : ap.Sat p (fun b => b ∈ atts ∧ ¬ Rotated [] b) ↔ ap.Sat p (· ∈ atts) :=
  AccessPolicy.sat_congr (fun b _ => by simp [Rotated]) ap

theorem Demo.rotation : Demo.policy.Evolves [.rotate Demo.hr] Demo.rotated := .cons (by decide +kernel) (.nil _)

theorem Demo.rotated_reachable' : Demo.rotated.Reachable := evolves_reachable Demo.rotation Demo.policy_reachable

/-- The key made before the rotation of `HR` opens a header made after it for `[low, mkg]`, and not one for `[low, hr]`; the key made after it opens a header
made before it. -/
example : ∃ key key' h h' h'', Issued Demo.curveF Demo.mkF Demo.policy Demo.ap key ∧ Issued Demo.curveF Demo.mkF Demo.rotated Demo.ap key' ∧
    encryptHybridHeader Demo.symmetric (bls Demo.curveF) Demo.codecs .debug64 Demo.rotated Demo.mkF.pubKey [Demo.low, Demo.mkg] (some Demo.metadata) 5 7 Demo.nonce = .ok h ∧
    encryptHybridHeader Demo.symmetric (bls Demo.curveF) Demo.codecs .debug64 Demo.rotated Demo.mkF.pubKey [Demo.low, Demo.hr] none 5 7 Demo.nonce = .ok h' ∧
    encryptHybridHeader Demo.symmetric (bls Demo.curveF) Demo.codecs .debug64 Demo.policy Demo.mkF.pubKey [Demo.low, Demo.hr] (some Demo.metadata) 5 7 Demo.nonce = .ok h'' ∧
    decryptHybridHeader Demo.symmetric (bls Demo.curveF) Demo.codecs .release32 key h.encryptedHeaderBytes = .ok ⟨h.symmetricKey, Demo.metadata⟩ ∧
    (decryptHybridHeader Demo.symmetric (bls Demo.curveF) Demo.codecs .release32 key h'.encryptedHeaderBytes).isErr ∧
    decryptHybridHeader Demo.symmetric (bls Demo.curveF) Demo.codecs .release32 key' h''.encryptedHeaderBytes = .ok ⟨h''.symmetricKey, Demo.metadata⟩ := by
  obtain ⟨key, hkey⟩ := Demo.keyF_exists
  obtain ⟨key', hkey'⟩ : ∃ key, engineGenerateUserKey (bls Demo.curveF) Demo.rotated Demo.mkF.privKey Demo.ap Demo.drawsF = .ok key :=
    Demo.exists_of_isOk (by decide +kernel)
  obtain ⟨h, hh⟩ : ∃ h, encryptHybridHeader Demo.symmetric (bls Demo.curveF) Demo.codecs .debug64 Demo.rotated Demo.mkF.pubKey [Demo.low, Demo.mkg]
    (some Demo.metadata) 5 7 Demo.nonce = .ok h := Demo.exists_of_isOk (by decide +kernel)
  obtain ⟨h', hh'⟩ : ∃ h, encryptHybridHeader Demo.symmetric (bls Demo.curveF) Demo.codecs .debug64 Demo.rotated Demo.mkF.pubKey [Demo.low, Demo.hr]
    none 5 7 Demo.nonce = .ok h := Demo.exists_of_isOk (by decide +kernel)
  obtain ⟨h'', hh''⟩ := Demo.header_exists
  have i : Issued Demo.curveF Demo.mkF Demo.policy Demo.ap key := .generate _ Demo.policy_reachable hkey
  have i' : Issued Demo.curveF Demo.mkF Demo.rotated Demo.ap key' := .generate _ Demo.rotated_reachable' hkey'
  have hk : ∀ m ∈ some Demo.metadata, Demo.symmetric.Keeps m := by
    intro m hm
    cases hm
    exact Demo.metadata_kept
  refine ⟨key, key', h, h', h'', i, i', hh, hh', hh'', ?_, ?_, ?_⟩
  · exact (C100_later_header (tag := 16) (t' := .release32) Demo.curveF (by decide) Demo.codecs_lawful Demo.symmetric_lawful (by decide) Demo.mkF_eq i Demo.rotation hk hh).1
      (by rw [sat_after_rotation]; decide +kernel)
  · exact ((C100_later_header (tag := 16) (t' := .release32) Demo.curveF (by decide) Demo.codecs_lawful Demo.symmetric_lawful (by decide) Demo.mkF_eq i Demo.rotation
      (by simp) hh').2 (by rw [sat_after_rotation]; decide +kernel)).2 (by decide)
  · exact (C100_earlier_header (tag := 16) (t' := .release32) Demo.curveF (by decide) Demo.codecs_lawful Demo.symmetric_lawful (by decide) Demo.mkF_eq i'
      Demo.policy_reachable Demo.rotation hk hh'').1 (by decide +kernel)

/-- The key for `ap`, after the rotation of `HR`: with a header for `[low, hr]`, of which it knows `low`, and with a header for `[hr]`, of which it knows nothing. -/
example : ∃ key h h', Issued Demo.curveF Demo.mkF Demo.policy Demo.ap key ∧
    encryptHybridHeader Demo.symmetric (bls Demo.curveF) Demo.codecs .debug64 Demo.rotated Demo.mkF.pubKey [Demo.low, Demo.hr] none 5 7 Demo.nonce = .ok h ∧
    encryptHybridHeader Demo.symmetric (bls Demo.curveF) Demo.codecs .debug64 Demo.rotated Demo.mkF.pubKey [Demo.hr] none 5 7 Demo.nonce = .ok h' ∧
    decryptHybridHeader Demo.symmetric (bls Demo.curveF) Demo.codecs .release32 key h.encryptedHeaderBytes = .err .invalidEncryptedData ∧
    decryptHybridHeader Demo.symmetric (bls Demo.curveF) Demo.codecs .release32 key h'.encryptedHeaderBytes = .err (.internalOperation "empty input matrix") := by
  obtain ⟨key, hkey⟩ := Demo.keyF_exists
  obtain ⟨h, hh⟩ : ∃ h, encryptHybridHeader Demo.symmetric (bls Demo.curveF) Demo.codecs .debug64 Demo.rotated Demo.mkF.pubKey [Demo.low, Demo.hr]
    none 5 7 Demo.nonce = .ok h := Demo.exists_of_isOk (by decide +kernel)
  obtain ⟨h', hh'⟩ : ∃ h, encryptHybridHeader Demo.symmetric (bls Demo.curveF) Demo.codecs .debug64 Demo.rotated Demo.mkF.pubKey [Demo.hr]
    none 5 7 Demo.nonce = .ok h := Demo.exists_of_isOk (by decide +kernel)
  have i : Issued Demo.curveF Demo.mkF Demo.policy Demo.ap key := .generate _ Demo.policy_reachable hkey
  refine ⟨key, h, h', i, hh, hh', ?_, ?_⟩
  · exact (C100_later_error (tag := 16) (t' := .release32) Demo.curveF (by decide) Demo.codecs_lawful Demo.symmetric_lawful (by decide) Demo.mkF_eq i Demo.rotation
      (by simp) hh (by decide) (by rw [sat_after_rotation]; decide +kernel)).1 ⟨Demo.low, by decide +kernel, by simp [Rotated]; decide +kernel, by decide +kernel⟩
  · exact (C100_later_error (tag := 16) (t' := .release32) Demo.curveF (by decide) Demo.codecs_lawful Demo.symmetric_lawful (by decide) Demo.mkF_eq i Demo.rotation
      (by simp) hh' (by decide) (by rw [sat_after_rotation]; decide +kernel)).2 (by
        intro b hb hr
        obtain rfl : b = Demo.hr := by simpa using hb
        exact absurd (by simp [Rotated]) hr)

/-- Calls before and after the rotation of `HR`: master keys, keys made before and after, messages for `[low, hr]` made before and after. -/
def Demo.pyLife : PyOut ((Bytes × Bytes × Bytes) × Bytes × Bytes × Bytes × Bytes) := do
  let mk ← pyGenerateMasterKeys Demo.lib [1] Demo.drawsF 3
  let before ← pyGenerateUserPrivateKey Demo.lib mk.1 "ap" [1] Demo.drawsF
  let after ← pyGenerateUserPrivateKey Demo.lib mk.1 "ap" [2] Demo.drawsF
  let ct ← pyEncrypt Demo.lib [1] [1] [1] mk.2.1 [42, 43] 5 7 Demo.nonce Demo.nonce
  let ct' ← pyEncrypt Demo.lib [1] [2] [1] mk.2.1 [42, 43] 5 7 Demo.nonce Demo.nonce
  .ok (mk, before, after, ct, ct')

/-- The key made before the rotation does not open the message made after it; the key made after it opens both messages. -/
example : ∃ before after ct ct', pyDecrypt Demo.lib before ct' = .err .typeError ∧ pyDecrypt Demo.lib after ct = .ok [42, 43] ∧
    pyDecrypt Demo.lib after ct' = .ok [42, 43] := by
  have hok : (match Demo.pyLife with
    | .ok r => decide (max (max r.1.1.length r.1.2.1.length) r.1.2.2.length < 1000 ∧ r.2.1.length < 1000 ∧ r.2.2.1.length < 1000 ∧ r.2.2.2.1.length < 1000 ∧
        r.2.2.2.2.length < 1000)
    | _ => false) = true := by decide +kernel
  cases hr : Demo.pyLife with
  | err z => rw [hr] at hok; simp at hok
  | panic => rw [hr] at hok; simp at hok
  | ok r =>
    rw [hr] at hok
    simp only [decide_eq_true_eq] at hok
    unfold Demo.pyLife at hr
    obtain ⟨m, h1, hr⟩ := Res.bind_eq_ok.1 hr
    obtain ⟨before, h2, hr⟩ := Res.bind_eq_ok.1 hr
    obtain ⟨after, h3, hr⟩ := Res.bind_eq_ok.1 hr
    obtain ⟨ct, h4, hr⟩ := Res.bind_eq_ok.1 hr
    obtain ⟨ct', h5, hr⟩ := Res.bind_eq_ok.1 hr
    simp only [Res.ok.injEq] at hr
    subst hr
    obtain ⟨l0, l1, l2, l3, l4⟩ := hok
    dsimp only at l0 l1 l2 l3 l4
    obtain ⟨mk, hmk, hpriv, hpub, _⟩ := pyMaster (lib := Demo.lib) Demo.curveF rfl Demo.codecs_lawful (by decide) (by decide)
      (p := Demo.policy) rfl h1 (Demo.fits l0)
    have hmk' : engineGenerateMasterKey (bls Demo.curveF) Demo.rotated Demo.drawsF 3 = .ok mk := hmk
    obtain ⟨k1, i1, d1⟩ := py_issued (lib := Demo.lib) (ap := Demo.ap) Demo.curveF rfl Demo.codecs_lawful Demo.policy_reachable (by decide) hmk hpriv rfl rfl h2
      (Demo.fits l1)
    obtain ⟨k2, i2, d2⟩ := py_issued (lib := Demo.lib) (ap := Demo.ap) Demo.curveF rfl Demo.codecs_lawful Demo.rotated_reachable' (by decide) hmk' hpriv rfl rfl h3
      (Demo.fits l2)
    have hk : Demo.symmetric.Keeps Demo.metadata := Demo.metadata_kept
    refine ⟨before, after, ct, ct', ?_, ?_, ?_⟩
    · exact ((C100_later_message (lib := Demo.lib) (tag := 16) Demo.curveF rfl (by decide) Demo.codecs_lawful Demo.symmetric_lawful (by decide) hmk i1
        Demo.rotation d1 hpub rfl rfl rfl hk h5 (by omega)).2 (by rw [sat_after_rotation]; decide +kernel)).2 (by decide)
    · exact (C100_earlier_message (lib := Demo.lib) (tag := 16) Demo.curveF rfl (by decide) Demo.codecs_lawful Demo.symmetric_lawful (by decide) hmk i2
        Demo.policy_reachable Demo.rotation d2 hpub rfl rfl rfl hk h4 (by omega)).1 (by decide +kernel)
    · exact (C100_later_message (lib := Demo.lib) (tag := 16) Demo.curveF rfl (by decide) Demo.codecs_lawful Demo.symmetric_lawful (by decide) hmk i2
        (.nil _) d2 hpub rfl rfl rfl hk h5 (by omega)).1 (by rw [sat_unchanged]; decide +kernel)

end Abe
