import Verif.Props.Hybrid
import Verif.Props.DemoLib
import Verif.Proofs.Py
import Verif.Proofs.PolicyWf

/-!
# The Python interface

Properties C40 and C50, and the Python part of C52 and C53.
-/

namespace Abe

set_option linter.unusedSectionVars false

variable {K P Q QP T Key Nonce : Type} [Field K] [DecidableEq K] [AddCommGroup P] [Module K P] [AddCommGroup Q] [Module K Q]
  [AddCommGroup T] [Module K T]
variable {lib : Lib K QP P Q T Key Nonce} {tag : Nat} {p : Policy} {polB priv pub del : Bytes} {rnd : Nat → K} {y : K}

/-- The master key bytes decode to the master keys. -/
theorem pyMaster (c : Curve K P Q QP T) (hbm : lib.bm = bls c) (hcs : lib.cs.Lawful)
    (hmax : p.maxAttributeCreations.toNat < 2 ^ 32 - 1) (h0 : p.maxAttributeCreations ≠ 0)
    (hpol : lib.serde.policyDec polB = some p) (hmk : pyGenerateMasterKeys lib polB rnd y = .ok (priv, pub, del))
    (hl : max (max priv.length pub.length) del.length < lib.t.modulus) :
    ∃ mk, engineGenerateMasterKey (bls c) p rnd y = .ok mk ∧ (privKeyCodec lib.t lib.cs).dec priv = .ok mk.privKey ∧
      (pubKeyCodec lib.t lib.cs).dec pub = .ok mk.pubKey ∧ (delKeyCodec lib.t lib.cs).dec del = .ok mk.delKey := by
  unfold pyGenerateMasterKeys at hmk
  rw [hpol, pyArg_some, Res.ok_bind, hbm] at hmk
  obtain ⟨mk, h1, hmk⟩ := Res.bind_eq_ok.1 hmk
  obtain ⟨b1, h2, hmk⟩ := Res.bind_eq_ok.1 hmk
  obtain ⟨b2, h3, hmk⟩ := Res.bind_eq_ok.1 hmk
  obtain ⟨b3, h4, hmk⟩ := Res.bind_eq_ok.1 hmk
  simp only [Res.ok.injEq, Prod.mk.injEq] at hmk
  obtain ⟨rfl, rfl, rfl⟩ := hmk
  rw [py_eq_ok] at h1 h2 h3 h4
  obtain ⟨⟨r1, e1, _, d1⟩, ⟨r2, e2, _, d2⟩, r3, e3, _, d3⟩ :=
    C24_generated_keys_round_trip (t := lib.t) hcs c h1 h0 hmax
  rw [h2] at e1; rw [h3] at e2; rw [h4] at e3
  simp only [Res.ok.injEq] at e1 e2 e3
  subst e1 e2 e3
  refine ⟨mk, h1, ?_, ?_, ?_⟩
  · have := d1 []; rw [List.append_nil] at this; exact this (by omega)
  · have := d2 []; rw [List.append_nil] at this; exact this (by omega)
  · have := d3 []; rw [List.append_nil] at this; exact this (by omega)

/-- The bytes of a Python user key decode to a user key. -/
theorem pyUserKey (c : Curve K P Q QP T) (hbm : lib.bm = bls c) (hcs : lib.cs.Lawful) (hw : p.WF)
    (hmax : p.maxAttributeCreations.toNat < 2 ^ 32 - 1) {mk : MasterKey K P Q T}
    (hmk : engineGenerateMasterKey (bls c) p rnd y = .ok mk) (hpriv : (privKeyCodec lib.t lib.cs).dec priv = .ok mk.privKey)
    (hdel : (delKeyCodec lib.t lib.cs).dec del = .ok mk.delKey) {ap : AccessPolicy} {kb : Bytes}
    (h : PyUserKey lib p priv del ap kb) (hkb : kb.length < lib.t.modulus) :
    ∃ key, UserKey c p mk ap key ∧ (userKeyCodec lib.t lib.cs (bls c)).dec kb = .ok key := by
  have round : ∀ {ap : AccessPolicy} {key : DecryptionKey K QP Q} {kb : Bytes}, UserKey c p mk ap key →
      (userKeyCodec lib.t lib.cs (bls c)).enc key = .ok kb → kb.length < lib.t.modulus →
      ∃ key, UserKey c p mk ap key ∧ (userKeyCodec lib.t lib.cs (bls c)).dec kb = .ok key := by
    intro ap key kb hk he hl
    have hn := hk.nbRow_le hw hmk
    obtain ⟨b, h1, _, h3⟩ := C25_user_key_round_trip (t := lib.t) hcs c hk.obtained (by omega)
    rw [he] at h1
    simp only [Res.ok.injEq] at h1
    subst h1
    have := h3 []
    rw [List.append_nil] at this
    exact ⟨key, hk, this hl⟩
  induction h with
  | generate rnd' hp ha h =>
    unfold pyGenerateUserPrivateKey at h
    rw [hpriv, py_ok, Res.ok_bind, hp, pyArg_some, Res.ok_bind, ha, pyArg_some, Res.ok_bind, hbm] at h
    obtain ⟨key, h1, h2⟩ := Res.bind_eq_ok.1 h
    rw [py_eq_ok] at h1 h2
    exact round (.generate rnd' h1) h2 hkb
  | randomise rnd' hk hl hp ha h ih =>
    obtain ⟨key, k1, k2⟩ := ih hl
    unfold pyGenerateDelegatedKey at h
    rw [hdel, py_ok, Res.ok_bind, hbm, k2, py_ok, Res.ok_bind, ha, pyArg_some, Res.ok_bind, hp, pyArg_some, Res.ok_bind] at h
    obtain ⟨key', h1, h2⟩ := Res.bind_eq_ok.1 h
    rw [py_eq_ok] at h1 h2
    exact round (.randomise rnd' k1 h1) h2 hkb
  | delegate rnd' hk hl hr hne hp ha h ih =>
    obtain ⟨key, k1, k2⟩ := ih hl
    unfold pyGenerateDelegatedKey at h
    rw [hdel, py_ok, Res.ok_bind, hbm, k2, py_ok, Res.ok_bind, ha, pyArg_some, Res.ok_bind, hp, pyArg_some, Res.ok_bind] at h
    obtain ⟨key', h1, h2⟩ := Res.bind_eq_ok.1 h
    rw [py_eq_ok] at h1 h2
    exact round (.delegate rnd' k1 hr hne h1) h2 hkb

/-- The size of a well-framed message. -/
theorem pyHeaderSize (n : UInt32) (r : Bytes) : pyGetEncryptedHeaderSize (be32 n ++ r) = .ok n := by
  unfold pyGetEncryptedHeaderSize
  rw [if_neg (by simp [be32]), slice, if_pos (by simp [be32]), Res.ok_bind, List.drop_zero,
    ofBe32_take (by simp [be32]), ofBe32_be32]

/-- The parts of a message made by the one-shot encryption. -/
theorem pyEncrypt_inv {mdB polB attB pub plain ct : Bytes} {random : T} {s : K} {n n' : Nonce} {pk : MasterPublicKey P T}
    {md : Metadata} {atts : List Attribute}
    (hpol : lib.serde.policyDec polB = some p) (hatt : lib.serde.attributesDec attB = some atts)
    (hmd : lib.serde.metadataDec mdB = some md) (hpub : (pubKeyCodec lib.t lib.cs).dec pub = .ok pk)
    (h : pyEncrypt lib mdB polB attB pub plain random s n n' = .ok ct) :
    ∃ hd block k, encryptHybridHeader lib.e lib.bm lib.cs lib.t p pk atts (some md) random s n = .ok hd ∧
      lib.e.keyDec (lib.e.keyEnc hd.symmetricKey) = .ok k ∧
      encryptHybridBlock lib.e maxClearTextSize k md.uid 0 plain n' = .ok block ∧
      ct = be32 hd.encryptedHeaderBytes.length.toUInt32 ++ hd.encryptedHeaderBytes ++ block := by
  unfold pyEncrypt at h
  rw [hmd, pyArg_some, Res.ok_bind] at h
  obtain ⟨r, h1, h⟩ := Res.bind_eq_ok.1 h
  obtain ⟨block, h2, h⟩ := Res.bind_eq_ok.1 h
  unfold pyEncryptHybridHeader at h1
  rw [hmd, pyArg_some, Res.ok_bind, hpol, pyArg_some, Res.ok_bind, hatt, pyArg_some, Res.ok_bind, hpub, py_ok, Res.ok_bind] at h1
  obtain ⟨hd, h3, h1⟩ := Res.bind_eq_ok.1 h1
  simp only [Res.ok.injEq] at h h1
  subst h1 h
  unfold pyEncryptHybridBlock at h2
  obtain ⟨k, h4, h2⟩ := Res.bind_eq_ok.1 h2
  rw [py_eq_ok] at h2 h3 h4
  exact ⟨hd, block, k, h3, h4, h2, rfl⟩

/-- Decryption of a well-framed message. -/
theorem pyDecrypt_frame (ht : 32 ≤ lib.t.bits) {kb header block : Bytes} (hl : 4 + header.length < 2 ^ 32) :
    pyDecrypt lib kb (be32 header.length.toUInt32 ++ header ++ block) = (do
      let h ← pyDecryptHybridHeader lib kb header
      let metadata ← py (lib.e.metaDec h.2)
      pyDecryptHybridBlock lib.e h.1 metadata.uid 0 block) := by
  have hb : (2:Nat) ^ 32 ≤ 2 ^ lib.t.bits := Nat.pow_le_pow_right (by decide) ht
  have hadd : (lib.t.uadd 4 header.length : PyOut Nat) = .ok (4 + header.length) := by
    unfold Target.uadd Target.modulus
    rw [if_pos (by omega)]
  have h4 : (be32 header.length.toUInt32 ++ header).length = 4 + header.length := by simp [be32]; omega
  unfold pyDecrypt
  rw [List.append_assoc, pyHeaderSize, Res.ok_bind, toNat_toUInt32 (by omega), hadd, Res.ok_bind, ← List.append_assoc, slice,
    if_pos ⟨by omega, by rw [List.length_append, h4]; omega⟩, Res.ok_bind, Res.ok_bind, sliceFrom,
    if_pos (by rw [List.length_append, h4]; omega), Res.ok_bind, List.take_left' h4, List.drop_left' h4,
    List.drop_left' (be32_length _)]

/-! ### C40 -/

section
variable {mdB polB' attB plain ct kb : Bytes} {random : T} {s : K} {n n' : Nonce} {md : Metadata} {atts : List Attribute}
  {ap : AccessPolicy}

/-- The policy of a user key has some attribute, hence a creation budget. -/
theorem pyMax_ne_zero (hw : p.WF) (hkey : PyUserKey lib p priv del ap kb) : p.maxAttributeCreations ≠ 0 := by
  intro h0
  have hno : ∀ b, ¬ p.Known b := by
    intro b hb
    obtain ⟨v, _, hv⟩ := Policy.currentValue_known hw hb
    have h1 := hw.range v ((Policy.mem_allValues hw).2 ⟨b, hv⟩)
    have h2 := hw.budget
    rw [h0] at h2
    simp at h2
    omega
  induction hkey with
  | generate rnd' hp ha h =>
    rename_i ap b polB' str
    unfold pyGenerateUserPrivateKey at h
    obtain ⟨k, _, h⟩ := Res.bind_eq_ok.1 h
    rw [hp, pyArg_some, Res.ok_bind, ha, pyArg_some, Res.ok_bind] at h
    obtain ⟨key, h1, h2⟩ := Res.bind_eq_ok.1 h
    rw [py_eq_ok] at h1
    unfold engineGenerateUserKey at h1
    obtain ⟨m, hm, _⟩ := Res.bind_eq_ok.1 h1
    rcases policyToMsp_spec hw ap with ⟨_, m', F, g1, g2, g3⟩ | ⟨_, e, g1⟩
    · obtain ⟨v, hv⟩ : ∃ v, v ∈ F.leaves := by
        cases hF : F.leaves with
        | nil => exact absurd hF F.leaves_ne_nil
        | cons v l => exact ⟨v, by simp⟩
      obtain ⟨b, _, hb⟩ := (g3.leaves v).1 hv
      exact hno b (hb.known hw)
    · rw [hm] at g1; simp at g1
  | randomise rnd' hk hl hp ha h ih => exact ih
  | delegate rnd' hk hl hr hne hp ha h ih => exact ih

/-- **C40.** Keys made by the Python interface for a policy, a message encrypted by the one-shot encryption under the attributes
`atts`, and a key for the access policy `ap` (generated, randomised or delegated): one-shot decryption returns the clear text if
`atts` satisfy `ap`; otherwise it returns nothing, and raises an exception if there is some attribute. -/
theorem C40_round_trip (c : Curve K P Q QP T) (hbm : lib.bm = bls c) (ht : 32 ≤ lib.t.bits) (hcs : lib.cs.Lawful)
    (he : lib.e.Lawful tag) (hw : p.WF) (hmax : p.maxAttributeCreations.toNat < 2 ^ 32 - 1)
    (hpol : lib.serde.policyDec polB = some p) (hmk : pyGenerateMasterKeys lib polB rnd y = .ok (priv, pub, del))
    (hml : max (max priv.length pub.length) del.length < lib.t.modulus) (hkey : PyUserKey lib p priv del ap kb) (hkb : kb.length < lib.t.modulus)
    (hpol' : lib.serde.policyDec polB' = some p) (hatt : lib.serde.attributesDec attB = some atts)
    (hmd : lib.serde.metadataDec mdB = some md) (hkeep : lib.e.Keeps md)
    (henc : pyEncrypt lib mdB polB' attB pub plain random s n n' = .ok ct) (hlen : ct.length < 2 ^ 32) :
    (ap.Sat p (· ∈ atts) → pyDecrypt lib kb ct = .ok plain) ∧
    (¬ ap.Sat p (· ∈ atts) → (∀ x, pyDecrypt lib kb ct ≠ .ok x) ∧ (atts ≠ [] → pyDecrypt lib kb ct = .err .typeError)) := by
  obtain ⟨mk, hmk', hpriv, hpub, hdel⟩ := pyMaster c hbm hcs hmax (pyMax_ne_zero hw hkey) hpol hmk hml
  obtain ⟨key, hk, hkd⟩ := pyUserKey c hbm hcs hw hmax hmk' hpriv hdel hkey hkb
  obtain ⟨hd, block, k, h1, h2, h3, rfl⟩ := pyEncrypt_inv hpol' hatt hmd hpub henc
  rw [he.keyDec_keyEnc] at h2
  simp only [Res.ok.injEq] at h2
  subst h2
  rw [hbm] at h1
  have hl : 4 + hd.encryptedHeaderBytes.length < 2 ^ 32 := by
    simp only [List.length_append, be32_length] at hlen; omega
  rw [pyDecrypt_frame ht hl]
  unfold pyDecryptHybridHeader
  rw [hbm, hkd, py_ok, Res.ok_bind]
  constructor
  · intro hsat
    obtain ⟨mb, hm1, hm2⟩ := hkeep
    have hdec := C35_header_round_trip (t' := lib.t) c ht hcs he hw hmk' hk (md := some md)
      (by intro m hm; cases hm; exact ⟨mb, hm1, hm2⟩) h1 hsat
    rw [hdec, py_ok, Res.ok_bind]
    dsimp only [Option.getD_some]
    rw [hm1, py_ok, Res.ok_bind, Res.ok_bind, hm2, py_ok, Res.ok_bind]
    unfold pyDecryptHybridBlock
    rw [he.keyDec_keyEnc, py_ok, Res.ok_bind, py_eq_ok]
    exact (C38_block_decrypts he h3).2.2.1
  · intro hsat
    obtain ⟨h4, h5⟩ := C39_unauthorised (t' := lib.t) c ht hcs hw hmk' hk h1 hsat
    constructor
    · intro x hx
      obtain ⟨r, hr, _⟩ := Res.bind_eq_ok.1 hx
      obtain ⟨r', hr', _⟩ := Res.bind_eq_ok.1 hr
      exact h4 r' (py_eq_ok.1 hr')
    · intro hne
      rw [(py_eq_err (z := .typeError)).2 (h5 hne)]
      rfl

end

/-- The calls of the examples: master keys, a user key, a delegated and a randomised one, and messages for `[low, hr]` and
`[low]`. -/
def Demo.pyRun : PyOut ((Bytes × Bytes × Bytes) × Bytes × Bytes × Bytes × Bytes × Bytes) := do
  let mk ← pyGenerateMasterKeys Demo.lib [1] Demo.drawsF 3
  let kb ← pyGenerateUserPrivateKey Demo.lib mk.1 "ap" [1] Demo.drawsF
  let kb1 ← pyGenerateDelegatedKey Demo.lib mk.2.2 kb "apLow" [1] Demo.drawsF
  let kb2 ← pyGenerateDelegatedKey Demo.lib mk.2.2 kb1 "*" [1] Demo.drawsF
  let ct ← pyEncrypt Demo.lib [1] [1] [1] mk.2.1 [42, 43] 5 7 Demo.nonce Demo.nonce
  let ct' ← pyEncrypt Demo.lib [1] [1] [2] mk.2.1 [42, 43] 5 7 Demo.nonce Demo.nonce
  .ok (mk, kb, kb1, kb2, ct, ct')

theorem Demo.fits {n : Nat} (h : n < 1000) : n < Demo.lib.t.modulus := lt_trans h (by decide)

theorem Demo.pyRun_ok : ∃ (mk : Bytes × Bytes × Bytes) (kb kb1 kb2 ct ct' : Bytes), pyGenerateMasterKeys Demo.lib [1] Demo.drawsF 3 = .ok mk ∧
    PyUserKey Demo.lib Demo.policy mk.1 mk.2.2 Demo.ap kb ∧ PyUserKey Demo.lib Demo.policy mk.1 mk.2.2 Demo.apLow kb2 ∧
    pyEncrypt Demo.lib [1] [1] [1] mk.2.1 [42, 43] 5 7 Demo.nonce Demo.nonce = .ok ct ∧
    pyEncrypt Demo.lib [1] [1] [2] mk.2.1 [42, 43] 5 7 Demo.nonce Demo.nonce = .ok ct' ∧
    max (max mk.1.length mk.2.1.length) mk.2.2.length < 1000 ∧ kb.length < 1000 ∧ kb1.length < 1000 ∧ kb2.length < 1000 ∧ ct.length < 1000 ∧ ct'.length < 1000 := by
  have hok : (match Demo.pyRun with
    | .ok r => decide (max (max r.1.1.length r.1.2.1.length) r.1.2.2.length < 1000 ∧ r.2.1.length < 1000 ∧ r.2.2.1.length < 1000 ∧ r.2.2.2.1.length < 1000 ∧ r.2.2.2.2.1.length < 1000 ∧
        r.2.2.2.2.2.length < 1000)
    | _ => false) = true := by decide +kernel
  cases hr : Demo.pyRun with
  | ok r =>
    rw [hr] at hok
    simp only [decide_eq_true_eq] at hok
    unfold Demo.pyRun at hr
    obtain ⟨mk, h1, hr⟩ := Res.bind_eq_ok.1 hr
    obtain ⟨kb, h2, hr⟩ := Res.bind_eq_ok.1 hr
    obtain ⟨kb1, h3, hr⟩ := Res.bind_eq_ok.1 hr
    obtain ⟨kb2, h4, hr⟩ := Res.bind_eq_ok.1 hr
    obtain ⟨ct, h5, hr⟩ := Res.bind_eq_ok.1 hr
    obtain ⟨ct', h6, hr⟩ := Res.bind_eq_ok.1 hr
    simp only [Res.ok.injEq] at hr
    subst hr
    obtain ⟨l0, l1, l2, l3, l4, l5⟩ := hok
    dsimp only at l0 l1 l2 l3 l4 l5
    have g1 : PyUserKey Demo.lib Demo.policy mk.1 mk.2.2 Demo.ap kb := .generate _ rfl rfl h2
    have g2 : PyUserKey Demo.lib Demo.policy mk.1 mk.2.2 Demo.apLow kb1 :=
      .delegate _ g1 (Demo.fits l1) Demo.apLow_restricts (by decide) rfl rfl h3
    exact ⟨mk, kb, kb1, kb2, ct, ct', h1, g1, .randomise _ g2 (Demo.fits l2) rfl rfl h4, h5, h6, l0, l1, l2, l3, l4, l5⟩
  | err z => rw [hr] at hok; simp at hok
  | panic => rw [hr] at hok; simp at hok

/-- In the demo library: the generated key and the delegated, randomised one decrypt the message for `[low, hr]`, the generated
key does not decrypt the message for `[low]`. -/
example : ∃ kb kb2 ct ct', pyDecrypt Demo.lib kb ct = .ok [42, 43] ∧ pyDecrypt Demo.lib kb2 ct = .ok [42, 43] ∧
    pyDecrypt Demo.lib kb ct' = .err .typeError := by
  obtain ⟨mk, kb, kb1, kb2, ct, ct', h1, g1, g2, h5, h6, l0, l1, l2, l3, l4, l5⟩ := Demo.pyRun_ok
  have hw := reachable_wf Demo.policy_reachable
  refine ⟨kb, kb2, ct, ct', ?_, ?_, ?_⟩
  · exact (C40_round_trip (lib := Demo.lib) (tag := 16) Demo.curveF rfl (by decide) Demo.codecs_lawful Demo.symmetric_lawful hw
      (by decide) rfl h1 (Demo.fits l0) g1 (Demo.fits l1) rfl rfl rfl Demo.metadata_kept h5 (by omega)).1 Demo.ap_sat
  · exact (C40_round_trip (lib := Demo.lib) (tag := 16) Demo.curveF rfl (by decide) Demo.codecs_lawful Demo.symmetric_lawful hw
      (by decide) rfl h1 (Demo.fits l0) g2 (Demo.fits l3) rfl rfl rfl Demo.metadata_kept h5 (by omega)).1 Demo.apLow_sat
  · exact ((C40_round_trip (lib := Demo.lib) (tag := 16) Demo.curveF rfl (by decide) Demo.codecs_lawful Demo.symmetric_lawful hw
      (by decide) rfl h1 (Demo.fits l0) g1 (Demo.fits l1) rfl rfl rfl Demo.metadata_kept h6 (by omega)).2 Demo.ap_not_sat).2 (by decide)

/-- **C40**, refutation of "malformed input raises an error": decryption of fewer than 4 bytes raises an exception, but input
shorter than the header it announces panics. -/
theorem C40_short_input_panics (ht : 32 ≤ lib.t.bits) (kb b : Bytes) :
    (b.length < 4 → pyDecrypt lib kb b = .err .typeError) ∧
    (4 ≤ b.length → b.length < 4 + bigEndian (b.take 4) → pyDecrypt lib kb b = .panic) := by
  unfold pyDecrypt pyGetEncryptedHeaderSize
  constructor
  · intro h
    rw [if_pos h]; rfl
  · intro h4 hl
    have hb : (2:Nat) ^ 32 ≤ 2 ^ lib.t.bits := Nat.pow_le_pow_right (by decide) ht
    have hlt := (ofBe32 (b.take 4)).toNat_lt
    rw [bigEndian_eq (by simpa using h4)] at hl
    rw [if_neg (by omega), slice, if_pos ⟨by omega, h4⟩, Res.ok_bind, List.drop_zero]
    simp only [Res.ok_bind]
    unfold Target.uadd Target.modulus
    by_cases hov : 4 + (ofBe32 (b.take 4)).toNat < 2 ^ lib.t.bits
    · rw [if_pos hov, Res.ok_bind, slice, if_neg (by omega)]
      rfl
    · rw [if_neg hov]
      split
      · rfl
      · have : (4 + (ofBe32 (b.take 4)).toNat) % 2 ^ lib.t.bits < 4 := by
          rw [Nat.mod_eq_sub_mod (by omega), Nat.mod_eq_of_lt (by omega)]
          omega
        rw [Res.ok_bind, slice, if_neg (by omega)]
        rfl

/-- **C40**, refutation on messages made by the one-shot encryption: cut anywhere inside the header (after the first 4 bytes),
they make decryption panic, whatever the key. -/
theorem C40_cut_message_panics (ht : 32 ≤ lib.t.bits) {mdB polB' attB pub plain ct : Bytes} {random : T} {s : K} {n n' : Nonce}
    {sk hd : Bytes} (hhd : pyEncryptHybridHeader lib mdB polB' attB pub random s n = .ok (sk, hd))
    (henc : pyEncrypt lib mdB polB' attB pub plain random s n n' = .ok ct) (hlen : ct.length < 2 ^ 32) {k : Nat} (h4 : 4 ≤ k)
    (hk : k < 4 + hd.length) (kb : Bytes) : pyDecrypt lib kb (ct.take k) = .panic := by
  unfold pyEncrypt at henc
  obtain ⟨m, _, henc⟩ := Res.bind_eq_ok.1 henc
  rw [hhd, Res.ok_bind] at henc
  obtain ⟨block, _, henc⟩ := Res.bind_eq_ok.1 henc
  simp only [Res.ok.injEq] at henc
  subst henc
  have hl : (be32 hd.length.toUInt32 ++ hd ++ block).length = 4 + hd.length + block.length := by
    simp [be32]; omega
  have hh : hd.length < 2 ^ 32 := by omega
  have htake : ((be32 hd.length.toUInt32 ++ hd ++ block).take k).take 4 = be32 hd.length.toUInt32 := by
    rw [List.take_take, min_eq_left h4, List.append_assoc, List.take_left' (be32_length _)]
  refine (C40_short_input_panics ht kb _).2 (by rw [List.length_take]; omega) ?_
  rw [htake, bigEndian_be32, toNat_toUInt32 hh, List.length_take]
  omega

/-- The demo message for `[low, hr]`: cut after 200 bytes, inside the header. -/
example : ∃ ct, (∃ pub, pyEncrypt Demo.lib [1] [1] [1] pub [42, 43] 5 7 Demo.nonce Demo.nonce = .ok ct) ∧
    pyDecrypt Demo.lib [] (ct.take 200) = .panic := by
  obtain ⟨mk, kb, kb1, kb2, ct, ct', h1, g1, g2, h5, h6, l0, l1, l2, l3, l4, l5⟩ := Demo.pyRun_ok
  refine ⟨ct, ⟨_, h5⟩, ?_⟩
  have h := h5
  unfold pyEncrypt at h
  obtain ⟨m, _, h⟩ := Res.bind_eq_ok.1 h
  obtain ⟨⟨sk, hd⟩, hh, h⟩ := Res.bind_eq_ok.1 h
  have hw := reachable_wf Demo.policy_reachable
  refine C40_cut_message_panics (lib := Demo.lib) (by decide) hh h5 (by omega) (by decide) ?_ []
  obtain ⟨mk', hmk', _, hpub, _⟩ := pyMaster (lib := Demo.lib) Demo.curveF rfl Demo.codecs_lawful (by decide) (by decide)
    (p := Demo.policy) rfl h1 (Demo.fits l0)
  unfold pyEncryptHybridHeader at hh
  rw [hpub] at hh
  obtain ⟨x, hx, hh⟩ := Res.bind_eq_ok.1 hh
  obtain ⟨pl, hpl, hh⟩ := Res.bind_eq_ok.1 hh
  obtain ⟨at', hat, hh⟩ := Res.bind_eq_ok.1 hh
  rw [py_ok] at hh
  obtain ⟨pk, hpk, hh⟩ := Res.bind_eq_ok.1 hh
  obtain rfl : mk'.pubKey = pk := by simpa using hpk
  rw [pyArg_eq_ok] at hx hpl hat
  obtain rfl : Demo.metadata = x := by simpa [Demo.lib, Demo.serde] using hx
  obtain rfl : Demo.policy = pl := by simpa [Demo.lib, Demo.serde] using hpl
  obtain rfl : [Demo.low, Demo.hr] = at' := by simpa [Demo.lib, Demo.serde] using hat
  obtain ⟨r, hr, hh⟩ := Res.bind_eq_ok.1 hh
  simp only [Res.ok.injEq, Prod.mk.injEq] at hh
  have := (C36_length (e := Demo.symmetric) (tag := 16) (cs := Demo.codecs) Demo.curveF Demo.codecs_lawful Demo.symmetric_lawful hw hmk'
    (by decide) (py_eq_ok.1 hr)).2 _ rfl _ (show Demo.symmetric.metaEnc Demo.metadata = .ok [0, 0, 0, 4, 1, 2, 3, 4, 9, 8] by decide)
  rw [← hh.2, this]
  decide

/-! ### C52, Python part -/

/-- **C52**, Python: the announced header size, or an exception for fewer than 4 bytes; never a panic. -/
theorem C52_python (b : Bytes) :
    (b.length < 4 → pyGetEncryptedHeaderSize b = .err .typeError) ∧
    (4 ≤ b.length → ∃ n, pyGetEncryptedHeaderSize b = .ok n ∧ n.toNat = bigEndian (b.take 4)) := by
  unfold pyGetEncryptedHeaderSize
  constructor
  · intro h; rw [if_pos h]
  · intro h
    rw [if_neg (by omega), slice, if_pos ⟨by omega, h⟩, Res.ok_bind, List.drop_zero]
    exact ⟨_, rfl, (bigEndian_eq (by simpa using h)).symm⟩

example : (∃ n, pyGetEncryptedHeaderSize [0, 0, 1, 2, 9] = .ok n ∧ n.toNat = 258) ∧
    pyGetEncryptedHeaderSize [0, 0, 1] = .err .typeError :=
  ⟨(C52_python [0, 0, 1, 2, 9]).2 (by decide), (C52_python [0, 0, 1]).1 (by decide)⟩

/-! ### C50 -/

/-- Adding a list of axes through the Python interface. -/
theorem addAxes_ok {axes : List PolicyAxis} {p p' : Policy} (hr : p.Reachable)
    (hs : p.Spelled) (ha : ∀ ax ∈ axes, ∀ n ∈ ax.attributes, Attribute.Spelled ⟨ax.name, n⟩)
    (h : foldRes (fun p ax => pyArg (p.addAxis ax)) p axes = .ok p') :
    p'.Reachable ∧ p'.maxAttributeCreations = p.maxAttributeCreations ∧ p'.Spelled := by
  induction axes generalizing p with
  | nil =>
    simp only [foldRes, Res.ok.injEq] at h
    subst h; exact ⟨hr, rfl, hs⟩
  | cons ax axes ih =>
    rw [foldRes] at h
    obtain ⟨p1, h1, h⟩ := Res.bind_eq_ok.1 h
    rw [pyArg_eq_ok] at h1
    have hx := addAxis_spec (reachable_wf hr) h1
    obtain ⟨g1, g2, g3⟩ := ih (.addAxis ax hr h1) (fun a h => by
      rcases (hx.2.2.2.1 a).1 h with h | ⟨e, h⟩
      · exact hs a h
      · have := ha ax (by simp) a.name h
        rwa [← e] at this) (fun ax' h' => ha ax' (by simp [h'])) h
    exact ⟨g1, by rw [g2, hx.2.1], g3⟩

/-- **C50.** The policy created with budget `max` has the budget `max` modulo `2 ^ 32` (and is reachable): the budget is kept
below `2 ^ 32`, and silently changed from `2 ^ 32` on. -/
theorem C50_budget {serde : Serde} (hs : serde.KeepsPolicies) {axesB out : Bytes} {max : Nat}
    (ha : ∀ axes, serde.axesDec axesB = some axes → ∀ ax ∈ axes, ∀ n ∈ ax.attributes, Attribute.Spelled ⟨ax.name, n⟩)
    (h : pyGeneratePolicy serde axesB max = .ok out) :
    ∃ p, serde.policyDec out = some p ∧ p.Reachable ∧ p.maxAttributeCreations.toNat = max % 2 ^ 32 ∧
      (max < 2 ^ 32 → p.maxAttributeCreations.toNat = max) ∧ (2 ^ 32 ≤ max → p.maxAttributeCreations.toNat ≠ max) := by
  unfold pyGeneratePolicy at h
  obtain ⟨axes, h1, h⟩ := Res.bind_eq_ok.1 h
  obtain ⟨p, h2, h⟩ := Res.bind_eq_ok.1 h
  rw [pyArg_eq_ok] at h
  rw [pyArg_eq_ok] at h1
  obtain ⟨g1, g2, g3⟩ := addAxes_ok (.new _) (fun a ⟨_, _, h, _⟩ => by simp [Policy.new, hget] at h) (ha axes h1) h2
  have hm : p.maxAttributeCreations.toNat = max % 2 ^ 32 := by rw [g2]; simp [Policy.new]
  obtain ⟨q, q1, q2⟩ := hs p out g1 g3 h
  rw [← q2.max] at hm
  refine ⟨q, q1, .reorder g1 q2, hm, fun hlt => by rw [hm, Nat.mod_eq_of_lt hlt], fun hge => ?_⟩
  rw [hm]
  have := Nat.mod_lt max (by decide : 2 ^ 32 > 0)
  omega

/-- **C50**, refutation of "a budget is kept or refused": with `max + 2 ^ 32` the outcome is the same as with `max`. -/
theorem C50_wraps (serde : Serde) (axesB : Bytes) (max : Nat) :
    pyGeneratePolicy serde axesB (max + 2 ^ 32) = pyGeneratePolicy serde axesB max := by
  unfold pyGeneratePolicy
  have : (max + 2 ^ 32).toUInt32 = max.toUInt32 := by
    apply UInt32.toNat_inj.1
    simp
  rw [this]

/-- The demo policy, created with budgets `8` and `8 + 2 ^ 32`. -/
example : pyGeneratePolicy Demo.serde [1] 8 = .ok [1] ∧ pyGeneratePolicy Demo.serde [1] (8 + 2 ^ 32) = .ok [1] ∧
    ∃ p, Demo.serde.policyDec [1] = some p ∧ p.maxAttributeCreations.toNat ≠ 8 + 2 ^ 32 := by
  have h8 : pyGeneratePolicy Demo.serde [1] 8 = .ok [1] := by decide +kernel
  have h := C50_wraps Demo.serde [1] 8
  rw [h8] at h
  obtain ⟨p, h1, _, _, _, h2⟩ := C50_budget Demo.serde_keeps Demo.axes_spelled h
  exact ⟨h8, h, p, h1, h2 (by omega)⟩

/-! ### C53, Python part -/

/-- Rotating a list of attributes. -/
theorem rotateAll {l : List Attribute} {p : Policy} :
    (∀ p', foldRes (fun p a => pyArg (p.rotate a)) p l = .ok p' ↔ Policy.Rotations p l p') ∧
    ((¬ ∃ p', Policy.Rotations p l p') → foldRes (fun p a => pyArg (p.rotate a)) p l = .err .typeError) := by
  induction l generalizing p with
  | nil =>
    constructor
    · intro p'
      simp only [foldRes, Res.ok.injEq]
      constructor
      · rintro rfl; exact .nil _
      · intro h; cases h; rfl
    · intro h; exact absurd ⟨p, .nil p⟩ h
  | cons a l ih =>
    rw [foldRes]
    cases hr : p.rotate a with
    | none =>
      rw [pyArg_none, Res.err_bind]
      refine ⟨fun p' => ⟨fun h => by simp at h, ?_⟩, fun _ => rfl⟩
      intro h
      cases h with
      | cons h1 _ => rw [hr] at h1; simp at h1
    | some p1 =>
      rw [pyArg_some, Res.ok_bind]
      constructor
      · intro p'
        rw [(ih (p := p1)).1 p']
        constructor
        · exact .cons hr
        · intro h
          cases h with
          | cons h1 h2 =>
            rw [hr] at h1
            simp only [Option.some.injEq] at h1
            subst h1; exact h2
      · intro h
        exact (ih (p := p1)).2 fun ⟨p', hp'⟩ => h ⟨p', .cons hr hp'⟩

/-- **C53**, list of rotations through Python: all of them are applied, or an exception is raised and there is no output. -/
theorem C53_python_rotations {serde : Serde} (hs : serde.KeepsPolicies) {attB polB : Bytes} {atts : List Attribute} {p : Policy}
    (hatt : serde.attributesDec attB = some atts) (hpol : serde.policyDec polB = some p) (hr : p.Reachable) (hsp : p.Spelled) :
    (∀ out, pyRotateAttributes serde attB polB = .ok out →
      ∃ p' q, Policy.Rotations p atts p' ∧ serde.policyDec out = some q ∧ p'.Reorders q) ∧
    ((¬ ∃ p', Policy.Rotations p atts p') → pyRotateAttributes serde attB polB = .err .typeError) := by
  unfold pyRotateAttributes
  rw [hatt, hpol, pyArg_some, pyArg_some, Res.ok_bind, Res.ok_bind]
  constructor
  · intro out h
    obtain ⟨p', h1, h⟩ := Res.bind_eq_ok.1 h
    have h2 := (rotateAll.1 p').1 h1
    obtain ⟨q, h3, h4⟩ := hs p' out (rotations_reachable h2 hr) (rotations_spelled h2 (reachable_wf hr) hsp) (pyArg_eq_ok.1 h)
    exact ⟨p', q, h2, h3, h4⟩
  · intro h
    rw [rotateAll.2 h]; rfl

/-- The demo policy: rotating `HR` gives the rotated policy; nothing is output for an unknown attribute. -/
example : (∃ p' q, Policy.Rotations Demo.policy [Demo.hr] p' ∧ Demo.serde.policyDec [2] = some q ∧ p'.Reorders q) ∧
    pyRotateAttributes { Demo.serde with attributesDec := fun _ => some [Demo.hr, ⟨"Dpt", "IT"⟩] } [] [1] = .err .typeError := by
  refine ⟨(C53_python_rotations Demo.serde_keeps (attB := [3]) (polB := [1]) rfl rfl Demo.policy_reachable Demo.policy_spelled).1 [2] (by decide +kernel), ?_⟩
  refine (C53_python_rotations (serde := { Demo.serde with attributesDec := fun _ => some [Demo.hr, ⟨"Dpt", "IT"⟩] })
    Demo.serde_keeps rfl rfl Demo.policy_reachable Demo.policy_spelled).2 ?_
  rintro ⟨p', h⟩
  cases h with
  | cons h1 h2 =>
    cases h2 with
    | cons h3 h4 =>
      have : Demo.policy.rotate Demo.hr = some Demo.rotated := by decide +kernel
      rw [this] at h1
      simp only [Option.some.injEq] at h1
      subst h1
      have : Demo.rotated.rotate ⟨"Dpt", "IT"⟩ = none := by decide +kernel
      rw [this] at h3
      simp at h3

end Abe
