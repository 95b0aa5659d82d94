import Verif.Props.Py
import Verif.Proofs.Wasm

/-!
# The JavaScript interface

Properties C57 to C60, and the JavaScript part of C51, C52 and C53.
-/

namespace Abe

set_option linter.unusedSectionVars false

variable {K P Q QP T Key Nonce : Type} [Field K] [DecidableEq K] [AddCommGroup P] [Module K P] [AddCommGroup Q] [Module K Q]
  [AddCommGroup T] [Module K T]
variable {lib : Lib K QP P Q T Key Nonce} {tag : Nat} {p : Policy} {rnd : Nat → K} {y : K}

/-! ### C51 -/

/-- **C51**, JavaScript: for every generated key pair, the packaged keys, split at the length found in their first 4 bytes, decode to
the private and the public key. -/
theorem C51_js_master_keys (c : Curve K P Q QP T) (hbm : lib.bm = bls c) (ht : 32 ≤ lib.t.bits) (hcs : lib.cs.Lawful)
    (h0 : p.maxAttributeCreations ≠ 0) (hmax : p.maxAttributeCreations.toNat < 2 ^ 32 - 1) {polB : Bytes}
    (hp : lib.serde.policyDec polB = some p) {mk : MasterKey K P Q T} (hmk : engineGenerateMasterKey (bls c) p rnd y = .ok mk) :
    ∃ b, jsGenerateMasterKeys lib polB rnd y = .ok b ∧
      (b.length < 2 ^ 32 → 4 + bigEndian (b.take 4) ≤ b.length ∧
        (privKeyCodec lib.t lib.cs).dec ((b.drop 4).take (bigEndian (b.take 4))) = .ok mk.privKey ∧
        (pubKeyCodec lib.t lib.cs).dec (b.drop (4 + bigEndian (b.take 4))) = .ok mk.pubKey) := by
  obtain ⟨⟨priv, e1, _, d1⟩, ⟨pub, e2, _, d2⟩, _⟩ := C24_generated_keys_round_trip (t := lib.t) hcs c hmk h0 hmax
  refine ⟨be32 priv.length.toUInt32 ++ priv ++ pub, ?_, fun hl => ?_⟩
  · unfold jsGenerateMasterKeys
    rw [hp, jsArg_some, Res.ok_bind, hbm, hmk, js_ok, Res.ok_bind, e1, js_ok, Res.ok_bind, e2, js_ok, Res.ok_bind]
  · simp only [List.length_append, be32_length] at hl
    have e3 : bigEndian ((be32 priv.length.toUInt32 ++ priv ++ pub).take 4) = priv.length := by
      rw [List.append_assoc, List.take_left' (be32_length _), bigEndian_be32, toNat_toUInt32 (by omega)]
    rw [e3]
    refine ⟨by simp only [List.length_append, be32_length]; omega, ?_, ?_⟩
    · rw [List.append_assoc, List.drop_left' (be32_length _), List.take_left' rfl]
      have := d1 []
      rw [List.append_nil] at this
      exact this (fits32 ht (by omega))
    · rw [List.drop_left' (by rw [List.length_append, be32_length])]
      have := d2 []
      rw [List.append_nil] at this
      exact this (fits32 ht (by omega))

/-! ### C57 -/

/-- The parts of the packaged master keys. -/
theorem jsMaster (c : Curve K P Q QP T) (hbm : lib.bm = bls c) (ht : 32 ≤ lib.t.bits) (hcs : lib.cs.Lawful)
    (h0 : p.maxAttributeCreations ≠ 0) (hmax : p.maxAttributeCreations.toNat < 2 ^ 32 - 1) {polB mb : Bytes}
    (hp : lib.serde.policyDec polB = some p) (hmb : jsGenerateMasterKeys lib polB rnd y = .ok mb) (hl : mb.length < 2 ^ 32) :
    ∃ mk, engineGenerateMasterKey (bls c) p rnd y = .ok mk ∧
      (privKeyCodec lib.t lib.cs).dec ((mb.drop 4).take (bigEndian (mb.take 4))) = .ok mk.privKey ∧
      (pubKeyCodec lib.t lib.cs).dec (mb.drop (4 + bigEndian (mb.take 4))) = .ok mk.pubKey := by
  have hmb' := hmb
  unfold jsGenerateMasterKeys at hmb'
  rw [hp, jsArg_some, Res.ok_bind, hbm] at hmb'
  obtain ⟨mk, h1, _⟩ := Res.bind_eq_ok.1 hmb'
  rw [js_eq_ok] at h1
  obtain ⟨b, h2, h3⟩ := C51_js_master_keys c hbm ht hcs h0 hmax hp h1
  rw [hmb, Res.ok.injEq] at h2
  subst h2
  exact ⟨mk, h1, (h3 hl).2⟩

/-- The parts of an encrypted header returned to JavaScript. -/
theorem jsEncryptHeader_inv {polB pub : Bytes} {pk : MasterPublicKey P T} {attributes : String} {atts : List Attribute} {uid hb : Bytes}
    {random : T} {s : K} {n : Nonce} (hpol : lib.serde.policyDec polB = some p)
    (hpub : (pubKeyCodec lib.t lib.cs).dec pub = .ok pk) (hatt : lib.serde.attributesParse attributes = some atts)
    (h : jsEncryptHybridHeader lib polB pub attributes uid random s n = .ok hb) :
    ∃ hd, encryptHybridHeader lib.e lib.bm lib.cs lib.t p pk atts (some ⟨uid, none⟩) random s n = .ok hd ∧
      hb = be32 lib.e.keyLen.toUInt32 ++ lib.e.keyEnc hd.symmetricKey ++ hd.encryptedHeaderBytes := by
  unfold jsEncryptHybridHeader at h
  split at h; · simp at h
  split at h; · simp at h
  split at h; · simp at h
  split at h; · simp at h
  rw [hpol, jsArg_some, Res.ok_bind, hpub, js_ok, Res.ok_bind] at h
  unfold jsEncryptHeaderWith at h
  rw [hatt, jsArg_some, Res.ok_bind] at h
  obtain ⟨hd, h1, h⟩ := Res.bind_eq_ok.1 h
  rw [js_eq_ok] at h1 h
  unfold EncryptedHeader.tryIntoBytes at h
  rw [Res.ok.injEq] at h
  exact ⟨hd, h1, h.symm⟩

/-- **C57.** Keys and a header made by calls from JavaScript with the same policy, the header split at the length found in its first 4
bytes into a symmetric key and the header proper: decryption of the header proper gives the same symmetric key, and the identifier, if the
attributes satisfy the access policy; otherwise it gives nothing, and an error if there is some attribute. -/
theorem C57_round_trip (c : Curve K P Q QP T) (hbm : lib.bm = bls c) (ht : 32 ≤ lib.t.bits) (hcs : lib.cs.Lawful)
    (he : lib.e.Lawful tag) (hw : p.WF) (hmax : p.maxAttributeCreations.toNat < 2 ^ 32 - 1)
    {polB polB' polB'' mb kb hb uid : Bytes} {access attributes : String} {ap : AccessPolicy} {atts : List Attribute} {rnd' : Nat → K}
    {random : T} {s : K} {n : Nonce}
    (hpol : lib.serde.policyDec polB = some p) (hpol' : lib.serde.policyDec polB' = some p) (hpol'' : lib.serde.policyDec polB'' = some p)
    (hap : lib.serde.accessPolicyParse access = some ap) (hatt : lib.serde.attributesParse attributes = some atts)
    (hmb : jsGenerateMasterKeys lib polB rnd y = .ok mb) (hml : mb.length < 2 ^ 32)
    (hkb : jsGenerateUserPrivateKey lib ((mb.drop 4).take (bigEndian (mb.take 4))) access polB' rnd' = .ok kb)
    (hkl : kb.length < lib.t.modulus) (hkeep : lib.e.Keeps ⟨uid, none⟩)
    (hhb : jsEncryptHybridHeader lib polB'' (mb.drop (4 + bigEndian (mb.take 4))) attributes uid random s n = .ok hb) :
    bigEndian (hb.take 4) = lib.e.keyLen ∧ ((hb.drop 4).take lib.e.keyLen).length = lib.e.keyLen ∧
    (ap.Sat p (· ∈ atts) → ∃ cb m, jsDecryptHybridHeader lib kb (hb.drop (4 + lib.e.keyLen)) = .ok cb ∧
      cb = hb.take (4 + lib.e.keyLen) ++ m ∧ lib.e.metaDec m = .ok ⟨uid, none⟩) ∧
    (¬ ap.Sat p (· ∈ atts) → (∀ x, jsDecryptHybridHeader lib kb (hb.drop (4 + lib.e.keyLen)) ≠ .ok x) ∧
      (atts ≠ [] → jsDecryptHybridHeader lib kb (hb.drop (4 + lib.e.keyLen)) = .err .error)) := by
  have hkb' := hkb
  unfold jsGenerateUserPrivateKey at hkb'
  rw [hpol', jsArg_some, hap, jsArg_some] at hkb'
  obtain ⟨priv, k1, hkb'⟩ := Res.bind_eq_ok.1 hkb'
  rw [Res.ok_bind, Res.ok_bind, hbm] at hkb'
  obtain ⟨key, k2, k3⟩ := Res.bind_eq_ok.1 hkb'
  rw [js_eq_ok] at k1 k2 k3
  have h0 : p.maxAttributeCreations ≠ 0 := by
    intro h0
    have hno : ∀ b, ¬ p.Known b := by
      intro b hb
      obtain ⟨v, _, hv⟩ := Policy.currentValue_known hw hb
      have h1 := hw.range v ((Policy.mem_allValues hw).2 ⟨b, hv⟩)
      have h2 := hw.budget
      rw [h0] at h2
      simp at h2
      omega
    have h1 := k2
    unfold engineGenerateUserKey at h1
    obtain ⟨m, hm, _⟩ := Res.bind_eq_ok.1 h1
    rcases policyToMsp_spec hw ap with ⟨_, m', F, g1, g2, g3⟩ | ⟨_, e, g1⟩
    · obtain ⟨v, hv⟩ : ∃ v, v ∈ F.leaves := by
        cases hF : F.leaves with
        | nil => exact absurd hF F.leaves_ne_nil
        | cons v l => exact ⟨v, by simp⟩
      obtain ⟨b, _, hb⟩ := (g3.leaves v).1 hv
      exact hno b (hb.known hw)
    · rw [hm] at g1; simp at g1
  obtain ⟨mk, hmk, hd1, hd2⟩ := jsMaster c hbm ht hcs h0 hmax hpol hmb hml
  rw [hd1, Res.ok.injEq] at k1
  subst k1
  have hk : UserKey c p mk ap key := .generate rnd' k2
  have hkd : (userKeyCodec lib.t lib.cs (bls c)).dec kb = .ok key := by
    have hn := hk.nbRow_le hw hmk
    obtain ⟨b, h1, _, h3⟩ := C25_user_key_round_trip (t := lib.t) hcs c hk.obtained (by omega)
    rw [k3, Res.ok.injEq] at h1
    subst h1
    have := h3 []
    rw [List.append_nil] at this
    exact this hkl
  obtain ⟨hd, h1, rfl⟩ := jsEncryptHeader_inv hpol'' hd2 hatt hhb
  have hkey := he.keyEnc_length hd.symmetricKey
  have hlen := he.keyLen_lt
  have hhead : (be32 lib.e.keyLen.toUInt32 ++ lib.e.keyEnc hd.symmetricKey).length = 4 + lib.e.keyLen := by
    rw [List.length_append, be32_length, hkey]
  rw [hbm] at h1
  have hdrop : (be32 lib.e.keyLen.toUInt32 ++ lib.e.keyEnc hd.symmetricKey ++ hd.encryptedHeaderBytes).drop (4 + lib.e.keyLen) =
      hd.encryptedHeaderBytes := List.drop_left' hhead
  refine ⟨?_, ?_, ?_, ?_⟩
  · rw [List.append_assoc, List.take_left' (be32_length _), bigEndian_be32, toNat_toUInt32 hlen]
  · rw [List.append_assoc, List.drop_left' (be32_length _), List.take_left' hkey, hkey]
  · intro hsat
    rw [hdrop, List.take_left' hhead]
    obtain ⟨m, hm1, hm2⟩ := hkeep
    have hdec := C35_header_round_trip (t' := lib.t) c ht hcs he hw hmk hk (md := some ⟨uid, none⟩)
      (by intro m' hm'; cases hm'; exact ⟨m, hm1, hm2⟩) h1 hsat
    refine ⟨_, m, ?_, rfl, hm2⟩
    have ne1 : ¬ hd.encryptedHeaderBytes.length < 4 := by
      intro e
      rw [(C39_framing (e := lib.e) (cs := lib.cs) (t := lib.t) (bm := bls c) (key := key)).1 e] at hdec
      simp at hdec
    have ne2 : ¬ kb.length = 0 := by
      intro h
      rw [List.length_eq_zero_iff] at h
      subst h
      simp [userKeyCodec] at hkd
    unfold jsDecryptHybridHeader
    rw [if_neg ne2, if_neg ne1, hbm, hkd, js_ok, Res.ok_bind]
    unfold jsDecryptHeaderWith
    rw [hbm, hdec, js_ok, Res.ok_bind]
    unfold ClearTextHeader.tryIntoBytes
    dsimp only [Option.getD_some]
    rw [hm1, Res.ok_bind, js_ok]
  · intro hsat
    rw [hdrop]
    obtain ⟨h4, h5⟩ := C39_unauthorised (t' := lib.t) c ht hcs hw hmk hk h1 hsat
    unfold jsDecryptHybridHeader
    constructor
    · intro x
      split; · simp
      split; · simp
      intro hx
      rw [hbm, hkd, js_ok, Res.ok_bind] at hx
      unfold jsDecryptHeaderWith at hx
      obtain ⟨r, hr, _⟩ := Res.bind_eq_ok.1 hx
      rw [hbm] at hr
      exact h4 r (js_eq_ok.1 hr)
    · intro hne
      split; · rfl
      split; · rfl
      rw [hbm, hkd, js_ok, Res.ok_bind]
      unfold jsDecryptHeaderWith
      rw [hbm, (js_eq_err (z := .error)).2 (h5 hne)]
      rfl

/-- A ciphertext needs 288 bytes. -/
theorem cipherText_dec_short {t : Target} {cs : Codecs K P Q T} (hcs : cs.Lawful) {b : Bytes} (hb : b.length < 288) (x : CipherText P T) :
    (cipherTextCodec t cs).dec b ≠ .ok x := by
  intro h
  simp only [cipherTextCodec] at h
  obtain ⟨g, _, h⟩ := Res.bind_eq_ok.1 h
  obtain ⟨r, _, h⟩ := Res.bind_eq_ok.1 h
  obtain ⟨eI, _, h⟩ := Res.bind_eq_ok.1 h
  obtain ⟨r', h1, h⟩ := Res.bind_eq_ok.1 h
  obtain ⟨ep, h2, _⟩ := Res.bind_eq_ok.1 h
  unfold sliceFrom at h1
  split at h1
  · rw [Res.ok.injEq] at h1
    obtain ⟨z, hz⟩ := hcs.gt.short r' (by rw [← h1, List.length_drop]; omega)
    rw [hz] at h2
    simp at h2
  · simp at h1

/-- **C57**, the header must be split: given the whole result of header encryption, header decryption never succeeds, whatever the key
and the attributes. -/
theorem C57_whole_output (hcs : lib.cs.Lawful) (he : lib.e.Lawful tag) (hk : lib.e.keyLen = 32)
    {polB pub kb hb uid : Bytes} {attributes : String} {random : T} {s : K} {n : Nonce}
    (hhb : jsEncryptHybridHeader lib polB pub attributes uid random s n = .ok hb) (x : Bytes) :
    jsDecryptHybridHeader lib kb hb ≠ .ok x := by
  intro h
  have hhb' := hhb
  unfold jsEncryptHybridHeader at hhb'
  split at hhb'; · simp at hhb'
  split at hhb'; · simp at hhb'
  split at hhb'; · simp at hhb'
  split at hhb'; · simp at hhb'
  obtain ⟨p', hp', hhb'⟩ := Res.bind_eq_ok.1 hhb'
  obtain ⟨pk, hpk, hhb'⟩ := Res.bind_eq_ok.1 hhb'
  unfold jsEncryptHeaderWith at hhb'
  obtain ⟨atts, hatts, _⟩ := Res.bind_eq_ok.1 hhb'
  obtain ⟨hd, _, rfl⟩ := jsEncryptHeader_inv (jsArg_eq_ok.1 hp') (js_eq_ok.1 hpk) (jsArg_eq_ok.1 hatts) hhb
  have hkey := he.keyEnc_length hd.symmetricKey
  unfold jsDecryptHybridHeader at h
  split at h; · simp at h
  split at h; · simp at h
  obtain ⟨key, _, h⟩ := Res.bind_eq_ok.1 h
  unfold jsDecryptHeaderWith at h
  obtain ⟨ch, h1, _⟩ := Res.bind_eq_ok.1 h
  rw [js_eq_ok] at h1
  have e1 : be32 lib.e.keyLen.toUInt32 = be32 (lib.e.keyEnc hd.symmetricKey).length.toUInt32 := by rw [hkey]
  rw [e1, decryptHybridHeader_frame (by rw [hkey]; exact he.keyLen_lt)] at h1
  obtain ⟨k2, h2, _⟩ := Res.bind_eq_ok.1 h1
  unfold decryptSymmetricKey at h2
  obtain ⟨ct, h3, _⟩ := Res.bind_eq_ok.1 h2
  exact cipherText_dec_short hcs (by rw [hkey, hk]; decide) ct h3

/-! ### C52, C53 -/

/-- **C52**, JavaScript: the announced header size, or an error for fewer than 4 bytes; never a panic. -/
theorem C52_js (b : Bytes) :
    (b.length < 4 → jsGetEncryptedHeaderSize b = .err .error) ∧
    (4 ≤ b.length → ∃ n, jsGetEncryptedHeaderSize b = .ok n ∧ n.toNat = bigEndian (b.take 4)) := by
  unfold jsGetEncryptedHeaderSize
  constructor
  · intro h; rw [if_pos h]
  · intro h
    rw [if_neg (by omega), slice, if_pos ⟨by omega, h⟩, Res.ok_bind, List.drop_zero]
    exact ⟨_, rfl, (bigEndian_eq (by simpa using h)).symm⟩

example : (∃ n, jsGetEncryptedHeaderSize [0, 0, 1, 2, 9] = .ok n ∧ n.toNat = 258) ∧
    jsGetEncryptedHeaderSize [0, 0, 1] = .err .error :=
  ⟨(C52_js [0, 0, 1, 2, 9]).2 (by decide), (C52_js [0, 0, 1]).1 (by decide)⟩

/-- A list of rotations. -/
theorem jsRotateAll {p : Policy} {l : List Attribute} :
    (∀ p', foldRes (fun p a => jsArg (p.rotate a)) p l = .ok p' ↔ Policy.Rotations p l p') ∧
    ((¬ ∃ p', Policy.Rotations p l p') → foldRes (fun p a => jsArg (p.rotate a)) p l = .err .error) := by
  induction l generalizing p with
  | nil =>
    constructor
    · intro p'
      simp only [foldRes, Res.ok.injEq]
      constructor
      · rintro rfl; exact .nil _
      · intro h; cases h; rfl
    · intro h; exact absurd ⟨p, .nil p⟩ h
  | cons a l ih =>
    rw [foldRes]
    cases hr : p.rotate a with
    | none =>
      rw [jsArg_none, Res.err_bind]
      refine ⟨fun p' => ⟨fun h => by simp at h, ?_⟩, fun _ => rfl⟩
      intro h
      cases h with
      | cons h1 _ => rw [hr] at h1; simp at h1
    | some p1 =>
      rw [jsArg_some, Res.ok_bind]
      constructor
      · intro p'
        rw [(ih (p := p1)).1 p']
        constructor
        · exact .cons hr
        · intro h
          cases h with
          | cons h1 h2 =>
            rw [hr] at h1
            simp only [Option.some.injEq] at h1
            subst h1; exact h2
      · intro h
        exact (ih (p := p1)).2 fun ⟨p', hp'⟩ => h ⟨p', .cons hr hp'⟩

/-- **C53**, list of rotations from JavaScript: all of them are applied, or an error is returned. -/
theorem C53_js_rotations {serde : Serde} (hs : serde.KeepsPolicies) {attB polB : Bytes} {atts : List Attribute} {p : Policy}
    (hatt : serde.attributesDec attB = some atts) (hpol : serde.policyDec polB = some p) (hr : p.Reachable) (hsp : p.Spelled) :
    (∀ p' b, Policy.Rotations p atts p' → serde.policyEnc p' = some b →
      jsRotateAttributes serde attB polB = .ok b ∧ ∃ q, serde.policyDec b = some q ∧ p'.Reorders q) ∧
    ((¬ ∃ p', Policy.Rotations p atts p') → jsRotateAttributes serde attB polB = .err .error) := by
  unfold jsRotateAttributes
  rw [hatt, hpol, jsArg_some, jsArg_some, Res.ok_bind, Res.ok_bind]
  constructor
  · intro p' b h1 h2
    refine ⟨?_, hs p' b (rotations_reachable h1 hr) (rotations_spelled h1 (reachable_wf hr) hsp) h2⟩
    rw [(jsRotateAll.1 p').2 h1, Res.ok_bind, h2]
  · intro h
    rw [jsRotateAll.2 h]; rfl

/-- The demo policy: rotating `HR` gives the rotated policy. -/
example : jsRotateAttributes Demo.serde [3] [1] = .ok [2] ∧ ∃ q, Demo.serde.policyDec [2] = some q ∧ Demo.rotated.Reorders q :=
  (C53_js_rotations Demo.serde_keeps (attB := [3]) (polB := [1]) rfl rfl Demo.policy_reachable Demo.policy_spelled).1 Demo.rotated [2] Demo.rotations rfl

/-! ### C58 -/

/-- **C58**, encryption: after the creation of a cache returned a handle, and any calls without panic nor destruction of this handle, with
at most `2 ^ 32` creations overall, encryption with the handle has the result of the uncached call with the bytes given at the creation. -/
theorem C58_encryption_handle {L1 L2 : List (JsCall K T Nonce)} {polB pub : Bytes} {h : Int32} {st : JsState K QP P Q T}
    (hc : (JsCall.createEncryptionCache polB pub : JsCall K T Nonce).run lib (jsRun lib .init L1) = (.ok (.handle h), st))
    (hn : jsEncCreations L1 + 1 + jsEncCreations L2 ≤ 2 ^ 32) (hd : JsCall.destroyEncryptionCache h ∉ L2)
    (hp : JsNoPanic lib st L2) {attributes : String} (ha : attributes ≠ "") {uid : Bytes} (hu : uid ≠ []) (random : T) (s : K) (n : Nonce) :
    ((JsCall.encryptHeaderUsingCache h attributes uid random s n).run lib (jsRun lib st L2)).1 =
      JsVal.bytes <$> jsEncryptHybridHeader lib polB pub attributes uid random s n := by
  obtain ⟨m, _, hm, hnext⟩ := CAct.run_next (s := (JsState.init : JsState K QP P Q T).enc) (n := 0) rfl (L1.filterMap (JsCall.encAct lib))
  rw [creates_encActs, Nat.zero_add] at hm
  rw [← jsRun_enc] at hnext
  have hc1 : (JsVal.handle <$> ((jsRun lib .init L1).enc.create (jsPrepareEncryptionCache lib polB pub)).1) = .ok (.handle h) := congrArg Prod.fst hc
  have hc2 : ((jsRun lib .init L1).enc.create (jsPrepareEncryptionCache lib polB pub)).2 = st.enc := congrArg (fun x => x.2.enc) hc
  obtain ⟨h', hc3, e⟩ := Res.map_eq_ok.1 hc1
  obtain rfl : h' = h := by simpa using e
  obtain ⟨cache, g1, _, rfl, g4⟩ := JsCaches.create_ok hc3
  rw [hc2] at g4
  rw [hnext] at hd g4 ⊢
  have hl : st.enc.lock = .held 0 := by rw [g4]
  have hnext' : st.enc.reg.next = Int32.ofNat (m + 1) := by
    rw [g4]
    show (jsRun lib .init L1).enc.reg.next + 1 = _
    rw [hnext]
    exact int32_ofNat_add m 1
  have hg : st.enc.reg.get (Int32.ofNat m) = some cache := by
    rw [g4]
    show hget (hinsert _ _ _) _ = _
    rw [hget_hinsert, if_pos rfl]
  have hg' := CAct.run_get (i := m) (by omega) hnext' (L2.filterMap (JsCall.encAct lib)) (by rw [creates_encActs]; omega)
    (fun h => hd (destroy_encActs h)) hg
  rw [← jsRun_enc] at hg'
  show JsVal.bytes <$> (jsEncryptHeaderUsingCache lib _ attributes uid random s n (jsRun lib st L2).enc).1 = _
  unfold jsEncryptHeaderUsingCache
  rw [JsCaches.use_some (jsNoPanic_enc hp hl) hg']
  unfold jsPrepareEncryptionCache at g1
  split at g1; · simp at g1
  split at g1; · simp at g1
  rename_i n1 n2
  obtain ⟨pol, g5, g1⟩ := Res.bind_eq_ok.1 g1
  obtain ⟨pk, g6, g1⟩ := Res.bind_eq_ok.1 g1
  rw [Res.ok.injEq] at g1
  subst g1
  unfold jsEncryptHybridHeader
  rw [if_neg n1, if_neg n2, if_neg (by simpa using hu), if_neg (by simpa using ha), g5, Res.ok_bind, g6, Res.ok_bind]

/-- **C58**, decryption. -/
theorem C58_decryption_handle {L1 L2 : List (JsCall K T Nonce)} {kb : Bytes} {h : Int32} {st : JsState K QP P Q T}
    (hc : (JsCall.createDecryptionCache kb : JsCall K T Nonce).run lib (jsRun lib .init L1) = (.ok (.handle h), st))
    (hn : jsDecCreations L1 + 1 + jsDecCreations L2 ≤ 2 ^ 32) (hd : JsCall.destroyDecryptionCache h ∉ L2)
    (hp : JsNoPanic lib st L2) (header : Bytes) :
    ((JsCall.decryptHeaderUsingCache h header : JsCall K T Nonce).run lib (jsRun lib st L2)).1 =
      JsVal.bytes <$> jsDecryptHybridHeader lib kb header := by
  obtain ⟨m, _, hm, hnext⟩ := CAct.run_next (s := (JsState.init : JsState K QP P Q T).dec) (n := 0) rfl (L1.filterMap (JsCall.decAct lib))
  rw [creates_decActs, Nat.zero_add] at hm
  rw [← jsRun_dec] at hnext
  have hc1 : (JsVal.handle <$> ((jsRun lib .init L1).dec.create (jsPrepareDecryptionCache lib kb)).1) = .ok (.handle h) := congrArg Prod.fst hc
  have hc2 : ((jsRun lib .init L1).dec.create (jsPrepareDecryptionCache lib kb)).2 = st.dec := congrArg (fun x => x.2.dec) hc
  obtain ⟨h', hc3, e⟩ := Res.map_eq_ok.1 hc1
  obtain rfl : h' = h := by simpa using e
  obtain ⟨cache, g1, _, rfl, g4⟩ := JsCaches.create_ok hc3
  rw [hc2] at g4
  rw [hnext] at hd g4 ⊢
  have hl : st.dec.lock = .held 0 := by rw [g4]
  have hnext' : st.dec.reg.next = Int32.ofNat (m + 1) := by
    rw [g4]
    show (jsRun lib .init L1).dec.reg.next + 1 = _
    rw [hnext]
    exact int32_ofNat_add m 1
  have hg : st.dec.reg.get (Int32.ofNat m) = some cache := by
    rw [g4]
    show hget (hinsert _ _ _) _ = _
    rw [hget_hinsert, if_pos rfl]
  have hg' := CAct.run_get (i := m) (by omega) hnext' (L2.filterMap (JsCall.decAct lib)) (by rw [creates_decActs]; omega)
    (fun h => hd (destroy_decActs h)) hg
  rw [← jsRun_dec] at hg'
  show JsVal.bytes <$> (jsDecryptHeaderUsingCache lib _ header (jsRun lib st L2).dec).1 = _
  unfold jsDecryptHeaderUsingCache
  rw [JsCaches.use_some (jsNoPanic_dec hp hl) hg']
  unfold jsPrepareDecryptionCache at g1
  split at g1; · simp at g1
  rename_i n1
  unfold jsDecryptHybridHeader
  rw [if_neg n1, g1, Res.ok_bind]
  split
  · rename_i h4
    unfold jsDecryptHeaderWith
    rw [(C39_framing (e := lib.e) (cs := lib.cs) (t := lib.t) (bm := lib.bm) (key := cache)).1 h4]
    rfl
  · rfl

/-- **C58**, refused handles: a handle which was never returned by a creation, or not since its destruction, makes the call panic. -/
theorem C58_encryption_unknown {L1 L2 : List (JsCall K T Nonce)} {h : Int32} (hf : JsEncForgotten lib L1 h)
    (hr : ¬ JsEncReturned lib (jsRun lib .init L1) L2 h) (attributes : String) (uid : Bytes) (random : T) (s : K) (n : Nonce) :
    ((JsCall.encryptHeaderUsingCache h attributes uid random s n).run lib (jsRun lib .init (L1 ++ L2))).1 = .panic := by
  have hg : (jsRun lib .init L1).enc.reg.get h = none := by
    rcases hf with rfl | ⟨L0, rfl, hf⟩
    · rfl
    · rw [jsRun_append]
      show ((jsRun lib JsState.init L0).enc.destroy h).2.reg.get h = none
      obtain ⟨_, hf, _⟩ := Res.map_eq_ok.1 (show (fun _ => JsVal.unit) <$> ((jsRun lib JsState.init L0).enc.destroy h).1 = .ok .unit from hf)
      unfold JsCaches.destroy at hf ⊢
      rw [(JsCaches.write_ok hf).2.2]
      show hget (hremove _ _) h = none
      rw [hget_hremove, if_pos rfl]
  have hg' := CAct.run_none (L2.filterMap (JsCall.encAct lib)) hg (by
    intro l1 a l2 e ha hret
    obtain ⟨M1, c, M2, rfl, e1, e2, _⟩ := filterMap_split e
    rw [← e1, ← jsRun_enc, ← (JsCall.run_encAct e2 _).1] at hret
    cases c with
    | createEncryptionCache pol pub => exact hr ⟨M1, pol, pub, M2, rfl, hret⟩
    | destroyEncryptionCache h =>
      simp only [JsCall.encAct, Option.some.injEq] at e2; subst e2; simp [CAct.isCreate] at ha
    | encryptHeaderUsingCache =>
      simp only [JsCall.encAct, Option.some.injEq] at e2; subst e2; simp [CAct.isCreate] at ha
    | _ => simp [JsCall.encAct] at e2)
  rw [← jsRun_enc, ← jsRun_append] at hg'
  show JsVal.bytes <$> (jsEncryptHeaderUsingCache lib _ attributes uid random s n _).1 = _
  unfold jsEncryptHeaderUsingCache
  rw [JsCaches.use_none hg']
  rfl

/-- **C58**, refused handles, decryption. -/
theorem C58_decryption_unknown {L1 L2 : List (JsCall K T Nonce)} {h : Int32} (hf : JsDecForgotten lib L1 h)
    (hr : ¬ JsDecReturned lib (jsRun lib .init L1) L2 h) (header : Bytes) :
    ((JsCall.decryptHeaderUsingCache h header : JsCall K T Nonce).run lib (jsRun lib .init (L1 ++ L2))).1 = .panic := by
  have hg : (jsRun lib .init L1).dec.reg.get h = none := by
    rcases hf with rfl | ⟨L0, rfl, hf⟩
    · rfl
    · rw [jsRun_append]
      show ((jsRun lib JsState.init L0).dec.destroy h).2.reg.get h = none
      obtain ⟨_, hf, _⟩ := Res.map_eq_ok.1 (show (fun _ => JsVal.unit) <$> ((jsRun lib JsState.init L0).dec.destroy h).1 = .ok .unit from hf)
      unfold JsCaches.destroy at hf ⊢
      rw [(JsCaches.write_ok hf).2.2]
      show hget (hremove _ _) h = none
      rw [hget_hremove, if_pos rfl]
  have hg' := CAct.run_none (L2.filterMap (JsCall.decAct lib)) hg (by
    intro l1 a l2 e ha hret
    obtain ⟨M1, c, M2, rfl, e1, e2, _⟩ := filterMap_split e
    rw [← e1, ← jsRun_dec, ← (JsCall.run_decAct e2 _).1] at hret
    cases c with
    | createDecryptionCache kb => exact hr ⟨M1, kb, M2, rfl, hret⟩
    | destroyDecryptionCache h =>
      simp only [JsCall.decAct, Option.some.injEq] at e2; subst e2; simp [CAct.isCreate] at ha
    | decryptHeaderUsingCache =>
      simp only [JsCall.decAct, Option.some.injEq] at e2; subst e2; simp [CAct.isCreate] at ha
    | _ => simp [JsCall.decAct] at e2)
  rw [← jsRun_dec, ← jsRun_append] at hg'
  show JsVal.bytes <$> (jsDecryptHeaderUsingCache lib _ header _).1 = _
  unfold jsDecryptHeaderUsingCache
  rw [JsCaches.use_none hg']
  rfl

/-! ### C59 -/

/-- **C59**, encryption: once an encryption with a handle has panicked, whatever calls follow, no encryption cache can be created or
destroyed any more. -/
theorem C59_encryption_disabled {st : JsState K QP P Q T} {h : Int32} {attributes : String} {uid : Bytes} {random : T} {s : K} {n : Nonce}
    (hp : ((JsCall.encryptHeaderUsingCache h attributes uid random s n).run lib st).1 = .panic) (L : List (JsCall K T Nonce)) :
    (∀ polB pub h', ((JsCall.createEncryptionCache polB pub : JsCall K T Nonce).run lib
      (jsRun lib st (.encryptHeaderUsingCache h attributes uid random s n :: L))).1 ≠ .ok (.handle h')) ∧
    (∀ h', ((JsCall.destroyEncryptionCache h' : JsCall K T Nonce).run lib
      (jsRun lib st (.encryptHeaderUsingCache h attributes uid random s n :: L))).1 = .panic) := by
  have hs : (jsRun lib st (.encryptHeaderUsingCache h attributes uid random s n :: L)).enc.lock ≠ .held 0 := by
    show (jsRun lib ((JsCall.encryptHeaderUsingCache h attributes uid random s n).run lib st).2 L).enc.lock ≠ _
    rw [jsRun_enc]
    exact CAct.run_held (JsCaches.read_panic (Res.map_eq_panic.1 hp)) _
  constructor
  · intro polB pub h' hc
    obtain ⟨_, hc, _⟩ := Res.map_eq_ok.1 (show JsVal.handle <$> (JsCaches.create _ _).1 = _ from hc)
    exact JsCaches.create_held hs _ _ hc
  · intro h'
    show (fun _ => JsVal.unit) <$> (JsCaches.destroy _ _).1 = _
    rw [JsCaches.destroy_held hs]
    rfl

/-- **C59**, decryption: once a decryption with a handle has panicked, whatever calls follow, no decryption cache can be created or
destroyed any more. -/
theorem C59_decryption_disabled {st : JsState K QP P Q T} {h : Int32} {header : Bytes}
    (hp : ((JsCall.decryptHeaderUsingCache h header : JsCall K T Nonce).run lib st).1 = .panic) (L : List (JsCall K T Nonce)) :
    (∀ kb h', ((JsCall.createDecryptionCache kb : JsCall K T Nonce).run lib
      (jsRun lib st (.decryptHeaderUsingCache h header :: L))).1 ≠ .ok (.handle h')) ∧
    (∀ h', ((JsCall.destroyDecryptionCache h' : JsCall K T Nonce).run lib
      (jsRun lib st (.decryptHeaderUsingCache h header :: L))).1 = .panic) := by
  have hs : (jsRun lib st (.decryptHeaderUsingCache h header :: L)).dec.lock ≠ .held 0 := by
    show (jsRun lib ((JsCall.decryptHeaderUsingCache h header : JsCall K T Nonce).run lib st).2 L).dec.lock ≠ _
    rw [jsRun_dec]
    exact CAct.run_held (JsCaches.read_panic (Res.map_eq_panic.1 hp)) _
  constructor
  · intro kb h' hc
    obtain ⟨_, hc, _⟩ := Res.map_eq_ok.1 (show JsVal.handle <$> (JsCaches.create _ _).1 = _ from hc)
    exact JsCaches.create_held hs _ _ hc
  · intro h'
    show (fun _ => JsVal.unit) <$> (JsCaches.destroy _ _).1 = _
    rw [JsCaches.destroy_held hs]
    rfl

/-- **C59**: for every decryption cache made from a key of the API, some received header of 356 bytes has this effect. -/
theorem C59_crafted_header (ht : 32 ≤ lib.t.bits) (hcs : lib.cs.Lawful) (he : lib.e.Lawful tag) (c : Curve K P Q QP T)
    (hbm : lib.bm = bls c) {L1 : List (JsCall K T Nonce)} {kb : Bytes} {h : Int32} {st : JsState K QP P Q T}
    (hc : (JsCall.createDecryptionCache kb : JsCall K T Nonce).run lib (jsRun lib .init L1) = (.ok (.handle h), st))
    (hn : jsDecCreations L1 + 1 ≤ 2 ^ 32)
    {key : DecryptionKey K QP Q} (hkb : (userKeyCodec lib.t lib.cs lib.bm).dec kb = .ok key) (hk : Obtained c key) :
    ∃ header, header.length = 356 ∧ ((JsCall.decryptHeaderUsingCache h header : JsCall K T Nonce).run lib st).1 = .panic := by
  obtain ⟨header, h1, h2⟩ := C39_crafted_header (t := lib.t) ht hcs he c hk
  refine ⟨header, h1, ?_⟩
  have := C58_decryption_handle (L2 := []) hc (by simpa [jsDecCreations] using hn) (by simp) trivial header
  refine this.trans ?_
  unfold jsDecryptHybridHeader
  rw [if_neg ?_, if_neg (by omega), hkb, js_ok, Res.ok_bind]
  · unfold jsDecryptHeaderWith
    rw [hbm, h2]
    rfl
  · intro h0
    rw [List.length_eq_zero_iff] at h0
    subst h0
    simp [userKeyCodec] at hkb

/-! ### C60 -/

/-- **C60.** Blocks from JavaScript: with a key of 32 bytes, a clear text which is neither empty nor above the limit is encrypted, and
decrypted from the result; an omitted identifier stands for the empty one and an omitted block number for 0.  (Identifiers above 4 GiB may be refused by the
symmetric scheme.) -/
theorem C60_js_blocks {e : External Key Nonce} (he : e.Lawful tag) (hk : e.keyLen = 32) {kb : Bytes} (hkb : kb.length = 32)
    (uid : Option Bytes) (hu : (uid.getD []).length ≤ 2 ^ 32) (i : Option Nat) {data : Bytes} (h0 : data ≠ []) (hmax : data.length ≤ 2 ^ 30)
    (n : Nonce) : ∃ b, jsEncryptHybridBlock e kb uid i data n = .ok b ∧ b.length = data.length + symmetricEncryptionOverhead e ∧
      jsDecryptHybridBlock e kb uid i b = .ok data ∧
      jsDecryptHybridBlock e kb (some (uid.getD [])) (some (i.getD 0)) b = .ok data := by
  obtain ⟨k, hk1, _⟩ := he.keyDec_size kb (hkb.trans hk.symm)
  obtain ⟨b, h1, h2, h3⟩ := (C38_blocks he (max := maxClearTextSize) (by decide) k hu (i.getD 0) data n).2.2 h0 hmax
  have hpos : 0 < data.length := List.length_pos_iff.2 h0
  refine ⟨b, ?_, h3, ?_, ?_⟩
  · unfold jsEncryptHybridBlock
    rw [if_neg (by simpa using hkb), if_neg (by omega), hk1, js_ok, Res.ok_bind, h1, js_ok]
  · unfold jsDecryptHybridBlock
    rw [if_neg (by simpa using hkb), if_neg (by omega), hk1, js_ok, Res.ok_bind, h2, js_ok]
  · unfold jsDecryptHybridBlock
    rw [if_neg (by simpa using hkb), if_neg (by omega), hk1, js_ok, Res.ok_bind]
    dsimp only [Option.getD_some]
    rw [h2, js_ok]

/-- **C60**, refusals: other key sizes, empty data and data above the limit are errors. -/
theorem C60_js_refusals {e : External Key Nonce} (he : e.Lawful tag) (hk : e.keyLen = 32) (kb : Bytes) (uid : Option Bytes)
    (i : Option Nat) (data : Bytes) (n : Nonce) (h : kb.length ≠ 32 ∨ data = [] ∨ 2 ^ 30 < data.length) :
    jsEncryptHybridBlock e kb uid i data n = .err .error := by
  unfold jsEncryptHybridBlock
  split; · rfl
  split; · rfl
  rename_i h1 h2
  rw [not_not] at h1
  obtain ⟨k, hk1, _⟩ := he.keyDec_size kb (h1.trans hk.symm)
  rcases h with h | h | h
  · exact absurd h1 h
  · rw [h] at h2; simp at h2
  · have h3 : data.isEmpty = false := by cases data <;> simp_all
    rw [hk1, js_ok, Res.ok_bind]
    unfold encryptHybridBlock
    rw [h3, if_neg (by simp), if_pos (by exact h)]
    rfl

/-- **C60**, refusals of decryption: other key sizes, empty data and data above the limit, which takes the overhead into account, are errors. -/
theorem C60_js_decryption_refusals {e : External Key Nonce} (he : e.Lawful tag) (hk : e.keyLen = 32) (kb : Bytes) (uid : Option Bytes)
    (i : Option Nat) (data : Bytes) (h : kb.length ≠ 32 ∨ data = [] ∨ 2 ^ 30 + symmetricEncryptionOverhead e < data.length) :
    jsDecryptHybridBlock e kb uid i data = .err .error := by
  unfold jsDecryptHybridBlock
  split; · rfl
  split; · rfl
  rename_i h1 h2
  rw [not_not] at h1
  obtain ⟨k, hk1, _⟩ := he.keyDec_size kb (h1.trans hk.symm)
  rcases h with h | h | h
  · exact absurd h1 h
  · rw [h] at h2; simp at h2
  · have h3 : data.isEmpty = false := by cases data <;> simp_all
    rw [hk1, js_ok, Res.ok_bind]
    unfold decryptHybridBlock
    rw [h3, if_neg (by simp), if_pos (by exact h)]
    rfl

/-! ### Concrete cases -/

namespace Demo

/-- The library of the examples, on the target of WebAssembly. -/
def jsLib : Lib F F F F F SymKey SymNonce := { Demo.lib with t := .release32 }

/-- Master keys, a user key for `ap`, and headers for `[low, hr]` and `[low]`. -/
def jsFlow : JsOut (Bytes × Bytes × Bytes × Bytes) := do
  let mb ← jsGenerateMasterKeys jsLib [1] drawsF 3
  let kb ← jsGenerateUserPrivateKey jsLib ((mb.drop 4).take (bigEndian (mb.take 4))) "ap" [1] drawsF
  let hb ← jsEncryptHybridHeader jsLib [1] (mb.drop (4 + bigEndian (mb.take 4))) "low,hr" [1, 2, 3] 5 7 nonce
  let hb' ← jsEncryptHybridHeader jsLib [1] (mb.drop (4 + bigEndian (mb.take 4))) "low" [1, 2, 3] 5 7 nonce
  .ok (mb, kb, hb, hb')

theorem jsFlow_ok : ∃ mb kb hb hb', jsGenerateMasterKeys jsLib [1] drawsF 3 = .ok mb ∧
    jsGenerateUserPrivateKey jsLib ((mb.drop 4).take (bigEndian (mb.take 4))) "ap" [1] drawsF = .ok kb ∧
    jsEncryptHybridHeader jsLib [1] (mb.drop (4 + bigEndian (mb.take 4))) "low,hr" [1, 2, 3] 5 7 nonce = .ok hb ∧
    jsEncryptHybridHeader jsLib [1] (mb.drop (4 + bigEndian (mb.take 4))) "low" [1, 2, 3] 5 7 nonce = .ok hb' ∧
    mb.length < 1000 ∧ kb.length < 1000 := by
  have hok : (match jsFlow with
    | .ok r => decide (r.1.length < 1000 ∧ r.2.1.length < 1000)
    | _ => false) = true := by decide +kernel
  cases hr : jsFlow with
  | ok r =>
    rw [hr] at hok
    simp only [decide_eq_true_eq] at hok
    unfold jsFlow at hr
    obtain ⟨mb, h1, hr⟩ := Res.bind_eq_ok.1 hr
    obtain ⟨kb, h2, hr⟩ := Res.bind_eq_ok.1 hr
    obtain ⟨hb, h3, hr⟩ := Res.bind_eq_ok.1 hr
    obtain ⟨hb', h4, hr⟩ := Res.bind_eq_ok.1 hr
    simp only [Res.ok.injEq] at hr
    subst hr
    exact ⟨mb, kb, hb, hb', h1, h2, h3, h4, hok.1, hok.2⟩
  | err z => rw [hr] at hok; simp at hok
  | panic => rw [hr] at hok; simp at hok

theorem js_metadata_kept : symmetric.Keeps ⟨[1, 2, 3], none⟩ := ⟨[0, 0, 0, 3, 1, 2, 3], by decide, by decide⟩

/-- **C57**: the key of the example opens the header for `[low, hr]`, not the one for `[low]`, nor the unsplit result. -/
example : ∃ kb hb hb' cb : Bytes, (∃ m, jsDecryptHybridHeader jsLib kb (hb.drop 36) = .ok cb ∧ cb = hb.take 36 ++ m ∧
      symmetric.metaDec m = .ok ⟨[1, 2, 3], none⟩) ∧
    jsDecryptHybridHeader jsLib kb (hb'.drop 36) = .err .error ∧ ∀ x, jsDecryptHybridHeader jsLib kb hb ≠ .ok x := by
  obtain ⟨mb, kb, hb, hb', h1, h2, h3, h4, l1, l2⟩ := jsFlow_ok
  have hw := reachable_wf policy_reachable
  obtain ⟨cb, m, g⟩ := (C57_round_trip (lib := jsLib) (tag := 16) curveF rfl (by decide) codecs_lawful symmetric_lawful hw (by decide)
    (polB := [1]) (polB' := [1]) (polB'' := [1]) rfl rfl rfl (ap := ap) rfl (atts := [low, hr]) rfl h1 (by omega) h2
    (lt_trans l2 (by decide)) js_metadata_kept h3).2.2.1 ap_sat
  refine ⟨kb, hb, hb', cb, ⟨m, g⟩, ?_, fun x => C57_whole_output codecs_lawful symmetric_lawful rfl h3 x⟩
  exact ((C57_round_trip (lib := jsLib) (tag := 16) curveF rfl (by decide) codecs_lawful symmetric_lawful hw (by decide)
    (polB := [1]) (polB' := [1]) (polB'' := [1]) rfl rfl rfl (ap := ap) rfl (atts := [low]) rfl h1 (by omega) h2
    (lt_trans l2 (by decide)) js_metadata_kept h4).2.2.2 ap_not_sat).2 (by simp)

/-- **C51** for the keys of the example. -/
example : ∃ b, jsGenerateMasterKeys jsLib [1] drawsF 3 = .ok b ∧
    (b.length < 2 ^ 32 → 4 + bigEndian (b.take 4) ≤ b.length ∧
      (privKeyCodec jsLib.t jsLib.cs).dec ((b.drop 4).take (bigEndian (b.take 4))) = .ok mkF.privKey ∧
      (pubKeyCodec jsLib.t jsLib.cs).dec (b.drop (4 + bigEndian (b.take 4))) = .ok mkF.pubKey) :=
  C51_js_master_keys (lib := jsLib) curveF rfl (by decide) codecs_lawful (p := policy) (by decide) (by decide) (polB := [1]) rfl mkF_eq

theorem pair_eq {α β : Type} {x : α × β} {a : α} (h : x.1 = a) : x = (a, x.2) := Prod.ext h rfl

abbrev Call := JsCall F F SymNonce

/-- The master keys and the user key of the example, as constants. -/
def jsMasterB : Bytes := match jsFlow with | .ok r => r.1 | _ => []
def jsPubB : Bytes := jsMasterB.drop (4 + bigEndian (jsMasterB.take 4))
def jsKeyB : Bytes := match jsFlow with | .ok r => r.2.1 | _ => []

/-- Two encryption caches are created, the first one is destroyed. -/
theorem jsEnc_create : ((JsCall.createEncryptionCache [1] jsPubB : Call).run jsLib
    (jsRun jsLib .init [(.createEncryptionCache [1] jsPubB : Call)])).1 = .ok (.handle 1) := by decide +kernel

theorem jsEnc_noPanic : JsNoPanic jsLib ((JsCall.createEncryptionCache [1] jsPubB : Call).run jsLib
    (jsRun jsLib .init [(.createEncryptionCache [1] jsPubB : Call)])).2 [(.destroyEncryptionCache 0 : Call)] :=
  ⟨by decide +kernel, trivial⟩

/-- **C58**: the second handle still encrypts as the uncached call, the first one panics. -/
example : ((JsCall.encryptHeaderUsingCache 1 "low" [4] 5 7 nonce : Call).run jsLib
      (jsRun jsLib ((JsCall.createEncryptionCache [1] jsPubB : Call).run jsLib
        (jsRun jsLib .init [.createEncryptionCache [1] jsPubB])).2 [.destroyEncryptionCache 0])).1 =
    JsVal.bytes <$> jsEncryptHybridHeader jsLib [1] jsPubB "low" [4] 5 7 nonce :=
  C58_encryption_handle (L1 := [.createEncryptionCache [1] jsPubB]) (L2 := [.destroyEncryptionCache 0])
    (pair_eq jsEnc_create) (by decide) (by simp) jsEnc_noPanic (by decide) (by simp) 5 7 nonce

example : ((JsCall.encryptHeaderUsingCache 0 "low" [4] 5 7 nonce : Call).run jsLib
      (jsRun jsLib .init [.createEncryptionCache [1] jsPubB, .createEncryptionCache [1] jsPubB, .destroyEncryptionCache 0])).1 = .panic :=
  C58_encryption_unknown (L1 := [.createEncryptionCache [1] jsPubB, .createEncryptionCache [1] jsPubB, .destroyEncryptionCache 0]) (L2 := [])
    (.inr ⟨[.createEncryptionCache [1] jsPubB, .createEncryptionCache [1] jsPubB], rfl, by decide +kernel⟩)
    (by rintro ⟨L1, _, _, L2, h, _⟩; simp at h) "low" [4] 5 7 nonce

theorem jsDec_create : ((JsCall.createDecryptionCache jsKeyB : Call).run jsLib
    (jsRun jsLib .init ([] : List Call))).1 = .ok (.handle 0) := by decide +kernel

theorem jsDec_noPanic : JsNoPanic jsLib ((JsCall.createDecryptionCache jsKeyB : Call).run jsLib
    (jsRun jsLib .init ([] : List Call))).2 [(.createDecryptionCache [] : Call), .createDecryptionCache jsKeyB, .destroyDecryptionCache 5] :=
  ⟨by decide +kernel, by decide +kernel, by decide +kernel, trivial⟩

example (header : Bytes) : ((JsCall.decryptHeaderUsingCache 0 header : Call).run jsLib
      (jsRun jsLib ((JsCall.createDecryptionCache jsKeyB : Call).run jsLib (jsRun jsLib .init ([] : List Call))).2
        [.createDecryptionCache [], .createDecryptionCache jsKeyB, .destroyDecryptionCache 5])).1 =
    JsVal.bytes <$> jsDecryptHybridHeader jsLib jsKeyB header :=
  C58_decryption_handle (L1 := []) (L2 := [.createDecryptionCache [], .createDecryptionCache jsKeyB, .destroyDecryptionCache 5])
    (pair_eq jsDec_create) (by decide) (by simp) jsDec_noPanic header

/-- Handle 7 was never created. -/
theorem jsDec_unknown : ((JsCall.decryptHeaderUsingCache 7 [1, 2, 3] : Call).run jsLib
      (jsRun jsLib .init [(.createDecryptionCache jsKeyB : Call)])).1 = .panic :=
  C58_decryption_unknown (L1 := []) (L2 := [.createDecryptionCache jsKeyB]) (.inl rfl)
    (by
      rintro ⟨L1, kb, L2, h, h'⟩
      rcases L1 with _ | ⟨_, _ | _⟩
      · simp only [List.nil_append, List.cons.injEq, JsCall.createDecryptionCache.injEq] at h
        obtain ⟨rfl, _⟩ := h
        replace h' := jsDec_create.symm.trans h'
        simp only [Res.ok.injEq, JsVal.handle.injEq] at h'
        exact absurd h' (by decide)
      · simp at h
      · simp at h) [1, 2, 3]

/-- **C59**: afterwards the existing cache cannot be destroyed. -/
example : ((JsCall.destroyDecryptionCache 0 : Call).run jsLib
      (jsRun jsLib (jsRun jsLib .init [(.createDecryptionCache jsKeyB : Call)]) [.decryptHeaderUsingCache 7 [1, 2, 3]])).1 = .panic :=
  (C59_decryption_disabled jsDec_unknown []).2 0

/-- **C59**, encryption: handle 0 was destroyed; its use disables the creation of caches. -/
example (h : Int32) : ((JsCall.createEncryptionCache [1] jsPubB : Call).run jsLib
      (jsRun jsLib (jsRun jsLib .init [(.createEncryptionCache [1] jsPubB : Call), .destroyEncryptionCache 0])
        [.encryptHeaderUsingCache 0 "low" [4] 5 7 nonce, .createDecryptionCache jsKeyB])).1 ≠ .ok (.handle h) :=
  (C59_encryption_disabled (by decide +kernel) [.createDecryptionCache jsKeyB]).1 _ _ h

/-- The key of the example is one of the API. -/
theorem jsKeyB_obtained : ∃ key, (userKeyCodec jsLib.t jsLib.cs jsLib.bm).dec jsKeyB = .ok key ∧ Obtained curveF key := by
  have h : (match engineGenerateUserKey (bls curveF) policy mkF.privKey ap drawsF with
    | .ok key => decide ((userKeyCodec jsLib.t jsLib.cs jsLib.bm).enc key = .ok jsKeyB ∧ key.msp.nbRow < 10)
    | _ => false) = true := by decide +kernel
  split at h
  · rename_i key hk
    obtain ⟨h1, h2⟩ := of_decide_eq_true h
    have ho : Obtained curveF key := .generate policy mkF.privKey ap drawsF hk
    obtain ⟨b, g1, _, g2⟩ := C25_user_key_round_trip (t := .release32) codecs_lawful curveF ho (by omega)
    rw [show (userKeyCodec jsLib.t jsLib.cs jsLib.bm).enc key = _ from g1] at h1
    rw [Res.ok.inj h1] at g2
    have hl : (jsKeyB ++ []).length < Target.release32.modulus := by decide +kernel
    have g3 := g2 [] hl
    rw [List.append_nil] at g3
    exact ⟨key, g3, ho⟩
  · simp at h

/-- **C59**: a crafted header for the cache of this key. -/
example : ∃ header : Bytes, header.length = 356 ∧ ((JsCall.decryptHeaderUsingCache 0 header : Call).run jsLib
    ((JsCall.createDecryptionCache jsKeyB : Call).run jsLib (jsRun jsLib .init ([] : List Call))).2).1 = .panic := by
  obtain ⟨key, h1, h2⟩ := jsKeyB_obtained
  exact C59_crafted_header (lib := jsLib) (tag := 16) (by decide) codecs_lawful symmetric_lawful curveF rfl (L1 := []) (pair_eq jsDec_create)
    (by decide) h1 h2

/-- **C60**: a block without identifier nor number. -/
example : ∃ b, jsEncryptHybridBlock symmetric (List.replicate 32 7) none none [5, 6] nonce = .ok b ∧ b.length = 2 + 28 ∧
    jsDecryptHybridBlock symmetric (List.replicate 32 7) none none b = .ok [5, 6] ∧
    jsDecryptHybridBlock symmetric (List.replicate 32 7) (some []) (some 0) b = .ok [5, 6] :=
  C60_js_blocks symmetric_lawful rfl rfl none (by decide) none (by simp) (by simp) nonce
example : jsEncryptHybridBlock symmetric (List.replicate 31 7) none none [5, 6] nonce = .err .error :=
  C60_js_refusals symmetric_lawful rfl _ _ _ _ _ (.inl (by simp))
example : jsDecryptHybridBlock symmetric (List.replicate 31 7) none none [5, 6] = .err .error :=
  C60_js_decryption_refusals symmetric_lawful rfl _ _ _ _ (.inl (by simp))

end Demo

/-- **C58**, an empty identifier: refused by the uncached call, accepted through a cache. -/
theorem C58_empty_uid_refuted : jsEncryptHybridHeader Demo.jsLib [1] Demo.jsPubB "low" [] 5 7 Demo.nonce = .err .error ∧
    ∃ b, ((JsCall.encryptHeaderUsingCache 0 "low" [] 5 7 Demo.nonce : Demo.Call).run Demo.jsLib
      (jsRun Demo.jsLib .init [(.createEncryptionCache [1] Demo.jsPubB : Demo.Call)])).1 = .ok (.bytes b) := by
  refine ⟨by decide +kernel, ?_⟩
  have hok : (match ((JsCall.encryptHeaderUsingCache 0 "low" [] 5 7 Demo.nonce : Demo.Call).run Demo.jsLib
      (jsRun Demo.jsLib .init [(.createEncryptionCache [1] Demo.jsPubB : Demo.Call)])).1 with
    | .ok (.bytes _) => true
    | _ => false) = true := by decide +kernel
  split at hok
  · rename_i b h; exact ⟨b, h⟩
  · simp at hok

end Abe
