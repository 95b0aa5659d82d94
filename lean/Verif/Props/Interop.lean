import Verif.Spec.Interop
import Verif.Props.FfiFlow
import Verif.Props.Wasm

/-!
# Keys and headers exchanged between the interfaces: C64
-/

namespace Abe

set_option linter.unusedSectionVars false

variable {K P Q QP T Key Nonce : Type} [Field K] [DecidableEq K] [AddCommGroup P] [Module K P] [AddCommGroup Q] [Module K Q]
  [AddCommGroup T] [Module K T]
variable {cs : Codecs K P Q T} {e : External Key Nonce} {tag : Nat} {p : Policy} {rnd : Nat → K} {y : K}

/-- The bytes encode the master keys, and every target decodes them. -/
theorem masterBytes_mk (c : Curve K P Q QP T) (hcs : cs.Lawful) (h0 : p.maxAttributeCreations ≠ 0)
    (hmax : p.maxAttributeCreations.toNat < 2 ^ 32 - 1) {priv pub : Bytes} {del : Option Bytes}
    (h : MasterBytes (bls c) cs e p rnd y priv pub del) :
    ∃ mk, engineGenerateMasterKey (bls c) p rnd y = .ok mk ∧ ∀ t : Target, 32 ≤ t.bits →
      (privKeyCodec t cs).dec priv = .ok mk.privKey ∧ (pubKeyCodec t cs).dec pub = .ok mk.pubKey ∧
      ∀ d, del = some d → (delKeyCodec t cs).dec d = .ok mk.delKey := by
  have key : ∀ {lib : FfiLib K QP P Q T Key Nonce} {mk : MasterKey K P Q T} {priv pub : Bytes}, lib.Builds (bls c) cs e →
      engineGenerateMasterKey (bls c) p rnd y = .ok mk → (privKeyCodec lib.t cs).enc mk.privKey = .ok priv →
      (pubKeyCodec lib.t cs).enc mk.pubKey = .ok pub → priv.length < 2 ^ 32 → pub.length < 2 ^ 32 → ∀ t : Target, 32 ≤ t.bits →
      (privKeyCodec t cs).dec priv = .ok mk.privKey ∧ (pubKeyCodec t cs).dec pub = .ok mk.pubKey := by
    intro lib mk priv pub hb h1 h2 h3 l1 l2 t ht
    obtain ⟨r1, r2, _⟩ := C24_generated_keys_round_trip (t := t) hcs c h1 h0 hmax
    exact ⟨roundTrips_dec r1 h2 (fits32 ht l1), roundTrips_dec r2 h3 (fits32 ht l2)⟩
  cases h with
  | @python lib polB priv pub del hb hpol h hl =>
    unfold pyGenerateMasterKeys at h
    rw [hpol, pyArg_some, Res.ok_bind, hb.bm_eq, hb.cs_eq] at h
    obtain ⟨mk, h1, h⟩ := Res.bind_eq_ok.1 h
    obtain ⟨b1, h2, h⟩ := Res.bind_eq_ok.1 h
    obtain ⟨b2, h3, h⟩ := Res.bind_eq_ok.1 h
    obtain ⟨b3, h4, h⟩ := Res.bind_eq_ok.1 h
    simp only [Res.ok.injEq, Prod.mk.injEq] at h
    obtain ⟨rfl, rfl, rfl⟩ := h
    rw [py_eq_ok] at h1 h2 h3 h4
    refine ⟨mk, h1, fun t ht => ?_⟩
    obtain ⟨g1, g2⟩ := key hb h1 h2 h3 (by omega) (by omega) t ht
    refine ⟨g1, g2, fun d hd => ?_⟩
    obtain rfl := Option.some.inj hd
    exact roundTrips_dec (C24_generated_keys_round_trip (t := t) hcs c h1 h0 hmax).2.2 h4 (fits32 ht (by omega))
  | @c lib policy b hb hpol h hl =>
    obtain ⟨p', mk, head, priv, pub, h1, h2, h3, h4, h5, h6, rfl⟩ := h
    obtain rfl := h1.unique hpol
    rw [hb.bm_eq] at h2
    rw [hb.cs_eq] at h3 h4
    simp only [List.length_append, h5] at hl
    rw [Nat.mod_eq_of_lt (by omega)] at h6
    have e1 : (head ++ priv ++ pub).take 4 = head := by rw [List.append_assoc, List.take_left' h5]
    refine ⟨mk, h2, fun t ht => ?_⟩
    have e2 : (head ++ priv ++ pub).drop (4 + priv.length) = pub := List.drop_left' (by rw [List.length_append, h5])
    rw [e1, h6, e2, List.append_assoc, List.drop_left' h5, List.take_left' rfl]
    obtain ⟨g1, g2⟩ := key hb h2 h3 h4 (by omega) (by omega) t ht
    exact ⟨g1, g2, fun d hd => by simp at hd⟩
  | @js lib polB b hb hpol h hl =>
    unfold jsGenerateMasterKeys at h
    rw [hpol, jsArg_some, Res.ok_bind, hb.bm_eq, hb.cs_eq] at h
    obtain ⟨mk, h1, h⟩ := Res.bind_eq_ok.1 h
    obtain ⟨priv, h2, h⟩ := Res.bind_eq_ok.1 h
    obtain ⟨pub, h3, h⟩ := Res.bind_eq_ok.1 h
    rw [Res.ok.injEq] at h
    subst h
    rw [js_eq_ok] at h1 h2 h3
    simp only [List.length_append, be32_length] at hl
    have e1 : bigEndian ((be32 priv.length.toUInt32 ++ priv ++ pub).take 4) = priv.length := by
      rw [List.append_assoc, List.take_left' (be32_length _), bigEndian_be32, toNat_toUInt32 (by omega)]
    refine ⟨mk, h1, fun t ht => ?_⟩
    have e2 : (be32 priv.length.toUInt32 ++ priv ++ pub).drop (4 + priv.length) = pub :=
      List.drop_left' (by rw [List.length_append, be32_length])
    rw [e1, e2, List.append_assoc, List.drop_left' (be32_length _), List.take_left' rfl]
    obtain ⟨g1, g2⟩ := key hb h1 h2 h3 (by omega) (by omega) t ht
    exact ⟨g1, g2, fun d hd => by simp at hd⟩

/-- The policy of a user key has a creation budget. -/
theorem userBytes_max (c : Curve K P Q QP T) (hw : p.WF) {priv : Bytes} {del : Option Bytes} {ap : AccessPolicy} {b : Bytes}
    (h : UserBytes (bls c) cs e p priv del ap b) : p.maxAttributeCreations ≠ 0 := by
  induction h with
  | python rnd hb hpol hap h _ =>
    unfold pyGenerateUserPrivateKey at h
    rw [hpol, pyArg_some, hap, pyArg_some] at h
    obtain ⟨_, _, h⟩ := Res.bind_eq_ok.1 h
    rw [Res.ok_bind, Res.ok_bind] at h
    obtain ⟨key, h1, _⟩ := Res.bind_eq_ok.1 h
    exact max_ne_zero_of_userKey hw (py_eq_ok.1 h1)
  | c rnd hb hin hpol hap h _ =>
    obtain ⟨p', sk, ap', key, h1, h2, h3, h4, h5⟩ := h
    obtain rfl := h1.unique hpol
    exact max_ne_zero_of_userKey hw h4
  | js rnd hb hpol hap h _ =>
    unfold jsGenerateUserPrivateKey at h
    rw [hpol, jsArg_some, hap, jsArg_some] at h
    obtain ⟨_, _, h⟩ := Res.bind_eq_ok.1 h
    rw [Res.ok_bind, Res.ok_bind] at h
    obtain ⟨key, h1, _⟩ := Res.bind_eq_ok.1 h
    exact max_ne_zero_of_userKey hw (js_eq_ok.1 h1)
  | randomise _ _ _ _ _ _ _ _ ih => exact ih
  | delegate _ _ _ _ _ _ _ _ _ _ ih => exact ih

/-- A key has at most as many rows as the master key has values. -/
theorem KeyOk.nbRow_le {c : Curve K P Q QP T} {tI : List K} {ap : AccessPolicy} {F : Node} {msp : Msp Int} {lam : UInt32 → K}
    {key : DecryptionKey K QP Q} (hk : KeyOk c p tI y ap F msp lam key) : key.msp.nbRow ≤ tI.length := by
  rw [hk.key_eq]
  show msp.nbRow ≤ _
  have hm := hk.mspFor
  rw [hm.nbRow, ← hm.rta]
  have hsub : (msp.rowToAttr.map UInt32.toNat) ⊆ List.range tI.length := by
    intro n hn
    obtain ⟨a, ha, rfl⟩ := List.mem_map.1 hn
    exact List.mem_range.2 (hk.covers a (hm.perm.mem_iff.1 ha)).1
  have hnd : (msp.rowToAttr.map UInt32.toNat).Nodup := hm.nodup.map fun a b h => UInt32.toNat_inj.1 h
  have := (hnd.subperm hsub).length_le
  simpa using this

/-- The bytes encode a user key, and every target decodes them. -/
theorem userBytes_key (c : Curve K P Q QP T) (hcs : cs.Lawful) (hw : p.WF) {size : Nat} (hmax : size < 2 ^ 32 - 1)
    {mk : MasterKey K P Q T} (hmk : generateMasterKey (bls c) size rnd y = .ok mk) {priv : Bytes} {del : Option Bytes}
    (hpriv : ∀ t : Target, 32 ≤ t.bits → (privKeyCodec t cs).dec priv = .ok mk.privKey)
    (hdel : ∀ t : Target, 32 ≤ t.bits → ∀ d, del = some d → (delKeyCodec t cs).dec d = .ok mk.delKey)
    {ap : AccessPolicy} {b : Bytes} (h : UserBytes (bls c) cs e p priv del ap b) :
    ∃ key, UserKey c p mk ap key ∧ ∀ t : Target, 32 ≤ t.bits → (userKeyCodec t cs (bls c)).dec b = .ok key := by
  have round : ∀ {ap : AccessPolicy} {key : DecryptionKey K QP Q} {b : Bytes} {t0 : Target}, UserKey c p mk ap key →
      (userKeyCodec t0 cs (bls c)).enc key = .ok b → b.length < 2 ^ 32 →
      ∃ key, UserKey c p mk ap key ∧ ∀ t : Target, 32 ≤ t.bits → (userKeyCodec t cs (bls c)).dec b = .ok key := by
    intro ap key b t0 hk he hl
    have hn : key.msp.nbRow ≤ size := by
      obtain ⟨tI, hlen, hnz, rfl⟩ := generateMasterKey_inv c hmk
      obtain ⟨F, msp, lam, hok⟩ := userKey_ok c hw hnz hk
      exact hlen ▸ hok.nbRow_le
    exact ⟨key, hk, fun t ht =>
      roundTrips_dec (C25_user_key_round_trip (t := t) hcs c hk.obtained (by omega)) he (fits32 ht hl)⟩
  induction h with
  | @python lib ap str polB b rnd' hb hpol hap h hl =>
    unfold pyGenerateUserPrivateKey at h
    rw [hb.cs_eq, hpriv _ hb.bits, py_ok, Res.ok_bind, hpol, pyArg_some, Res.ok_bind, hap, pyArg_some, Res.ok_bind, hb.bm_eq] at h
    obtain ⟨key, h1, h2⟩ := Res.bind_eq_ok.1 h
    rw [py_eq_ok] at h1 h2
    exact round (.generate rnd' h1) h2 hl
  | @c lib ap privBuf access policy b rnd' hb hin hpol hap h hl =>
    obtain ⟨p', sk, ap', key, h1, h2, h3, h4, h5⟩ := h
    obtain rfl := h1.unique hpol
    obtain rfl := h3.unique hap
    obtain rfl := hin.bytesArg h2 (by rw [hb.cs_eq]; exact hpriv _ hb.bits)
    rw [hb.bm_eq] at h4 h5
    rw [hb.cs_eq] at h5
    exact round (.generate rnd' h4) h5 hl
  | @js lib ap str polB b rnd' hb hpol hap h hl =>
    unfold jsGenerateUserPrivateKey at h
    rw [hb.cs_eq, hpriv _ hb.bits, js_ok, Res.ok_bind, hpol, jsArg_some, Res.ok_bind, hap, jsArg_some, Res.ok_bind, hb.bm_eq] at h
    obtain ⟨key, h1, h2⟩ := Res.bind_eq_ok.1 h
    rw [js_eq_ok] at h1 h2
    exact round (.generate rnd' h1) h2 hl
  | @randomise lib ap str polB delB b b' rnd' hb hk hd hp ha h hl ih =>
    obtain ⟨key, k1, k2⟩ := ih
    unfold pyGenerateDelegatedKey at h
    rw [hb.cs_eq, hdel _ hb.bits _ hd, py_ok, Res.ok_bind, hb.bm_eq, k2 _ hb.bits, py_ok, Res.ok_bind, ha, pyArg_some, Res.ok_bind, hp,
      pyArg_some, Res.ok_bind] at h
    obtain ⟨key', h1, h2⟩ := Res.bind_eq_ok.1 h
    rw [py_eq_ok] at h1 h2
    exact round (.randomise rnd' k1 h1) h2 hl
  | @delegate lib ap ap' str polB delB b b' rnd' hb hk hd hr hne hp ha h hl ih =>
    obtain ⟨key, k1, k2⟩ := ih
    unfold pyGenerateDelegatedKey at h
    rw [hb.cs_eq, hdel _ hb.bits _ hd, py_ok, Res.ok_bind, hb.bm_eq, k2 _ hb.bits, py_ok, Res.ok_bind, ha, pyArg_some, Res.ok_bind, hp,
      pyArg_some, Res.ok_bind] at h
    obtain ⟨key', h1, h2⟩ := Res.bind_eq_ok.1 h
    rw [py_eq_ok] at h1 h2
    exact round (.delegate rnd' k1 hr hne h1) h2 hl

/-- The bytes come from an encryption of a header. -/
theorem headerBytes_enc (c : Curve K P Q QP T) (he : e.Lawful tag) {mk : MasterKey K P Q T} {pub : Bytes}
    (hpub : ∀ t : Target, 32 ≤ t.bits → (pubKeyCodec t cs).dec pub = .ok mk.pubKey) {atts : List Attribute} {m : Metadata}
    {kb hb : Bytes} (h : HeaderBytes (bls c) cs e p pub atts m kb hb) :
    ∃ (t : Target) (random : T) (s : K) (n : Nonce) (hd : EncryptedHeader Key),
      encryptHybridHeader e (bls c) cs t p mk.pubKey atts (some m) random s n = .ok hd ∧
      kb = e.keyEnc hd.symmetricKey ∧ hb = hd.encryptedHeaderBytes := by
  cases h with
  | @python lib mdB polB attB kb hb m random s n hb hmd hpol hatt h =>
    unfold pyEncryptHybridHeader at h
    rw [hmd, pyArg_some, Res.ok_bind, hpol, pyArg_some, Res.ok_bind, hatt, pyArg_some, Res.ok_bind, hb.cs_eq, hpub _ hb.bits, py_ok,
      Res.ok_bind, hb.e_eq, hb.bm_eq] at h
    obtain ⟨hd, h1, h⟩ := Res.bind_eq_ok.1 h
    rw [Res.ok.injEq, Prod.mk.injEq] at h
    exact ⟨_, random, s, n, hd, py_eq_ok.1 h1, h.1.symm, h.2.symm⟩
  | @c lib policy pubBuf cache a uid kb hb ad hb hin hpol hc hatt huid had h =>
    obtain ⟨c1, c2⟩ := hc
    obtain ⟨cp, ck⟩ := cache
    obtain rfl := c1.unique hpol
    obtain rfl := hin.bytesArg c2 (by rw [hb.cs_eq]; exact hpub _ hb.bits)
    obtain ⟨atts1, uid1, ad1, hd, e1, e2, e3, e4, rfl, rfl⟩ := h
    obtain rfl := e1.unique hatt
    obtain rfl : uid1 = uid := by
      rcases e2 with ⟨m1, rfl⟩ | ⟨m1, e2⟩ <;> rcases huid with ⟨m2, rfl⟩ | ⟨m2, huid⟩
      · rfl
      · exact absurd m1 m2
      · exact absurd m2 m1
      · exact e2.unique huid
    obtain rfl : ad1 = ad := by
      rcases e3 with ⟨m1, rfl⟩ | ⟨m1, x1, e3, rfl⟩ <;> rcases had with ⟨m2, rfl⟩ | ⟨m2, x2, had, rfl⟩
      · rfl
      · exact absurd m1 m2
      · exact absurd m2 m1
      · rw [e3.unique had]
    rw [hb.bm_eq, hb.cs_eq, hb.e_eq] at e4
    exact ⟨_, _, _, _, hd, e4, by rw [hb.e_eq], rfl⟩
  | @js lib polB uid b str random s n hb hpol hatt h =>
    obtain ⟨hd, h1, rfl⟩ := jsEncryptHeader_inv hpol (by rw [hb.cs_eq]; exact hpub _ hb.bits) hatt h
    rw [hb.e_eq, hb.bm_eq, hb.cs_eq] at h1
    rw [hb.e_eq]
    have hkey := he.keyEnc_length hd.symmetricKey
    have e1 : bigEndian ((be32 e.keyLen.toUInt32 ++ e.keyEnc hd.symmetricKey ++ hd.encryptedHeaderBytes).take 4) = e.keyLen := by
      rw [List.append_assoc, List.take_left' (be32_length _), bigEndian_be32, toNat_toUInt32 he.keyLen_lt]
    refine ⟨_, random, s, n, hd, h1, ?_, ?_⟩
    · rw [e1, List.append_assoc, List.drop_left' (be32_length _), List.take_left' hkey]
    · rw [e1, List.drop_left' (by rw [List.length_append, be32_length, hkey])]

/-- A key which every target decodes, and which decrypts the header on every target, opens the header in every interface. -/
theorem opensEverywhere_of (c : Curve K P Q QP T) (he : e.Lawful tag) {key : DecryptionKey K QP Q} {ub : Bytes}
    (hkd : ∀ t : Target, 32 ≤ t.bits → (userKeyCodec t cs (bls c)).dec ub = .ok key) {m : Metadata} (hkeep : e.Keeps m) {h : EncryptedHeader Key}
    (hdec : ∀ t : Target, 32 ≤ t.bits → decryptHybridHeader e (bls c) cs t key h.encryptedHeaderBytes = .ok ⟨h.symmetricKey, m⟩) :
    OpensEverywhere (bls c) cs e ub h.encryptedHeaderBytes (e.keyEnc h.symmetricKey) m := by
  have ne2 : ub ≠ [] := by
    rintro rfl
    have := hkd .release64 (by decide)
    simp [userKeyCodec] at this
  have ne3 : ub.length ≠ 0 := by rwa [Ne, List.length_eq_zero_iff]
  have ne1 : ¬ h.encryptedHeaderBytes.length < 4 := by
    intro e'
    have := (C39_framing (e := e) (cs := cs) (t := .release64) (bm := bls c) (key := key)).1 e'
    rw [hdec _ (by decide)] at this
    simp at this
  refine ⟨fun lib hl => ?_, fun lib hl user header huser hheader => ?_, fun lib hl => ?_⟩
  · obtain ⟨mb, m1, m2⟩ := hkeep
    refine ⟨mb, ?_, m2⟩
    unfold pyDecryptHybridHeader
    rw [hl.cs_eq, hl.bm_eq, hl.e_eq, hkd _ hl.bits, py_ok, Res.ok_bind, hdec _ hl.bits, py_ok, Res.ok_bind, m1, py_ok, Res.ok_bind]
  · rcases C47_decrypt_header (lib := lib) (by have := hl.bits; omega) header user with
      ⟨key', kb', uid', ad', f1, ⟨h', f2, rfl, rfl, rfl⟩, f3⟩ | ⟨f1, _⟩
    · obtain rfl := huser.bytesArg f1 (by rw [hl.cs_eq, hl.bm_eq]; exact hkd _ hl.bits)
      obtain rfl := hheader.bytesArg f2 (by rw [hl.cs_eq, hl.bm_eq, hl.e_eq]; exact hdec _ hl.bits)
      rw [hl.e_eq] at f3
      exact f3
    · exfalso
      exact f1 key (e.keyEnc h.symmetricKey) m.uid m.additionalData
        ⟨ub, huser, ne2, by rw [hl.cs_eq, hl.bm_eq]; exact hkd _ hl.bits⟩
        ⟨⟨h.symmetricKey, m⟩, ⟨_, hheader, by intro e'; rw [e'] at ne1; simp at ne1,
          by rw [hl.cs_eq, hl.bm_eq, hl.e_eq]; exact hdec _ hl.bits⟩, by rw [hl.e_eq], rfl, rfl⟩
  · obtain ⟨mb, m1, m2⟩ := hkeep
    refine ⟨be32 e.keyLen.toUInt32, mb, ?_, be32_length _, ?_, m2⟩
    · unfold jsDecryptHybridHeader jsDecryptHeaderWith
      rw [if_neg ne3, if_neg ne1, hl.cs_eq, hl.bm_eq, hl.e_eq, hkd _ hl.bits, js_ok, Res.ok_bind, hdec _ hl.bits, js_ok, Res.ok_bind]
      unfold ClearTextHeader.tryIntoBytes
      dsimp only
      rw [m1, Res.ok_bind, js_ok]
    · rw [bigEndian_be32, toNat_toUInt32 he.keyLen_lt, he.keyEnc_length]

/-- A key which every target decodes, and which decrypts the header on none, opens it in no interface. -/
theorem opensNowhere_of (c : Curve K P Q QP T) {key : DecryptionKey K QP Q} {ub : Bytes}
    (hkd : ∀ t : Target, 32 ≤ t.bits → (userKeyCodec t cs (bls c)).dec ub = .ok key) {h : EncryptedHeader Key}
    (hdec : ∀ t : Target, 32 ≤ t.bits → ∀ r, decryptHybridHeader e (bls c) cs t key h.encryptedHeaderBytes ≠ .ok r) :
    OpensNowhere (bls c) cs e ub h.encryptedHeaderBytes := by
  refine ⟨fun lib hl x hx => ?_, fun lib hl user header huser hheader => ?_, fun lib hl x hx => ?_⟩
  · unfold pyDecryptHybridHeader at hx
    rw [hl.cs_eq, hl.bm_eq, hl.e_eq, hkd _ hl.bits, py_ok, Res.ok_bind] at hx
    obtain ⟨r, hr, _⟩ := Res.bind_eq_ok.1 hx
    exact hdec _ hl.bits r (py_eq_ok.1 hr)
  · rcases C47_decrypt_header (lib := lib) (by have := hl.bits; omega) header user with
      ⟨key', kb', uid', ad', f1, ⟨h', ⟨x, f2, _, f3⟩, _⟩, _⟩ | ⟨_, f2⟩
    · obtain rfl := huser.bytesArg f1 (by rw [hl.cs_eq, hl.bm_eq]; exact hkd _ hl.bits)
      obtain rfl := hheader.unique f2
      rw [hl.cs_eq, hl.bm_eq, hl.e_eq] at f3
      exact absurd f3 (hdec _ hl.bits _)
    · exact f2
  · unfold jsDecryptHybridHeader jsDecryptHeaderWith at hx
    split at hx; · simp at hx
    split at hx; · simp at hx
    rw [hl.cs_eq, hl.bm_eq, hl.e_eq, hkd _ hl.bits, js_ok, Res.ok_bind] at hx
    obtain ⟨r, hr, _⟩ := Res.bind_eq_ok.1 hx
    exact hdec _ hl.bits r (js_eq_ok.1 hr)

/-- **C64.** Master keys, a user key (possibly randomised or delegated) and a header made by any of the interfaces, each by a build for any
pointer width: if the attributes satisfy the access policy, every interface of every build decrypts the header with the key to the same
symmetric key and metadata; otherwise none decrypts it. -/
theorem C64_interoperability (c : Curve K P Q QP T) (hcs : cs.Lawful) (he : e.Lawful tag) (hw : p.WF)
    (hmax : p.maxAttributeCreations.toNat < 2 ^ 32 - 1) {priv pub ub kb hb : Bytes} {del : Option Bytes} {ap : AccessPolicy}
    {atts : List Attribute} {m : Metadata} (hm : MasterBytes (bls c) cs e p rnd y priv pub del)
    (hu : UserBytes (bls c) cs e p priv del ap ub) (hh : HeaderBytes (bls c) cs e p pub atts m kb hb) (hkeep : e.Keeps m) :
    (ap.Sat p (· ∈ atts) → OpensEverywhere (bls c) cs e ub hb kb m) ∧
    (¬ ap.Sat p (· ∈ atts) → OpensNowhere (bls c) cs e ub hb) := by
  obtain ⟨mk, hmk, hd⟩ := masterBytes_mk c hcs (userBytes_max c hw hu) hmax hm
  obtain ⟨key, hk, hkd⟩ := userBytes_key c hcs hw hmax hmk (fun t ht => (hd t ht).1) (fun t ht => (hd t ht).2.2) hu
  obtain ⟨t0, random, s, n, h, h1, rfl, rfl⟩ := headerBytes_enc c he (fun t ht => (hd t ht).2.1) hh
  exact ⟨fun hsat => opensEverywhere_of c he hkd hkeep fun t ht =>
      C35_header_round_trip (t' := t) c ht hcs he hw hmk hk (md := some m) (by intro m hm; cases hm; exact hkeep) h1 hsat,
    fun hsat => opensNowhere_of c hkd fun t ht => (C39_unauthorised (t' := t) c ht hcs hw hmk hk h1 hsat).1⟩

/-! ### C65 -/

theorem CNumber.asUsize {t : Target} (ht : 31 ≤ t.bits) {n : Int32} {i : Nat} (h : CNumber t n i) : Abe.asUsize t n = i := by
  have h1 : (2 : Int) ^ 31 ≤ 2 ^ t.bits := by exact_mod_cast Nat.pow_le_pow_right (by decide : 0 < 2) ht
  have h2 := n.toInt_lt
  have h3 := n.le_toInt
  unfold Abe.asUsize Target.modulus
  push_cast
  rcases h with ⟨h, h'⟩ | ⟨h, h'⟩
  · rw [Int.emod_eq_of_lt h (by omega)]; omega
  · rw [← Int.add_emod_right, Int.emod_eq_of_lt (by omega) (by omega)]; omega

theorem BlockUidArg.unique {b : InBuf} {x y : Bytes} (h : BlockUidArg b x) (h' : BlockUidArg b y) : x = y := by
  rcases h with ⟨h1, rfl⟩ | ⟨h1, h2⟩ <;> rcases h' with ⟨g1, rfl⟩ | ⟨g1, g2⟩
  · rfl
  · rcases h1 with h1 | h1
    · obtain ⟨r, g2, _⟩ := g2
      rw [h1] at g2; simp at g2
    · omega
  · rcases g1 with g1 | g1
    · obtain ⟨r, h2, _⟩ := h2
      rw [g1] at h2; simp at h2
    · omega
  · exact h2.unique g2

/-- **C65.** A block encrypted by any of the interfaces, by a build for any pointer width, is decrypted by every interface of every build
with the same key, identifier and number. -/
theorem C65_blocks {bm : BilinearMap K QP P Q T} (he : e.Lawful tag) (hk : e.keyLen = 32) {kb uid data b : Bytes} {i : Nat}
    (h : BlockBytes bm cs e kb uid i data b) : BlockOpensEverywhere bm cs e kb uid i b data := by
  obtain ⟨k, n, hd, h1⟩ : ∃ k n, e.keyDec kb = .ok k ∧ encryptHybridBlock e maxClearTextSize k uid i data n = .ok b := by
    cases h with
    | python n h =>
      unfold pyEncryptHybridBlock at h
      obtain ⟨k, h1, h⟩ := Res.bind_eq_ok.1 h
      exact ⟨k, n, py_eq_ok.1 h1, py_eq_ok.1 h⟩
    | @c lib a b n hb hkey huid hnum hdata h =>
      obtain ⟨k, uid', data', ⟨kb', g1, _, g2⟩, g3, g4, _, g5⟩ := h
      obtain rfl := hkey.unique g1
      obtain rfl := huid.unique g3
      obtain rfl := hdata.unique g4
      rw [hnum.asUsize (by have := hb.bits; omega), hb.e_eq] at g5
      rw [hb.e_eq] at g2
      exact ⟨k, n, g2, g5⟩
    | js n hu hi h =>
      unfold jsEncryptHybridBlock at h
      split at h; · simp at h
      split at h; · simp at h
      obtain ⟨k, h1, h⟩ := Res.bind_eq_ok.1 h
      rw [hu, hi] at h
      exact ⟨k, n, js_eq_ok.1 h1, js_eq_ok.1 h⟩
  have hkl : kb.length = 32 := by
    by_contra hne
    obtain ⟨x, hx⟩ := he.keyDec_other kb (by rw [hk]; exact hne)
    rw [hx] at hd; simp at hd
  obtain ⟨h0, hmax, g2, g3⟩ := C38_block_decrypts he h1
  have hpos : 0 < data.length := List.length_pos_iff.2 h0
  refine ⟨?_, fun lib hb a hkey huid hnum hdata => ?_, fun uid' i' hu hi => ?_⟩
  · unfold pyDecryptHybridBlock
    rw [hd, py_ok, Res.ok_bind, g2, py_ok]
  · have hc : ClearBlockAnswer lib a data := by
      refine ⟨k, uid, b, ⟨kb, hkey, by rintro rfl; simp at hkl, by rw [hb.e_eq]; exact hd⟩, huid, hdata, by rintro rfl; simp at g3; omega, ?_⟩
      rw [hnum.asUsize (by have := hb.bits; omega), hb.e_eq]
      exact g2
    rcases C47_decrypt_block (lib := lib) (by have := hb.bits; omega) a with ⟨x, hx, hdel⟩ | ⟨hno, _⟩
    · obtain ⟨k', uid', b', ⟨kb', f1, _, f2⟩, f3, f4, _, f5⟩ := hx
      obtain rfl := hkey.unique f1
      obtain rfl := huid.unique f3
      obtain rfl := hdata.unique f4
      rw [hb.e_eq, hd, Res.ok.injEq] at f2
      subst f2
      rw [hnum.asUsize (by have := hb.bits; omega), hb.e_eq, g2, Res.ok.injEq] at f5
      subst f5
      exact hdel
    · exact absurd hc (hno data)
  · unfold jsDecryptHybridBlock
    rw [if_neg (by simpa using hkl), if_neg (by omega), hd, js_ok, Res.ok_bind, hu, hi, g2, js_ok]

/-- **C65**, negative numbers given to the C interface: builds of different pointer widths do not mean the same block number, so this
agreement on the number is impossible between them. -/
theorem C65_negative_number_refuted {t t' : Target} (ht : t.bits ≠ t'.bits) {n : Int32} (hn : n.toInt < 0) {i i' : Nat}
    (h : CNumber t n i) (h' : CNumber t' n i') : i ≠ i' := by
  rintro rfl
  rcases h with ⟨h, _⟩ | ⟨_, h⟩
  · omega
  rcases h' with ⟨h', _⟩ | ⟨_, h'⟩
  · omega
  have : (2 : Int) ^ t.bits = 2 ^ t'.bits := by omega
  exact ht (Nat.pow_right_injective (le_refl 2) (by exact_mod_cast this))

namespace Demo

/-- A build for WebAssembly. -/
def ffi32 : FfiLib F F F F F SymKey SymNonce := { ffi with t := .release32 }

theorem ffi_builds : ffi.Builds (bls curveF) codecs symmetric := ⟨rfl, rfl, rfl, by decide⟩
theorem ffi32_builds : ffi32.Builds (bls curveF) codecs symmetric := ⟨rfl, rfl, rfl, by decide⟩

/-- Master keys from Python on 64 bits; a user key from JavaScript on 32 bits, delegated from Python; a header for `[low, hr]` from
JavaScript, one for `[low]` from Python. -/
def mixedFlow : Res Unit ((Bytes × Bytes × Bytes) × Bytes × Bytes × Bytes × (Bytes × Bytes)) := do
  let mk ← (pyGenerateMasterKeys ffi.toLib [1] drawsF 3).mapErr fun _ => ()
  let kb ← (jsGenerateUserPrivateKey ffi32.toLib mk.1 "ap" [1] drawsF).mapErr fun _ => ()
  let kb1 ← (pyGenerateDelegatedKey ffi.toLib mk.2.2 kb "apLow" [1] drawsF).mapErr fun _ => ()
  let hb ← (jsEncryptHybridHeader ffi32.toLib [1] mk.2.1 "low,hr" [1, 2, 3] 5 7 nonce).mapErr fun _ => ()
  let hb' ← (pyEncryptHybridHeader ffi.toLib [1] [1] [2] mk.2.1 5 7 nonce).mapErr fun _ => ()
  .ok (mk, kb, kb1, hb, hb')

theorem mapErr_eq_ok {ε ε' α : Type} {f : ε → ε'} {x : Res ε α} {a : α} (h : x.mapErr f = .ok a) : x = .ok a := by
  cases x with
  | ok b => simpa [Res.mapErr] using h
  | err z => simp [Res.mapErr] at h
  | panic => simp [Res.mapErr] at h

theorem mixedFlow_ok : ∃ priv pub del ub ub1 kb hb kb' hb', MasterBytes (bls curveF) codecs symmetric policy drawsF 3 priv pub (some del) ∧
    UserBytes (bls curveF) codecs symmetric policy priv (some del) ap ub ∧
    UserBytes (bls curveF) codecs symmetric policy priv (some del) apLow ub1 ∧
    HeaderBytes (bls curveF) codecs symmetric policy pub [low, hr] ⟨[1, 2, 3], none⟩ kb hb ∧
    HeaderBytes (bls curveF) codecs symmetric policy pub [low] metadata kb' hb' := by
  have hok : (match mixedFlow with
    | .ok r => decide (max (max r.1.1.length r.1.2.1.length) r.1.2.2.length < 1000 ∧ r.2.1.length < 1000 ∧ r.2.2.1.length < 1000)
    | _ => false) = true := by decide +kernel
  cases hr : mixedFlow with
  | ok r =>
    rw [hr] at hok
    simp only [decide_eq_true_eq] at hok
    unfold mixedFlow at hr
    obtain ⟨⟨priv, pub, del⟩, h1, hr⟩ := Res.bind_eq_ok.1 hr
    obtain ⟨ub, h2, hr⟩ := Res.bind_eq_ok.1 hr
    obtain ⟨ub1, h3, hr⟩ := Res.bind_eq_ok.1 hr
    obtain ⟨b, h4, hr⟩ := Res.bind_eq_ok.1 hr
    obtain ⟨⟨kb', hb'⟩, h5, hr⟩ := Res.bind_eq_ok.1 hr
    simp only [Res.ok.injEq] at hr
    subst hr
    have g2 : UserBytes (bls curveF) codecs symmetric policy priv (some del) ap ub :=
      .js (lib := ffi32) drawsF ffi32_builds rfl rfl (mapErr_eq_ok h2) (lt_trans hok.2.1 (by decide))
    exact ⟨priv, pub, del, ub, ub1, _, _, kb', hb', .python ffi_builds rfl (mapErr_eq_ok h1) (lt_trans hok.1 (by decide)), g2,
      .delegate (lib := ffi) drawsF ffi_builds g2 rfl apLow_restricts (by decide) rfl rfl (mapErr_eq_ok h3)
        (lt_trans hok.2.2 (by decide)),
      .js (lib := ffi32) 5 7 nonce ffi32_builds rfl rfl (mapErr_eq_ok h4),
      .python (lib := ffi) 5 7 nonce ffi_builds rfl rfl rfl (mapErr_eq_ok h5)⟩
  | err z => rw [hr] at hok; simp at hok
  | panic => rw [hr] at hok; simp at hok

/-- Both keys open the header for `[low, hr]` everywhere, the first one does not open the other header anywhere. -/
example : ∃ ub ub1 kb hb hb', OpensEverywhere (bls curveF) codecs symmetric ub hb kb ⟨[1, 2, 3], none⟩ ∧
    OpensEverywhere (bls curveF) codecs symmetric ub1 hb kb ⟨[1, 2, 3], none⟩ ∧ OpensNowhere (bls curveF) codecs symmetric ub hb' := by
  obtain ⟨priv, pub, del, ub, ub1, kb, hb, kb', hb', h1, h2, h3, h4, h5⟩ := mixedFlow_ok
  have hw := reachable_wf policy_reachable
  exact ⟨ub, ub1, kb, hb, hb',
    (C64_interoperability curveF codecs_lawful symmetric_lawful hw (by decide) h1 h2 h4 js_metadata_kept).1 ap_sat,
    (C64_interoperability curveF codecs_lawful symmetric_lawful hw (by decide) h1 h3 h4 js_metadata_kept).1 apLow_sat,
    (C64_interoperability curveF codecs_lawful symmetric_lawful hw (by decide) h1 h2 h5 metadata_kept).2 ap_not_sat⟩

/-- The same with keys and a header from C. -/
example : ∃ kb hb, HeaderAnswer ffi cache (headerArgs 1) kb hb ∧
    OpensEverywhere (bls curveF) codecs symmetric userB hb kb ⟨[1, 2, 3, 4], some [9, 8]⟩ := by
  obtain ⟨kb, hb, ha, hk, _, hl⟩ := header_answer
  have hu := userB_length
  refine ⟨kb, hb, ha, (C64_interoperability curveF codecs_lawful symmetric_lawful (reachable_wf policy_reachable) (by decide)
    (.c ffi_builds policy_arg master_answer (by rw [masterB_length]; decide))
    (.c (privBuf := input privB) drawsF ffi_builds (by rw [masterB_priv]; exact input_isIn (by rw [privB_length]; decide)) policy_arg ap_arg
      user_answer (lt_trans hu (by decide)))
    (.c (pubBuf := input pubB) ffi_builds (by rw [masterB_pub]; exact input_isIn (by rw [pubB_length]; decide)) policy_arg cache_decodes
      atts_arg (.inr ⟨by rintro (h | h) <;> revert h <;> decide, input_isIn (by decide)⟩)
      (.inr ⟨by rintro (h | h) <;> revert h <;> decide, [9, 8], input_isIn (by decide), rfl⟩) ha) metadata_kept).1 ap_sat⟩

/-- A block encrypted from JavaScript without identifier nor number is decrypted everywhere with an empty identifier and number 0. -/
example : ∃ b, jsEncryptHybridBlock symmetric (List.replicate 32 7) none none [5, 6] nonce = .ok b ∧
    BlockOpensEverywhere (bls curveF) codecs symmetric (List.replicate 32 7) [] 0 b [5, 6] := by
  obtain ⟨b, h, _⟩ := C60_js_blocks symmetric_lawful rfl (kb := List.replicate 32 7) rfl none (by decide) none (data := [5, 6]) (by simp) (by simp) nonce
  exact ⟨b, h, C65_blocks symmetric_lawful rfl (.js nonce rfl rfl h)⟩

/-- One encrypted from C on 64 bits with number -1 is decrypted from Python with number 2^64 - 1. -/
example : ∃ b, pyDecryptHybridBlock symmetric (List.replicate 32 7) [1, 2, 3, 4] (2 ^ 64 - 1) b = .ok [5, 6] ∧
    BlockAnswer ffi ⟨input (List.replicate 32 7), input [1, 2, 3, 4], -1, input [5, 6]⟩ nonce b := by
  obtain ⟨b, h, _⟩ := (C38_blocks symmetric_lawful (max := maxClearTextSize) (by decide) ⟨List.replicate 32 7, rfl⟩ (uid := [1, 2, 3, 4]) (by decide) (2 ^ 64 - 1) [5, 6] nonce).2.2
    (by simp) (by simp [maxClearTextSize])
  have hn : CNumber ffi.t (-1) (2 ^ 64 - 1) := .inr ⟨by decide, by decide⟩
  have ha : BlockAnswer ffi ⟨input (List.replicate 32 7), input [1, 2, 3, 4], -1, input [5, 6]⟩ nonce b :=
    ⟨⟨List.replicate 32 7, rfl⟩, [1, 2, 3, 4], [5, 6], ⟨_, input_isIn (by decide), by simp, by decide⟩, .inr ⟨by decide, input_isIn (by decide)⟩,
      input_isIn (by decide), by simp, by rw [hn.asUsize (by decide)]; exact h⟩
  exact ⟨b, (C65_blocks (bm := bls curveF) (cs := codecs) symmetric_lawful rfl (.c (lib := ffi) nonce ffi_builds (input_isIn (by decide))
    (.inr ⟨by decide, input_isIn (by decide)⟩) hn (input_isIn (by decide)) ha)).python, ha⟩

/-- -1 on 64 and on 32 bits. -/
example : (2 ^ 64 - 1 : Nat) ≠ 2 ^ 32 - 1 :=
  C65_negative_number_refuted (t := .debug64) (t' := .release32) (by decide) (n := -1) (by decide) (.inr ⟨by decide, by decide⟩)
    (.inr ⟨by decide, by decide⟩)

end Demo

end Abe
