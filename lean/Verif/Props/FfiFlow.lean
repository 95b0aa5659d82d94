import Verif.Props.Ffi

set_option linter.unusedSectionVars false

/-!
# What the C interface returns: C51, the C part of C52 and C53, C56
-/

namespace Abe
open Prog

variable {K P Q QP T Key Nonce : Type} [Field K] [DecidableEq K] [AddCommGroup P] [Module K P] [AddCommGroup Q] [Module K Q]
  [AddCommGroup T] [Module K T]
variable {lib : FfiLib K QP P Q T Key Nonce} {tag : Nat} {p : Policy} {rnd : Nat → K} {y : K}

theorem StrArg.unique {α : Type} {s : Option Bytes} {dec : Bytes → Option α} {a b : α} (h : StrArg s dec a) (h' : StrArg s dec b) :
    a = b := by
  obtain ⟨x, h1, _, h2⟩ := h
  obtain ⟨x', h1', _, h2'⟩ := h'
  obtain rfl := h1.unique h1'
  rw [h2] at h2'
  exact Option.some.inj h2'

theorem roundTrips_dec {α : Type} {c : Codec α} {x : α} {b : Bytes} {B : Nat} (h : c.RoundTrips B x) (hb : c.enc x = .ok b)
    (hB : b.length < B) : c.dec b = .ok x := by
  obtain ⟨b', h1, _, h2⟩ := h
  rw [hb] at h1
  simp only [Res.ok.injEq] at h1
  subst h1
  have := h2 []
  rw [List.append_nil] at this
  exact this (by omega)

/-! ### C51 -/

/-- The parts of the answer to a request of master keys. -/
theorem masterKeysAnswer_split (c : Curve K P Q QP T) (hbm : lib.bm = bls c) (ht : 32 ≤ lib.t.bits) (hcs : lib.cs.Lawful)
    (h0 : p.maxAttributeCreations ≠ 0) (hmax : p.maxAttributeCreations.toNat < 2 ^ 32 - 1) {policy : Option Bytes}
    (hp : StrArg policy lib.serde.policyDec p) {b : Bytes} (hb : MasterKeysAnswer lib policy rnd y b) (hl : b.length < 2 ^ 32) :
    ∃ mk, engineGenerateMasterKey (bls c) p rnd y = .ok mk ∧ 4 + bigEndian (b.take 4) ≤ b.length ∧
      (privKeyCodec lib.t lib.cs).dec ((b.drop 4).take (bigEndian (b.take 4))) = .ok mk.privKey ∧
      (pubKeyCodec lib.t lib.cs).dec (b.drop (4 + bigEndian (b.take 4))) = .ok mk.pubKey := by
  obtain ⟨p', mk, head, priv, pub, h1, h2, h3, h4, h5, h6, rfl⟩ := hb
  obtain rfl := h1.unique hp
  rw [hbm] at h2
  have hrt := C24_generated_keys_round_trip (t := lib.t) hcs c h2 h0 hmax
  simp only [List.length_append, h5] at hl
  rw [Nat.mod_eq_of_lt (by omega)] at h6
  have e1 : (head ++ priv ++ pub).take 4 = head := by rw [List.append_assoc, List.take_left' h5]
  refine ⟨mk, h2, ?_, ?_, ?_⟩ <;> rw [e1, h6]
  · simp only [List.length_append, h5]; omega
  · rw [List.append_assoc, List.drop_left' h5, List.take_left' rfl]
    exact roundTrips_dec hrt.1 h3 (fits32 ht (by omega))
  · rw [List.drop_left' (by rw [List.length_append, h5])]
    exact roundTrips_dec hrt.2.1 h4 (fits32 ht (by omega))

/-- **C51**: for every generated key pair, `h_generate_master_keys` delivers a buffer which, split at the length found in its first 4
bytes, decodes to the private and the public key. -/
theorem C51_master_keys (c : Curve K P Q QP T) (hbm : lib.bm = bls c) (ht : 32 ≤ lib.t.bits) (hcs : lib.cs.Lawful)
    (h0 : p.maxAttributeCreations ≠ 0) (hmax : p.maxAttributeCreations.toNat < 2 ^ 32 - 1) {policy : Option Bytes}
    (hp : StrArg policy lib.serde.policyDec p) {mk : MasterKey K P Q T} (hmk : engineGenerateMasterKey (bls c) p rnd y = .ok mk) :
    ∃ b, Delivers lib.t (hGenerateMasterKeys lib policy rnd y) .out b ∧
      (b.length < 2 ^ 32 → 4 + bigEndian (b.take 4) ≤ b.length ∧
        (privKeyCodec lib.t lib.cs).dec ((b.drop 4).take (bigEndian (b.take 4))) = .ok mk.privKey ∧
        (pubKeyCodec lib.t lib.cs).dec (b.drop (4 + bigEndian (b.take 4))) = .ok mk.pubKey) := by
  rcases C47_master_keys (lib := lib) (by omega) policy rnd y with ⟨b, h1, h2⟩ | ⟨h1, _⟩
  · refine ⟨b, h2, fun hl => ?_⟩
    obtain ⟨mk', h3, h4⟩ := masterKeysAnswer_split c hbm ht hcs h0 hmax hp h1 hl
    rw [hmk, Res.ok.injEq] at h3
    subst h3
    exact h4
  · obtain ⟨⟨b1, e1, _⟩, ⟨b2, e2, _⟩, _⟩ := C24_generated_keys_round_trip (t := lib.t) hcs c hmk h0 hmax
    refine absurd ⟨p, mk, be32 b1.length.toUInt32, b1, b2, hp, hbm ▸ hmk, e1, e2, be32_length _, ?_, rfl⟩ (h1 (be32 b1.length.toUInt32 ++ b1 ++ b2))
    rw [bigEndian_be32]
    simp [Nat.toUInt32]

/-! ### C52, C part -/

theorem toInt32_toInt (n : UInt32) : n.toInt32.toInt = if n.toNat < 2 ^ 31 then (n.toNat : Int) else n.toNat - 2 ^ 32 := by
  have h : n.toInt32.toInt = n.toBitVec.toInt := rfl
  rw [h, BitVec.toInt_eq_toNat_cond]
  have : n.toBitVec.toNat = n.toNat := rfl
  rw [this]
  split <;> split <;> omega

/-- **C52**, C interface: the size announced by the first 4 bytes is returned if it is below `2 ^ 31`, otherwise a negative number is;
inputs of 1 to 3 bytes make the call panic. -/
theorem C52_ffi {e : InBuf} {b : Bytes} (he : IsIn e b) (h0 : b ≠ [])
    (s : FState (EncryptionCache P T) (DecryptionKey K QP Q)) :
    (b.length < 4 → ((hGetEncryptedHeaderSize e : Foreign K QP P Q T Int32).run s).1 = .panic) ∧
    (4 ≤ b.length → ∃ n : Int32, (hGetEncryptedHeaderSize e : Foreign K QP P Q T Int32).run s = (.ret n, s) ∧
      n.toInt = if bigEndian (b.take 4) < 2 ^ 31 then (bigEndian (b.take 4) : Int) else bigEndian (b.take 4) - 2 ^ 32) := by
  have h : (hGetEncryptedHeaderSize e : Foreign K QP P Q T Int32) = (do
      let b ← (Prog.unwrap (fun _ => []) (slice b 0 4) : Foreign K QP P Q T Bytes)
      return (ofBe32 b).toInt32) := by
    unfold hGetEncryptedHeaderSize
    rw [checkIn_eq_pure.2 (he.not_missing h0), readIn_eq_pure.2 he]
    simp only [pure_bind]
  rw [h]
  constructor
  · intro hl
    rw [slice, if_neg (by omega)]
    rfl
  · intro hl
    rw [slice, if_pos ⟨by omega, hl⟩, List.drop_zero]
    refine ⟨(ofBe32 (b.take 4)).toInt32, rfl, ?_⟩
    rw [bigEndian_eq (by simpa using hl)]
    exact toInt32_toInt _

/-- **C52**: the error code of the call is also the size 1. -/
theorem C52_ffi_ambiguous (s : FState (EncryptionCache P T) (DecryptionKey K QP Q)) :
    ((hGetEncryptedHeaderSize ⟨none, 0⟩ : Foreign K QP P Q T Int32).run s).1 = .ret 1 ∧
    ((hGetEncryptedHeaderSize ⟨some [0, 0, 0, 1], 4⟩ : Foreign K QP P Q T Int32).run s).1 = .ret 1 := ⟨rfl, rfl⟩

/-! ### C53, C part -/

/-- **C53**, list of rotations through the C interface: all of them are applied and the result is delivered, or the call never writes. -/
theorem C53_ffi_rotations (ht : 31 ≤ lib.t.bits) (hs : lib.serde.KeepsPolicies) {attributes policy : Option Bytes}
    {atts : List Attribute} (hatt : StrArg attributes lib.serde.attributesDec atts) (hpol : StrArg policy lib.serde.policyDec p)
    (hr : p.Reachable) (hsp : p.Spelled) :
    (∀ p' b, Policy.Rotations p atts p' → lib.serde.policyEnc p' = some b →
      Delivers lib.t (hRotateAttributes lib attributes policy) .out b ∧ ∃ q, lib.serde.policyDec b = some q ∧ p'.Reorders q) ∧
    ((¬ ∃ p', Policy.Rotations p atts p') → NeverWrites (hRotateAttributes lib attributes policy)) := by
  constructor
  · intro p' b h1 h2
    refine ⟨?_, hs p' b (rotations_reachable h1 hr) (rotations_spelled h1 (reachable_wf hr) hsp) h2⟩
    have hA : rotatePayload lib attributes policy = pure b := rotatePayload_iff.2 ⟨p, atts, p', hpol, hatt, h1, h2⟩
    rw [hRotateAttributes_eq, hA]
    exact delivers_of_pure lib.t ht _ _ _ _ b
  · intro h
    rcases C47_rotation (lib := lib) ht attributes policy with ⟨b, ⟨p1, a1, p', h1, h2, h3, _⟩, _⟩ | ⟨_, h⟩
    · obtain rfl := h1.unique hpol
      obtain rfl := h2.unique hatt
      exact absurd ⟨p', h3⟩ h
    · exact h

/-! ### C56 -/

/-- The policy of a user key has some attribute, hence a creation budget. -/
theorem max_ne_zero_of_userKey {bm : BilinearMap K QP P Q T} (hw : p.WF) {priv : MasterPrivateKey K} {ap : AccessPolicy}
    {key : DecryptionKey K QP Q} (h : engineGenerateUserKey bm p priv ap rnd = .ok key) : p.maxAttributeCreations ≠ 0 := by
  intro h0
  have hno : ∀ b, ¬ p.Known b := by
    intro b hb
    obtain ⟨v, _, hv⟩ := Policy.currentValue_known hw hb
    have h1 := hw.range v ((Policy.mem_allValues hw).2 ⟨b, hv⟩)
    have h2 := hw.budget
    rw [h0] at h2
    simp at h2
    omega
  unfold engineGenerateUserKey at h
  obtain ⟨m, hm, _⟩ := Res.bind_eq_ok.1 h
  rcases policyToMsp_spec hw ap with ⟨_, m', F, g1, g2, g3⟩ | ⟨_, e, g1⟩
  · obtain ⟨v, hv⟩ : ∃ v, v ∈ F.leaves := by
      cases hF : F.leaves with
      | nil => exact absurd hF F.leaves_ne_nil
      | cons v l => exact ⟨v, by simp⟩
    obtain ⟨b, _, hb⟩ := (g3.leaves v).1 hv
    exact hno b (hb.known hw)
  · rw [hm] at g1; simp at g1

theorem IsIn.bytesArg {α : Type} {b : InBuf} {x : Bytes} (h : IsIn b x) {dec : Bytes → Out α} {a a' : α} (h1 : BytesArg b dec a)
    (h2 : dec x = .ok a') : a = a' := by
  obtain ⟨x', h3, _, h4⟩ := h1
  obtain rfl := h.unique h3
  rw [h2] at h4
  exact (Res.ok.inj h4).symm

/-- **C56**: through the C interface, with master keys delivered for a policy, a user key delivered for an access policy with the private
part, and a header delivered for attributes with the public part: decryption of the header with the key delivers the same symmetric key,
identifier and additional data if the attributes satisfy the access policy; otherwise it never succeeds nor writes anything. -/
theorem C56_round_trip (c : Curve K P Q QP T) (hbm : lib.bm = bls c) (ht : 32 ≤ lib.t.bits) (hcs : lib.cs.Lawful)
    (he : lib.e.Lawful tag) (hw : p.WF) (hmax : p.maxAttributeCreations.toNat < 2 ^ 32 - 1)
    {pol pol' pol'' attributes access : Option Bytes} {atts : List Attribute} {ap : AccessPolicy}
    (hpol : StrArg pol lib.serde.policyDec p) (hpol' : StrArg pol' lib.serde.policyDec p) (hpol'' : StrArg pol'' lib.serde.policyDec p)
    (hap : StrArg access lib.serde.accessPolicyDec ap) (hatts : StrArg attributes lib.serde.attributesDec atts)
    {mb : Bytes} (hmb : MasterKeysAnswer lib pol rnd y mb) (hml : mb.length < 2 ^ 32)
    {priv : InBuf} (hpriv : IsIn priv ((mb.drop 4).take (bigEndian (mb.take 4))))
    {rnd' : Nat → K} {ub : Bytes} (hub : UserKeyAnswer lib priv access pol' rnd' ub) (hul : ub.length < lib.t.modulus)
    {pub : InBuf} (hpub : IsIn pub (mb.drop (4 + bigEndian (mb.take 4))))
    {cache : EncryptionCache P T} (hc : EncCacheArgs.Decodes lib ⟨pol'', pub⟩ cache) {a : EncHeaderArgs K T Nonce}
    (ha : a.attributes = attributes) {uid : Bytes} {ad : Option Bytes} (huid : UidArg a.uid uid) (had : AdditionalArg a.additional ad)
    (hkeep : lib.e.Keeps ⟨uid, ad⟩) {kb hb : Bytes} (hhb : HeaderAnswer lib cache a kb hb)
    {user header : InBuf} (huser : IsIn user ub) (hheader : IsIn header hb) :
    (ap.Sat p (· ∈ atts) → DeliversClearHeader (fun _ => True) (hDecryptHeader lib header user) kb uid ad) ∧
    (¬ ap.Sat p (· ∈ atts) → NeverWrites (hDecryptHeader lib header user)) := by
  obtain ⟨p1, sk, ap1, key, g1, g2, g3, g4, g5⟩ := hub
  obtain rfl := g1.unique hpol'
  obtain rfl := g3.unique hap
  rw [hbm] at g4 g5
  obtain ⟨mk, hmk, _, hd1, hd2⟩ := masterKeysAnswer_split c hbm ht hcs (max_ne_zero_of_userKey hw g4) hmax hpol hmb hml
  obtain rfl := hpriv.bytesArg g2 hd1
  have hk : UserKey c p1 mk ap1 key := .generate rnd' g4
  have hkd : (userKeyCodec lib.t lib.cs lib.bm).dec ub = .ok key := by
    have hn := hk.nbRow_le hw hmk
    obtain ⟨b, h1, _, h3⟩ := C25_user_key_round_trip (t := lib.t) hcs c hk.obtained (by omega)
    rw [g5, Res.ok.injEq] at h1
    subst h1
    have := h3 []
    rw [List.append_nil] at this
    rw [hbm]
    exact this hul
  obtain ⟨c1, c2⟩ := hc
  obtain ⟨cp, ck⟩ := cache
  obtain rfl := c1.unique hpol''
  obtain rfl := hpub.bytesArg c2 hd2
  obtain ⟨atts1, uid1, ad1, h, e1, e2, e3, e4, rfl, rfl⟩ := hhb
  rw [ha] at e1
  obtain rfl := e1.unique hatts
  obtain rfl : uid1 = uid := by
    rcases e2 with ⟨m1, rfl⟩ | ⟨m1, e2⟩ <;> rcases huid with ⟨m2, rfl⟩ | ⟨m2, huid⟩
    · rfl
    · exact absurd m1 m2
    · exact absurd m2 m1
    · exact e2.unique huid
  obtain rfl : ad1 = ad := by
    rcases e3 with ⟨m1, rfl⟩ | ⟨m1, x1, e3, rfl⟩ <;> rcases had with ⟨m2, rfl⟩ | ⟨m2, x2, had, rfl⟩
    · rfl
    · exact absurd m1 m2
    · exact absurd m2 m1
    · rw [e3.unique had]
  rw [hbm] at e4
  constructor
  · intro hsat
    have hdec := C35_header_round_trip (t' := lib.t) c ht hcs he hw hmk hk (md := some ⟨uid1, ad1⟩)
      (by intro m hm; cases hm; exact hkeep) e4 hsat
    rcases C47_decrypt_header (lib := lib) (by omega) header user with ⟨key', kb', uid', ad', f1, ⟨h', f2, rfl, rfl, rfl⟩, f3⟩ | ⟨f1, _⟩
    · obtain rfl := huser.bytesArg f1 hkd
      obtain rfl := hheader.bytesArg f2 (by rw [hbm]; exact hdec)
      exact f3
    · exfalso
      have ne1 : h.encryptedHeaderBytes ≠ [] := by
        intro e
        have := (C39_framing (e := lib.e) (cs := lib.cs) (t := lib.t) (bm := bls c) (key := key) (b := h.encryptedHeaderBytes)).1 (by rw [e]; decide)
        rw [hdec] at this
        simp at this
      have ne2 : ub ≠ [] := by
        rintro rfl
        simp [userKeyCodec] at hkd
      exact f1 key (lib.e.keyEnc h.symmetricKey) uid1 ad1 ⟨ub, huser, ne2, hkd⟩
        ⟨⟨h.symmetricKey, ⟨uid1, ad1⟩⟩, ⟨_, hheader, ne1, by rw [hbm]; exact hdec⟩, rfl, rfl, rfl⟩
  · intro hsat
    obtain ⟨h4, _⟩ := C39_unauthorised (t' := lib.t) c ht hcs hw hmk hk e4 hsat
    rcases C47_decrypt_header (lib := lib) (by omega) header user with ⟨key', kb', uid', ad', f1, ⟨h', f2, _⟩, _⟩ | ⟨_, f1⟩
    · obtain rfl := huser.bytesArg f1 hkd
      obtain ⟨x, f3, _, f4⟩ := f2
      obtain rfl := hheader.unique f3
      rw [hbm] at f4
      exact absurd f4 (h4 h')
    · exact f1

theorem OutBuf.Filled.holds {b b' : OutBuf} {x y : Bytes} (h : b.Filled x b') (hx : x.length < 2 ^ 31) (hy : b'.Holds y) : y = x := by
  obtain ⟨m, n, _, rfl, hn⟩ := h
  obtain ⟨m', n', h1, _, rfl⟩ := hy
  have hn := hn hx
  simp only [OutBuf.mk.injEq, Option.some.injEq] at h1
  obtain ⟨rfl, rfl⟩ := h1
  rw [hn]
  simp

theorem Int32.toInt_lt' (n : Int32) : n.toInt < 2 ^ 31 := by
  have := n.toInt_lt
  simpa using this

/-- What a call delivers is what the caller reads. -/
theorem Delivers.gives {E D : Type} {t : Target} {call : Prog E D Int32} {k : Slot} {b x : Bytes} (h : Delivers t call k b) {s : FState E D}
    (hg : Gives call s k x) : x = b ∧ b.length < 2 ^ 31 := by
  obtain ⟨⟨m, n, h1, h2, h3⟩, h4, h5⟩ := hg
  have := Int32.toInt_lt' n
  rcases lt_or_ge n.toInt (b.length : Int) with hl | hl
  · obtain ⟨s', n', g, _⟩ := h.small s m n h1 h2 hl
    rw [g] at h4
    simp at h4
  · obtain ⟨s', n', g, _, _, g1, g2⟩ := h.fits s m n h1 h2 hl (by omega)
    rw [g] at h5
    exact ⟨OutBuf.Filled.holds (b := s.mem.slots k) ⟨m, n', by rw [h1], g1, g2⟩ (by omega) h5, by omega⟩

theorem NeverWrites.gives {E D : Type} {call : Prog E D Int32} {k : Slot} {x : Bytes} (h : NeverWrites call) {s : FState E D} (hg : Gives call s k x) : False :=
  (h s).1 hg.2.1

/-- The same for a header. -/
theorem DeliversHeader.gives {E D : Type} {S : FState E D → Prop} {call : Prog E D Int32} {kb hb x y : Bytes} (h : DeliversHeader S call kb hb) {s : FState E D}
    (hS : S s) (hg : Gives call s .symKey x) (hg' : Gives call s .header y) : x = kb ∧ y = hb ∧ hb.length < 2 ^ 31 := by
  obtain ⟨⟨m, n, h1, h2, h3⟩, h4, h5⟩ := hg
  obtain ⟨⟨m', n', h1', h2', h3'⟩, _, h5'⟩ := hg'
  have := Int32.toInt_lt' n
  have := Int32.toInt_lt' n'
  rcases lt_or_ge n.toInt (kb.length : Int) with hl | hl
  · obtain ⟨s', g, _⟩ := h.keySmall s hS ⟨m, n, h1, h2, hl⟩ ⟨m', n', h1', by rintro rfl; simp at h2'⟩
    rw [g] at h4
    simp at h4
  · rcases lt_or_ge n'.toInt (hb.length : Int) with hl' | hl'
    · obtain ⟨s', g, _⟩ := h.headerSmall s hS ⟨m, n, h1, h2, hl, by omega⟩ ⟨m', n', h1', h2', hl'⟩
      rw [g] at h4
      simp at h4
    · obtain ⟨s', g, _, _, g1, g2⟩ := h.fits s hS ⟨m, n, h1, h2, hl, by omega⟩ ⟨m', n', h1', h2', hl', by omega⟩
      rw [g] at h5 h5'
      exact ⟨g1.holds (by omega) h5, g2.holds (by omega) h5', by omega⟩

/-- **C56**, in terms of calls only: master keys `mb` obtained by a call, a user key `ub` obtained by a call with the private part of `mb`, a symmetric key
`kb` and a header `hb` obtained by a call with the public part of `mb`, with or without cache. -/
theorem C56_calls (c : Curve K P Q QP T) (hbm : lib.bm = bls c) (ht : 32 ≤ lib.t.bits) (hcs : lib.cs.Lawful)
    (he : lib.e.Lawful tag) (hw : p.WF) (hmax : p.maxAttributeCreations.toNat < 2 ^ 32 - 1)
    {pol pol' pol'' attributes access : Option Bytes} {atts : List Attribute} {ap : AccessPolicy}
    (hpol : StrArg pol lib.serde.policyDec p) (hpol' : StrArg pol' lib.serde.policyDec p) (hpol'' : StrArg pol'' lib.serde.policyDec p)
    (hap : StrArg access lib.serde.accessPolicyDec ap) (hatts : StrArg attributes lib.serde.attributesDec atts)
    {s1 s2 s3 : FState (EncryptionCache P T) (DecryptionKey K QP Q)}
    {mb : Bytes} (hmb : Gives (hGenerateMasterKeys lib pol rnd y) s1 .out mb)
    {priv : InBuf} (hpriv : IsIn priv ((mb.drop 4).take (bigEndian (mb.take 4))))
    {rnd' : Nat → K} {ub : Bytes} (hub : Gives (hGenerateUserPrivateKey lib priv access pol' rnd') s2 .out ub)
    {pub : InBuf} (hpub : IsIn pub (mb.drop (4 + bigEndian (mb.take 4))))
    {a : EncHeaderArgs K T Nonce} (ha : a.attributes = attributes) {uid : Bytes} {ad : Option Bytes} (huid : UidArg a.uid uid)
    (had : AdditionalArg a.additional ad) (hkeep : lib.e.Keeps ⟨uid, ad⟩) {call : Foreign K QP P Q T Int32}
    (hcall : call = hEncryptHeader lib ⟨pol'', pub⟩ a ∨ ∃ h s s0, call = hEncryptHeaderUsingCache lib h a ∧
      (hCreateEncryptionCache lib ⟨pol'', pub⟩).run s = (.ret 0, s0) ∧ s0.mem.handle = some h ∧ s3.enc.get h = s0.enc.get h)
    {kb hb : Bytes} (hkb : Gives call s3 .symKey kb) (hhb : Gives call s3 .header hb)
    {user header : InBuf} (huser : IsIn user ub) (hheader : IsIn header hb) :
    (ap.Sat p (· ∈ atts) → DeliversClearHeader (fun _ => True) (hDecryptHeader lib header user) kb uid ad) ∧
    (¬ ap.Sat p (· ∈ atts) → NeverWrites (hDecryptHeader lib header user)) := by
  obtain ⟨mb', m1, m2⟩ := (C47_master_keys (lib := lib) (by omega) pol rnd y).resolve_right fun h => h.2.gives hmb
  obtain ⟨rfl, hml⟩ := m2.gives hmb
  obtain ⟨ub', u1, u2⟩ := (C47_user_key (lib := lib) (by omega) priv access pol' rnd').resolve_right fun h => h.2.gives hub
  obtain ⟨rfl, hul⟩ := u2.gives hub
  have hgive : Gives (hEncryptHeader lib ⟨pol'', pub⟩ a) s3 .symKey kb ∧ Gives (hEncryptHeader lib ⟨pol'', pub⟩ a) s3 .header hb := by
    rcases hcall with rfl | ⟨h, s, s0, rfl, hc, hh, hs⟩
    · exact ⟨hkb, hhb⟩
    · have e := C46_created_encryption hc hh hs a
      unfold Gives at hkb hhb ⊢
      rw [e] at hkb hhb
      exact ⟨hkb, hhb⟩
  obtain ⟨cache, kb', hb', d1, d2, d3⟩ := (C47_encrypt_header (lib := lib) (by omega) ⟨pol'', pub⟩ a).resolve_right fun h => h.2.gives hgive.1
  obtain ⟨rfl, rfl, _⟩ := d3.gives trivial hgive.1 hgive.2
  refine C56_round_trip c hbm ht hcs he hw hmax hpol hpol' hpol'' hap hatts m1 (by omega) hpriv u1 ?_ hpub d1 ha huid had hkeep d2 huser hheader
  have : 2 ^ 32 ≤ lib.t.modulus := Nat.pow_le_pow_right (by decide) ht
  omega

/-! ### Concrete cases -/

namespace Demo

/-- **C51** for the keys of the example. -/
example : ∃ b, Delivers ffi.t (hGenerateMasterKeys ffi (some [1, 0]) drawsF 3) .out b ∧
    (b.length < 2 ^ 32 → 4 + bigEndian (b.take 4) ≤ b.length ∧
      (privKeyCodec ffi.t ffi.cs).dec ((b.drop 4).take (bigEndian (b.take 4))) = .ok mkF.privKey ∧
      (pubKeyCodec ffi.t ffi.cs).dec (b.drop (4 + bigEndian (b.take 4))) = .ok mkF.pubKey) :=
  C51_master_keys curveF rfl (by decide) codecs_lawful (by decide) (by decide) policy_arg mkF_eq

/-- **C52**: the size 258, a size which does not fit, a panic. -/
example : ∃ n : Int32, (hGetEncryptedHeaderSize (input [0, 0, 1, 2, 9]) : Foreign F F F F F Int32).run (state fun _ => buf 0 0) = (.ret n, state fun _ => buf 0 0) ∧
    n.toInt = 258 := by
  obtain ⟨n, h1, h2⟩ := (C52_ffi (input_isIn (b := [0, 0, 1, 2, 9]) (by decide)) (by decide) (state fun _ => buf 0 0)).2 (by decide)
  exact ⟨n, h1, h2.trans (by decide)⟩
example : ∃ n : Int32, (hGetEncryptedHeaderSize (input [255, 255, 255, 254]) : Foreign F F F F F Int32).run (state fun _ => buf 0 0) = (.ret n, state fun _ => buf 0 0) ∧
    n.toInt = -2 := by
  obtain ⟨n, h1, h2⟩ := (C52_ffi (input_isIn (b := [255, 255, 255, 254]) (by decide)) (by decide) (state fun _ => buf 0 0)).2 (by decide)
  exact ⟨n, h1, h2.trans (by decide)⟩
example : ((hGetEncryptedHeaderSize (input [0, 0, 1]) : Foreign F F F F F Int32).run (state fun _ => buf 0 0)).1 = .panic :=
  (C52_ffi (input_isIn (b := [0, 0, 1]) (by decide)) (by decide) (state fun _ => buf 0 0)).1 (by decide)

/-- **C53**: rotation of `hr`. -/
example : Delivers ffi.t (hRotateAttributes ffi (some [3, 0]) (some [1, 0])) .out [2] ∧
    ∃ q, ffi.serde.policyDec [2] = some q ∧ rotated.Reorders q :=
  (C53_ffi_rotations (by decide) serde_keeps hr_arg policy_arg policy_reachable policy_spelled).1 rotated [2] rotations rfl

/-- **C56**: a header for `[low, hr]` and a user key for `ap`: decryption delivers the key, the identifier and the additional data. -/
theorem round_trip : ∃ kb hb, HeaderAnswer ffi cache (headerArgs 1) kb hb ∧ kb.length = 32 ∧
    DeliversClearHeader (fun _ => True) (hDecryptHeader ffi (input hb) (input userB)) kb [1, 2, 3, 4] (some [9, 8]) := by
  obtain ⟨kb, hb, ha, hk, _, hl⟩ := header_answer
  have hu := userB_length
  refine ⟨kb, hb, ha, hk, (C56_round_trip curveF rfl (by decide) codecs_lawful symmetric_lawful (reachable_wf policy_reachable) (by decide)
    policy_arg policy_arg policy_arg ap_arg atts_arg master_answer (by rw [masterB_length]; decide) (priv := input privB)
    (by rw [masterB_priv]; exact input_isIn (by rw [privB_length]; decide)) user_answer (lt_trans hu (by decide))
    (pub := input pubB) (by rw [masterB_pub]; exact input_isIn (by rw [pubB_length]; decide)) cache_decodes rfl
    (.inr ⟨by rintro (h | h) <;> revert h <;> decide, input_isIn (by decide)⟩)
    (.inr ⟨by rintro (h | h) <;> revert h <;> decide, [9, 8], input_isIn (by decide), rfl⟩) metadata_kept ha
    (input_isIn (by omega)) (input_isIn (by omega))).1 ap_sat⟩

/-- The same header for `[low]`: decryption never writes anything. -/
example : ∃ kb hb, HeaderAnswer ffi cache (headerArgs 2) kb hb ∧ NeverWrites (hDecryptHeader ffi (input hb) (input userB)) := by
  obtain ⟨kb, hb, ha, hl⟩ := header_low_answer
  have hu := userB_length
  refine ⟨kb, hb, ha, (C56_round_trip curveF rfl (by decide) codecs_lawful symmetric_lawful (reachable_wf policy_reachable) (by decide)
    policy_arg policy_arg policy_arg ap_arg low_arg master_answer (by rw [masterB_length]; decide) (priv := input privB)
    (by rw [masterB_priv]; exact input_isIn (by rw [privB_length]; decide)) user_answer (lt_trans hu (by decide))
    (pub := input pubB) (by rw [masterB_pub]; exact input_isIn (by rw [pubB_length]; decide)) cache_decodes rfl
    (.inr ⟨by rintro (h | h) <;> revert h <;> decide, input_isIn (by decide)⟩)
    (.inr ⟨by rintro (h | h) <;> revert h <;> decide, [9, 8], input_isIn (by decide), rfl⟩) metadata_kept ha
    (input_isIn (by omega)) (input_isIn (by omega))).2 ap_not_sat⟩

/-- **C47**, the decryption in buffers of 32 bytes. -/
example : ∃ kb hb, HeaderAnswer ffi cache (headerArgs 1) kb hb ∧
    ∃ s', (hDecryptHeader ffi (input hb) (input userB)).run (state fun _ => buf 32 32) = (.ret 0, s') ∧
      (∃ n : Int32, s'.mem.slots .symKey = ⟨some kb, some n⟩) ∧
      (∃ n : Int32, s'.mem.slots .uid = ⟨some ([1, 2, 3, 4] ++ List.replicate 28 0), some n⟩) ∧
      (∃ n : Int32, s'.mem.slots .additional = ⟨some ([9, 8] ++ List.replicate 30 0), some n⟩) := by
  obtain ⟨kb, hb, ha, hk, hd⟩ := round_trip
  refine ⟨kb, hb, ha, ?_⟩
  have e32 : (32 : Int32).toInt = 32 := by decide
  have hw : ¬ (buf 32 32).Unwanted := by
    rintro (h | ⟨n, h, h'⟩)
    · simp [buf] at h
    · obtain rfl := Option.some.inj h; omega
  obtain ⟨s', g1, _, _, ⟨m1, n1, g2, g3, _⟩, g4, g6⟩ :=
    hd.fits (state fun _ => buf 32 32) trivial ⟨List.replicate 32 0, 32, rfl, by decide, by omega, by rw [List.length_replicate]; omega⟩
    (.inr ⟨List.replicate 32 0, 32, rfl, by decide, by decide, by decide⟩)
    (.inr ⟨List.replicate 32 0, 32, rfl, by decide, by decide, by decide⟩)
  obtain ⟨_, m2, n2, g4, g5, _⟩ := g4.resolve_left fun h => hw h.1
  obtain ⟨_, m3, n3, g6, g7, _⟩ := g6.resolve_left fun h => hw h.1
  refine ⟨s', g1, ⟨n1, ?_⟩, ⟨n2, ?_⟩, ⟨n3, ?_⟩⟩
  · have g2 : List.replicate 32 0 = m1 := Option.some.inj g2
    rw [g3, ← g2, hk, List.drop_replicate, Nat.sub_self, List.replicate_zero, List.append_nil]
  · have g2 : List.replicate 32 0 = m2 := Option.some.inj g4
    rw [g5, ← g2]; rfl
  · have g2 : List.replicate 32 0 = m3 := Option.some.inj g6
    rw [g7, ← g2]; rfl

/-- What a call gives in buffers of 4096 bytes. -/
def given (call : Foreign F F F F F Int32) (k : Slot) : Bytes :=
  match (call.run (state fun _ => buf 4096 4096)).2.mem.slots k with
  | ⟨some m, some n⟩ => m.take n.toInt.toNat
  | _ => []

/-- Whether it gives something. -/
def gives? (call : Foreign F F F F F Int32) (k : Slot) : Bool :=
  decide ((call.run (state fun _ => buf 4096 4096)).1 = .ret 0) &&
  match (call.run (state fun _ => buf 4096 4096)).2.mem.slots k with
  | ⟨some _, some n⟩ => decide (0 ≤ n.toInt)
  | _ => false

theorem given_gives {call : Foreign F F F F F Int32} {k : Slot} (h : gives? call k = true) : Gives call (state fun _ => buf 4096 4096) k (given call k) := by
  have h0 : ((state fun _ => buf 4096 4096).mem.slots k).Usable := ⟨List.replicate 4096 0, 4096, rfl, by decide, by rw [List.length_replicate]; decide⟩
  simp only [gives?, Bool.and_eq_true, decide_eq_true_eq] at h
  refine ⟨h0, h.1, ?_⟩
  have h2 := h.2
  unfold given
  split at h2
  · rename_i m n e
    rw [e]
    exact ⟨m, n, rfl, by simpa using h2, rfl⟩
  · cases h2

/-- The calls of the example. -/
def call1 : Foreign F F F F F Int32 := hGenerateMasterKeys ffi (some [1, 0]) drawsF 3
def call1Priv : Bytes := ((given call1 .out).drop 4).take (bigEndian ((given call1 .out).take 4))
def call1Pub : Bytes := (given call1 .out).drop (4 + bigEndian ((given call1 .out).take 4))
def call2 : Foreign F F F F F Int32 := hGenerateUserPrivateKey ffi (input call1Priv) (some [1, 0]) (some [1, 0]) drawsF
def call3 (i : UInt8) : Foreign F F F F F Int32 := hEncryptHeader ffi ⟨some [1, 0], input call1Pub⟩ (headerArgs i)

/-- **C56**, the four calls: the key for `ap` opens the header for `[low, hr]`, not the one for `[low]`. -/
example : DeliversClearHeader (fun _ => True) (hDecryptHeader ffi (input (given (call3 1) .header)) (input (given call2 .out)))
    (given (call3 1) .symKey) [1, 2, 3, 4] (some [9, 8]) :=
  (C56_calls curveF rfl (by decide) codecs_lawful symmetric_lawful (reachable_wf policy_reachable) (by decide)
    policy_arg policy_arg policy_arg ap_arg atts_arg (given_gives (call := call1) (by decide +kernel)) (priv := input call1Priv) (input_isIn (by decide +kernel))
    (given_gives (call := call2) (by decide +kernel)) (pub := input call1Pub) (input_isIn (by decide +kernel)) rfl
    (.inr ⟨by rintro (h | h) <;> revert h <;> decide, input_isIn (by decide)⟩)
    (.inr ⟨by rintro (h | h) <;> revert h <;> decide, [9, 8], input_isIn (by decide), rfl⟩) metadata_kept (.inl rfl)
    (given_gives (call := call3 1) (by decide +kernel)) (given_gives (call := call3 1) (by decide +kernel))
    (input_isIn (by decide +kernel)) (input_isIn (by decide +kernel))).1 ap_sat
example : NeverWrites (hDecryptHeader ffi (input (given (call3 2) .header)) (input (given call2 .out))) :=
  (C56_calls curveF rfl (by decide) codecs_lawful symmetric_lawful (reachable_wf policy_reachable) (by decide)
    policy_arg policy_arg policy_arg ap_arg low_arg (given_gives (call := call1) (by decide +kernel)) (priv := input call1Priv) (input_isIn (by decide +kernel))
    (given_gives (call := call2) (by decide +kernel)) (pub := input call1Pub) (input_isIn (by decide +kernel)) rfl
    (.inr ⟨by rintro (h | h) <;> revert h <;> decide, input_isIn (by decide)⟩)
    (.inr ⟨by rintro (h | h) <;> revert h <;> decide, [9, 8], input_isIn (by decide), rfl⟩) metadata_kept (.inl rfl)
    (given_gives (call := call3 2) (by decide +kernel)) (given_gives (call := call3 2) (by decide +kernel))
    (input_isIn (by decide +kernel)) (input_isIn (by decide +kernel))).2 ap_not_sat

end Demo

end Abe
