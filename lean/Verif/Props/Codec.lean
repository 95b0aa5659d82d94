import Verif.Proofs.Builds
import Verif.Props.DemoBytes
import Verif.Props.Access

/-!
# Byte encodings

Properties C21–C31.  `t` is any target of at least 32 bits, with or without overflow checks, unless said otherwise.  The
encodings of group elements are assumed to be lawful (`Codecs.Lawful`): compressed points are external code.
-/

namespace Abe

set_option linter.unusedSectionVars false

/-! ### C21 -/

/-- **C21**, `u32`. -/
theorem C21_u32 : u32Codec.Fixed 4 := u32Codec_fixed

/-- **C21**, `i32`: as `u32`, except that short input panics. -/
theorem C21_i32 :
    (∀ n, ∃ b, i32Codec.enc n = .ok b ∧ b.length = 4 ∧ i32Codec.len n = 4 ∧ ∀ r, i32Codec.dec (b ++ r) = .ok n) ∧
    (∀ b, i32Codec.dec b = .panic ↔ b.length < 4) ∧
    (∀ b e, i32Codec.dec b ≠ .err e) ∧
    (∀ b n, i32Codec.dec b = .ok n → i32Codec.enc n = .ok (b.take 4)) := by
  refine ⟨fun n => ⟨_, rfl, rfl, rfl, fun r => ?_⟩, fun b => ?_, fun b e => ?_, fun b n h => ?_⟩
  · simp only [i32Codec]
    rw [slice_zero (by simp [be32_length]), Res.ok_bind, List.take_left' (be32_length _)]
    have := ofBe32_be32 n.toUInt32 []
    rw [List.append_nil] at this
    rw [this]
    rfl
  · simp only [i32Codec]
    by_cases h : b.length < 4
    · unfold slice
      rw [if_neg (by omega)]
      simp [h]
    · rw [slice_zero (by omega)]
      simp [h]
  · simp only [i32Codec]
    by_cases h : b.length < 4
    · unfold slice
      rw [if_neg (by omega)]
      simp
    · rw [slice_zero (by omega)]
      simp
  · simp only [i32Codec] at h ⊢
    by_cases hl : b.length < 4
    · unfold slice at h
      rw [if_neg (by omega)] at h
      simp at h
    · rw [slice_zero (by omega)] at h
      simp only [Res.ok_bind, Res.ok.injEq] at h
      subst h
      rw [ofBe32_take (by omega)]
      show Res.ok (be32 (ofBe32 b).toInt32.toUInt32) = _
      rw [UInt32.toUInt32_toInt32, be32_ofBe32 (by omega)]

/-- **C21**, scalars: 32 bytes, little-endian, accepted exactly below the group order. -/
theorem C21_scalar :
    (scalarCodec blsOrder).Fixed 32 ∧
    ∀ b x, (scalarCodec blsOrder).dec b = .ok x ↔
      32 ≤ b.length ∧ ofLe (b.take 32) < blsOrder ∧ x = (ofLe (b.take 32) : ZMod blsOrder) := by
  refine ⟨scalarCodec_fixed _ (by decide +kernel), fun b x => ?_⟩
  simp only [scalarCodec]
  by_cases h : b.length < 32
  · rw [if_pos h]
    simp only [reduceCtorEq, false_iff]
    omega
  · rw [if_neg h, slice_zero (by omega), Res.ok_bind]
    unfold scalarFromBytes
    by_cases h2 : ofLe (b.take 32) < blsOrder
    · rw [if_pos h2]
      simp only [Res.ok.injEq]
      constructor
      · rintro rfl; exact ⟨by omega, h2, rfl⟩
      · rintro ⟨_, _, rfl⟩; rfl
    · rw [if_neg h2]
      simp [h2]

/-- **C21**, points: the wrapper around a compressed form of `n` bytes is a lawful fixed-size encoding as soon as the
compressed forms are exactly the outputs of compression. -/
theorem C21_point {α : Type} {name name' : String} {n : Nat} (hn : 0 < n) {toC : α → Bytes} {ofC : Bytes → Option α}
    (hl : ∀ x, (toC x).length = n) (h : ∀ b x, b.length = n → (ofC b = some x ↔ toC x = b)) : (pointCodec name name' n toC ofC).Fixed n :=
  pointCodec_fixed hn hl h

/-- **C21**, two different accepted encodings of the announced length denote different values. -/
theorem C21_distinct {α : Type} {c : Codec α} {n : Nat} (h : c.Fixed n) {b b' : Bytes} {x x' : α} (hb : b.length = n)
    (hb' : b'.length = n) (hd : c.dec b = .ok x) (hd' : c.dec b' = .ok x') (hne : b ≠ b') : x ≠ x' := by
  rintro rfl
  have h1 := h.canon b x hd
  have h2 := h.canon b' x hd'
  rw [h1] at h2
  simp only [Res.ok.injEq] at h2
  rw [List.take_of_length_le (by omega), List.take_of_length_le (by omega)] at h2
  exact hne h2

/-- The group order itself is refused, its predecessor is accepted. -/
example : (scalarCodec blsOrder).dec (leBytes 32 blsOrder) = .err (.deserialization "Failed deserializing scalar") ∧
    ∃ x, (scalarCodec blsOrder).dec (leBytes 32 (blsOrder - 1)) = .ok x := by
  constructor
  · have h : ¬ ofLe (leBytes 32 blsOrder) < blsOrder := by decide +kernel
    simp only [scalarCodec]
    rw [if_neg (by rw [leBytes_length]; omega), slice_zero (by rw [leBytes_length]), Res.ok_bind,
      List.take_of_length_le (by rw [leBytes_length])]
    unfold scalarFromBytes
    rw [if_neg h]
  · refine ⟨_, (C21_scalar.2 _ _).2 ⟨by rw [leBytes_length], ?_, rfl⟩⟩
    decide +kernel

/-- The sizes of the demo encodings, and two encodings of different scalars. -/
example : (Demo.pad "G1" "G1Affine" 48).Fixed 48 ∧ ∃ x x', (scalarCodec 11).dec (leBytes 32 3) = .ok x ∧ (scalarCodec 11).dec (leBytes 32 4) = .ok x' ∧ x ≠ x' := by
  refine ⟨Demo.pad_fixed (by decide), 3, 4, by decide +kernel, by decide +kernel, ?_⟩
  exact C21_distinct (scalarCodec_fixed 11 (by decide)) (leBytes_length _ _) (leBytes_length _ _)
    (show (scalarCodec 11).dec (leBytes 32 3) = .ok 3 by decide +kernel)
    (show (scalarCodec 11).dec (leBytes 32 4) = .ok 4 by decide +kernel) (by decide +kernel)

/-! ### C22, C23 -/

section
variable {α : Type} {t : Target} {c : Codec α} {n : Nat}

theorem vecDec_ne_nil {b : Bytes} (hb : b ≠ []) : vecDec t c b ≠ .ok [] := by
  unfold vecDec
  rw [if_neg (by simpa using hb)]
  intro h
  obtain ⟨⟨len, res0⟩, _, h⟩ := Res.bind_eq_ok.1 h
  obtain ⟨rest, _, h⟩ := Res.bind_eq_ok.1 h
  simp at h

/-- **C22.** On every target non-empty vectors round-trip whatever follows (as far as the input fits in the address space); the
empty vector is encoded to nothing, which decodes to the empty
vector only when nothing follows. -/
theorem C22_vec_round_trip (h : c.Fixed n) :
    (∀ l : List α, l ≠ [] → l.length < 2 ^ 32 - 1 → (vecCodec t c).RoundTrips t.modulus l) ∧
    (vecCodec t c).enc [] = .ok [] ∧ (vecCodec t c).len [] = 0 ∧ (vecCodec t c).dec [] = .ok [] ∧
    ∀ r, r ≠ [] → (vecCodec t c).dec ([] ++ r) ≠ .ok [] :=
  ⟨fun _ h1 h2 => (vecCodec_laws h (le_refl _)).roundTrips ⟨h1, h2⟩, rfl, rfl, rfl, fun _ hr => vecDec_ne_nil hr⟩

/-- Three labels. -/
example : vecEnc u32Codec [7, 300, 70000] = .ok [0, 0, 0, 3, 0, 0, 0, 7, 0, 0, 1, 44, 0, 1, 17, 112] ∧
    (vecCodec .release64 u32Codec).RoundTrips (2 ^ 64) [7, 300, 70000] ∧
    (vecCodec .release32 u32Codec).RoundTrips (2 ^ 32) [7, 300, 70000] :=
  ⟨by decide +kernel, (C22_vec_round_trip u32Codec_fixed).1 _ (by simp) (by decide),
    (C22_vec_round_trip u32Codec_fixed).1 _ (by simp) (by decide)⟩

theorem InSlice.add_lt {b : Bytes} (hB : InSlice t b) {k : Nat} (hk : k ≤ 2 ^ 30) : b.length + k < t.modulus := by
  have h1 : 2 ^ 32 ≤ t.modulus := Nat.pow_le_pow_right (by decide) hB.bits
  have h2 := hB.size
  omega

/-- **C23.** Decoding a vector panics exactly in builds with overflow checks, when the first element is readable and either the
count is zero or the announced size does not fit in the address space; without overflow checks a zero count is refused,
except that for elements of 4 bytes it is read as a vector of one element. -/
theorem C23_vec_decode_panic (h : c.Fixed n) (hn : n ≤ 2 ^ 30) (b : Bytes) (hB : InSlice t b) :
    (vecDec t c b = .panic ↔ VecPanics t c n b) ∧
    (t.checked = false → 4 < b.length → ofBe32 b = 0 → 4 < n → ∃ e, vecDec t c b = .err e) ∧
    (t.checked = false → 4 < b.length → ofBe32 b = 0 → n = 4 → ∀ x, c.dec (b.drop 4) = .ok x → vecDec t c b = .ok [x]) := by
  have hB' : b.length + n < t.modulus := hB.add_lt hn
  refine ⟨vecDec_panic_iff h hB', fun hc h1 h2 h3 => ?_, fun hc h1 h2 h3 x hx => ?_⟩
  · rcases vecDec_zero h ⟨h1, h2⟩ hB' with ⟨e, _, he⟩ | ⟨x, _, he⟩
    · exact ⟨e, he⟩
    · refine ⟨.deserialization "deserializing element failed. Data altered?", he.trans ?_⟩
      rw [hc, if_neg (by decide), if_neg (by omega)]
  · rcases vecDec_zero h ⟨h1, h2⟩ hB' with ⟨e, he, _⟩ | ⟨x', hx', he⟩
    · rw [hx] at he; simp at he
    · rw [hx] at hx'
      simp only [Res.ok.injEq] at hx'
      subst hx'
      rw [he, hc, if_neg (by decide), if_pos (by omega)]

/-- **C23** on targets of at least 64 bits: the announced size always fits, so that only a zero count makes decoding panic. -/
theorem C23_vec_decode_64 (ht : 64 ≤ t.bits) (h : c.Fixed n) (hn : n ≤ 2 ^ 30) (b : Bytes) (hB : InSlice t b) :
    vecDec t c b = .panic ↔ t.checked = true ∧ 4 < b.length ∧ ofBe32 b = 0 ∧ ∃ x, c.dec (b.drop 4) = .ok x := by
  rw [(C23_vec_decode_panic h hn b hB).1]
  have h64 := two64_le ht
  have hlt := (ofBe32 b).toNat_lt
  have hmul : ((ofBe32 b).toNat - 1) * n ≤ 2 ^ 32 * 2 ^ 30 := Nat.mul_le_mul (by omega) hn
  constructor
  · rintro ⟨h1, h2, _, h3, h4 | h4⟩
    · exact ⟨h1, h2, h4, h3⟩
    · omega
  · rintro ⟨h1, h2, h3, h4⟩
    exact ⟨h1, h2, by rw [h3]; decide, h4, Or.inl h3⟩

/-- On the checked wasm build, 36 bytes announcing 2^27 + 1 scalars make decoding panic; on 64 bits they are refused. -/
example : ¬ VecPanics .debug64 (scalarCodec blsOrder) 32 ([8, 0, 0, 1] ++ List.replicate 32 0) ∧
    VecPanics .debug32 (scalarCodec blsOrder) 32 ([8, 0, 0, 1] ++ List.replicate 32 0) := by
  have hlen : ([8, 0, 0, 1] ++ List.replicate 32 0 : Bytes).length = 36 := by decide
  have h1 : (ofBe32 ([8, 0, 0, 1] ++ List.replicate 32 0 : Bytes)).toNat = 2 ^ 27 + 1 := by decide +kernel
  have h2 : (scalarCodec blsOrder).dec (List.drop 4 ([8, 0, 0, 1] ++ List.replicate 32 0)) = .ok 0 := by
    rw [C21_scalar.2]
    refine ⟨by decide, by decide +kernel, ?_⟩
    have : ofLe (List.take 32 (List.drop 4 ([8, 0, 0, 1] ++ List.replicate 32 0))) = 0 := by decide +kernel
    rw [this]; simp
  have h3 : ofBe32 ([8, 0, 0, 1] ++ List.replicate 32 0 : Bytes) ≠ 0 := by decide +kernel
  constructor
  · rintro ⟨_, _, _, _, h0 | h0⟩
    · exact h3 h0
    · rw [h1] at h0
      exact absurd h0 (by decide)
  · exact ⟨rfl, by rw [hlen]; decide, by rw [h1]; decide, ⟨0, h2⟩, Or.inr (by rw [h1]; decide)⟩

/-- A zero count followed by the label 9. -/
example : vecDec .debug64 u32Codec [0, 0, 0, 0, 0, 0, 0, 9] = .panic ∧
    vecDec .release64 u32Codec [0, 0, 0, 0, 0, 0, 0, 9] = .ok [9] := by decide +kernel

end

/-! ### C24–C26 -/

section
variable {K G1 G2 G3 Gt : Type} {t : Target} {cs : Codecs K G2 G3 Gt}

/-- **C24.** Master keys with at least one slot round-trip, on every target. -/
theorem C24_master_keys_round_trip (h : cs.Lawful) :
    (∀ k : MasterPrivateKey K, k.tI ≠ [] → k.tI.length < 2 ^ 32 - 1 → (privKeyCodec t cs).RoundTrips t.modulus k) ∧
    (∀ k : MasterPublicKey G2 Gt, k.tI ≠ [] → k.tI.length < 2 ^ 32 - 1 → (pubKeyCodec t cs).RoundTrips t.modulus k) ∧
    (∀ k : DelegationKey G3, k.invTI ≠ [] → k.invTI.length < 2 ^ 32 - 1 → (delKeyCodec t cs).RoundTrips t.modulus k) :=
  ⟨fun _ h1 h2 => (privKey_laws h (le_refl _)).roundTrips ⟨h1, h2⟩, fun _ h1 h2 => (pubKey_laws h (le_refl _)).roundTrips ⟨h1, h2⟩,
    fun _ h1 h2 => (delKey_laws h (le_refl _)).roundTrips ⟨h1, h2⟩⟩

/-- **C24**, refutation: a private or public key without slot is encoded, but its encoding does not decode to it. -/
theorem C24_no_slot_refuted (h : cs.Lawful) (y : K) (y' : Gt) :
    (∃ b, (privKeyCodec t cs).enc ⟨[], y⟩ = .ok b ∧ (privKeyCodec t cs).dec b ≠ .ok ⟨[], y⟩) ∧
    (∃ b, (pubKeyCodec t cs).enc ⟨[], y'⟩ = .ok b ∧ (pubKeyCodec t cs).dec b ≠ .ok ⟨[], y'⟩) := by
  constructor
  · obtain ⟨b, h1, h2⟩ := h.scalar.enc y
    refine ⟨b, by simp [privKeyCodec, vecEnc, h1], fun hd => ?_⟩
    simp only [privKeyCodec] at hd
    obtain ⟨l, e1, hd⟩ := Res.bind_eq_ok.1 hd
    obtain ⟨r, _, hd⟩ := Res.bind_eq_ok.1 hd
    obtain ⟨z, _, hd⟩ := Res.bind_eq_ok.1 hd
    simp only [Res.ok.injEq, MasterPrivateKey.mk.injEq] at hd
    rw [hd.1] at e1
    exact vecDec_ne_nil (by rintro rfl; simp at h2) e1
  · obtain ⟨b, h1, h2⟩ := h.gt.enc y'
    refine ⟨b, by simp [pubKeyCodec, vecEnc, h1], fun hd => ?_⟩
    simp only [pubKeyCodec] at hd
    obtain ⟨l, e1, hd⟩ := Res.bind_eq_ok.1 hd
    obtain ⟨r, _, hd⟩ := Res.bind_eq_ok.1 hd
    obtain ⟨z, _, hd⟩ := Res.bind_eq_ok.1 hd
    simp only [Res.ok.injEq, MasterPublicKey.mk.injEq] at hd
    rw [hd.1] at e1
    exact vecDec_ne_nil (by rintro rfl; simp at h2) e1

/-- The demo keys. -/
example : (privKeyCodec .debug64 Demo.codecs).RoundTrips (2 ^ 64) Demo.mkF.privKey ∧
    (pubKeyCodec .debug64 Demo.codecs).RoundTrips (2 ^ 64) Demo.mkF.pubKey ∧
    (delKeyCodec .debug64 Demo.codecs).RoundTrips (2 ^ 64) Demo.mkF.delKey := by
  obtain ⟨h1, h2, h3⟩ := C24_master_keys_round_trip (t := .debug64) Demo.codecs_lawful
  exact ⟨h1 _ (by decide) (by decide), h2 _ (by decide) (by decide), h3 _ (by decide) (by decide)⟩

end

section
variable {K P Q QP T : Type} [Field K] [DecidableEq K] [AddCommGroup P] [Module K P] [AddCommGroup Q] [Module K Q]
  [AddCommGroup T] [Module K T] {t : Target} {cs : Codecs K P Q T}

/-- **C24** for generated keys: the three keys produced for a policy with a non-zero number of creations round-trip. -/
theorem C24_generated_keys_round_trip (h : cs.Lawful) (c : Curve K P Q QP T) {p : Policy}
    {rnd : Nat → K} {y : K} {mk : MasterKey K P Q T} (hmk : engineGenerateMasterKey (bls c) p rnd y = .ok mk)
    (h0 : p.maxAttributeCreations ≠ 0) (h1 : p.maxAttributeCreations.toNat < 2 ^ 32 - 1) :
    (privKeyCodec t cs).RoundTrips t.modulus mk.privKey ∧ (pubKeyCodec t cs).RoundTrips t.modulus mk.pubKey ∧
      (delKeyCodec t cs).RoundTrips t.modulus mk.delKey := by
  obtain ⟨tI, hlen, _, rfl⟩ := generateMasterKey_inv c hmk
  obtain ⟨g1, g2, g3⟩ := C24_master_keys_round_trip (t := t) h
  have hne : tI ≠ [] := by
    rintro rfl
    rw [List.length_nil] at hlen
    exact h0 (UInt32.toNat_inj.1 hlen.symm)
  exact ⟨g1 _ hne (by simp only; omega), g2 _ (by simpa [pubOf] using hne) (by simp [pubOf]; omega),
    g3 _ (by simpa [delOf] using hne) (by simp [delOf]; omega)⟩

/-- The demo master key. -/
example : (privKeyCodec .release32 Demo.codecs).RoundTrips (2 ^ 32) Demo.mkF.privKey :=
  (C24_generated_keys_round_trip Demo.codecs_lawful Demo.curveF Demo.mkF_eq (by decide) (by decide)).1

/-- **C25.** Every user key obtained from the API (with fewer than 2^32 - 1 rows) round-trips: the decoded key is equal to the
original one. -/
theorem C25_user_key_round_trip (h : cs.Lawful) (c : Curve K P Q QP T) {key : DecryptionKey K QP Q}
    (hk : Obtained c key) (hn : key.msp.nbRow < 2 ^ 32 - 1) : (userKeyCodec t cs (bls c)).RoundTrips t.modulus key :=
  (userKey_laws h (bls c) (le_refl _) (Nat.two_pow_pos _)).roundTrips ((obtained_shape c hk).good hn)

/-- The demo key and a delegated one. -/
example : ∃ key key', engineGenerateUserKey (bls Demo.curveF) Demo.policy Demo.mkF.privKey Demo.ap Demo.drawsF = .ok key ∧
    engineDelegateUserKey (bls Demo.curveF) Demo.policy Demo.mkF.delKey key (.attr Demo.hr) Demo.drawsF = .ok key' ∧
    key.msp.nbRow = 4 ∧
    (userKeyCodec .debug64 Demo.codecs (bls Demo.curveF)).RoundTrips (2 ^ 64) key ∧
    (userKeyCodec .release32 Demo.codecs (bls Demo.curveF)).RoundTrips (2 ^ 32) key' := by
  have h : (match engineGenerateUserKey (bls Demo.curveF) Demo.policy Demo.mkF.privKey Demo.ap Demo.drawsF with
    | .ok key => (match engineDelegateUserKey (bls Demo.curveF) Demo.policy Demo.mkF.delKey key (.attr Demo.hr) Demo.drawsF with
      | .ok key' => decide (key.msp.nbRow = 4 ∧ key'.msp.nbRow = 1)
      | _ => false)
    | _ => false) = true := by decide +kernel
  cases hk : engineGenerateUserKey (bls Demo.curveF) Demo.policy Demo.mkF.privKey Demo.ap Demo.drawsF with
  | err e => rw [hk] at h; simp at h
  | panic => rw [hk] at h; simp at h
  | ok key =>
    rw [hk] at h
    dsimp only at h
    cases hk' : engineDelegateUserKey (bls Demo.curveF) Demo.policy Demo.mkF.delKey key (.attr Demo.hr) Demo.drawsF with
    | err e => rw [hk'] at h; simp at h
    | panic => rw [hk'] at h; simp at h
    | ok key' =>
      rw [hk'] at h
      simp only [decide_eq_true_eq] at h
      have ho := Obtained.generate _ _ _ _ hk
      exact ⟨key, key', rfl, hk', h.1, C25_user_key_round_trip Demo.codecs_lawful Demo.curveF ho (by omega),
        C25_user_key_round_trip Demo.codecs_lawful Demo.curveF (.delegate _ _ _ _ ho hk') (by omega)⟩

/-- Shape of ciphertexts. -/
theorem encrypt_shape {bm : BilinearMap K QP P Q T} {t : Target} {msg : T} {gamma : List UInt32} {pub : MasterPublicKey P T} {s : K}
    {enc : CipherText P T} (h : encrypt bm t msg gamma pub s = .ok enc) : enc.gamma = gamma ∧ enc.eI.length = gamma.length := by
  unfold encrypt at h
  split at h
  · obtain ⟨_, _, h⟩ := Res.bind_eq_ok.1 h
    simp at h
  · obtain ⟨eI, hm, h⟩ := Res.bind_eq_ok.1 h
    simp only [Res.ok.injEq] at h
    subst h
    exact ⟨rfl, mapRes_length hm⟩

/-- **C26.** Every ciphertext produced by encryption under at least one attribute round-trips. -/
theorem C26_ciphertext_round_trip (h : cs.Lawful) (bm : BilinearMap K QP P Q T) {t' : Target} {msg : T}
    {gamma : List UInt32} {pub : MasterPublicKey P T} {s : K} {enc : CipherText P T}
    (henc : encrypt bm t' msg gamma pub s = .ok enc) (h0 : gamma ≠ []) (h1 : gamma.length < 2 ^ 32 - 1) :
    (cipherTextCodec t cs).RoundTrips t.modulus enc := by
  obtain ⟨g1, g2⟩ := encrypt_shape henc
  refine (cipherText_laws h (le_refl _) (Nat.two_pow_pos _)).roundTrips ⟨by rw [g1]; exact ⟨h0, h1⟩, ?_, by omega⟩
  intro hz
  rw [hz, List.length_nil] at g2
  exact h0 (List.length_eq_zero_iff.1 g2.symm)

/-- **C26**, refutation: encryption under no attribute succeeds, and the encoding of the result does not decode to it. -/
theorem C26_no_attribute_refuted (h : cs.Lawful) (bm : BilinearMap K QP P Q T) (t' : Target) (msg : T)
    {pub : MasterPublicKey P T} (hp : pub.tI ≠ []) (s : K) :
    ∃ enc b, encrypt bm t' msg [] pub s = .ok enc ∧ (cipherTextCodec t cs).enc enc = .ok b ∧
      (cipherTextCodec t cs).dec b ≠ .ok enc := by
  have hlen : ¬ pub.tI.length ≤ 0 := by simpa using hp
  obtain ⟨b, h1, h2⟩ := h.gt.enc (bm.gtMul msg (bm.gtExp pub.y s))
  refine ⟨⟨[], bm.gtMul msg (bm.gtExp pub.y s), []⟩, b, ?_, ?_, ?_⟩
  · unfold encrypt
    rw [List.length_nil, if_neg hlen]
    rfl
  · simp [cipherTextCodec, vecEnc, h1]
  · intro hd
    simp only [cipherTextCodec] at hd
    obtain ⟨l, e1, hd⟩ := Res.bind_eq_ok.1 hd
    obtain ⟨r, _, hd⟩ := Res.bind_eq_ok.1 hd
    obtain ⟨l', _, hd⟩ := Res.bind_eq_ok.1 hd
    obtain ⟨r', _, hd⟩ := Res.bind_eq_ok.1 hd
    obtain ⟨z, _, hd⟩ := Res.bind_eq_ok.1 hd
    simp only [Res.ok.injEq, CipherText.mk.injEq] at hd
    rw [hd.1] at e1
    exact vecDec_ne_nil (by rintro rfl; simp at h2) e1

/-- A ciphertext under two values. -/
example : ∃ enc, encrypt (bls Demo.curveF) .debug64 5 [1, 4] Demo.mkF.pubKey 7 = .ok enc ∧
    (cipherTextCodec .debug32 Demo.codecs).RoundTrips (2 ^ 32) enc := by
  obtain ⟨enc, henc⟩ : ∃ enc, encrypt (bls Demo.curveF) .debug64 5 [1, 4] Demo.mkF.pubKey 7 = .ok enc :=
    Demo.exists_of_isOk (by decide +kernel)
  exact ⟨enc, henc, C26_ciphertext_round_trip Demo.codecs_lawful _ henc (by simp) (by decide)⟩

/-- **C30.** `ciphertext_len` is the length of the encoding, also announced by `len_bytes`. -/
theorem C30_ciphertext_len (h : cs.Lawful) (bm : BilinearMap K QP P Q T) {t' : Target} {msg : T}
    {gamma : List UInt32} {pub : MasterPublicKey P T} {s : K} {enc : CipherText P T}
    (henc : encrypt bm t' msg gamma pub s = .ok enc) (h0 : gamma ≠ []) (h1 : gamma.length < 2 ^ 32 - 1) :
    ∃ b, (cipherTextCodec t cs).enc enc = .ok b ∧ b.length = ciphertextLen gamma.length ∧
      (cipherTextCodec t cs).len enc = ciphertextLen gamma.length := by
  obtain ⟨g1, g2⟩ := encrypt_shape henc
  obtain ⟨b, e1, e2, _⟩ := C26_ciphertext_round_trip (t := t) h bm henc h0 h1
  have he0 : enc.eI ≠ [] := by
    intro hz
    rw [hz, List.length_nil] at g2
    exact h0 (List.length_eq_zero_iff.1 g2.symm)
  have hlen : (cipherTextCodec t cs).len enc = ciphertextLen gamma.length := by
    simp only [cipherTextCodec, ciphertextLen]
    rw [vecLen_eq u32Codec_fixed (by rw [g1]; exact h0), vecLen_eq h.g2 he0, h.gt.len, g1, g2]
  exact ⟨b, e1, by rw [e2, hlen], hlen⟩

/-- Two attributes: 400 bytes. -/
example : ∃ enc b, encrypt (bls Demo.curveF) .debug64 5 [1, 4] Demo.mkF.pubKey 7 = .ok enc ∧
    (cipherTextCodec .debug64 Demo.codecs).enc enc = .ok b ∧ b.length = 400 := by
  obtain ⟨enc, henc⟩ : ∃ enc, encrypt (bls Demo.curveF) .debug64 5 [1, 4] Demo.mkF.pubKey 7 = .ok enc :=
    Demo.exists_of_isOk (by decide +kernel)
  obtain ⟨b, h1, h2, _⟩ := C30_ciphertext_len (t := .debug64) Demo.codecs_lawful _ henc (by simp) (by decide)
  exact ⟨enc, b, henc, h1, h2⟩

end

/-! ### C27 -/

section
variable {I : Type} {t : Target} {c : Codec I} {n : Nat}

/-- **C27.** A regular matrix round-trips, on every target. -/
theorem C27_matrix_round_trip (h : c.Fixed n) {m : Msp I} (hm : m.Regular) (hr : m.nbRow < 2 ^ 32) (hc : m.nbCol < 2 ^ 32) :
    (mspCodec t c).RoundTrips t.modulus m := (mspCodec_laws h (le_refl _)).roundTrips ⟨hm, hr, hc⟩

/-- **C27.** On every target: bytes accepted with non-zero dimensions give a regular matrix; bytes too short for
the announced dimensions, or in which two announced labels are equal, are never accepted; the inputs on which decoding panics are
exactly those described by `MspPanics`. -/
theorem C27_matrix (h : c.Fixed n) (b : Bytes) (hB : InSlice t b) :
    (∀ m, mspDec t c b = .ok m → ofBe32 b ≠ 0 → ofBe32 (b.drop 4) ≠ 0 → m.Regular) ∧
    (b.length < 8 + 4 * (ofBe32 b).toNat + (ofBe32 b).toNat * (ofBe32 (b.drop 4)).toNat * n → ∀ m, mspDec t c b ≠ .ok m) ∧
    (∀ i j, i < j → j < (ofBe32 b).toNat → ofBe32 (b.drop (8 + 4 * i)) = ofBe32 (b.drop (8 + 4 * j)) → ∀ m, mspDec t c b ≠ .ok m) ∧
    (mspDec t c b = .panic ↔ MspPanics t c n b) := by
  have hB' := hB.add_lt (k := 4) (by decide)
  refine ⟨fun m hd h1 h2 => ?_, fun hs m hd => ?_, fun i j hij hj he m hd => ?_, mspDec_panic_iff h hB'⟩
  · obtain ⟨g2, g3, g4⟩ := mspDec_canon h hB' hd
    refine (g4 ?_ ?_).1
    · rw [g2, Nat.pos_iff_ne_zero]; exact fun h0 => h1 (UInt32.toNat_inj.1 h0)
    · rw [g3, Nat.pos_iff_ne_zero]; exact fun h0 => h2 (UInt32.toNat_inj.1 h0)
  · obtain ⟨_, h2, _, rows, h3, _⟩ := (mspDec_ok_iff h hB').1 hd
    have := (mspRead_fits h h2 h3).1
    omega
  · obtain ⟨_, _, hnd, _⟩ := (mspDec_ok_iff h hB').1 hd
    have hget : ∀ k, k < (ofBe32 b).toNat → (labelsOf b (ofBe32 b).toNat)[k]? = some (ofBe32 (b.drop (8 + 4 * k))) := by
      intro k hk
      unfold labelsOf
      rw [List.getElem?_map, List.getElem?_range hk]
      rfl
    have hi' := hget i (by omega)
    have hj' := hget j hj
    rw [he, ← hj'] at hi'
    have hl : (labelsOf b (ofBe32 b).toNat).length = (ofBe32 b).toNat := by simp [labelsOf]
    exact absurd ((List.getElem?_inj (by omega) hnd).1 hi') (by omega)

/-- **C27** without panic: on targets of at least 64 bits, no input panics in builds without overflow checks, and no input below
2^29 bytes panics in any build; malformed inputs are therefore refused with an error. -/
theorem C27_matrix_no_panic (ht : 64 ≤ t.bits) (h : c.Fixed n) (hn : n ≤ 32) (b : Bytes) (hB : InSlice t b)
    (hs : t.checked = false ∨ b.length < 2 ^ 29) : mspDec t c b ≠ .panic := by
  rw [ne_eq, (C27_matrix h b hB).2.2.2]
  have h64 := two64_le ht
  have hlt := (ofBe32 b).toNat_lt
  have hltC := (ofBe32 (b.drop 4)).toNat_lt
  rintro ⟨_, ⟨h1, _⟩ | ⟨h1, _, _, h2, h3⟩⟩
  · omega
  · have hb : b.length < 2 ^ 29 := by
      rcases hs with hs | hs
      · rw [h2] at hs; simp at hs
      · exact hs
    have hRC : (ofBe32 b).toNat * (ofBe32 (b.drop 4)).toNat ≤ (2 ^ 27 - 2) * 2 ^ 32 := Nat.mul_le_mul (by omega) (by omega)
    have hRCn := Nat.mul_le_mul hRC hn
    omega

/-- **C27**, on the wasm build without overflow checks: eight bytes announcing 2^30 rows make decoding panic. -/
theorem C27_matrix_wasm_refuted (h : c.Fixed n) : mspDec .release32 c [64, 0, 0, 0, 0, 0, 0, 1] = .panic := by
  have hs : InSlice .release32 [64, 0, 0, 0, 0, 0, 0, 1] := ⟨by decide, by decide⟩
  refine (C27_matrix h _ hs).2.2.2.2 ⟨by decide, Or.inl ⟨by decide +kernel, Or.inr ⟨by decide +kernel, by decide +kernel⟩⟩⟩

/-- **C27**, refutation: with zero rows or zero columns announced, a matrix of one row and one column is returned. -/
theorem C27_zero_dimension_refuted (ht : 32 ≤ t.bits) (h : c.Fixed n) (hn : n ≤ 32) {x : I} {bx : Bytes} (hx : c.enc x = .ok bx) :
    mspDec t c (be32 0 ++ be32 0 ++ bx) = .ok ⟨0, 0, [[x]], [], []⟩ ∧
    mspDec t c (be32 0 ++ be32 1 ++ bx) = .ok ⟨0, 1, [[x]], [], []⟩ := by
  have h32 : 2 ^ 32 ≤ t.modulus := Nat.pow_le_pow_right (by decide) ht
  have key : ∀ C : UInt32, C.toNat ≤ 1 → mspDec t c (be32 0 ++ be32 C ++ bx) = .ok ⟨0, C.toNat, [[x]], [], []⟩ := by
    intro C hC
    have hR : ofBe32 (be32 0 ++ be32 C ++ bx) = 0 := by rw [List.append_assoc, ofBe32_be32]
    have hC' : ofBe32 ((be32 0 ++ be32 C ++ bx).drop 4) = C := by
      rw [List.append_assoc, List.drop_left' (be32_length _), ofBe32_be32]
    have hCn : C.toNat * n ≤ 1 * n := Nat.mul_le_mul_right _ hC
    have hh := mspHeader_spec (t := t) (bytes := be32 0 ++ be32 C ++ bx) (by simp only [List.length_append, be32_length]; omega)
      (by rw [hR, UInt32.toNat_zero]; omega)
      (by rw [hR]; simp only [List.length_append, be32_length]; simp) (us := []) (by rw [hR]; rfl)
    rw [if_pos (by simp), hR, hC'] at hh
    rw [mspDec_red h (R := 0) (C := C.toNat) (by omega) (by omega) (by simp only [List.length_append, be32_length]; omega) hh]
    have hd : (be32 0 ++ be32 C ++ bx).drop (8 + 4 * 0) = bx := List.drop_left' (by simp [be32_length])
    have hr := h.round x bx [] hx
    rw [List.append_nil] at hr
    rw [hd, hr, Res.ok_bind, if_neg (by simp only [List.length_append, be32_length]; omega)]
    have : C.toNat - 1 = 0 := by omega
    rw [this]
    rfl
  exact ⟨key 0 (by decide), key 1 (by decide)⟩

/-- Such a matrix is not regular. -/
example : ∃ m, mspDec .release64 (scalarCodec 11) (be32 0 ++ be32 0 ++ leBytes 32 5) = .ok m ∧ ¬ m.Regular :=
  ⟨_, (C27_zero_dimension_refuted (by decide) (scalarCodec_fixed 11 (by decide)) (by decide) (x := 5) rfl).1,
    fun h => absurd h.row_pos (by decide)⟩

/-- The eight bytes on the four builds. -/
example : mspDec .release32 (scalarCodec 11) [64, 0, 0, 0, 0, 0, 0, 1] = .panic ∧ mspDec .debug32 (scalarCodec 11) [64, 0, 0, 0, 0, 0, 0, 1] = .panic ∧
    mspDec .release64 (scalarCodec 11) [64, 0, 0, 0, 0, 0, 0, 1] = .err (.invalidSize "invalid MSP size read from bytes") ∧
    mspDec .debug64 (scalarCodec 11) [64, 0, 0, 0, 0, 0, 0, 1] = .err (.invalidSize "invalid MSP size read from bytes") :=
  ⟨C27_matrix_wasm_refuted (scalarCodec_fixed 11 (by decide)), by decide +kernel, by decide +kernel, by decide +kernel⟩

/-- A regular matrix with two rows and two columns. -/
example : (mspCodec .debug64 (scalarCodec 11)).RoundTrips (2 ^ 64) ⟨2, 2, [[1, 2], [0, 10]], [(8, 1), (3, 0)], [3, 8]⟩ :=
  C27_matrix_round_trip (scalarCodec_fixed 11 (by decide))
    ⟨rfl, rfl, by decide, by decide, by decide, by decide, rfl⟩ (by decide) (by decide)

/-- Two equal labels, and a truncated matrix. -/
example : mspDec .debug64 (scalarCodec 11) (be32 2 ++ be32 1 ++ be32 7 ++ be32 7 ++ leBytes 32 1 ++ leBytes 32 1) = .err (.deserialization "error deserializing MSP, leaf already inserted") ∧
    mspDec .debug64 (scalarCodec 11) (be32 2 ++ be32 1 ++ be32 7 ++ be32 8 ++ leBytes 32 1 ++ leBytes 31 1) = .err (.invalidSize "invalid matrix size read from bytes") := by
  decide +kernel

end

/-! ### C28, C29 -/

section
variable {K G1 G2 G3 Gt : Type} {t : Target} {cs : Codecs K G2 G3 Gt}

theorem sliceFrom_inv {b r : Bytes} {k : Nat} (hr : (sliceFrom b k : Out Bytes) = .ok r) : k ≤ b.length ∧ r = b.drop k := by
  unfold sliceFrom at hr
  split at hr
  · rename_i hle
    simp only [Res.ok.injEq] at hr
    exact ⟨hle, hr.symm⟩
  · simp at hr

theorem InSlice.drop {b : Bytes} (hB : InSlice t b) (k : Nat) : InSlice t (b.drop k) :=
  ⟨hB.bits, by have := hB.size; rw [List.length_drop]; omega⟩

/-- **C28.** On every target, if bytes decode to an object, they start with its encoding: for private, public and delegation
keys without condition, for user keys when the announced matrix dimensions are not zero, for ciphertexts when the announced
number of labels is not zero. -/
theorem C28_canonical (h : cs.Lawful) (bm : BilinearMap K G1 G2 G3 Gt) (b : Bytes) (hB : InSlice t b) :
    (privKeyCodec t cs).CanonicalAt b ∧ (pubKeyCodec t cs).CanonicalAt b ∧ (delKeyCodec t cs).CanonicalAt b ∧
    (∀ k, (userKeyCodec t cs bm).dec b = .ok k → k.msp.nbRow ≠ 0 → k.msp.nbCol ≠ 0 →
      (userKeyCodec t cs bm).len k ≤ b.length ∧ (userKeyCodec t cs bm).enc k = .ok (b.take ((userKeyCodec t cs bm).len k))) ∧
    (ofBe32 b ≠ 0 → (cipherTextCodec t cs).CanonicalAt b) := by
  have fixLen : ∀ {α : Type} {c : Codec α} {n : Nat}, c.Fixed n → ∀ {o : Nat} {x : α}, o ≤ b.length → c.dec (b.drop o) = .ok x →
      o + c.len x ≤ b.length ∧ c.enc x = .ok ((b.drop o).take (c.len x)) := by
    intro α c n hc o x ho hd
    rw [hc.len]
    exact ⟨dec_long hc ho hd, hc.canon _ _ hd⟩
  refine ⟨fun k hk => ?_, fun k hk => ?_, fun k hk => ?_, fun k hk h1 h2 => ?_, fun hz k hk => ?_⟩
  · simp only [privKeyCodec] at hk ⊢
    obtain ⟨l, hl, hk⟩ := Res.bind_eq_ok.1 hk
    obtain ⟨r, hr, hk⟩ := Res.bind_eq_ok.1 hk
    obtain ⟨y, hy, hk⟩ := Res.bind_eq_ok.1 hk
    simp only [Res.ok.injEq] at hk
    subst hk
    obtain ⟨hle, rfl⟩ := sliceFrom_inv hr
    have hne : b ≠ [] := by
      rintro rfl
      obtain ⟨e, he⟩ := h.scalar.short [] (by decide)
      simp [he] at hy
    obtain ⟨_, _, _, _, hv⟩ := vecDec_canon h.scalar hne (hB.add_lt (by decide)) (Or.inr (by decide)) hl
    obtain ⟨g1, g2⟩ := fixLen h.scalar hle hy
    exact ⟨g1, by rw [hv, g2]; simp only [Res.ok_bind]; rw [← List.take_add]⟩
  · simp only [pubKeyCodec] at hk ⊢
    obtain ⟨l, hl, hk⟩ := Res.bind_eq_ok.1 hk
    obtain ⟨r, hr, hk⟩ := Res.bind_eq_ok.1 hk
    obtain ⟨y, hy, hk⟩ := Res.bind_eq_ok.1 hk
    simp only [Res.ok.injEq] at hk
    subst hk
    obtain ⟨hle, rfl⟩ := sliceFrom_inv hr
    have hne : b ≠ [] := by
      rintro rfl
      obtain ⟨e, he⟩ := h.gt.short [] (by decide)
      simp [he] at hy
    obtain ⟨_, _, _, _, hv⟩ := vecDec_canon h.g2 hne (hB.add_lt (by decide)) (Or.inr (by decide)) hl
    obtain ⟨g1, g2⟩ := fixLen h.gt hle hy
    exact ⟨g1, by rw [hv, g2]; simp only [Res.ok_bind]; rw [← List.take_add]⟩
  · by_cases hne : b = []
    · subst hne
      simp only [delKeyCodec, vecDec, List.isEmpty_nil, if_true, Res.ok_bind, Res.ok.injEq] at hk
      subst hk
      exact ⟨le_refl _, rfl⟩
    · simp only [delKeyCodec] at hk ⊢
      obtain ⟨l, hl, hk⟩ := Res.bind_eq_ok.1 hk
      simp only [Res.ok.injEq] at hk
      subst hk
      exact (vecDec_canon h.g3 hne (hB.add_lt (by decide)) (Or.inr (by decide)) hl).2.2.2
  · have hne : b ≠ [] := by
      rintro rfl
      simp [userKeyCodec] at hk
    simp only [userKeyCodec] at hk ⊢
    rw [if_neg (by simpa using hne)] at hk
    obtain ⟨l, hl, hk⟩ := Res.bind_eq_ok.1 hk
    obtain ⟨r, hr, hk⟩ := Res.bind_eq_ok.1 hk
    obtain ⟨m, hm, hk⟩ := Res.bind_eq_ok.1 hk
    simp only [Res.ok.injEq] at hk
    subst hk
    obtain ⟨hle, rfl⟩ := sliceFrom_inv hr
    obtain ⟨_, _, _, _, hv⟩ := vecDec_canon h.g3 hne (hB.add_lt (by decide)) (Or.inr (by decide)) hl
    obtain ⟨_, _, g4⟩ := mspDec_canon h.scalar ((hB.drop _).add_lt (by decide)) hm
    obtain ⟨_, g5, g6⟩ := g4 (Nat.pos_of_ne_zero h1) (Nat.pos_of_ne_zero h2)
    rw [List.length_drop] at g5
    refine ⟨by dsimp only; omega, ?_⟩
    dsimp only
    rw [hv, g6]; simp only [Res.ok_bind]; rw [← List.take_add]
  · have hne : b ≠ [] := by rintro rfl; exact hz rfl
    simp only [cipherTextCodec] at hk ⊢
    obtain ⟨l, hl, hk⟩ := Res.bind_eq_ok.1 hk
    obtain ⟨r, hr, hk⟩ := Res.bind_eq_ok.1 hk
    obtain ⟨e, he, hk⟩ := Res.bind_eq_ok.1 hk
    obtain ⟨r', hr', hk⟩ := Res.bind_eq_ok.1 hk
    obtain ⟨y, hy, hk⟩ := Res.bind_eq_ok.1 hk
    simp only [Res.ok.injEq] at hk
    subst hk
    obtain ⟨hle, rfl⟩ := sliceFrom_inv hr
    obtain ⟨hle', rfl⟩ := sliceFrom_inv hr'
    obtain ⟨_, _, _, _, hv⟩ := vecDec_canon u32Codec_fixed hne (hB.add_lt (by decide)) (Or.inl hz) hl
    obtain ⟨g1, g2⟩ := fixLen h.gt hle' hy
    have hv' : vecEnc cs.g2 e = .ok ((b.drop (vecLen u32Codec l)).take (vecLen cs.g2 e)) := by
      by_cases hne' : b.drop (vecLen u32Codec l) = []
      · rw [hne'] at he
        simp only [vecDec, List.isEmpty_nil, if_true, Res.ok.injEq] at he
        subst he
        rfl
      · exact (vecDec_canon h.g2 hne' ((hB.drop _).add_lt (by decide)) (Or.inr (by decide)) he).2.2.2.2
    refine ⟨by dsimp only; omega, ?_⟩
    dsimp only
    rw [hv, hv', g2]; simp only [Res.ok_bind]; rw [← List.take_add, ← List.take_add]

/-- **C28**, consequence: two byte strings of the announced length that decode to the same master key are equal (the same
holds for user keys and ciphertexts under the conditions above). -/
theorem C28_injective {α : Type} {c : Codec α} {b b' : Bytes} {x : α} (hc : c.CanonicalAt b) (hc' : c.CanonicalAt b')
    (hb : b.length = c.len x) (hb' : b'.length = c.len x) (hd : c.dec b = .ok x) (hd' : c.dec b' = .ok x) : b = b' := by
  have h1 := (hc x hd).2
  have h2 := (hc' x hd').2
  rw [h1] at h2
  simp only [Res.ok.injEq] at h2
  rwa [List.take_of_length_le (by omega), List.take_of_length_le (by omega)] at h2

/-- **C28**, refutation for ciphertexts: without overflow checks, every ciphertext with exactly one label has a second encoding
of the same length, in which the number of labels is zero. -/
theorem C28_zero_labels_refuted (ht : 32 ≤ t.bits) (hc : t.checked = false) (h : cs.Lawful) {x : CipherText G2 Gt} {a : UInt32}
    (hx : x.gamma = [a]) (he : x.eI ≠ []) (hl : x.eI.length < 2 ^ 32 - 1) (hB : 2 * (cipherTextCodec t cs).len x < t.modulus) :
    ∃ b b', (cipherTextCodec t cs).enc x = .ok b ∧ b' ≠ b ∧ b'.length = b.length ∧
      (cipherTextCodec t cs).dec b = .ok x ∧ (cipherTextCodec t cs).dec b' = .ok x := by
  obtain ⟨pe, p1, p2⟩ := h.gt.enc x.ePrime
  obtain ⟨bs, _, e2, e3⟩ := vecEnc_ok h.g2 he (by omega)
  generalize be32 x.eI.length.toUInt32 ++ bs.flatten = ve at e2 e3
  have henc : (cipherTextCodec t cs).enc x = .ok (be32 1 ++ be32 a ++ ve ++ pe) := by
    simp only [cipherTextCodec, hx, p1, e2]
    simp [vecEnc, u32TryFrom, mapRes, u32Codec]
  have hsz : 2 * (8 + ve.length + pe.length) < t.modulus := by
    rw [e3, p2]
    simp only [cipherTextCodec, hx, h.gt.len] at hB
    exact hB
  have hve : 0 < ve.length ∧ ve.length < t.modulus := by
    refine ⟨?_, by omega⟩
    rw [e3, vecLen_eq h.g2 he]; omega
  have tail : ∀ (w : UInt32), vecDec t u32Codec (be32 w ++ be32 a ++ ve ++ pe) = .ok [a] →
      (cipherTextCodec t cs).dec (be32 w ++ be32 a ++ ve ++ pe) = .ok x := by
    intro w hw
    have e2' : vecLen u32Codec [a] = 8 := rfl
    simp only [cipherTextCodec]
    rw [hw, Res.ok_bind, e2', sliceFrom_ok (by simp [be32_length]; omega), Res.ok_bind, List.append_assoc _ ve,
      List.drop_left' (by simp [be32_length]), vecDec_round h.g2 he hl e2 _ hve.2, Res.ok_bind, ← e3,
      sliceFrom_ok (by simp [be32_length]; omega), Res.ok_bind, ← List.append_assoc, List.drop_left' (by simp [be32_length]; omega)]
    have hr := h.gt.round _ _ [] p1
    rw [List.append_nil] at hr
    rw [hr, Res.ok_bind, ← hx]
  refine ⟨be32 1 ++ be32 a ++ ve ++ pe, be32 0 ++ be32 a ++ ve ++ pe, henc, by simp [be32], by simp [be32_length], ?_, ?_⟩
  · apply tail
    have hv : vecEnc u32Codec [a] = .ok (be32 1 ++ be32 a) := by simp [vecEnc, u32TryFrom, mapRes, u32Codec]
    rw [List.append_assoc]
    exact vecDec_round u32Codec_fixed (by simp) (by simp) hv _ (by simp [be32_length]; omega)
  · apply tail
    generalize hb : be32 0 ++ be32 a ++ ve ++ pe = b
    have hlen : b.length = 8 + ve.length + pe.length := by rw [← hb]; simp [be32_length]; omega
    have hz : ZeroCount b := by
      refine ⟨by omega, ?_⟩
      rw [← hb, List.append_assoc, List.append_assoc, ofBe32_be32]
    refine (C23_vec_decode_panic u32Codec_fixed (by decide) b ⟨ht, by rw [hlen]; exact hsz⟩).2.2 hc hz.1 hz.2 rfl a ?_
    rw [← hb, List.append_assoc, List.append_assoc, List.drop_left' (be32_length _)]
    exact u32Codec_fixed.round a (be32 a) _ rfl

/-- A ciphertext with one label. -/
example : ∃ b b', (cipherTextCodec .release64 Demo.codecs).enc ⟨[4], 3, [5]⟩ = .ok b ∧ b' ≠ b ∧ b'.length = b.length ∧
    (cipherTextCodec .release64 Demo.codecs).dec b = .ok ⟨[4], 3, [5]⟩ ∧
    (cipherTextCodec .release64 Demo.codecs).dec b' = .ok ⟨[4], 3, [5]⟩ :=
  C28_zero_labels_refuted (by decide) rfl Demo.codecs_lawful rfl (by simp) (by simp) (by decide +kernel)

/-- Bytes decoding to a private key are its encoding. -/
example : ∃ k, (privKeyCodec .release32 Demo.codecs).dec (be32 1 ++ leBytes 32 5 ++ leBytes 32 6) = .ok k ∧
    (privKeyCodec .release32 Demo.codecs).enc k = .ok (be32 1 ++ leBytes 32 5 ++ leBytes 32 6) := by
  obtain ⟨k, hk⟩ : ∃ k, (privKeyCodec .release32 Demo.codecs).dec (be32 1 ++ leBytes 32 5 ++ leBytes 32 6) = .ok k :=
    Demo.exists_of_isOk (by decide +kernel)
  obtain ⟨h1, h2⟩ := (C28_canonical (t := .release32) Demo.codecs_lawful (bls Demo.curveF) _ ⟨by decide, by decide +kernel⟩).1 k hk
  refine ⟨k, hk, h2.trans ?_⟩
  have hlen : (privKeyCodec .release32 Demo.codecs).len k = 68 := by
    have : (match (privKeyCodec .release32 Demo.codecs).dec (be32 1 ++ leBytes 32 5 ++ leBytes 32 6) with
      | .ok k => decide ((privKeyCodec .release32 Demo.codecs).len k = 68) | _ => false) = true := by decide +kernel
    rw [hk] at this
    simpa using this
  rw [hlen]
  decide +kernel

/-- Another byte string of 68 bytes with the same meaning does not exist. -/
example (b : Bytes) (hb : b.length = 68) (hd : (privKeyCodec .release32 Demo.codecs).dec b = (privKeyCodec .release32 Demo.codecs).dec (be32 1 ++ leBytes 32 5 ++ leBytes 32 6)) :
    b = be32 1 ++ leBytes 32 5 ++ leBytes 32 6 := by
  obtain ⟨k, hk⟩ : ∃ k, (privKeyCodec .release32 Demo.codecs).dec (be32 1 ++ leBytes 32 5 ++ leBytes 32 6) = .ok k :=
    Demo.exists_of_isOk (by decide +kernel)
  have hlen : (privKeyCodec .release32 Demo.codecs).len k = 68 := by
    have : (match (privKeyCodec .release32 Demo.codecs).dec (be32 1 ++ leBytes 32 5 ++ leBytes 32 6) with
      | .ok k => decide ((privKeyCodec .release32 Demo.codecs).len k = 68) | _ => false) = true := by decide +kernel
    rw [hk] at this
    simpa using this
  exact C28_injective (C28_canonical (t := .release32) Demo.codecs_lawful (bls Demo.curveF) b ⟨by decide, by rw [hb]; decide⟩).1
    (C28_canonical (t := .release32) Demo.codecs_lawful (bls Demo.curveF) _ ⟨by decide, by decide +kernel⟩).1 (hb.trans hlen.symm)
    (by rw [hlen]; decide +kernel) (hd.trans hk) hk

/-- A matrix header announcing 2 ^ 30 rows is no crash on a 64-bit target. -/
example : mspDec .debug64 (scalarCodec 11) [64, 0, 0, 0, 0, 0, 0, 1] ≠ .panic :=
  C27_matrix_no_panic (by decide) (scalarCodec_fixed 11 (by decide)) (by decide) _ ⟨by decide, by decide⟩ (.inr (by decide))

/-- **C29.** Every strict prefix of the encoding of a master key, user key or ciphertext is refused with an error (for a
delegation key, every non-empty strict prefix; the empty one is accepted as an empty delegation key). -/
theorem C29_truncation (h : cs.Lawful) (bm : BilinearMap K G1 G2 G3 Gt) :
    (∀ (k : MasterPrivateKey K) b, k.tI ≠ [] → k.tI.length < 2 ^ 32 - 1 → (privKeyCodec t cs).enc k = .ok b →
      b.length < t.modulus → ∀ i < b.length, ∃ e, (privKeyCodec t cs).dec (b.take i) = .err e) ∧
    (∀ (k : MasterPublicKey G2 Gt) b, k.tI ≠ [] → k.tI.length < 2 ^ 32 - 1 → (pubKeyCodec t cs).enc k = .ok b →
      b.length < t.modulus → ∀ i < b.length, ∃ e, (pubKeyCodec t cs).dec (b.take i) = .err e) ∧
    (∀ (k : DelegationKey G3) b, k.invTI ≠ [] → k.invTI.length < 2 ^ 32 - 1 → (delKeyCodec t cs).enc k = .ok b →
      b.length < t.modulus → ∀ i < b.length, i ≠ 0 → ∃ e, (delKeyCodec t cs).dec (b.take i) = .err e) ∧
    (delKeyCodec t cs).dec [] = .ok ⟨[]⟩ ∧
    (∀ (k : DecryptionKey K G1 G3) b, k.rawDI ≠ [] → k.rawDI.length < 2 ^ 32 - 1 → k.msp.Regular → k.msp.nbRow < 2 ^ 32 →
      k.msp.nbCol < 2 ^ 32 → k.dI = k.rawDI.map bm.g3ToG1 → (userKeyCodec t cs bm).enc k = .ok b →
      b.length < t.modulus → ∀ i < b.length, ∃ e, (userKeyCodec t cs bm).dec (b.take i) = .err e) ∧
    (∀ (x : CipherText G2 Gt) b, x.gamma ≠ [] → x.gamma.length < 2 ^ 32 - 1 → x.eI ≠ [] → x.eI.length < 2 ^ 32 - 1 →
      (cipherTextCodec t cs).enc x = .ok b → b.length < t.modulus → ∀ i < b.length, ∃ e, (cipherTextCodec t cs).dec (b.take i) = .err e) := by
  obtain ⟨e1, he1⟩ := h.scalar.short [] (by decide)
  obtain ⟨e2, he2⟩ := h.gt.short [] (by decide)
  refine ⟨fun k b h1 h2 hb hB i hi => ?_, fun k b h1 h2 hb hB i hi => ?_, fun k b h1 h2 hb hB i hi h0 => ?_, rfl,
    fun k b h1 h2 h3 h4 h5 h6 hb hB i hi => ?_, fun x b h1 h2 h3 h4 hb hB i hi => ?_⟩
  · exact (privKey_laws h (le_refl _)).refuses ⟨h1, h2⟩ hb hB hi
      (Or.inr ⟨e1, by simp [privKeyCodec, vecDec, vecLen, sliceFrom, he1]⟩)
  · exact (pubKey_laws h (le_refl _)).refuses ⟨h1, h2⟩ hb hB hi
      (Or.inr ⟨e2, by simp [pubKeyCodec, vecDec, vecLen, sliceFrom, he2]⟩)
  · exact (delKey_laws h (le_refl _)).refuses ⟨h1, h2⟩ hb hB hi (Or.inl h0)
  · exact (userKey_laws h bm (le_refl _) (Nat.two_pow_pos _)).refuses ⟨⟨h1, h2⟩, ⟨h3, h4, h5⟩, h6⟩ hb hB hi (Or.inr ⟨_, by simp [userKeyCodec]; rfl⟩)
  · exact (cipherText_laws h (le_refl _) (Nat.two_pow_pos _)).refuses ⟨⟨h1, h2⟩, h3, h4⟩ hb hB hi
      (Or.inr ⟨e2, by simp [cipherTextCodec, vecDec, vecLen, sliceFrom, he2]⟩)

end

/-- Cutting the demo objects one byte before the end. -/
example : (∃ b e, (pubKeyCodec .debug64 Demo.codecs).enc Demo.mkF.pubKey = .ok b ∧
    (pubKeyCodec .debug64 Demo.codecs).dec (b.take (b.length - 1)) = .err e) ∧
    ∃ b e, (cipherTextCodec .debug64 Demo.codecs).enc ⟨[4, 1], 3, [5, 6]⟩ = .ok b ∧
    (cipherTextCodec .debug64 Demo.codecs).dec (b.take 200) = .err e := by
  obtain ⟨_, h2, _, _, _, h6⟩ := C29_truncation (t := .debug64) Demo.codecs_lawful (bls Demo.curveF)
  constructor
  · obtain ⟨b, hb, hlb, _⟩ := (C24_master_keys_round_trip (t := .debug64) Demo.codecs_lawful).2.1 Demo.mkF.pubKey (by decide) (by decide)
    have hpos : 0 < b.length := by
      rcases Nat.eq_zero_or_pos b.length with h0 | h0
      · rw [List.length_eq_zero_iff] at h0
        subst h0
        exact absurd hb (by decide +kernel)
      · exact h0
    have hl : (pubKeyCodec .debug64 Demo.codecs).len Demo.mkF.pubKey < 10000 := by decide +kernel
    obtain ⟨e, he⟩ := h2 Demo.mkF.pubKey b (by decide) (by decide) hb (lt_trans (by omega) (by decide : 10000 < 2 ^ 64))
      (b.length - 1) (by omega)
    exact ⟨b, e, hb, he⟩
  · have hlen : (match (cipherTextCodec .debug64 Demo.codecs).enc ⟨[4, 1], 3, [5, 6]⟩ with
      | .ok b => decide (b.length = 400) | _ => false) = true := by decide +kernel
    cases hb : (cipherTextCodec .debug64 Demo.codecs).enc ⟨[4, 1], 3, [5, 6]⟩ with
    | err e => rw [hb] at hlen; simp at hlen
    | panic => rw [hb] at hlen; simp at hlen
    | ok b =>
      rw [hb] at hlen
      simp only [decide_eq_true_eq] at hlen
      obtain ⟨e, he⟩ := h6 _ b (by simp) (by simp) (by simp) (by simp) hb (by rw [hlen]; decide) 200 (by omega)
      exact ⟨b, e, rfl, he⟩

section
variable {K P Q QP T : Type} [Field K] [DecidableEq K] [AddCommGroup P] [Module K P] [AddCommGroup Q] [Module K Q]
  [AddCommGroup T] [Module K T] {t : Target} {cs : Codecs K P Q T}

/-- **C29** for the keys obtained from the API. -/
theorem C29_user_key_truncation (h : cs.Lawful) (c : Curve K P Q QP T) {key : DecryptionKey K QP Q}
    (hk : Obtained c key) (hn : key.msp.nbRow < 2 ^ 32 - 1) {b : Bytes} (hb : (userKeyCodec t cs (bls c)).enc key = .ok b)
    (hB : b.length < t.modulus) {i : Nat} (hi : i < b.length) : ∃ e, (userKeyCodec t cs (bls c)).dec (b.take i) = .err e := by
  obtain ⟨⟨h1, h2⟩, ⟨h3, h4, h5⟩, h6⟩ := (obtained_shape c hk).good hn
  exact (C29_truncation (t := t) h (bls c)).2.2.2.2.1 key b h1 h2 h3 h4 h5 h6 hb hB i hi

/-- The demo key, cut after 100 bytes. -/
example : ∃ key b e, engineGenerateUserKey (bls Demo.curveF) Demo.policy Demo.mkF.privKey Demo.ap Demo.drawsF = .ok key ∧
    (userKeyCodec .debug64 Demo.codecs (bls Demo.curveF)).enc key = .ok b ∧
    (userKeyCodec .debug64 Demo.codecs (bls Demo.curveF)).dec (b.take 100) = .err e := by
  have hlen : (match engineGenerateUserKey (bls Demo.curveF) Demo.policy Demo.mkF.privKey Demo.ap Demo.drawsF with
      | .ok key => (match (userKeyCodec .debug64 Demo.codecs (bls Demo.curveF)).enc key with
        | .ok b => decide (key.msp.nbRow = 4 ∧ 100 < b.length ∧ b.length < 2 ^ 29)
        | _ => false)
      | _ => false) = true := by decide +kernel
  obtain ⟨key, hkey⟩ := Demo.keyF_exists
  rw [hkey] at hlen
  cases hb : (userKeyCodec .debug64 Demo.codecs (bls Demo.curveF)).enc key with
  | err e => simp only [hb] at hlen; simp at hlen
  | panic => simp only [hb] at hlen; simp at hlen
  | ok b =>
    simp only [hb, decide_eq_true_eq] at hlen
    obtain ⟨e, he⟩ := C29_user_key_truncation Demo.codecs_lawful Demo.curveF (.generate _ _ _ _ hkey) (by omega) hb
      (lt_trans hlen.2.2 (by decide)) (i := 100) (by omega)
    exact ⟨key, b, e, hkey, hb, he⟩

/-! ### C31 -/

theorem hget_some_mem {κ α : Type} [DecidableEq κ] {m : List (κ × α)} {k : κ} {a : α} (h : hget m k = some a) : (k, a) ∈ m := by
  unfold hget at h
  obtain ⟨p, h1, h2⟩ := Option.map_eq_some_iff.1 h
  have h3 := List.find?_some h1
  simp only [decide_eq_true_eq] at h3
  rw [← h2, ← h3]
  exact List.mem_of_find?_eq_some h1

theorem Msp.Regular.lookup {I : Type} {m : Msp I} (h : m.Regular) {a : UInt32} {i : Nat} (hi : m.getRowFromAttr a = some i) :
    i < m.nbRow := by
  unfold Msp.getRowFromAttr at hi
  rw [h.index] at hi
  have := hget_some_mem hi
  rw [List.mem_reverse, List.mem_zipIdx_iff_getElem?] at this
  have := (List.getElem?_eq_some_iff.1 this).1
  rw [h.labels] at this
  exact this

theorem selectRows_total {K' G1 G2 G3 Gt : Type} [Field K'] {key : DecryptionKey K' G1 G3} {enc : CipherText G2 Gt} (h : key.msp.Regular)
    (hp : key.dI.length = key.msp.nbRow) : ∀ (l : List UInt32) (i : Nat), i + l.length ≤ enc.eI.length →
    ∃ sel, selectRows key enc l i = .ok sel ∧ ∀ x ∈ sel, x.1.length = key.msp.nbCol
  | [], _, _ => ⟨[], rfl, by simp⟩
  | a :: l, i, hl => by
    simp only [List.length_cons] at hl
    obtain ⟨sel, h1, h2⟩ := selectRows_total (enc := enc) h hp l (i + 1) (by omega)
    unfold selectRows
    cases hr : key.msp.getRowFromAttr a with
    | none => exact ⟨sel, h1, h2⟩
    | some row =>
      have hlt := h.lookup hr
      have hm : row < key.msp.matrix.length := by rw [h.rows]; exact hlt
      simp only [Msp.getRow]
      rw [idx_of_lt hm, Res.ok_bind, idx_of_lt (show row < key.dI.length by omega), Res.ok_bind, idx_of_lt (show i < enc.eI.length by omega), Res.ok_bind, h1,
        Res.ok_bind]
      refine ⟨_, rfl, fun x hx => ?_⟩
      rcases List.mem_cons.1 hx with rfl | hx
      · exact h.width _ (List.getElem_mem hm)
      · exact h2 x hx

/-- **C31**, first part: decryption with a consistent key and ciphertext never panics, whatever the matrix entries and group
elements. -/
theorem C31_consistent_no_panic {K' G1 G2 G3 Gt : Type} [Field K'] [DecidableEq K'] (bm : BilinearMap K' G1 G2 G3 Gt)
    {key : DecryptionKey K' G1 G3} {enc : CipherText G2 Gt} (h : Consistent key enc) : decrypt bm enc key ≠ .panic := by
  obtain ⟨sel, h1, h2⟩ := selectRows_total (enc := enc) h.msp h.parts enc.gamma 0 (by rw [h.slots]; omega)
  unfold decrypt
  rw [h1, Res.ok_bind]
  by_cases hne : sel = []
  · subst hne
    simp [spanCoefs]
  · have hrect : Rect (sel.map fun p => p.1) key.msp.nbCol := by
      intro col hcol
      obtain ⟨p, hp, rfl⟩ := List.mem_map.1 hcol
      exact h2 p hp
    rcases spanCoefs_spec (by simpa using hne) h.msp.col_pos hrect with ⟨a, ha, hal, _⟩ | ⟨ha, _⟩
    · rw [ha, Res.ok_bind]
      simp only
      rw [keepNonZero_ok _ a sel 0 (by rw [hal]; simp), Res.ok_bind, keepNonZero_ok _ a sel 0 (by rw [hal]; simp), Res.ok_bind]
      simp
    · rw [ha, Res.ok_bind]
      simp

/-- **C31**, refutation for ciphertexts: for every user key obtained from the API there are bytes, accepted as a ciphertext, on
which decryption panics (352 bytes: two equal labels and one component). -/
theorem C31_crafted_ciphertext (ht : 32 ≤ t.bits) (h : cs.Lawful) (c : Curve K P Q QP T) {key : DecryptionKey K QP Q}
    (hk : Obtained c key) : ∃ b enc, b.length = 352 ∧ (cipherTextCodec t cs).dec b = .ok enc ∧
      engineDecrypt (bls c) enc key = .panic := by
  have hs := obtained_shape c hk
  obtain ⟨a, ha⟩ : ∃ a, a ∈ key.msp.rowToAttr := by
    apply List.exists_mem_of_ne_nil
    intro h0
    have := hs.regular.labels
    have := hs.regular.row_pos
    rw [h0] at *
    simp at *
    omega
  obtain ⟨i, hi⟩ : ∃ i, key.msp.getRowFromAttr a = some i := by
    unfold Msp.getRowFromAttr
    rw [hs.regular.index]
    cases hg : hget key.msp.rowToAttr.zipIdx.reverse a with
    | none => exact absurd ha (hget_labels.1 hg)
    | some i => exact ⟨i, rfl⟩
  have hlt := hs.regular.lookup hi
  have hd : key.dI.length = key.msp.nbRow := by rw [hs.prepared, List.length_map, hs.raw]
  obtain ⟨b, h1, h2, h3⟩ := (cipherText_laws (t := t) h (le_refl _) (Nat.two_pow_pos _)).roundTrips (x := ⟨[a, a], 0, [0]⟩)
    ⟨⟨by simp, by simp⟩, by simp, by simp⟩
  have hlen : b.length = 352 := by
    rw [h2]
    simp [cipherTextCodec, vecLen, u32Codec, h.g2.len, h.gt.len]
  refine ⟨b, ⟨[a, a], 0, [0]⟩, hlen, ?_, ?_⟩
  · have h32 : 2 ^ 32 ≤ t.modulus := Nat.pow_le_pow_right (by decide) ht
    have := h3 [] (by rw [List.append_nil]; omega)
    rwa [List.append_nil] at this
  · unfold engineDecrypt decrypt
    simp only [selectRows, hi, Msp.getRow]
    rw [idx_of_lt (by rw [hs.regular.rows]; exact hlt), Res.ok_bind, idx_of_lt (by omega), Res.ok_bind]
    simp [idx]

/-- **C31**, refutation for user keys: for every ciphertext with at least one attribute there are bytes, accepted as a user
key, with which decryption panics. -/
theorem C31_crafted_key (ht : 32 ≤ t.bits) (h : cs.Lawful) (c : Curve K P Q QP T) {enc : CipherText P T} (h0 : enc.gamma ≠ []) :
    ∃ b key, (userKeyCodec t cs (bls c)).dec b = .ok key ∧ engineDecrypt (bls c) enc key = .panic := by
  obtain ⟨a, l, hg⟩ := List.exists_cons_of_ne_nil h0
  have hne : a + 1 ≠ a := by
    intro h1
    have h2 : a + 1 - a = a - a := by rw [h1]
    rw [UInt32.sub_self, UInt32.add_comm, UInt32.add_sub_cancel] at h2
    exact absurd h2 (by decide)
  have hreg : (⟨2, 1, [[0], [0]], [(a, 1), (a + 1, 0)], [a + 1, a]⟩ : Msp K).Regular :=
    ⟨rfl, rfl, by simp, by simp, by simp, by simp [hne], rfl⟩
  obtain ⟨b, h1, _, h3⟩ := (userKey_laws (t := t) h (bls c) (le_refl _) (Nat.two_pow_pos _)).roundTrips
    (x := ⟨[0], [(bls c).g3ToG1 0], ⟨2, 1, [[0], [0]], [(a, 1), (a + 1, 0)], [a + 1, a]⟩⟩)
    ⟨⟨by simp, by simp⟩, ⟨hreg, by simp, by simp⟩, rfl⟩
  refine ⟨b, ⟨[0], [(bls c).g3ToG1 0], ⟨2, 1, [[0], [0]], [(a, 1), (a + 1, 0)], [a + 1, a]⟩⟩, ?_, ?_⟩
  · have h32 : 2 ^ 32 ≤ t.modulus := Nat.pow_le_pow_right (by decide) ht
    have hb : b.length < 2 ^ 32 := by
      simp only [userKeyCodec] at h1
      obtain ⟨va, e1, h1⟩ := Res.bind_eq_ok.1 h1
      obtain ⟨vb, e2, h1⟩ := Res.bind_eq_ok.1 h1
      simp only [Res.ok.injEq] at h1
      subst h1
      obtain ⟨bs, _, f2, f3⟩ := vecEnc_ok h.g3 (l := [(0 : Q)]) (by simp) (by simp)
      rw [f2] at e1
      simp only [Res.ok.injEq] at e1
      rw [e1, vecLen_eq h.g3 (by simp)] at f3
      have f4 := msp_len h.scalar hreg (by simp) (by simp) e2
      simp only [mspLen, h.scalar.len] at f4
      rw [List.length_append, f3, f4]
      simp
    have := h3 [] (by rw [List.append_nil]; omega)
    rwa [List.append_nil] at this
  · unfold engineDecrypt decrypt
    rw [hg]
    simp [selectRows, Msp.getRowFromAttr, hget, Msp.getRow, idx]

/-- The demo key crashes on a crafted ciphertext, the demo ciphertext with a crafted key. -/
example : (∃ key b enc, engineGenerateUserKey (bls Demo.curveF) Demo.policy Demo.mkF.privKey Demo.ap Demo.drawsF = .ok key ∧
      (cipherTextCodec .release64 Demo.codecs).dec b = .ok enc ∧ engineDecrypt (bls Demo.curveF) enc key = .panic) ∧
    (∃ enc b key, encrypt (bls Demo.curveF) .debug64 5 [1, 4] Demo.mkF.pubKey 7 = .ok enc ∧
      (userKeyCodec .release64 Demo.codecs (bls Demo.curveF)).dec b = .ok key ∧ engineDecrypt (bls Demo.curveF) enc key = .panic) := by
  constructor
  · obtain ⟨key, hkey⟩ := Demo.keyF_exists
    obtain ⟨b, enc, _, h1, h2⟩ := C31_crafted_ciphertext (t := .release64) (by decide) Demo.codecs_lawful Demo.curveF
      (.generate _ _ _ _ hkey)
    exact ⟨key, b, enc, hkey, h1, h2⟩
  · obtain ⟨enc, henc⟩ : ∃ enc, encrypt (bls Demo.curveF) .debug64 5 [1, 4] Demo.mkF.pubKey 7 = .ok enc :=
      Demo.exists_of_isOk (by decide +kernel)
    obtain ⟨b, key, h1, h2⟩ := C31_crafted_key (t := .release64) (by decide) Demo.codecs_lawful Demo.curveF (enc := enc)
      (by rw [(encrypt_shape henc).1]; simp)
    exact ⟨enc, b, key, henc, h1, h2⟩

/-- A consistent pair. -/
example : ∃ key enc, engineGenerateUserKey (bls Demo.curveF) Demo.policy Demo.mkF.privKey Demo.ap Demo.drawsF = .ok key ∧
    encrypt (bls Demo.curveF) .debug64 5 [1, 4] Demo.mkF.pubKey 7 = .ok enc ∧ Consistent key enc := by
  obtain ⟨key, hkey⟩ := Demo.keyF_exists
  obtain ⟨enc, henc⟩ : ∃ enc, encrypt (bls Demo.curveF) .debug64 5 [1, 4] Demo.mkF.pubKey 7 = .ok enc :=
    Demo.exists_of_isOk (by decide +kernel)
  have hs := obtained_shape Demo.curveF (.generate _ _ _ _ hkey)
  refine ⟨key, enc, hkey, henc, hs.regular, by rw [hs.prepared, List.length_map, hs.raw], ?_⟩
  rw [(encrypt_shape henc).2, (encrypt_shape henc).1]

end

end Abe
