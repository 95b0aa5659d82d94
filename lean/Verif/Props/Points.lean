import Verif.Proofs.TwistOrder
import Verif.Spec.Codec
import Verif.Props.Fixtures
import Verif.Props.Endian
import Mathlib.NumberTheory.LegendreSymbol.Basic

/-!
# C110: the curve that the README describes, and the compressed encodings of its points

/repo/README.md:184-194 gives the parameter of the curve, the moduli of the two fields, the sizes, the embedding degree and the source groups.  The functions
`try_into_bytes` and `try_from_bytes` of `G1Affine` and `G2Affine` (/repo/src/core/bilinear_map/bls12_381.rs:123-179) are then exact, without an assumption
on `to_compressed` and `from_compressed`: only the encoding of the target group remains one.
-/

namespace Abe

/-- C110.  The two moduli come from the parameter as /repo/README.md:186-190 says, are prime and have 381 and 255 bits; the embedding degree is 12; the scalar
field has a primitive root of unity of order `2^32`. -/
theorem C110_constants :
    let z : ℤ := -0xd201000000010000
    3 * ((blsField : ℤ) - z) = (z - 1) ^ 2 * (z ^ 4 - z ^ 2 + 1) ∧ (blsOrder : ℤ) = z ^ 4 - z ^ 2 + 1 ∧
    blsField.Prime ∧ blsOrder.Prime ∧ 2 ^ 380 ≤ blsField ∧ blsField < 2 ^ 381 ∧ 2 ^ 254 ≤ blsOrder ∧ blsOrder < 2 ^ 255 ∧
    orderOf (blsField : ZMod blsOrder) = 12 ∧ ∃ r : ZMod blsOrder, orderOf r = 2 ^ 32 := by
  refine ⟨by decide +kernel, by decide +kernel, blsField_prime, blsOrder_prime, by decide +kernel, by decide +kernel, by decide +kernel,
    by decide +kernel, ?_, ?_⟩
  · have hp : ∀ k, (blsField : ZMod blsOrder) ^ k = 1 ↔ blsField ^ k % blsOrder = 1 % blsOrder := by
      intro k
      rw [← ZMod.natCast_eq_natCast_iff']
      push_cast
      rfl
    apply orderOf_eq_of_pow_and_pow_div_prime (by norm_num)
    · rw [hp]; decide +kernel
    · intro r hr hd
      have h12 : r = 2 ∨ r = 3 := by
        have : r ∣ 2 ^ 2 * 3 := hd
        rcases (Nat.Prime.dvd_mul hr).1 this with h | h
        · exact Or.inl ((Nat.prime_dvd_prime_iff_eq hr Nat.prime_two).1 (hr.dvd_of_dvd_pow h))
        · exact Or.inr ((Nat.prime_dvd_prime_iff_eq hr Nat.prime_three).1 h)
      rcases h12 with rfl | rfl
      · rw [Ne, hp]; decide +kernel
      · rw [Ne, hp]; decide +kernel
  · refine ⟨7 ^ ((blsOrder - 1) / 2 ^ 32), ?_⟩
    have hsplit : (blsOrder - 1) / 2 ^ 32 * 2 ^ 32 = blsOrder - 1 := by decide +kernel
    apply orderOf_eq_prime_pow (p := 2) (n := 31)
    · rw [← pow_mul]
      exact seven_pow_ne (by decide +kernel) (by decide +kernel)
    · rw [← pow_mul]
      exact seven_pow_eq (by decide +kernel) (by decide +kernel)

/-- The group of `G1Affine`, /repo/README.md:192: the points of `y² = x³ + 4` that the order kills. -/
abbrev G1Points := torsion blsOrder (4 : ZMod blsField)

/-- The group of `G2Affine`, /repo/README.md:192: the points of `y² = x³ + 4(u + 1)` that the order kills. -/
abbrev G2Points := torsion blsOrder (twist blsField)

/-- `G1Affine::to_compressed`, used at /repo/src/core/bilinear_map/bls12_381.rs:125. -/
def g1Bytes (P : G1Points) : Bytes := compress (fpCoordinates blsField) 48 P.1

/-- `G1Affine::from_compressed`, used at /repo/src/core/bilinear_map/bls12_381.rs:137. -/
noncomputable def g1OfBytes : Bytes → Option G1Points := decompress (fpCoordinates blsField) 48 blsOrder 4

/-- `G2Affine::to_compressed`, used at /repo/src/core/bilinear_map/bls12_381.rs:154. -/
def g2Bytes (P : G2Points) : Bytes := compress (fp2Coordinates blsField) 96 P.1

/-- `G2Affine::from_compressed`, used at /repo/src/core/bilinear_map/bls12_381.rs:166. -/
noncomputable def g2OfBytes : Bytes → Option G2Points := decompress (fp2Coordinates blsField) 96 blsOrder (twist blsField)

theorem blsField_lt : blsField < 2 ^ 381 := by decide +kernel

theorem blsOrder_odd : blsOrder % 2 = 1 := by decide +kernel

/-- The generator of G1 is in the group. -/
theorem g1_check : FieldCheck.orderCheck fpInv 4 ((PointCheck.gen.1 : ZMod blsField), (PointCheck.gen.2 : ZMod blsField)) = true := by decide +kernel

/-- C110.  Both source groups have exactly `q` elements. -/
theorem C110_orders : Nat.card G1Points = blsOrder ∧ Nat.card G2Points = blsOrder := by
  constructor
  · obtain ⟨hns, ht⟩ := FieldCheck.order_of_check g1_check
    exact card_torsion (by decide +kernel) ht (WeierstrassCurve.Affine.Point.some_ne_zero hns)
  · exact card_g2

theorem unique_multiple {q : Nat} [Fact q.Prime] {G : Type} [AddCommGroup G] (hc : Nat.card G = q) (P Q : G) (h : P ≠ 0) :
    ∃! k : Nat, k < q ∧ k • P = Q := by
  have hq := (Fact.out : q.Prime)
  have hord : addOrderOf P = q := by
    have := addOrderOf_dvd_natCard P
    rw [hc] at this
    exact ((Nat.dvd_prime hq).1 this).resolve_left (fun h1 => h (AddMonoid.addOrderOf_eq_one_iff.1 h1))
  obtain ⟨k, hk⟩ := mem_multiples_of_prime_card hc (g' := Q) h
  have hk : k • P = Q := hk
  refine ⟨k % q, ⟨Nat.mod_lt _ hq.pos, ?_⟩, ?_⟩
  · rw [← hk]
    conv_lhs => rw [← hord]
    rw [mod_addOrderOf_nsmul]
  · rintro j ⟨hj, hjP⟩
    have := (nsmul_eq_nsmul_iff_modEq (x := P) (n := j) (m := k)).1 (hjP.trans hk.symm)
    rw [hord] at this
    rw [← Nat.mod_eq_of_lt hj]
    exact this

/-- C110.  Every element of G1 or G2 is exactly one multiple below `q` of every element of the same group other than zero. -/
theorem C110_generators : (∀ P Q : G1Points, P ≠ 0 → ∃! k : Nat, k < blsOrder ∧ k • P = Q) ∧
    ∀ P Q : G2Points, P ≠ 0 → ∃! k : Nat, k < blsOrder ∧ k • P = Q :=
  ⟨unique_multiple C110_orders.1, unique_multiple C110_orders.2⟩

/-- C110.  A point of G1 is written in 48 bytes, and 48 bytes are read as a point exactly if they are what is written for it. -/
theorem C110_g1 : (pointCodec "G1" "G1Affine" 48 g1Bytes g1OfBytes).Fixed 48 :=
  pointCodec_fixed (by norm_num) (fun P => compress_length P.1)
    (fun _ P hl => decompress_iff (fpCoordinates_lawful Fact.out blsField_lt) (by norm_num) blsOrder_odd hl P)

/-- C110.  A point of G2 is written in 96 bytes, and 96 bytes are read as a point exactly if they are what is written for it. -/
theorem C110_g2 : (pointCodec "G2" "G2Affine" 96 g2Bytes g2OfBytes).Fixed 96 :=
  pointCodec_fixed (by norm_num) (fun P => compress_length P.1)
    (fun _ P hl => decompress_iff (fp2Coordinates_lawful blsField_lt) (by norm_num) blsOrder_odd hl P)

theorem bigEndian_iff {n k : Nat} (hk : k < 256 ^ n) {bytes : Bytes} (hl : bytes.length = n) : (leBytes n k).reverse = bytes ↔ bigEndian bytes = k := by
  have h : ofLe bytes.reverse = bigEndian bytes := by rw [ofLe_eq_bigEndian, List.reverse_reverse]
  constructor
  · rintro rfl
    rw [← h, List.reverse_reverse, ofLe_leBytes hk]
  · intro hb
    exact fromLe_reverse hl (h.trans hb)

theorem number_lt {n f e : Nat} (hn : 0 < n) (he : e < 2 ^ (8 * n - 3)) (hf : f = 0 ∨ f = 2 ^ (8 * n - 3)) : 2 ^ (8 * n - 1) + f + e < 256 ^ n := by
  obtain ⟨h1, h2⟩ := pow_flags hn
  rcases hf with rfl | rfl
  · have := (flags_read hn he 4 (by omega)).1
    omega
  · have := (flags_read hn he 5 (by omega)).1
    omega

/-- C110.  48 bytes are read as a point of G1 exactly if the big-endian number which they denote is that of the point: the abscissa, with bit 381 for the larger
of the two ordinates, bit 382 for zero and bit 383 always set. -/
theorem C110_g1_number (b : Bytes) (P : G1Points) (hb : b.length = 48) : g1OfBytes b = some P ↔ bigEndian b = g1Number P.1 := by
  rw [← bigEndian_iff (n := 48) ?_ hb, ← compress_g1 Fact.out]
  · exact decompress_iff (fpCoordinates_lawful Fact.out blsField_lt) (by norm_num) blsOrder_odd hb P
  · rcases P.1 with _ | ⟨x, y, h⟩
    · simp only [g1Number]
      decide +kernel
    · refine number_lt (n := 48) (by norm_num) ((fpCoordinates_lawful Fact.out blsField_lt).enc_lt x) ?_
      split
      · exact Or.inr rfl
      · exact Or.inl rfl

/-- C110.  96 bytes are read as a point of G2 exactly if the big-endian number which they denote is that of the point: the coefficient of `u` of the abscissa in
the first 48 bytes and the other one in the rest, with bit 765 for the larger of the two ordinates, bit 766 for zero and bit 767 always set. -/
theorem C110_g2_number (b : Bytes) (P : G2Points) (hb : b.length = 96) : g2OfBytes b = some P ↔ bigEndian b = g2Number P.1 := by
  rw [← bigEndian_iff (n := 96) ?_ hb, ← compress_g2 Fact.out]
  · exact decompress_iff (fp2Coordinates_lawful blsField_lt) (by norm_num) blsOrder_odd hb P
  · rcases P.1 with _ | ⟨x, y, h⟩
    · simp only [g2Number]
      decide +kernel
    · refine number_lt (n := 96) (by norm_num) ((fp2Coordinates_lawful blsField_lt).enc_lt x) ?_
      split
      · exact Or.inr rfl
      · exact Or.inl rfl

/-- C110.  All encodings of the scheme are exact if that of the target group is. -/
theorem C110_codecs {T : Type} (toT : T → Bytes) (ofT : Bytes → Option T) (hl : ∀ x, (toT x).length = 288)
    (h : ∀ b x, b.length = 288 → (ofT b = some x ↔ toT x = b)) :
    (blsCodecs blsOrder g1Bytes g1OfBytes g2Bytes g2OfBytes toT ofT).Lawful where
  scalar := scalarCodec_fixed _ (by decide +kernel)
  g2 := C110_g1
  g3 := C110_g2
  gt := pointCodec_fixed (by norm_num) hl h

/-- What is read when the coordinates found pass the check of the order. -/
theorem decompress_of_check {F : Type} [Field F] [DecidableEq F] {c : Coordinates F} {n : Nat} {b x y : F} {inv : F → F} {bytes : Bytes}
    (h : decodeXY c n b bytes = some (some (x, y))) (hc : FieldCheck.orderCheck inv b (x, y) = true) :
    ∃ P : torsion blsOrder b, decompress c n blsOrder b bytes = some P ∧ ∃ hns, P.1 = .some x y hns := by
  have hex := FieldCheck.order_of_check hc
  unfold decompress
  rw [h]
  simp only
  rw [dif_pos hex]
  exact ⟨_, rfl, _, rfl⟩

/-- The generator of G1 is read from its published encoding. -/
example : ∃ P, g1OfBytes (Fixtures.bytes 48
    0x97f1d3a73197d7942695638c4fa9ac0fc3688c4f9774b905a14e3a3f171bac586c55e83ff97a1aeffb3af00adb22c6bb) = some P ∧
    ∃ h, P.1 = .some (PointCheck.gen.1 : ZMod blsField) (PointCheck.gen.2 : ZMod blsField) h :=
  decompress_of_check (by decide +kernel) g1_check

/-- The generator of G2 is read from its published encoding, which starts with the coefficient of `u`. -/
example : ∃ P, g2OfBytes (Fixtures.bytes 96
    0x93e02b6052719f607dacd3a088274f65596bd0d09920b61ab5da61bbdc7f5049334cf11213945d57e5ac7d055d042b7e024aa2b2f08f0a91260805272dc51051c6e47ad4fa403b02b4510b647ae3d1770bac0326a805bbefd48056c8c121bdb8)
    = some P ∧ ∃ h, P.1 = .some g2Gen.1 g2Gen.2 h :=
  decompress_of_check (by decide +kernel) g2_check

/-- Both groups have an element other than zero. -/
example : (∃ P : G1Points, P ≠ 0) ∧ ∃ Q : G2Points, Q ≠ 0 := by
  obtain ⟨hns, ht⟩ := FieldCheck.order_of_check g1_check
  obtain ⟨hns', ht'⟩ := FieldCheck.order_of_check g2_check
  exact ⟨⟨⟨_, ht⟩, fun h => WeierstrassCurve.Affine.Point.some_ne_zero hns (congrArg Subtype.val h)⟩,
    ⟨⟨_, ht'⟩, fun h => WeierstrassCurve.Affine.Point.some_ne_zero hns' (congrArg Subtype.val h)⟩⟩

/-- Encodings with the 288 bytes themselves as elements of the target group. -/
example : (blsCodecs blsOrder g1Bytes g1OfBytes g2Bytes g2OfBytes (T := { b : Bytes // b.length = 288 }) (·.1)
    (fun b => if h : b.length = 288 then some ⟨b, h⟩ else none)).Lawful :=
  C110_codecs _ _ (fun x => x.2) (fun b x hb => by
    rw [dif_pos hb]
    simp only [Option.some.injEq]
    exact ⟨fun h => by rw [← h], fun h => Subtype.ext h.symm⟩)

/-- The first element of the stored public key is in G1, and the first of the stored user key in G2. -/
example : (match decodeXY (fpCoordinates blsField) 48 4 ((Fixtures.publicKey.drop 4).take 48) with
      | some (some r) => FieldCheck.orderCheck fpInv 4 r
      | _ => false) = true ∧
    (match decodeXY (fp2Coordinates blsField) 96 (twist blsField) ((Fixtures.userKey.drop 4).take 96) with
      | some (some r) => FieldCheck.orderCheck fp2Inv (twist blsField) r
      | _ => false) = true := by
  decide +kernel

/-- Every element of G1 in the stored public key is read as coordinates of a point of the curve. -/
example : ∀ i ∈ List.range 100, ∃ r, decodeXY (fpCoordinates blsField) 48 4 ((Fixtures.publicKey.drop (4 + 48 * i)).take 48) = some (some r) := by
  have h : ∀ i ∈ List.range 100, (match decodeXY (fpCoordinates blsField) 48 4 ((Fixtures.publicKey.drop (4 + 48 * i)).take 48) with
      | some (some _) => true
      | _ => false) = true := by decide +kernel
  intro i hi
  have := h i hi
  split at this
  · exact ⟨_, by assumption⟩
  · exact absurd this (by simp)

/-- Every element of G2 in the stored user key is read as coordinates of a point of the twisted curve. -/
example : ∀ i ∈ List.range 7, ∃ r, decodeXY (fp2Coordinates blsField) 96 (twist blsField) ((Fixtures.userKey.drop (4 + 96 * i)).take 96) = some (some r) := by
  have h : ∀ i ∈ List.range 7, (match decodeXY (fp2Coordinates blsField) 96 (twist blsField) ((Fixtures.userKey.drop (4 + 96 * i)).take 96) with
      | some (some _) => true
      | _ => false) = true := by decide +kernel
  intro i hi
  have := h i hi
  split at this
  · exact ⟨_, by assumption⟩
  · exact absurd this (by simp)

/-- The zero point; the same with the third flag; without the first flag; the modulus as abscissa; an abscissa that no point has: only the first is read. -/
example : decodeXY (fpCoordinates blsField) 48 4 (0xc0 :: List.replicate 47 0) = some none ∧
    decodeXY (fpCoordinates blsField) 48 4 (0xe0 :: List.replicate 47 0) = none ∧
    decodeXY (fpCoordinates blsField) 48 4 (0x40 :: List.replicate 47 0) = none ∧
    decodeXY (fpCoordinates blsField) 48 4 (Fixtures.bytes 48 (2 ^ 383 + blsField)) = none ∧
    decodeXY (fpCoordinates blsField) 48 4 (Fixtures.bytes 48 (2 ^ 383 + 1)) = none := by
  decide +kernel

end Abe
