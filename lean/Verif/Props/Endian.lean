import Verif.Props.Hybrid

/-!
# The order of bytes

Properties C21 and C34: which numbers the encodings of integers, scalars and messages denote, in terms of `bigEndian`, which is defined without the model's encoders.
-/

namespace Abe

set_option linter.unusedSectionVars false

theorem bigEndian_take {b : Bytes} (h : 4 ≤ b.length) : (ofBe32 b).toNat = bigEndian (b.take 4) := by
  rw [bigEndian_eq (by rw [List.length_take]; omega), ofBe32_take (by omega)]

theorem ofLe_eq_bigEndian : ∀ b : Bytes, ofLe b = bigEndian b.reverse
  | [] => rfl
  | x :: xs => by
    rw [ofLe, ofLe_eq_bigEndian xs, bigEndian, bigEndian, List.reverse_cons, List.foldl_append]
    simp only [List.foldl_cons, List.foldl_nil]
    omega

/-- **C21**, order of the bytes: integers are big-endian, on four bytes, the signed ones in two's complement; scalars are little-endian, on 32 bytes. -/
theorem C21_order :
    (∀ b n, u32Codec.dec b = .ok n ↔ 4 ≤ b.length ∧ n.toNat = bigEndian (b.take 4)) ∧
    (∀ b n, i32Codec.dec b = .ok n ↔ 4 ≤ b.length ∧ n.toInt = if bigEndian (b.take 4) < 2 ^ 31 then (bigEndian (b.take 4) : Int) else bigEndian (b.take 4) - 2 ^ 32) ∧
    (∀ b x, (scalarCodec blsOrder).dec b = .ok x ↔
      32 ≤ b.length ∧ bigEndian (b.take 32).reverse < blsOrder ∧ x = (bigEndian (b.take 32).reverse : ZMod blsOrder)) ∧
    (∀ b, 4 ≤ b.length → (ofBe32 b).toNat = bigEndian (b.take 4)) ∧
    (∀ n, (be32 n).length = 4 ∧ bigEndian (be32 n) = n.toNat) ∧
    (∀ b, ofLe b = bigEndian b.reverse) := by
  refine ⟨fun b n => ?_, fun b n => ?_, fun b x => ?_, fun b h => bigEndian_take h, fun n => ⟨rfl, bigEndian_be32 n⟩, ofLe_eq_bigEndian⟩
  · simp only [u32Codec]
    by_cases h : b.length < 4
    · rw [if_pos h]
      simp only [reduceCtorEq, false_iff]
      omega
    · rw [if_neg h, slice_zero (by omega), Res.ok_bind, ofBe32_take (by omega), ← bigEndian_take (by omega), Res.ok.injEq, eq_comm, UInt32.toNat_inj]
      exact ⟨fun e => ⟨by omega, e⟩, fun e => e.2⟩
  · simp only [i32Codec]
    by_cases h : b.length < 4
    · unfold slice
      rw [if_neg (by omega)]
      simp only [Res.panic_bind, reduceCtorEq, false_iff]
      omega
    · rw [slice_zero (by omega), Res.ok_bind, ofBe32_take (by omega), ← bigEndian_take (by omega), Res.ok.injEq, eq_comm, ← Int32.toInt_inj]
      have : (ofBe32 b).toInt32.toInt = if (ofBe32 b).toNat < 2 ^ 31 then ((ofBe32 b).toNat : Int) else (ofBe32 b).toNat - 2 ^ 32 := by
        show (ofBe32 b).toBitVec.toInt = _
        rw [BitVec.toInt_eq_toNat_cond]
        show (if 2 * (ofBe32 b).toNat < 2 ^ 32 then ((ofBe32 b).toNat : Int) else (ofBe32 b).toNat - ((2 ^ 32 : Nat) : Int)) = _
        split <;> split <;> omega
      rw [this]
      exact ⟨fun e => ⟨by omega, e⟩, fun e => e.2⟩
  · rw [C21_scalar.2, ofLe_eq_bigEndian]

/-- **C34**, order of the bytes: the element of a message is the multiple of the generator by the number which its bytes denote, the first byte being the least significant. -/
theorem C34_element {q : Nat} [Fact q.Prime] {P Q QP T : Type} [AddCommGroup P] [Module (ZMod q) P] [AddCommGroup Q]
    [Module (ZMod q) Q] [AddCommGroup T] [Module (ZMod q) T] (c : Curve (ZMod q) P Q QP T) (msg : Bytes) (g : T) :
    msgToGt q (bls c) msg = .ok g ↔ msg.length ≤ 32 ∧ bigEndian msg.reverse < q ∧ g = (bigEndian msg.reverse : ZMod q) • c.genT := by
  rw [← ofLe_eq_bigEndian]
  unfold msgToGt
  rcases msgToScalar_cases q msg with ⟨h1, h2, h3⟩ | ⟨h1, h3⟩ | ⟨h1, h2, h3⟩
  · rw [h3, Res.ok_bind, Res.ok.injEq]
    exact ⟨fun h => ⟨h1, h2, h.symm⟩, fun h => h.2.2.symm⟩
  · rw [h3]
    exact ⟨fun h => (by cases h), fun h => absurd h.1 (by omega)⟩
  · rw [h3]
    exact ⟨fun h => (by cases h), fun h => absurd h.2.1 (by omega)⟩

/-- 258 as an integer, -2 as a signed one, 513 as a scalar and as a message. -/
example : u32Codec.dec [0, 0, 1, 2, 7] = .ok 258 ∧ i32Codec.dec [255, 255, 255, 254] = .ok (-2) ∧ (scalarCodec blsOrder).dec ([1, 2] ++ List.replicate 30 0) = .ok 513 := by
  refine ⟨(C21_order.1 _ _).2 ⟨by decide, by decide⟩, (C21_order.2.1 _ _).2 ⟨by decide, by decide⟩, (C21_order.2.2.1 _ _).2 ⟨by decide, ?_, ?_⟩⟩
  · have : bigEndian (([1, 2] ++ List.replicate 30 0 : Bytes).take 32).reverse = 513 := by decide +kernel
    rw [this]
    decide
  · have : bigEndian (([1, 2] ++ List.replicate 30 0 : Bytes).take 32).reverse = 513 := by decide +kernel
    rw [this]
    rfl

/-- In the demo groups of order 11: the bytes 7 0 are the message 7, whereas 0 7 denote 7 · 256, which is not below the order. -/
example : msgToGt 11 (bls Demo.curveF) [7, 0] = .ok 7 ∧ ∀ g, msgToGt 11 (bls Demo.curveF) [0, 7] ≠ .ok g :=
  ⟨(C34_element Demo.curveF _ _).2 ⟨by decide, by decide, by decide +kernel⟩, fun g h => absurd ((C34_element Demo.curveF _ _).1 h).2.1 (by decide)⟩

end Abe
