import Verif.Proofs.GcmBlocks

/-!
# Property C104: what GCM achieves if the block cipher is as good as a random function
-/

namespace Abe

open Gcm Polynomial
open scoped ENNReal

variable {shake : Bytes → Nat → Bytes} {metaEnc : Metadata → Out Bytes} {metaDec : Bytes → Out Metadata} {num : Nat → Bytes} {max : Nat}

/-- **C104**, the field: the modulus is irreducible, blocks stand for different elements, exclusive or is their sum and the multiplication of blocks their product. -/
theorem C104_field : Irreducible modulus ∧ modulus.natDegree = 128 ∧ ∀ a < 2 ^ 128, ∀ b < 2 ^ 128, (elem a = elem b → a = b) ∧ elem (a ^^^ b) = elem a + elem b ∧
    Gcm.mul a b < 2 ^ 128 ∧ elem (Gcm.mul a b) = elem a * elem b :=
  ⟨modulus_irreducible, modulus_natDegree, fun a ha b hb => ⟨elem_injective ha hb, elem_xor a b, mul_lt a hb, elem_mul a hb⟩⟩

/-- **C104**, the hash: for two different pairs of additional data and ciphertext of at most `L` blocks each, at most `L + 1` of the 2^128 hash keys give hashes with a
given difference. -/
theorem C104_hash {ad body ad' body' : Bytes} (ha : ad.length ≤ limit) (hb : body.length ≤ limit) (ha' : ad'.length ≤ limit) (hb' : body'.length ≤ limit)
    (hne : (ad, body) ≠ (ad', body')) (d : Nat) {L : Nat} (hL : units ad + units body ≤ L) (hL' : units ad' + units body' ≤ L) :
    (Finset.univ.filter fun h : Blk => ghash h.val (hashed ad body) ^^^ ghash h.val (hashed ad' body') = d).card ≤ L + 1 :=
  ghash_collisions ha hb ha' hb' hne d hL hL'

open Classical in
theorem uniform_le {α : Type} [Fintype α] [Nonempty α] (W : α → Prop) {B k : Nat} (hB : B ≠ 0) (h : (Finset.univ.filter W).card * B ≤ k * Fintype.card α) :
    (PMF.uniformOfFintype α).toOuterMeasure {a | W a} ≤ k / B := by
  rw [PMF.toOuterMeasure_uniformOfFintype_apply]
  have hc : Fintype.card {a | W a} = (Finset.univ.filter W).card := by
    rw [← Set.toFinset_card]
    congr 1
    ext a
    simp
  have hα : (Fintype.card α : ℝ≥0∞) ≠ 0 := by
    simp [Fintype.card_ne_zero]
  rw [hc, ENNReal.div_le_iff hα (ENNReal.natCast_ne_top _)]
  rw [div_eq_mul_inv, mul_comm (k : ℝ≥0∞), mul_assoc]
  rw [← ENNReal.div_eq_inv_mul, ENNReal.le_div_iff_mul_le (Or.inl (by simpa using hB)) (Or.inl (ENNReal.natCast_ne_top _))]
  exact_mod_cast h

/-- **C104**, forgeries: with a random function in place of the block cipher, whoever asks for ciphertexts, never with one nonce twice, and submits up to `v` ciphertexts of
at most `L` blocks has one accepted that was not received for this nonce and additional data with probability at most `v * (L + 1) / 2^128`. -/
theorem C104_forgery {L v : Nat} {A : Gcm.Forger} (hA : A.Proper L v []) :
    randomFunction.toOuterMeasure {E | A.Wins (onBytes E) []} ≤ ((v * (L + 1) : Nat) : ℝ≥0∞) / ((2 ^ 128 : Nat) : ℝ≥0∞) := by
  have h := forger_card hA
  rw [← Nat.mul_assoc] at h
  exact uniform_le (fun E : Blk → Blk => A.Wins (onBytes E) []) (by decide) h

theorem uniform_map_injective {α β : Type} [Fintype α] [Nonempty α] {F : α → α} (hF : Function.Injective F) (f g : α → β) (h : ∀ a, f (F a) = g a) :
    (PMF.uniformOfFintype α).map f = (PMF.uniformOfFintype α).map g := by
  have hb : Function.Bijective F := Finite.injective_iff_bijective.1 hF
  have h1 : (PMF.uniformOfFintype α).map F = PMF.uniformOfFintype α := by
    ext a
    obtain ⟨b, rfl⟩ := hb.2 a
    rw [PMF.map_apply, tsum_eq_single b]
    · simp
    · intro c hc
      rw [if_neg fun h => hc (hF h).symm]
  conv_lhs => rw [← h1]
  rw [PMF.map_comp]
  congr 1
  funext a
  exact h a

/-- **C104**, secrecy: with a random function in place of the block cipher, what somebody says who asks for ciphertexts of one of two clear texts of the same size, never with
one nonce twice, is distributed in the same way for the first and for the second ones. -/
theorem C104_secrecy {D : Gcm.Guesser} (hD : D.Proper []) :
    randomFunction.map (fun E => D.says (onBytes E) true) = randomFunction.map fun E => D.says (onBytes E) false := by
  obtain ⟨F, hi, -, -, h⟩ := guesser_swap D [] hD
  exact uniform_map_injective hi _ _ h

/-- **C104**, the blocks of the repository: whoever asks for blocks under a key, never with one nonce twice, and submits up to `v` blocks has one accepted that was not
received for this identifier and number with probability at most `v * (L + 1) / 2^128`, and the difference this probability makes between AES-256 under the key and a random
function for a forger of GCM ciphertexts. -/
theorem C104_blocks (keys : PMF AesKey) (hmax : max ≤ maxClear) (hn : ∀ i, (num i).length = 8) (hi : ∀ i < 2 ^ 64, ∀ j < 2 ^ 64, num i = num j → i = j) {L v : Nat}
    {B : BlockForger AesNonce} (hB : B.Proper L v []) : (B.forger max num).Proper L v [] ∧
    keys.toOuterMeasure {k | B.Wins (aesGcm shake metaEnc metaDec num) max k []} ≤
      ((v * (L + 1) : Nat) : ℝ≥0∞) / ((2 ^ 128 : Nat) : ℝ≥0∞) +
        (keys.toOuterMeasure {k | (B.forger max num).Wins (Aes.aes256 k.val) []} -
          randomFunction.toOuterMeasure {E | (B.forger max num).Wins (onBytes E) []}) := by
  refine ⟨blockForger_proper hmax hn B hB le_rfl (by simp), ?_⟩
  have he : {k | B.Wins (aesGcm shake metaEnc metaDec num) max k []} = {k : AesKey | (B.forger max num).Wins (Aes.aes256 k.val) []} := by
    ext k
    exact blockForger_wins hmax hn hi k B hB (seen := []) (by simp)
  rw [he]
  have hf := C104_forgery (blockForger_proper hmax hn B hB (used' := []) le_rfl (by simp))
  exact le_add_tsub.trans (add_le_add_left hf _)

/-- **C104**, the blocks of the repository: whoever asks for blocks of one of two clear texts, never with one nonce twice, says yes for the second ones with a probability that
exceeds the one for the first ones by no more than what AES-256 under the key differs from a random function, for the same two observers of GCM ciphertexts. -/
theorem C104_block_secrecy (keys : PMF AesKey) (hmax : max ≤ maxClear) (hn : ∀ i, (num i).length = 8) {B : BlockGuesser AesNonce} (hB : B.Proper []) :
    (B.guesser max num).Proper [] ∧
    keys.toOuterMeasure {k | B.says (aesGcm shake metaEnc metaDec num) max k true = true} ≤
      keys.toOuterMeasure {k | B.says (aesGcm shake metaEnc metaDec num) max k false = true} +
        ((keys.toOuterMeasure {k | (B.guesser max num).says (Aes.aes256 k.val) true = some true} -
            randomFunction.toOuterMeasure {E | (B.guesser max num).says (onBytes E) true = some true}) +
          (randomFunction.toOuterMeasure {E | (B.guesser max num).says (onBytes E) false = some true} -
            keys.toOuterMeasure {k | (B.guesser max num).says (Aes.aes256 k.val) false = some true})) := by
  have hp := blockGuesser_proper hmax hn B hB (used' := []) (by simp)
  refine ⟨hp, ?_⟩
  have he : ∀ side, {k | B.says (aesGcm shake metaEnc metaDec num) max k side = true} = {k : AesKey | (B.guesser max num).says (Aes.aes256 k.val) side = some true} := by
    intro side
    ext k
    rw [Set.mem_ofPred_eq, Set.mem_ofPred_eq, blockGuesser_says (shake := shake) (metaEnc := metaEnc) (metaDec := metaDec) hmax hn k side B hB, Option.some.injEq]
  rw [he, he]
  have hs := C104_secrecy hp
  have hs' : randomFunction.toOuterMeasure {E | (B.guesser max num).says (onBytes E) true = some true} =
      randomFunction.toOuterMeasure {E | (B.guesser max num).says (onBytes E) false = some true} := by
    have h1 := congrArg (fun p : PMF (Option Bool) => p.toOuterMeasure {some true}) hs
    simp only [PMF.toOuterMeasure_map_apply] at h1
    exact h1
  generalize keys.toOuterMeasure {k | (B.guesser max num).says (Aes.aes256 k.val) true = some true} = a
  generalize keys.toOuterMeasure {k | (B.guesser max num).says (Aes.aes256 k.val) false = some true} = b
  rw [← hs']
  generalize randomFunction.toOuterMeasure {E | (B.guesser max num).says (onBytes E) true = some true} = c
  calc a ≤ c + (a - c) := le_add_tsub
    _ ≤ b + (c - b) + (a - c) := add_le_add_left le_add_tsub _
    _ = b + ((a - c) + (c - b)) := by rw [add_assoc, add_comm (c - b)]

/-- **C104**, why clear texts must stay below the limit of the standard: the crate accepts clear texts of 2^36 bytes, whose last sixteen bytes are encrypted with the very value
that hides the hash in the tag. -/
theorem C104_wrap (E : Bytes → Bytes) (hE : ∀ b, (E b).length = 16) (nonce ad m : Bytes) (hm : m.length = limit) (ha : ad.length ≤ limit) :
    ∃ c, Gcm.encrypt E nonce ad m = .ok c ∧ ((c.drop (m.length - 16)).take 16) = List.zipWith (· ^^^ ·) (m.drop (m.length - 16)) (E (nonce ++ be32 1)) := by
  refine ⟨_, encrypt_eq_ok.2 ⟨hm.le, ha, rfl⟩, ?_⟩
  have hl := ctr_length hE nonce m
  unfold limit at hm
  rw [List.drop_append_of_le_length (by omega), List.take_append_of_le_length (by rw [List.length_drop]; omega), List.take_of_length_le (by rw [List.length_drop]; omega)]
  have hks : (keyStream E nonce (2 ^ 32 - 1)).drop (m.length - 16) = [] := List.drop_eq_nil_of_le (by rw [keyStream_length hE]; omega)
  rw [ctr, List.drop_zipWith, show (m.length + 15) / 16 = (2 ^ 32 - 1) + 1 by omega, keyStream_succ, List.drop_append, keyStream_length hE, hks,
    show m.length - 16 - 16 * (2 ^ 32 - 1) = 0 by omega, List.drop_zero, List.nil_append]
  rfl

/-! ## Examples -/

namespace Demo

/-- Somebody who asks for one ciphertext and submits it with another byte in front, and for other additional data. -/
def gcmForger : Gcm.Forger :=
  .ask (List.replicate 12 7) [1] [104, 105] fun c => .submit (List.replicate 12 7) [1] (0 :: c.take 17) fun _ => .submit (List.replicate 12 7) [2] (c.take 18) fun _ => .stop

theorem gcmForger_proper : gcmForger.Proper 2 2 [] := by
  refine ⟨rfl, by simp, by decide, by decide, by decide, fun c => ⟨rfl, ?_, by decide, fun _ => ⟨rfl, ?_, by decide, fun _ => trivial⟩⟩⟩
  · have : ((0 :: c.take 17).take ((0 :: c.take 17).length - 16)).length ≤ 2 := by simp
    unfold Gcm.units
    simp only [List.length_singleton]
    omega
  · have : ((c.take 18).take ((c.take 18).length - 16)).length ≤ 2 := by simp
    unfold Gcm.units
    simp only [List.length_singleton]
    omega

example : Gcm.randomFunction.toOuterMeasure {E | gcmForger.Wins (Gcm.onBytes E) []} ≤ ((2 * (2 + 1) : Nat) : ℝ≥0∞) / ((2 ^ 128 : Nat) : ℝ≥0∞) :=
  C104_forgery gcmForger_proper

/-- The tag can be guessed: for some functions on blocks, zeros are accepted. -/
example : (Gcm.Forger.submit (List.replicate 12 7) [] (List.replicate 16 0) fun _ => .stop).Proper 0 1 [] ∧
    (Gcm.Forger.submit (List.replicate 12 7) [] (List.replicate 16 0) fun _ => .stop).Wins (Gcm.onBytes fun _ => 0) [] := by
  refine ⟨⟨rfl, by decide, by decide, fun _ => trivial⟩, ?_⟩
  have h : Gcm.decrypt (Gcm.onBytes fun _ => 0) (List.replicate 12 7) [] (List.replicate 16 0) = .ok [] := by decide +kernel
  rw [Gcm.Forger.Wins, h]
  exact Or.inl (by simp)

/-- Somebody who asks twice for ciphertexts of one of two clear texts, with these nonces, and says whether the ciphertexts are different. -/
def gcmGuesser (n n' : Bytes) : Gcm.Guesser := .ask n [1] [104] [104] fun c => .ask n' (c.take 18) [104] [105] fun c' => .guess (c.take 1 != c'.take 1)

theorem gcmGuesser_proper : (gcmGuesser (List.replicate 12 7) (List.replicate 12 8)).Proper [] :=
  ⟨rfl, by simp, rfl, by decide, by decide, fun c => ⟨rfl, by decide, rfl, by decide, by
    have : (c.take 18).length ≤ 18 := by simp
    unfold Gcm.limit
    omega, fun _ => trivial⟩⟩

example : Gcm.randomFunction.map (fun E => (gcmGuesser (List.replicate 12 7) (List.replicate 12 8)).says (Gcm.onBytes E) true) =
    Gcm.randomFunction.map fun E => (gcmGuesser (List.replicate 12 7) (List.replicate 12 8)).says (Gcm.onBytes E) false :=
  C104_secrecy gcmGuesser_proper

/-- The rule on nonces matters: with one nonce for both, the answer is right for every function on blocks. -/
example (E : Gcm.Blk → Gcm.Blk) (side : Bool) : (gcmGuesser (List.replicate 12 7) (List.replicate 12 7)).says (Gcm.onBytes E) side = some side := by
  have hlim : ∀ c : Bytes, (c.take 18).length ≤ Gcm.limit := fun c => by
    have : (c.take 18).length ≤ 18 := by simp
    unfold Gcm.limit
    omega
  have he : ∀ (ad : Bytes) (x : UInt8), ad.length ≤ Gcm.limit → ∃ t, Gcm.encrypt (Gcm.onBytes E) (List.replicate 12 7) ad [x] =
      .ok ((x ^^^ (Gcm.onBytes E (List.replicate 12 7 ++ be32 2)).headD 0) :: t) := by
    intro ad x had
    refine ⟨Gcm.tag (Gcm.onBytes E) (List.replicate 12 7) ad (Gcm.ctr (Gcm.onBytes E) (List.replicate 12 7) [x]),
      Gcm.encrypt_eq_ok.2 ⟨show 1 ≤ Gcm.limit by decide, had, ?_⟩⟩
    · have hc : Gcm.ctr (Gcm.onBytes E) (List.replicate 12 7) [x] = [x ^^^ (Gcm.onBytes E (List.replicate 12 7 ++ be32 2)).headD 0] := by
        have hk : Gcm.keyStream (Gcm.onBytes E) (List.replicate 12 7) 1 = Gcm.onBytes E (List.replicate 12 7 ++ be32 2) := by
          rw [Gcm.keyStream_succ]
          rfl
        have hl := Gcm.onBytes_length E (List.replicate 12 7 ++ be32 2)
        rw [Gcm.ctr, show ([x].length + 15) / 16 = 1 by simp, hk]
        cases hb : Gcm.onBytes E (List.replicate 12 7 ++ be32 2) with
        | nil =>
          rw [hb] at hl
          exact absurd hl (by decide)
        | cons y l => simp
      conv_rhs => rw [hc]
      rw [hc]
      rfl
  cases side
  · obtain ⟨t, ht⟩ := he [1] 104 (by decide)
    simp only [gcmGuesser, Gcm.Guesser.says, Bool.false_eq_true, if_false]
    rw [ht]
    simp only
    obtain ⟨t', ht'⟩ := he _ 104 (hlim _)
    rw [ht']
    simp
  · obtain ⟨t, ht⟩ := he [1] 104 (by decide)
    simp only [gcmGuesser, Gcm.Guesser.says, if_true]
    rw [ht]
    simp only
    obtain ⟨t', ht'⟩ := he _ 105 (hlim _)
    rw [ht']
    simp

theorem aes_num : ∀ i < 2 ^ 64, ∀ j < 2 ^ 64, (Gcm.bytes16 i).drop 8 = (Gcm.bytes16 j).drop 8 → i = j := by
  have hz : ∀ i < 2 ^ 64, (Gcm.bytes16 i).take 8 = List.replicate 8 0 := by
    intro i hi
    unfold Gcm.bytes16
    rw [← List.map_take, List.take_range]
    refine (List.map_congr_left (g := fun _ => (0 : UInt8)) fun a ha => ?_).trans (by simp)
    rw [List.mem_range] at ha
    rw [Nat.shiftRight_eq_div_pow, Nat.div_eq_of_lt (lt_of_lt_of_le hi (Nat.pow_le_pow_right (by omega) (by omega)))]
    rfl
  intro i hi j hj h
  refine Gcm.bytes16_inj (by omega) (by omega) ?_
  rw [← List.take_append_drop 8 (Gcm.bytes16 i), hz i hi, h, ← hz j hj, List.take_append_drop]

/-- Somebody who submits a received block for another number. -/
def blockForger : BlockForger AesNonce :=
  .ask [1, 2] 5 [3, 4, 5] ⟨List.replicate 12 7, rfl⟩ fun r => .submit [1, 2] 6 ((r.getD []).take 31) fun _ => .stop

theorem blockForger_proper : blockForger.Proper 2 1 [] := by
  refine ⟨by simp, by decide, by decide, by decide, fun r => ⟨by decide, by decide, ?_, by decide, fun _ => trivial⟩⟩
  have : ((r.getD []).take 31).length ≤ 31 := by simp
  simp only [List.length_cons, List.length_nil]
  omega

example (keys : PMF AesKey) : keys.toOuterMeasure {k | blockForger.Wins aes maxClearTextSize k []} ≤
    ((1 * (2 + 1) : Nat) : ℝ≥0∞) / ((2 ^ 128 : Nat) : ℝ≥0∞) +
      (keys.toOuterMeasure {k | (blockForger.forger maxClearTextSize fun i => (Gcm.bytes16 i).drop 8).Wins (Aes.aes256 k.val) []} -
        Gcm.randomFunction.toOuterMeasure {E | (blockForger.forger maxClearTextSize fun i => (Gcm.bytes16 i).drop 8).Wins (Gcm.onBytes E) []}) :=
  (C104_blocks keys (by decide) (fun i => by simp [Gcm.bytes16]) aes_num blockForger_proper).2

/-- Somebody who asks for a block of one of two clear texts. -/
def blockGuesser : BlockGuesser AesNonce :=
  .ask [1, 2] 5 [3, 4, 5] [6, 7, 8] ⟨List.replicate 12 7, rfl⟩ fun r => .guess (r.getD [] == [])

example (keys : PMF AesKey) : ((blockGuesser.guesser maxClearTextSize fun i => (Gcm.bytes16 i).drop 8)).Proper [] :=
  (C104_block_secrecy (shake := symmetric.shake) (metaEnc := symmetric.metaEnc) (metaDec := symmetric.metaDec) keys (by decide) (fun i => by simp [Gcm.bytes16])
    (B := blockGuesser) ⟨by simp, rfl, by decide, fun _ => trivial⟩).1

/-- Two pairs of additional data and ciphertext with the same bytes. -/
example (d : Nat) : (Finset.univ.filter fun h : Gcm.Blk => Gcm.ghash h.val (Gcm.hashed [1, 2] [3]) ^^^ Gcm.ghash h.val (Gcm.hashed [1] [2, 3]) = d).card ≤ 2 + 1 :=
  C104_hash (by decide) (by decide) (by decide) (by decide) (by decide) d (by decide) (by decide)

example : Gcm.mul (2 ^ 126) (2 ^ 126) = 2 ^ 125 ∧ Gcm.mul 1 (2 ^ 126) = 0xe1 <<< 120 := by decide +kernel

example (k : AesKey) : ∃ c, Gcm.encrypt (Aes.aes256 k.val) (List.replicate 12 7) [] (List.replicate Gcm.limit 0) = .ok c :=
  (C104_wrap _ (Gcm.aes256_length _) _ [] _ List.length_replicate (by decide)).imp fun _ h => h.1

end Demo

end Abe
