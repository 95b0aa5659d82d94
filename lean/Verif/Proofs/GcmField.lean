import Verif.Model.AesGcm
import Verif.Spec.GcmField
import Mathlib.FieldTheory.Finite.Extension
import Mathlib.Tactic.ComputeDegree
import Mathlib.Tactic.Ring
import Mathlib.Tactic.LinearCombination

/-!
# The field of GCM: lemmas
-/

namespace Abe.Gcm

open Polynomial

/-- The class of X. -/
noncomputable abbrev rt : Field128 := AdjoinRoot.root modulus

theorem elem_eq (n : Nat) : elem n = ∑ i ∈ Finset.range 128, if n.testBit (127 - i) then rt ^ i else 0 := by
  unfold elem poly
  rw [map_sum]
  refine Finset.sum_congr rfl fun i _ => ?_
  split <;> simp

theorem two_eq : (2 : Field128) = 0 := by
  have := map_ofNat (algebraMap (ZMod 2) Field128) 2
  rw [← this, show (OfNat.ofNat 2 : ZMod 2) = 0 from rfl, map_zero]

theorem add_self (a : Field128) : a + a = 0 := by
  linear_combination a * two_eq

theorem eq_of_add {a b : Field128} (h : a + b = 0) : a = b := by
  linear_combination h - b * two_eq

theorem elem_xor (a b : Nat) : elem (a ^^^ b) = elem a + elem b := by
  rw [elem_eq, elem_eq, elem_eq, ← Finset.sum_add_distrib]
  refine Finset.sum_congr rfl fun i _ => ?_
  rw [Nat.testBit_xor]
  cases a.testBit (127 - i) <;> cases b.testBit (127 - i) <;> simp [add_self]

theorem elem_zero : elem 0 = 0 := by
  rw [elem_eq]
  exact Finset.sum_eq_zero fun i _ => by simp

theorem root_pow : rt ^ 128 = rt ^ 7 + rt ^ 2 + rt + 1 := by
  have h : AdjoinRoot.mk modulus modulus = 0 := AdjoinRoot.mk_self
  have e : modulus = X ^ 128 + (X ^ 7 + X ^ 2 + X + 1) := by
    unfold modulus
    rw [add_assoc, add_assoc, add_assoc]
    congr 1
    rw [← add_assoc, ← add_assoc]
  have h' : AdjoinRoot.mk modulus (X ^ 128 + (X ^ 7 + X ^ 2 + X + 1)) = 0 := e ▸ h
  rw [map_add, map_pow, AdjoinRoot.mk_X] at h'
  rw [eq_of_add h']
  simp only [map_add, map_pow, AdjoinRoot.mk_X, map_one]

/-- The block with the one bit `i`. -/
theorem elem_two_pow {i : Nat} (hi : i < 128) : elem (2 ^ (127 - i)) = rt ^ i := by
  rw [elem_eq, Finset.sum_eq_single i]
  · simp
  · intro j hj hji
    rw [Finset.mem_range] at hj
    rw [if_neg]
    rw [Nat.testBit_two_pow]
    simp
    omega
  · intro h
    simp at h
    omega

theorem elem_one : elem (2 ^ 127) = 1 := by simpa using elem_two_pow (i := 0) (by omega)

theorem elem_rt : elem (2 ^ 126) = rt := by simpa using elem_two_pow (i := 1) (by omega)

theorem elem_red : elem (0xe1 <<< 120) = rt ^ 128 := by
  have : (0xe1 <<< 120 : Nat) = 2 ^ (127 - 7) ^^^ 2 ^ (127 - 2) ^^^ 2 ^ (127 - 1) ^^^ 2 ^ (127 - 0) := by decide
  rw [this, elem_xor, elem_xor, elem_xor, elem_two_pow (by omega), elem_two_pow (by omega), elem_two_pow (by omega), elem_two_pow (by omega), root_pow]
  ring

theorem elem_shift {v : Nat} (hv : v < 2 ^ 128) : elem (v >>> 1) + (if v.testBit 0 then rt ^ 128 else 0) = rt * elem v := by
  rw [elem_eq, elem_eq, Finset.sum_range_succ', Finset.mul_sum, Finset.sum_range_succ _ 127]
  have h0 : (v >>> 1).testBit (127 - 0) = false := by
    rw [Nat.testBit_shiftRight]
    exact Nat.testBit_lt_two_pow (by simpa using hv)
  rw [h0]
  simp only [Bool.false_eq_true, if_false, add_zero]
  refine congrArg₂ (· + ·) ?_ ?_
  · refine Finset.sum_congr rfl fun i hi => ?_
    rw [Finset.mem_range] at hi
    rw [Nat.testBit_shiftRight, show 1 + (127 - (i + 1)) = 127 - i by omega]
    split
    · ring
    · ring
  · simp only [Nat.sub_self]
    split
    · rw [mul_comm, ← pow_succ]
    · rw [mul_zero]

theorem xor_lt {a b : Nat} (ha : a < 2 ^ 128) (hb : b < 2 ^ 128) : a ^^^ b < 2 ^ 128 := Nat.xor_lt_two_pow ha hb

/-- The next multiple. -/
theorem elem_next {v : Nat} (hv : v < 2 ^ 128) : elem (if v.testBit 0 then (v >>> 1) ^^^ (0xe1 <<< 120) else v >>> 1) = rt * elem v := by
  rw [← elem_shift hv]
  split
  · rw [elem_xor, elem_red]
  · rw [add_zero]

theorem next_lt {v : Nat} (hv : v < 2 ^ 128) : (if v.testBit 0 then (v >>> 1) ^^^ (0xe1 <<< 120) else v >>> 1) < 2 ^ 128 := by
  have h : v >>> 1 < 2 ^ 128 := by
    rw [Nat.shiftRight_eq_div_pow]
    omega
  split
  · exact xor_lt h (by decide)
  · exact h

theorem mulSteps_elem (x : Nat) : ∀ (k z v : Nat), v < 2 ^ 128 →
    elem (mulSteps x k z v) = elem z + (∑ i ∈ Finset.range k, if x.testBit (k - 1 - i) then rt ^ i else 0) * elem v
  | 0, z, v, _ => by simp [mulSteps]
  | k + 1, z, v, hv => by
    rw [mulSteps, mulSteps_elem x k _ _ (next_lt hv), elem_next hv, Finset.sum_range_succ']
    have : (∑ i ∈ Finset.range k, if x.testBit (k + 1 - 1 - (i + 1)) then rt ^ (i + 1) else 0) =
        rt * ∑ i ∈ Finset.range k, if x.testBit (k - 1 - i) then rt ^ i else 0 := by
      rw [Finset.mul_sum]
      refine Finset.sum_congr rfl fun i hi => ?_
      rw [show k + 1 - 1 - (i + 1) = k - 1 - i by omega]
      split <;> ring
    rw [this]
    simp only [Nat.add_sub_cancel, Nat.sub_zero, pow_zero]
    split
    · rw [elem_xor]
      ring
    · ring

theorem mulSteps_lt (x : Nat) : ∀ (k z v : Nat), z < 2 ^ 128 → v < 2 ^ 128 → mulSteps x k z v < 2 ^ 128
  | 0, z, v, hz, _ => hz
  | k + 1, z, v, hz, hv => by
    rw [mulSteps]
    apply mulSteps_lt x k _ _ _ (next_lt hv)
    split
    · exact xor_lt hz hv
    · exact hz

theorem elem_mul (x : Nat) {y : Nat} (hy : y < 2 ^ 128) : elem (mul x y) = elem x * elem y := by
  rw [mul, mulSteps_elem x _ _ _ hy, elem_zero, zero_add, elem_eq x]

theorem mul_lt (x : Nat) {y : Nat} (hy : y < 2 ^ 128) : mul x y < 2 ^ 128 := mulSteps_lt x _ _ _ (by omega) hy

/-! ## The modulus is irreducible -/

/-- Squaring `k` times. -/
def squares (a : Nat) : Nat → Nat
  | 0 => a
  | k + 1 => mul (squares a k) (squares a k)

theorem squares_lt {a : Nat} (ha : a < 2 ^ 128) : ∀ k, squares a k < 2 ^ 128
  | 0 => ha
  | k + 1 => mul_lt _ (squares_lt ha k)

theorem squares_elem {a : Nat} (ha : a < 2 ^ 128) : ∀ k, elem (squares a k) = elem a ^ 2 ^ k
  | 0 => by simp [squares]
  | k + 1 => by
    rw [squares, elem_mul _ (squares_lt ha k), squares_elem ha k, ← pow_add, pow_succ, mul_two]

/-- Squaring `k` times, keeping the intermediate result. -/
def squares' (a : Nat) : Nat → Nat
  | 0 => a
  | k + 1 => squares' (mul a a) k

theorem squares'_lt : ∀ {a : Nat} (_ : a < 2 ^ 128) (k : Nat), squares' a k < 2 ^ 128
  | _, ha, 0 => ha
  | _, ha, k + 1 => squares'_lt (mul_lt _ ha) k

theorem squares'_elem : ∀ {a : Nat} (_ : a < 2 ^ 128) (k : Nat), elem (squares' a k) = elem a ^ 2 ^ k
  | _, _, 0 => by simp [squares']
  | a, ha, k + 1 => by
    rw [squares', squares'_elem (mul_lt _ ha) k, elem_mul _ ha, ← pow_two, ← pow_mul, pow_succ' 2 k]

theorem root_frobenius : rt ^ 2 ^ 128 = rt := by
  have h : squares' (2 ^ 126) 128 = 2 ^ 126 := by decide +kernel
  rw [← elem_rt, ← squares'_elem (by omega), h]

theorem root_half : ∃ u, u * (rt ^ 2 ^ 64 - rt) = 1 := by
  have h : mul 0x180da934bf53158251c13dbb149f5279 (squares' (2 ^ 126) 64 ^^^ 2 ^ 126) = 2 ^ 127 := by decide +kernel
  refine ⟨elem 0x180da934bf53158251c13dbb149f5279, ?_⟩
  have h' := congrArg elem h
  rw [elem_mul _ (xor_lt (squares'_lt (by omega) _) (by omega)), elem_xor, squares'_elem (by omega), elem_rt, elem_one] at h'
  linear_combination h' - elem 0x180da934bf53158251c13dbb149f5279 * rt * two_eq

theorem modulus_natDegree : modulus.natDegree = 128 := by
  unfold modulus
  compute_degree!

theorem modulus_ne_zero : modulus ≠ 0 := by
  intro h
  have := modulus_natDegree
  rw [h] at this
  simp at this

theorem dvd_of_pow {n : Nat} (h : rt ^ n = rt) : modulus ∣ X ^ n - X := by
  rw [← AdjoinRoot.mk_eq_zero, map_sub, map_pow, AdjoinRoot.mk_X, h, sub_self]

theorem isUnit_of_pow {n : Nat} (h : ∃ u, u * (rt ^ n - rt) = 1) {q : (ZMod 2)[X]} (hd : q ∣ modulus) (hq : q ∣ X ^ n - X) : IsUnit q := by
  obtain ⟨u, hu⟩ := h
  obtain ⟨u, rfl⟩ := AdjoinRoot.mk_surjective u
  have h1 : modulus ∣ u * (X ^ n - X) - 1 := by
    rw [← AdjoinRoot.mk_eq_zero, map_sub, map_mul, map_sub, map_pow, AdjoinRoot.mk_X, map_one, hu, sub_self]
  have h2 : q ∣ 1 := by
    have := dvd_sub (hq.mul_left u) (dvd_trans hd h1)
    rwa [sub_sub_cancel] at this
  exact isUnit_of_dvd_one h2

theorem modulus_irreducible : Irreducible modulus := by
  obtain ⟨q, hq, hd⟩ := exists_irreducible_of_natDegree_ne_zero (f := modulus) (by rw [modulus_natDegree]; decide)
  have hdeg : q.natDegree ∣ 128 := by
    apply hq.natDegree_dvd_of_dvd_X_pow_card_pow_sub_X
    obtain ⟨N, hN⟩ : ∃ N, N = Nat.card (ZMod 2) ^ 128 := ⟨_, rfl⟩
    have h : rt ^ N = rt := by
      rw [hN, Nat.card_zmod]
      exact root_frobenius
    rw [← hN]
    exact dvd_trans hd (dvd_of_pow h)
  have h64 : ¬ q.natDegree ∣ 64 := by
    intro h
    have h' := (hq.natDegree_dvd_iff_dvd_X_pow_card_pow_sub_X (n := 64)).1 h
    rw [Nat.card_zmod] at h'
    exact hq.not_isUnit (isUnit_of_pow root_half hd h')
  have h : q.natDegree = 128 := by
    obtain ⟨k, hk, he⟩ := (Nat.dvd_prime_pow Nat.prime_two).1 (show q.natDegree ∣ 2 ^ 7 from hdeg)
    rcases Nat.lt_or_ge k 7 with h | h
    · exact absurd (he ▸ pow_dvd_pow 2 (show k ≤ 6 by omega)) h64
    · rw [he, show k = 7 by omega]
      rfl
  have ha : Associated q modulus := associated_of_dvd_of_natDegree_le hd modulus_ne_zero (by rw [modulus_natDegree, h])
  exact ha.irreducible hq

instance : Fact (Irreducible modulus) := ⟨modulus_irreducible⟩

noncomputable instance : Field Field128 := AdjoinRoot.instField

/-! ## Blocks and elements correspond -/

theorem poly_degree (n : Nat) : (poly n).degree < modulus.degree := by
  have h : ∀ i < 128, (if n.testBit (127 - i) then X ^ i else 0 : (ZMod 2)[X]).degree < modulus.degree := by
    intro i hi
    apply degree_lt_degree
    rw [modulus_natDegree]
    split
    · rwa [natDegree_X_pow]
    · rw [natDegree_zero]
      omega
  unfold poly
  refine lt_of_le_of_lt (degree_sum_le _ _) ?_
  rw [Finset.sup_lt_iff (bot_lt_iff_ne_bot.2 (mt degree_eq_bot.1 modulus_ne_zero))]
  intro i hi
  exact h i (Finset.mem_range.1 hi)

theorem poly_coeff (n : Nat) {i : Nat} (hi : i < 128) : (poly n).coeff i = if n.testBit (127 - i) then 1 else 0 := by
  unfold poly
  rw [finsetSum_coeff, Finset.sum_eq_single i]
  · split <;> simp
  · intro j _ hj
    split
    · rw [coeff_X_pow, if_neg (Ne.symm hj)]
    · simp
  · intro h
    simp at h
    omega

theorem elem_injective {a b : Nat} (ha : a < 2 ^ 128) (hb : b < 2 ^ 128) (h : elem a = elem b) : a = b := by
  have hp : poly a = poly b := by
    have hd : modulus ∣ poly a - poly b := AdjoinRoot.mk_eq_mk.1 h
    have hlt : (poly a - poly b).degree < modulus.degree := by
      have h1 := poly_degree a
      have h2 := poly_degree b
      generalize poly a = p at h1 ⊢
      generalize poly b = q at h2 ⊢
      exact lt_of_le_of_lt (degree_sub_le p q) (max_lt h1 h2)
    have h0 := eq_zero_of_dvd_of_degree_lt hd hlt
    exact sub_eq_zero.1 h0
  refine Nat.eq_of_testBit_eq fun i => ?_
  rcases Nat.lt_or_ge i 128 with hi | hi
  · have h := congrArg (fun p => p.coeff (127 - i)) hp
    simp only [poly_coeff _ (show 127 - i < 128 by omega), show 127 - (127 - i) = i by omega] at h
    revert h
    cases a.testBit i <;> cases b.testBit i <;> simp
  · rw [Nat.testBit_lt_two_pow (lt_of_lt_of_le ha (Nat.pow_le_pow_right (by omega) hi)),
      Nat.testBit_lt_two_pow (lt_of_lt_of_le hb (Nat.pow_le_pow_right (by omega) hi))]

end Abe.Gcm
