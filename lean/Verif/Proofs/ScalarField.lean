import Verif.Model.Codec
import Mathlib.NumberTheory.LucasPrimality
import Mathlib.Tactic.NormNum.Prime

/-!
# The scalar field of BLS12-381

The order of the groups is prime (Lucas' criterion with the known factorisation of `blsOrder - 1`), so `ZMod blsOrder` is
a field.
-/

namespace Abe

/-- Modular exponentiation by squaring, with fuel. -/
def powMod (m : Nat) : Nat → Nat → Nat → Nat → Nat
  | 0, _, _, acc => acc
  | f + 1, b, e, acc => powMod m f (b * b % m) (e / 2) (if e % 2 = 1 then acc * b % m else acc)

theorem powMod_modEq (m f b e acc : Nat) (h : e < 2 ^ f) : powMod m f b e acc ≡ acc * b ^ e [MOD m] := by
  induction f generalizing b e acc with
  | zero => simp at h; subst h; simp [powMod, Nat.ModEq]
  | succ f ih =>
    have h1 := ih (b * b % m) (e / 2) (if e % 2 = 1 then acc * b % m else acc) (by omega)
    have h2 : (b * b % m) ^ (e / 2) ≡ (b * b) ^ (e / 2) [MOD m] := (Nat.mod_modEq _ _).pow _
    have h3 : (if e % 2 = 1 then acc * b % m else acc) ≡ acc * b ^ (e % 2) [MOD m] := by
      rcases Nat.mod_two_eq_zero_or_one e with h | h
      · simp [h, Nat.ModEq]
      · simp [h, Nat.ModEq]
    refine h1.trans ((h3.mul h2).trans ?_)
    have : acc * b ^ (e % 2) * (b * b) ^ (e / 2) = acc * b ^ e := by
      rw [← pow_two, ← pow_mul, mul_assoc, ← pow_add]
      congr 2; omega
    rw [this]

theorem seven_pow_ne {p k : ℕ} (hk : k < 2 ^ 256) (h : powMod p 256 7 k 1 % p ≠ 1 % p) : (7 : ZMod p) ^ k ≠ 1 := by
  intro h'
  apply h
  have : ((7 ^ k : ℕ) : ZMod p) = ((1 : ℕ) : ZMod p) := by push_cast; exact h'
  have h1 := powMod_modEq p 256 7 k 1 hk
  rw [Nat.one_mul] at h1
  exact h1.trans ((ZMod.natCast_eq_natCast_iff' _ _ _).1 this)

theorem seven_pow_eq {p k : ℕ} (hk : k < 2 ^ 256) (h : powMod p 256 7 k 1 % p = 1 % p) : (7 : ZMod p) ^ k = 1 := by
  have h1 := powMod_modEq p 256 7 k 1 hk
  rw [Nat.one_mul] at h1
  have := (ZMod.natCast_eq_natCast_iff' (7 ^ k) 1 p).2 (h1.symm.trans h)
  push_cast at this
  exact this

theorem blsOrder_sub_one : blsOrder - 1 = 2 ^ 32 * 3 * 11 * 19 * 10177 * 125527 * 859267 * 906349 ^ 2 * 2508409 * 2529403 *
    52437899 * 254760293 ^ 2 := by
  decide +kernel

theorem blsOrder_prime : blsOrder.Prime := by
  apply lucas_primality blsOrder 7
  · exact seven_pow_eq (by decide +kernel) (by decide +kernel)
  · intro q hq hd
    rw [blsOrder_sub_one] at hd
    simp only [hq.dvd_mul] at hd
    have key : ∀ r, r.Prime → q ∣ r → (7 : ZMod blsOrder) ^ ((blsOrder - 1) / r) ≠ 1 →
        (7 : ZMod blsOrder) ^ ((blsOrder - 1) / q) ≠ 1 := by
      intro r hr h1 h2
      rwa [(Nat.prime_dvd_prime_iff_eq hq hr).1 h1]
    rcases hd with ((((((((((hd | hd) | hd) | hd) | hd) | hd) | hd) | hd) | hd) | hd) | hd) | hd
    · exact key 2 (by norm_num) (hq.dvd_of_dvd_pow hd) (seven_pow_ne (by decide +kernel) (by decide +kernel))
    · exact key 3 (by norm_num) hd (seven_pow_ne (by decide +kernel) (by decide +kernel))
    · exact key 11 (by norm_num) hd (seven_pow_ne (by decide +kernel) (by decide +kernel))
    · exact key 19 (by norm_num) hd (seven_pow_ne (by decide +kernel) (by decide +kernel))
    · exact key 10177 (by norm_num) hd (seven_pow_ne (by decide +kernel) (by decide +kernel))
    · exact key 125527 (by norm_num) hd (seven_pow_ne (by decide +kernel) (by decide +kernel))
    · exact key 859267 (by norm_num) hd (seven_pow_ne (by decide +kernel) (by decide +kernel))
    · exact key 906349 (by norm_num) (hq.dvd_of_dvd_pow hd) (seven_pow_ne (by decide +kernel) (by decide +kernel))
    · exact key 2508409 (by norm_num) hd (seven_pow_ne (by decide +kernel) (by decide +kernel))
    · exact key 2529403 (by norm_num) hd (seven_pow_ne (by decide +kernel) (by decide +kernel))
    · exact key 52437899 (by norm_num) hd (seven_pow_ne (by decide +kernel) (by decide +kernel))
    · exact key 254760293 (by norm_num) (hq.dvd_of_dvd_pow hd) (seven_pow_ne (by decide +kernel) (by decide +kernel))

instance : Fact blsOrder.Prime := ⟨blsOrder_prime⟩

instance : NeZero blsOrder := ⟨blsOrder_prime.ne_zero⟩

end Abe
