import Verif.Spec.Points
import Verif.Proofs.BaseField
import Verif.Proofs.Codec
import Mathlib.FieldTheory.Finite.Basic
import Mathlib.NumberTheory.LegendreSymbol.Basic
import Mathlib.Tactic.LinearCombination
import Mathlib.Tactic.FieldSimp

/-!
# The compressed encodings of points
-/

namespace Abe

open WeierstrassCurve.Affine

theorem fastPow_eq {F : Type} [CommMonoid F] (f : Nat) (b : F) (e : Nat) (acc : F) (h : e < 2 ^ f) : fastPow f b e acc = acc * b ^ e := by
  induction f generalizing b e acc with
  | zero => simp at h; subst h; simp [fastPow]
  | succ f ih =>
    rw [fastPow, ih _ _ _ (by omega), ← pow_two, ← pow_mul]
    rcases Nat.mod_two_eq_zero_or_one e with h' | h'
    · rw [if_neg (by omega)]
      congr 2; omega
    · rw [if_pos h', mul_assoc, ← pow_succ']
      congr 2; omega

section Fp

variable {p : Nat} [Fact p.Prime]

theorem val_neg_large {p : Nat} [Fact p.Prime] (h4 : p % 4 = 3) {y : ZMod p} (hy : y ≠ 0) :
    decide ((p - 1) / 2 < (-y).val) = !decide ((p - 1) / 2 < y.val) := by
  have : NeZero y := ⟨hy⟩
  have h1 := ZMod.val_neg_of_ne_zero y
  have h2 := ZMod.val_lt y
  have h3 : y.val ≠ 0 := fun h => hy ((ZMod.val_eq_zero y).1 h)
  rw [h1]
  by_cases h : (p - 1) / 2 < y.val
  · rw [decide_eq_true h, decide_eq_false (by omega)]; rfl
  · rw [decide_eq_false h, decide_eq_true (by omega)]; rfl

theorem large_iff (h4 : p % 4 = 3) (y : ZMod p) : (p - 1) / 2 < y.val ↔ (-y).val < y.val := by
  by_cases hy : y = 0
  · subst hy
    simp
  · have : NeZero y := ⟨hy⟩
    have h2 := ZMod.val_lt y
    rw [ZMod.val_neg_of_ne_zero y]
    omega

theorem neg_val_eq (h4 : p % 4 = 3) (y : ZMod p) : (-y).val = y.val ↔ y = 0 := by
  by_cases hy : y = 0
  · subst hy
    simp
  · have : NeZero y := ⟨hy⟩
    have h2 := ZMod.val_lt y
    rw [ZMod.val_neg_of_ne_zero y]
    simp only [hy, iff_false]
    omega

theorem fpCoordinates_lawful (h4 : p % 4 = 3) (hp : p < 2 ^ 381) : (fpCoordinates p).Lawful 48 := by
  constructor
  · intro x
    exact (ZMod.val_lt x).trans hp
  · intro k x _
    simp only [fpCoordinates]
    constructor
    · intro h
      split at h
      · rename_i hk
        obtain rfl := Option.some.inj h
        exact ZMod.val_natCast_of_lt hk
      · exact absurd h (by simp)
    · intro h
      subst h
      rw [if_pos (ZMod.val_lt x), ZMod.natCast_zmod_val]
  · intro y hy
    exact val_neg_large h4 hy
  · intro a s h
    simp only [fpCoordinates] at h
    split at h
    · rename_i hs
      obtain rfl := Option.some.inj h
      exact hs
    · exact absurd h (by simp)
  · intro y
    simp only [fpCoordinates]
    rw [if_pos]
    · simp
    · have hlt : (p + 1) / 4 < 2 ^ 384 := lt_of_le_of_lt (by omega) (lt_trans hp (Nat.pow_lt_pow_right (by norm_num) (by norm_num)))
      rw [fastPow_eq _ _ _ _ hlt, one_mul, ← pow_add, ← pow_two, ← pow_mul]
      have : 2 * ((p + 1) / 4 + (p + 1) / 4) = p + 1 := by omega
      rw [this, pow_succ, ZMod.pow_card, pow_two]

end Fp

section Fp2

variable {p : Nat} [Fact p.Prime]

instance [h4 : Fact (p % 4 = 3)] : Fact (∀ r : ZMod p, r ^ 2 ≠ -1 + 0 * r) := ⟨by
  intro r h
  rw [zero_mul, add_zero] at h
  exact ZMod.mod_four_ne_three_of_sq_eq_neg_one h h4.out⟩

variable [h4 : Fact (p % 4 = 3)]

noncomputable instance : Fintype (Fp2 p) := Fintype.ofEquiv _ (QuadraticAlgebra.equivProd (-1 : ZMod p) 0).symm

omit h4 in
theorem fp2_card : Fintype.card (Fp2 p) = p ^ 2 := by
  rw [Fintype.ofEquiv_card, Fintype.card_prod, ZMod.card, pow_two]

instance : CharP (Fp2 p) p := charP_of_injective_algebraMap (algebraMap (ZMod p) (Fp2 p)).injective p

/-- Algorithm 9 finds the roots of squares. -/
theorem fp2_root (y : Fp2 p) :
    let a := y * y
    let a1 := a ^ ((p - 3) / 4)
    let alpha := a1 * a1 * a
    let x0 := a1 * a
    let s := if alpha = -1 then (⟨0, 1⟩ : Fp2 p) * x0 else (alpha + 1) ^ ((p - 1) / 2) * x0
    s * s = a := by
  have h := h4.out
  intro a a1 alpha x0 s
  have hx0 : x0 * x0 = a * alpha := by simp only [x0, alpha]; ring
  have hal : alpha = y ^ (p - 1) := by
    simp only [alpha, a1, a]
    rw [← pow_add, ← pow_succ, ← pow_two, ← pow_mul]
    congr 1; omega
  by_cases hy : y = 0
  · have : x0 = 0 := by simp only [x0, a, hy]; ring
    simp only [s, this, mul_zero, ite_self, a, hy]
  by_cases hm : alpha = -1
  · have hu : (⟨0, 1⟩ : Fp2 p) * ⟨0, 1⟩ = -1 := by
      ext
      · simp; rfl
      · simp; rfl
    simp only [s, if_pos hm]
    calc (⟨0, 1⟩ : Fp2 p) * x0 * (⟨0, 1⟩ * x0) = (⟨0, 1⟩ * ⟨0, 1⟩) * (x0 * x0) := by ring
      _ = a := by rw [hu, hx0, hm]; ring
  · simp only [s, if_neg hm]
    have hpow : y ^ (p ^ 2 - 1) = 1 := by rw [← fp2_card (p := p)]; exact FiniteField.pow_card_sub_one_eq_one y hy
    have hap : alpha ^ p * alpha = 1 := by
      rw [← pow_succ, hal, ← pow_mul, ← hpow]
      congr 1
      have hpos := (Fact.out : p.Prime).pos
      obtain ⟨k, rfl⟩ : ∃ k, p = k + 1 := ⟨p - 1, by omega⟩
      rw [Nat.add_sub_cancel, pow_two]
      have : (k + 1) * (k + 1) = k * (k + 1 + 1) + 1 := by ring
      rw [this, Nat.add_sub_cancel]
    have hfr : (alpha + 1) ^ p = alpha ^ p + 1 := by rw [add_pow_char, one_pow]
    have hne : alpha + 1 ≠ 0 := fun h => hm (eq_neg_of_add_eq_zero_left h)
    have hE : (alpha + 1) ^ ((p - 1) / 2) * (alpha + 1) ^ ((p - 1) / 2) * (alpha + 1) = (alpha + 1) ^ p := by
      rw [← pow_add, ← pow_succ]
      congr 1; omega
    have hEa : (alpha + 1) ^ ((p - 1) / 2) * (alpha + 1) ^ ((p - 1) / 2) * alpha = 1 := by
      apply mul_right_cancel₀ hne
      calc _ = ((alpha + 1) ^ ((p - 1) / 2) * (alpha + 1) ^ ((p - 1) / 2) * (alpha + 1)) * alpha := by ring
        _ = 1 * (alpha + 1) := by rw [hE, hfr]; linear_combination hap
    calc (alpha + 1) ^ ((p - 1) / 2) * x0 * ((alpha + 1) ^ ((p - 1) / 2) * x0)
        = (alpha + 1) ^ ((p - 1) / 2) * (alpha + 1) ^ ((p - 1) / 2) * (x0 * x0) := by ring
      _ = a * ((alpha + 1) ^ ((p - 1) / 2) * (alpha + 1) ^ ((p - 1) / 2) * alpha) := by rw [hx0]; ring
      _ = a := by rw [hEa, mul_one]

theorem fp2Coordinates_lawful (hp : p < 2 ^ 381) : (fp2Coordinates p).Lawful 96 := by
  have h4' := h4.out
  constructor
  · intro x
    have h1 := ZMod.val_lt x.im
    have h2 := ZMod.val_lt x.re
    simp only [fp2Coordinates]
    have : x.im.val + 1 ≤ 2 ^ 381 := by omega
    calc x.im.val * 2 ^ 384 + x.re.val < (x.im.val + 1) * 2 ^ 384 := by
          have : x.re.val < 2 ^ 384 := by omega
          rw [Nat.add_mul]; omega
      _ ≤ 2 ^ 381 * 2 ^ 384 := Nat.mul_le_mul_right _ this
      _ = 2 ^ (8 * 96 - 3) := by rw [← pow_add]
  · intro k x _
    simp only [fp2Coordinates]
    constructor
    · intro h
      split at h
      · rename_i hk
        obtain rfl := Option.some.inj h
        simp only [ZMod.val_natCast_of_lt hk.1, ZMod.val_natCast_of_lt hk.2]
        exact Nat.div_add_mod' k (2 ^ 384)
      · exact absurd h (by simp)
    · intro h
      subst h
      have h1 := ZMod.val_lt x.im
      have h2 := ZMod.val_lt x.re
      have h3 : x.re.val < 2 ^ 384 := by omega
      have e1 : (x.im.val * 2 ^ 384 + x.re.val) / 2 ^ 384 = x.im.val := by omega
      have e2 : (x.im.val * 2 ^ 384 + x.re.val) % 2 ^ 384 = x.re.val := by omega
      rw [e1, e2, if_pos ⟨h1, h2⟩, ZMod.natCast_zmod_val, ZMod.natCast_zmod_val]
  · intro y hy
    simp only [fp2Coordinates, QuadraticAlgebra.im_neg, QuadraticAlgebra.re_neg, neg_eq_zero]
    by_cases him : y.im = 0
    · have hre : y.re ≠ 0 := fun h => hy (by ext <;> simp [h, him])
      simp [him, val_neg_large h4' hre]
    · rw [val_neg_large h4' him]
      simp [him]
  · intro a s h
    have key : ∀ t : Fp2 p, (if t * t = a then some t else none) = some s → s * s = a := by
      intro t ht
      split at ht
      · rename_i hs
        obtain rfl := Option.some.inj ht
        exact hs
      · exact absurd ht (by simp)
    exact key _ h
  · intro y
    simp only [fp2Coordinates]
    rw [if_pos]
    · simp
    · have b1 : (p - 3) / 4 < 2 ^ 384 := by omega
      have b2 : (p - 1) / 2 < 2 ^ 384 := by omega
      rw [fastPow_eq _ _ _ _ b1, fastPow_eq _ _ _ _ b2, one_mul, one_mul]
      exact fp2_root y

end Fp2

section Number

variable {p : Nat} [Fact p.Prime]

theorem compress_g1 (h4 : p % 4 = 3) {b : ZMod p} (P : (shortCurve b).Point) : compress (fpCoordinates p) 48 P = (leBytes 48 (g1Number P)).reverse := by
  cases P with
  | zero => simp only [compress, g1Number]
  | some x y h =>
    simp only [compress, g1Number, fpCoordinates, decide_eq_true_eq, large_iff h4]

theorem compress_g2 (h4 : p % 4 = 3) {b : Fp2 p} (P : (shortCurve b).Point) : compress (fp2Coordinates p) 96 P = (leBytes 96 (g2Number P)).reverse := by
  cases P with
  | zero => simp only [compress, g2Number]
  | some x y h =>
    simp only [compress, g2Number, fp2Coordinates, Bool.or_eq_true, Bool.and_eq_true, decide_eq_true_eq, large_iff h4, neg_val_eq h4]

end Number

section Codec

variable {F : Type} [Field F] {c : Coordinates F} {n : Nat}

/-- The flags and the number of the abscissa are read back. -/
theorem flags_read {n e : Nat} (hn : 0 < n) (he : e < 2 ^ (8 * n - 3)) (f : Nat) (hf : f < 8) :
    let k := f * 2 ^ (8 * n - 3) + e
    k < 256 ^ n ∧ k / 2 ^ (8 * n - 1) % 2 = f / 4 ∧ k / 2 ^ (8 * n - 2) % 2 = f / 2 % 2 ∧ k / 2 ^ (8 * n - 3) % 2 = f % 2 ∧ k % 2 ^ (8 * n - 3) = e := by
  intro k
  obtain ⟨m, hm⟩ : ∃ m, m = 8 * n - 3 := ⟨_, rfl⟩
  have h1 : 8 * n - 1 = m + 2 := by omega
  have h2 : 8 * n - 2 = m + 1 := by omega
  have h3 : 8 * n = m + 3 := by omega
  have h256 : 256 ^ n = 2 ^ m * 8 := by
    rw [show (256 : Nat) = 2 ^ 8 by norm_num, ← pow_mul, h3, pow_add, show (2 : Nat) ^ 3 = 8 by norm_num]
  have hk : k = f * 2 ^ m + e := by rw [hm]
  rw [← hm] at he
  rw [h1, h2, ← hm, h256]
  have hpos : 0 < 2 ^ m := by positivity
  have hdiv : k / 2 ^ m = f := by
    rw [hk, Nat.add_comm, Nat.add_mul_div_right _ _ hpos, Nat.div_eq_of_lt he, Nat.zero_add]
  refine ⟨?_, ?_, ?_, ?_, ?_⟩
  · have : (f + 1) * 2 ^ m ≤ 8 * 2 ^ m := Nat.mul_le_mul_right _ (by omega)
    rw [Nat.add_mul] at this
    omega
  · rw [pow_add, ← Nat.div_div_eq_div_mul, hdiv]
    omega
  · rw [pow_succ, ← Nat.div_div_eq_div_mul, hdiv]
  · rw [hdiv]
  · rw [hk, Nat.add_comm, Nat.add_mul_mod_self_right, Nat.mod_eq_of_lt he]

theorem pow_flags {n : Nat} (hn : 0 < n) : 2 ^ (8 * n - 1) = 4 * 2 ^ (8 * n - 3) ∧ 2 ^ (8 * n - 2) = 2 * 2 ^ (8 * n - 3) := by
  have h1 : 8 * n - 1 = (8 * n - 3) + 2 := by omega
  have h2 : 8 * n - 2 = (8 * n - 3) + 1 := by omega
  rw [h1, h2, pow_add, pow_add]
  omega

theorem ofLe_compress {k : Nat} (h : k < 256 ^ n) : ofLe (leBytes n k).reverse.reverse = k := by
  rw [List.reverse_reverse, ofLe_leBytes h]

theorem compress_length {b : F} (P : (shortCurve b).Point) : (compress c n P).length = n := by
  cases P <;> simp [compress, leBytes_length]

theorem split_flags (hn : 0 < n) {k : Nat} (hlt : k < 256 ^ n) : ∃ f e, e < 2 ^ (8 * n - 3) ∧ f < 8 ∧ k = f * 2 ^ (8 * n - 3) + e := by
  refine ⟨k / 2 ^ (8 * n - 3), k % 2 ^ (8 * n - 3), Nat.mod_lt _ (by positivity), ?_, (Nat.div_add_mod' _ _).symm⟩
  rw [Nat.div_lt_iff_lt_mul (by positivity)]
  have : 256 ^ n = 2 ^ (8 * n - 3) * 8 := by
    rw [show (256 : Nat) = 2 ^ 8 by norm_num, ← pow_mul, show (8 : Nat) = 2 ^ 3 by norm_num, ← pow_add]
    congr 1; omega
  omega

/-- The zero point is encoded by its flags. -/
theorem decodeXY_zero (hn : 0 < n) {b : F} {bytes : Bytes} (hl : bytes.length = n) :
    decodeXY c n b bytes = some none ↔ compress c n (.zero : (shortCurve b).Point) = bytes := by
  obtain ⟨hp1, hp2⟩ := pow_flags hn
  constructor
  · intro h
    unfold decodeXY at h
    simp only at h
    split at h
    · exact absurd h (by simp)
    rename_i g1
    split at h
    · rename_i g2
      split at h
      · rename_i g3
        have hlt := ofLe_lt bytes.reverse
        rw [List.length_reverse, hl] at hlt
        have hk : ofLe bytes.reverse = 2 ^ (8 * n - 1) + 2 ^ (8 * n - 2) := by
          obtain ⟨k, hk⟩ : ∃ k, k = ofLe bytes.reverse := ⟨_, rfl⟩
          rw [← hk] at g1 g2 g3 hlt ⊢
          obtain ⟨f, e, he, hf, rfl⟩ := split_flags hn hlt
          obtain ⟨_, r1, r2, r3, r4⟩ := flags_read hn he f hf
          rw [r1] at g1
          rw [r2] at g2
          rw [r3, r4] at g3
          have : f = 6 := by
            have := g3.1
            simp only [decide_eq_false_iff_not] at this
            omega
          rw [this, g3.2, hp1, hp2]
          ring
        simp only [compress]
        rw [← hk]
        have := leBytes_ofLe bytes.reverse
        rw [List.length_reverse, hl] at this
        rw [this, List.reverse_reverse]
      · exact absurd h (by simp)
    · obtain ⟨x, _, h⟩ := Option.bind_eq_some_iff.1 h
      obtain ⟨s, _, h⟩ := Option.bind_eq_some_iff.1 h
      exact absurd h (by simp)
  · rintro rfl
    obtain ⟨r0, r1, r2, r3, r4⟩ := flags_read hn (e := 0) (by positivity) 6 (by omega)
    have hk : 2 ^ (8 * n - 1) + 2 ^ (8 * n - 2) = 6 * 2 ^ (8 * n - 3) + 0 := by omega
    have hz : ofLe (compress c n (.zero : (shortCurve b).Point)).reverse = 6 * 2 ^ (8 * n - 3) + 0 := by
      rw [compress, hk, ofLe_compress r0]
    unfold decodeXY
    simp only
    rw [hz, if_neg (by rw [r1]; decide), if_pos (by rw [r2]), if_pos]
    rw [r3, r4]
    simp

theorem fromLe_reverse {bytes : Bytes} {k : Nat} (hl : bytes.length = n) (h : ofLe bytes.reverse = k) : (leBytes n k).reverse = bytes := by
  have := leBytes_ofLe bytes.reverse
  rw [List.length_reverse, hl, h] at this
  rw [this, List.reverse_reverse]

/-- What is decoded to coordinates that are not those of a point of order two. -/
theorem decodeXY_some (hc : c.Lawful n) (hn : 0 < n) {b : F} {bytes : Bytes} (hl : bytes.length = n) {x y : F} (hy : y ≠ 0) :
    decodeXY c n b bytes = some (some (x, y)) ↔
      y * y = x * x * x + b ∧ (leBytes n (2 ^ (8 * n - 1) + (if c.large y then 2 ^ (8 * n - 3) else 0) + c.enc x)).reverse = bytes := by
  obtain ⟨hp1, hp2⟩ := pow_flags hn
  constructor
  · intro h
    have hlt := ofLe_lt bytes.reverse
    rw [List.length_reverse, hl] at hlt
    obtain ⟨f, e, he, hf, hk⟩ := split_flags hn hlt
    obtain ⟨_, r1, r2, r3, r4⟩ := flags_read hn he f hf
    unfold decodeXY at h
    simp only at h
    rw [hk, r1, r2, r3, r4] at h
    split at h
    · exact absurd h (by simp)
    rename_i g1
    split at h
    · split at h <;> exact absurd h (by simp)
    rename_i g2
    obtain ⟨x', h1, h⟩ := Option.bind_eq_some_iff.1 h
    obtain ⟨s, h2, h⟩ := Option.bind_eq_some_iff.1 h
    simp only [Option.some.injEq, Prod.mk.injEq] at h
    obtain ⟨rfl, hys⟩ := h
    have hs := hc.sqrt_sound _ _ h2
    have hx := (hc.dec_iff _ _ he).1 h1
    have hs0 : s ≠ 0 := by
      rintro rfl
      rw [neg_zero, ite_self] at hys
      exact hy hys.symm
    have hyy : y * y = s * s := by
      rw [← hys]; split <;> ring
    have hlarge : c.large y = decide (f % 2 = 1) := by
      rw [← hys]
      split
      · assumption
      · rename_i hne
        rw [hc.large_neg s hs0]
        revert hne
        cases c.large s <;> cases decide (f % 2 = 1) <;> simp
    refine ⟨hyy.trans hs, fromLe_reverse hl ?_⟩
    rw [hk, hlarge, hx, hp1]
    by_cases hf1 : f % 2 = 1
    · have : f = 5 := by omega
      subst this
      simp
      ring
    · have : f = 4 := by omega
      subst this
      simp
  · rintro ⟨heq, rfl⟩
    have hk : 2 ^ (8 * n - 1) + (if c.large y then 2 ^ (8 * n - 3) else 0) + c.enc x = (if c.large y then 5 else 4) * 2 ^ (8 * n - 3) + c.enc x := by
      split <;> omega
    obtain ⟨r0, r1, r2, r3, r4⟩ := flags_read hn (hc.enc_lt x) (if c.large y then 5 else 4) (by split <;> omega)
    rw [hk]
    unfold decodeXY
    simp only
    rw [ofLe_compress r0, if_neg (by rw [r1]; split <;> decide), if_neg (by rw [r2]; split <;> decide), r3, r4]
    have hd : c.dec (c.enc x) = some x := (hc.dec_iff _ _ (hc.enc_lt x)).2 rfl
    rw [hd]
    obtain ⟨s, hs⟩ := Option.ne_none_iff_exists'.1 (hc.sqrt_complete y)
    simp only [Option.bind_eq_bind, Option.bind_some, ← heq, hs, Option.some.injEq, Prod.mk.injEq, true_and]
    have hsort : decide ((if c.large y = true then 5 else 4) % 2 = 1) = c.large y := by
      cases c.large y <;> rfl
    rw [hsort]
    rcases mul_self_eq_mul_self_iff.1 (hc.sqrt_sound _ _ hs) with rfl | rfl
    · rw [if_pos rfl]
    · rw [hc.large_neg y hy, if_neg (by simp), neg_neg]

variable [DecidableEq F]

/-- A point killed by an odd number has an ordinate other than zero. -/
theorem torsion_y {q : Nat} (hq : q % 2 = 1) {b x y : F} {h : (shortCurve b).Nonsingular x y} (ht : (.some x y h : (shortCurve b).Point) ∈ torsion q b) :
    y ≠ 0 := by
  rintro rfl
  have h2 : (.some x 0 h : (shortCurve b).Point) + .some x 0 h = 0 := Point.add_self_of_Y_eq (by simp [negY, shortCurve])
  have h3 : q • (.some x 0 h : (shortCurve b).Point) = 0 := ht
  obtain ⟨m, rfl⟩ : ∃ m, q = m * 2 + 1 := ⟨q / 2, by omega⟩
  rw [succ_nsmul, mul_nsmul', two_nsmul, h2, nsmul_zero, zero_add] at h3
  exact Point.some_ne_zero h h3

omit [DecidableEq F] in
theorem equation_short {b x y : F} (h : (shortCurve b).Nonsingular x y) : y * y = x * x * x + b := by
  have := (equation_iff _ _).1 h.1
  simp only [shortCurve] at this
  linear_combination this

/-- A point is decoded exactly from its own encoding. -/
theorem decompress_iff (hc : c.Lawful n) (hn : 0 < n) {q : Nat} (hq : q % 2 = 1) {b : F} {bytes : Bytes} (hl : bytes.length = n) (P : torsion q b) :
    decompress c n q b bytes = some P ↔ compress c n P.1 = bytes := by
  obtain ⟨P, hP⟩ := P
  constructor
  · intro h
    unfold decompress at h
    split at h
    · exact absurd h (by simp)
    · rename_i e
      have h0 := (decodeXY_zero hn hl).1 e
      have hP0 : (0 : torsion q b).1 = P := congrArg Subtype.val (Option.some.inj h)
      rw [← h0]
      subst hP0
      rfl
    · rename_i x y e
      split at h
      · rename_i hex
        have hPe : (.some x y hex.choose : (shortCurve b).Point) = P := congrArg Subtype.val (Option.some.inj h)
        subst hPe
        exact ((decodeXY_some hc hn hl (torsion_y hq hP)).1 e).2
      · exact absurd h (by simp)
  · intro h
    rcases P with _ | ⟨x, y, hns⟩
    · have := (decodeXY_zero hn hl).2 h
      unfold decompress
      rw [this]
      rfl
    · have := (decodeXY_some hc hn hl (torsion_y hq hP)).2 ⟨equation_short hns, h⟩
      unfold decompress
      rw [this]
      simp only
      rw [dif_pos ⟨hns, hP⟩]

end Codec

end Abe
