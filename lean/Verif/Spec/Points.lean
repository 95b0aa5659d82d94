import Verif.Model.Points

/-!
# What the encoding of points needs of the coordinates
-/

namespace Abe

/-- The numbers of the coordinates leave three bits of `n` bytes free and are decoded exactly; exactly one of two different opposite coordinates is the
larger; square roots are found. -/
structure Coordinates.Lawful {F : Type} [Field F] (c : Coordinates F) (n : Nat) : Prop where
  enc_lt : ∀ x, c.enc x < 2 ^ (8 * n - 3)
  dec_iff : ∀ k x, k < 2 ^ (8 * n - 3) → (c.dec k = some x ↔ c.enc x = k)
  large_neg : ∀ y, y ≠ 0 → c.large (-y) = !c.large y
  sqrt_sound : ∀ a s, c.sqrt a = some s → s * s = a
  sqrt_complete : ∀ y, c.sqrt (y * y) ≠ none

/-- The number that the encoding of a point of G1 denotes: the abscissa, a bit for the larger ordinate, a bit for zero, and a bit that is always set. -/
def g1Number {p : Nat} {b : ZMod p} : (shortCurve b).Point → Nat
  | .zero => 2 ^ 383 + 2 ^ 382
  | .some x y _ => 2 ^ 383 + (if (-y).val < y.val then 2 ^ 381 else 0) + x.val

/-- The number that the encoding of a point of G2 denotes; the coefficients of `u` come first, also in the comparison of the ordinates. -/
def g2Number {p : Nat} {b : Fp2 p} : (shortCurve b).Point → Nat
  | .zero => 2 ^ 767 + 2 ^ 766
  | .some x y _ => 2 ^ 767 +
      (if (-y.im).val < y.im.val ∨ ((-y.im).val = y.im.val ∧ (-y.re).val < y.re.val) then 2 ^ 765 else 0) + (x.im.val * 2 ^ 384 + x.re.val)

end Abe
