import Verif.Model.Hybrid

/-!
# What is expected of AES-256-GCM

The substitution table described by arithmetic in the field of 256 elements (FIPS 197, section 5.1.1), and what it means that a symmetric scheme accepts nothing
but its own ciphertexts.
-/

namespace Abe

/-- The product of two polynomials over the field of two elements, coefficients being bits; the second has degree below `n`. -/
def polyMul (a b : Nat) : Nat → Nat
  | 0 => 0
  | n + 1 => polyMul a b n ^^^ (if b.testBit n then a <<< n else 0)

/-- The remainder modulo X^8 + X^4 + X^3 + X + 1 of a polynomial of degree below `8 + n`. -/
def polyMod8 (a : Nat) : Nat → Nat
  | 0 => a
  | n + 1 => polyMod8 (if a.testBit (8 + n) then a ^^^ (0x11b <<< n) else a) n

/-- Multiplication in the field of 256 elements. -/
def gf256Mul (a b : Nat) : Nat := polyMod8 (polyMul a b 8) 7

/-- The affine map of FIPS 197, section 5.1.1: bit `i` of the result is the sum of the bits `i`, `i + 4`, `i + 5`, `i + 6`, `i + 7` (modulo 8) and of bit `i` of 0x63. -/
def Affine (b c : Nat) : Prop :=
  c < 256 ∧ ∀ i < 8, c.testBit i =
    (b.testBit i ^^ b.testBit ((i + 4) % 8) ^^ b.testBit ((i + 5) % 8) ^^ b.testBit ((i + 6) % 8) ^^ b.testBit ((i + 7) % 8) ^^ (0x63).testBit i)

/-- Decryption accepts exactly what encryption produces with the same key, nonce and additional data, and likewise for blocks of some nonce. -/
structure External.Exact {Key Nonce : Type} (e : External Key Nonce) : Prop where
  message : ∀ k c n a m, e.decrypt k c n a = .ok m ↔ e.encrypt k m n a = .ok c
  block : ∀ max k uid i c p, e.blockDec max k uid i c = .ok p ↔ ∃ n, e.blockEnc max k uid i p n = .ok c

end Abe
