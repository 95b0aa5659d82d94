import Verif.Spec.AesGcm
import Mathlib.RingTheory.AdjoinRoot
import Mathlib.Data.ZMod.Basic

/-!
# The field of GCM

SP 800-38D, section 6.3: blocks of 128 bits stand for the polynomials over the field of two elements modulo X^128 + X^7 + X^2 + X + 1, the first bit of a block
being the coefficient of 1.
-/

namespace Abe.Gcm

open Polynomial

/-- The modulus of SP 800-38D, section 6.3. -/
@[irreducible] noncomputable def modulus : (ZMod 2)[X] := X ^ 128 + X ^ 7 + X ^ 2 + X + 1

/-- The polynomials modulo the modulus. -/
abbrev Field128 := AdjoinRoot modulus

/-- The polynomial of a block, the first bit being the coefficient of 1. -/
noncomputable def poly (n : Nat) : (ZMod 2)[X] := ∑ i ∈ Finset.range 128, if n.testBit (127 - i) then X ^ i else 0

/-- The element a block stands for. -/
noncomputable def elem (n : Nat) : Field128 := AdjoinRoot.mk modulus (poly n)

end Abe.Gcm
