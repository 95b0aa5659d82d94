import Verif.Model.Codec
import Mathlib.Algebra.QuadraticAlgebra.Basic
import Mathlib.AlgebraicGeometry.EllipticCurve.Affine.Point

/-!
# Points of the curve and their compressed encodings

The groups of /repo/README.md:184-192 and the functions `to_compressed` and `from_compressed` of `G1Affine` and `G2Affine`, which
/repo/src/core/bilinear_map/bls12_381.rs:123-179 calls.  The crate `cosmian_bls12_381` is not part of the repository: the functions are those of the
published format of BLS12-381 points (big-endian abscissa, three flag bits in the first byte).
-/

namespace Abe

/-- The modulus of the coordinates, /repo/README.md:187-188. -/
def blsField : Nat := 0x1a0111ea397fe69a4b1ba7b6434bacd764774b84f38512bf6730d2a0f6b0f6241eabfffeb153ffffb9feffffffffaaab

/-- The curve `y² = x³ + b`, /repo/README.md:192. -/
def shortCurve {F : Type} [CommRing F] (b : F) : WeierstrassCurve.Affine F := { a₁ := 0, a₂ := 0, a₃ := 0, a₄ := 0, a₆ := b }

/-- The field `GF(p²)` of the coordinates of G2, /repo/README.md:192: `u² = -1`. -/
abbrev Fp2 (p : Nat) := QuadraticAlgebra (ZMod p) (-1) 0

/-- The constant of the curve of G2, /repo/README.md:192: `4(u + 1)`. -/
def twist (p : Nat) : Fp2 p := ⟨4, 4⟩

/-- Exponentiation by squaring, with fuel: `pow_vartime` of the external crate, in the square roots needed at
/repo/src/core/bilinear_map/bls12_381.rs:137 and 166. -/
def fastPow {F : Type} [Mul F] : Nat → F → Nat → F → F
  | 0, _, _, acc => acc
  | f + 1, b, e, acc => fastPow f (b * b) (e / 2) (if e % 2 = 1 then acc * b else acc)

/-- What the encoding of points needs of the coordinates (external crate, used at /repo/src/core/bilinear_map/bls12_381.rs:125, 137, 154 and 166): their
encoding as numbers, the order of opposite ones, square roots. -/
structure Coordinates (F : Type) where
  enc : F → Nat
  dec : Nat → Option F
  large : F → Bool
  sqrt : F → Option F

/-- Coordinates of G1 (external `Fp`, used at /repo/src/core/bilinear_map/bls12_381.rs:125 and 137): numbers below `p`; the larger of two opposite ones
exceeds `(p - 1) / 2`; the candidate for the root is the power with exponent `(p + 1) / 4`. -/
def fpCoordinates (p : Nat) : Coordinates (ZMod p) where
  enc x := x.val
  dec k := if k < p then some (k : ZMod p) else none
  large y := decide ((p - 1) / 2 < y.val)
  sqrt a :=
    let s := fastPow 384 a ((p + 1) / 4) 1
    if s * s = a then some s else none

/-- Coordinates of G2 (external `Fp2`, used at /repo/src/core/bilinear_map/bls12_381.rs:154 and 166): the coefficient of `u` comes first, in 48 bytes; the
coefficient of `u` decides which of two opposite ones is larger, unless it is zero; square roots by algorithm 9 of eprint 2012/685. -/
def fp2Coordinates (p : Nat) : Coordinates (Fp2 p) where
  enc x := x.im.val * 2 ^ 384 + x.re.val
  dec k := if k / 2 ^ 384 < p ∧ k % 2 ^ 384 < p then some ⟨((k % 2 ^ 384 : Nat) : ZMod p), ((k / 2 ^ 384 : Nat) : ZMod p)⟩ else none
  large y := decide ((p - 1) / 2 < y.im.val) || (decide (y.im = 0) && decide ((p - 1) / 2 < y.re.val))
  sqrt a :=
    let a1 := fastPow 384 a ((p - 3) / 4) 1
    let alpha := a1 * a1 * a
    let x0 := a1 * a
    let s := if alpha = -1 then (⟨0, 1⟩ : Fp2 p) * x0 else fastPow 384 (alpha + 1) ((p - 1) / 2) 1 * x0
    if s * s = a then some s else none

section

variable {F : Type}

/-- `to_compressed` (external, used at /repo/src/core/bilinear_map/bls12_381.rs:125 and 154): `n` big-endian bytes; the first bit is set, the second says
that the point is zero, the third that the ordinate is the larger of the two. -/
def compress [CommRing F] (c : Coordinates F) (n : Nat) {b : F} : (shortCurve b).Point → Bytes
  | .zero => (leBytes n (2 ^ (8 * n - 1) + 2 ^ (8 * n - 2))).reverse
  | .some x y _ => (leBytes n (2 ^ (8 * n - 1) + (if c.large y then 2 ^ (8 * n - 3) else 0) + c.enc x)).reverse

/-- The coordinates that `from_compressed_unchecked` finds (external, used at /repo/src/core/bilinear_map/bls12_381.rs:137 and 166); `some none` is the
zero point. -/
def decodeXY [Field F] (c : Coordinates F) (n : Nat) (b : F) (bytes : Bytes) : Option (Option (F × F)) :=
  let k := ofLe bytes.reverse
  let sort : Bool := k / 2 ^ (8 * n - 3) % 2 = 1
  if k / 2 ^ (8 * n - 1) % 2 = 0 then none
  else if k / 2 ^ (8 * n - 2) % 2 = 1 then
    if sort = false ∧ k % 2 ^ (8 * n - 3) = 0 then some none else none
  else do
    let x ← c.dec (k % 2 ^ (8 * n - 3))
    let s ← c.sqrt (x * x * x + b)
    some (some (x, if c.large s = sort then s else -s))

/-- The subgroup of points killed by `q`, /repo/README.md:192. -/
def torsion [Field F] [DecidableEq F] (q : Nat) (b : F) : AddSubgroup (shortCurve b).Point := (nsmulAddMonoidHom q).ker

open Classical in
/-- `from_compressed` (external, used at /repo/src/core/bilinear_map/bls12_381.rs:137 and 166): the point must be in the subgroup of order `q`. -/
noncomputable def decompress [Field F] [DecidableEq F] (c : Coordinates F) (n q : Nat) (b : F) (bytes : Bytes) : Option (torsion q b) :=
  match decodeXY c n b bytes with
  | none => none
  | some none => some 0
  | some (some (x, y)) =>
    if h : ∃ h : (shortCurve b).Nonsingular x y, (.some x y h : (shortCurve b).Point) ∈ torsion q b then some ⟨.some x y h.choose, h.choose_spec⟩ else none

end

end Abe
