import Verif.Model.Res
import Mathlib.Algebra.Module.LinearMap.Basic
import Mathlib.Algebra.Field.Basic
import Mathlib.LinearAlgebra.BilinearMap
import Mathlib.Algebra.BigOperators.Group.List.Basic

/-!
# The bilinear map

Model of /repo/src/core/bilinear_map/mod.rs (trait) and /repo/src/core/bilinear_map/bls12_381.rs (implementation).
Scalars are elements of a field `K`; the operators `+ - *` and unary `-` of the Rust scalar are the field operations
(bls12_381.rs:34-74).
-/

namespace Abe

/-- `impl Div for Scalar`, /repo/src/core/bilinear_map/bls12_381.rs:58-66: `rhs.invert().unwrap()` panics on zero. -/
def sdiv {K : Type} [Field K] [DecidableEq K] (a b : K) : Out K :=
  if b = 0 then .panic else .ok (a * b⁻¹)

/-- The operations required from `trait BilinearMap`, /repo/src/core/bilinear_map/mod.rs:16-91.
Random generation is not an operation here: random values are arguments of the modelled functions. -/
structure BilinearMap (K G1 G2 G3 Gt : Type) where
  /-- `Scalar: From<i32>` -/
  fromI32 : Int → K
  g1GenExp : K → G1 × G3
  g3GenExp : K → G3
  g3Mul : G3 → G3 → G1 × G3
  g3Exp : G3 → K → G3
  g2GenExp : K → G2
  g2Exp : G2 → K → G2
  gtGenExp : K → Gt
  gtExp : Gt → K → Gt
  gtMul : Gt → Gt → Gt
  gtDiv : Gt → Gt → Gt
  prodGtExp : List G1 → List G2 → List K → Gt
  g3ToG1 : G3 → G1

namespace BilinearMap

variable {K G1 G2 G3 Gt : Type} (bm : BilinearMap K G1 G2 G3 Gt)

/-- `g3_gen_exp_vector`, /repo/src/core/bilinear_map/mod.rs:107-109. -/
def g3GenExpVector (v : List K) : List G3 := v.map bm.g3GenExp

/-- `g2_gen_exp_vector`, /repo/src/core/bilinear_map/mod.rs:111-113. -/
def g2GenExpVector (v : List K) : List G2 := v.map bm.g2GenExp

end BilinearMap

/-- `gen_random_scalar_vector(size)`, /repo/src/core/bilinear_map/mod.rs:100-105: the first `size` draws of the stream `rnd`.
The stream is arbitrary; theorems quantify over all streams. -/
def genScalars {K : Type} (rnd : Nat → K) (size : Nat) : List K := (List.range size).map rnd

/-- The external crate `cosmian_bls12_381` as used by `bls12_381.rs`: groups `P` = `G1Affine`, `Q` = `G2Affine`,
`QP` = `G2Prepared`, `T` = `Gt` (additive notation), generators, preparation and the multi-pairing.
The laws are the assumed behaviour of that crate. -/
structure Curve (K P Q QP T : Type) [Field K] [AddCommGroup P] [Module K P] [AddCommGroup Q] [Module K Q]
    [AddCommGroup T] [Module K T] where
  genP : P
  genQ : Q
  genT : T
  /-- `G2Prepared::from` -/
  prepare : Q → QP
  /-- `multi_miller_loop(terms).final_exponentiation()` -/
  multiPairing : List (P × QP) → T
  /-- the pairing -/
  pair : P →ₗ[K] Q →ₗ[K] T
  multiPairing_prepare : ∀ l : List (P × Q),
    multiPairing (l.map fun pq => (pq.1, prepare pq.2)) = (l.map fun pq => pair pq.1 pq.2).sum
  genT_eq : genT = pair genP genQ
  /-- the target generator has the order of the scalar field -/
  genT_ne_zero : genT ≠ 0

/-- `impl From<i32> for Scalar`, /repo/src/core/bilinear_map/bls12_381.rs:76-85. -/
def scalarFromI32 {K : Type} [Field K] (n : Int) : K :=
  let scalar : K := (n.natAbs : K)
  if n < 0 then -scalar else scalar

/-- `impl BilinearMap for Bls12_381`, /repo/src/core/bilinear_map/bls12_381.rs:224-331.
Note that Rust `G1` is `G2Prepared`, `G2` is `G1Affine` and `G3` is `G2Affine`.  Conversions between affine and
projective coordinates are not represented. -/
def bls {K P Q QP T : Type} [Field K] [AddCommGroup P] [Module K P] [AddCommGroup Q] [Module K Q]
    [AddCommGroup T] [Module K T] (c : Curve K P Q QP T) : BilinearMap K QP P Q T where
  fromI32 := scalarFromI32
  g1GenExp x := let res := x • c.genQ; (c.prepare res, res)
  g3GenExp x := x • c.genQ
  g3Mul a b := let res := a + b; (c.prepare res, res)
  g3Exp a x := x • a
  g2GenExp x := x • c.genP
  g2Exp a x := x • a
  gtGenExp x := x • c.genT
  gtExp a x := x • a
  gtMul a b := a + b
  gtDiv a b := a - b
  prodGtExp d e a :=
    let eiai := (e.zip a).map fun p => p.2 • p.1
    let terms := eiai.zip d
    c.multiPairing terms
  g3ToG1 x := c.prepare x

end Abe
