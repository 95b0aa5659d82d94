import Verif.Proofs.Codec
import Mathlib.Data.Fintype.EquivFin
import Mathlib.Data.ZMod.Basic
import Mathlib.Probability.Distributions.Uniform

/-!
# Random scalars

`gen_random_scalar` asks the crate of the curve for a scalar made from random bytes (/repo/src/core/bilinear_map/bls12_381.rs:238-243).  The crate is not in /repo:
what is modelled is its published procedure, 64 bytes from the generator read as a number with the low byte first and reduced by the order.  The generator
(`Hc128Rng::from_entropy`, /repo/src/core/bilinear_map/mod.rs:95-98) is taken to give uniform bytes.
-/

namespace Abe

/-- Arrays of `k` bytes, such as the buffer filled by the generator, /repo/src/core/bilinear_map/bls12_381.rs:242. -/
def ByteArrayOf (k : Nat) : Type := {b : Bytes // b.length = k}

/-- Arrays of bytes are the numbers below a power of 256, low byte first, /repo/src/core/bilinear_map/bls12_381.rs:242 (external). -/
def ByteArrayOf.equiv (k : Nat) : ByteArrayOf k ≃ Fin (256 ^ k) where
  toFun b := ⟨ofLe b.1, by have := ofLe_lt b.1; rwa [b.2] at this⟩
  invFun n := ⟨leBytes k n, leBytes_length k n⟩
  left_inv b := Subtype.ext (by
    have := leBytes_ofLe b.1
    rwa [b.2] at this)
  right_inv n := Fin.ext (ofLe_leBytes n.2)

/-- There are finitely many arrays of `k` bytes, so that one can be drawn, /repo/src/core/bilinear_map/bls12_381.rs:242. -/
instance (k : Nat) : Fintype (ByteArrayOf k) := Fintype.ofEquiv _ (ByteArrayOf.equiv k).symm

/-- There is one, for the draw, /repo/src/core/bilinear_map/bls12_381.rs:242. -/
instance (k : Nat) : Nonempty (ByteArrayOf k) := ⟨⟨List.replicate k 0, List.length_replicate⟩⟩

/-- Reduction of a number of `k` bytes by the order (`from_bytes_wide` of the crate, with `k = 64`), /repo/src/core/bilinear_map/bls12_381.rs:242. -/
def fromBytesWide (q : Nat) {k : Nat} (b : ByteArrayOf k) : ZMod q := (ofLe b.1 : Nat)

/-- `gen_rand_scalar_inner`, /repo/src/core/bilinear_map/bls12_381.rs:238-243, with a generator of uniform bytes. -/
noncomputable def genRandScalar (q k : Nat) : PMF (ZMod q) := (PMF.uniformOfFintype (ByteArrayOf k)).map (fromBytesWide q)

/-- `gen_random_scalar_vector`: independent scalars from one source, /repo/src/core/bilinear_map/mod.rs:100-105. -/
noncomputable def genRandomScalarVector {K : Type} (D : PMF K) : (n : Nat) → PMF (Fin n → K)
  | 0 => .pure Fin.elim0
  | n + 1 => D.bind fun x => (genRandomScalarVector D n).map fun r => Fin.cons (α := fun _ => K) x r

end Abe
