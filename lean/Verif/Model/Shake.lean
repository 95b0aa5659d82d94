import Verif.Model.AesGcm

/-!
# SHAKE256

The function with which symmetric keys are derived (`sha3::Shake256`, /repo/src/core/engine.rs:1-4, 127-132 and 149-154; /repo/Cargo.toml:42).  Its source is not in the repository:
it is written here from FIPS 202, as implementations do, on 25 lanes of 64 bits, with the table of rotations and of round constants.  Lanes are numbers below 2^64; the lane of the
coordinates `x` and `y` has the index `x + 5 * y`.
-/

namespace Abe

namespace Keccak

/-- Rotation of a lane, FIPS 202, section 3.2.2.  External (crate `sha3`), used at /repo/src/core/engine.rs:128 and 150. -/
def rotl (n r : Nat) : Nat := ((n <<< r) % 2 ^ 64) ||| (n >>> (64 - r))

/-- The rotations of the lanes, FIPS 202, table 2 (modulo 64).  External (crate `sha3`), used at /repo/src/core/engine.rs:128 and 150. -/
def rotations : List Nat := [0, 1, 62, 28, 27, 36, 44, 6, 55, 20, 3, 10, 43, 25, 39, 41, 45, 15, 21, 8, 18, 2, 61, 56, 14]

/-- The round constants, FIPS 202, section 3.2.5.  External (crate `sha3`), used at /repo/src/core/engine.rs:128 and 150. -/
def roundConstants : List Nat :=
  [0x0000000000000001, 0x0000000000008082, 0x800000000000808a, 0x8000000080008000, 0x000000000000808b, 0x0000000080000001, 0x8000000080008081, 0x8000000000008009,
    0x000000000000008a, 0x0000000000000088, 0x0000000080008009, 0x000000008000000a, 0x000000008000808b, 0x800000000000008b, 0x8000000000008089, 0x8000000000008003,
    0x8000000000008002, 0x8000000000000080, 0x000000000000800a, 0x800000008000000a, 0x8000000080008081, 0x8000000000008080, 0x0000000080000001, 0x8000000080008008]

/-- The parities of the columns, FIPS 202, section 3.2.1.  External (crate `sha3`), used at /repo/src/core/engine.rs:128 and 150. -/
def parities (a : List Nat) : List Nat :=
  (List.range 5).map fun x => a.getD x 0 ^^^ a.getD (x + 5) 0 ^^^ a.getD (x + 10) 0 ^^^ a.getD (x + 15) 0 ^^^ a.getD (x + 20) 0

/-- What is added to the lanes of a column, FIPS 202, section 3.2.1.  External (crate `sha3`), used at /repo/src/core/engine.rs:128 and 150. -/
def effects (c : List Nat) : List Nat := (List.range 5).map fun x => c.getD ((x + 4) % 5) 0 ^^^ rotl (c.getD ((x + 1) % 5) 0) 1

/-- θ, FIPS 202, section 3.2.1.  External (crate `sha3`), used at /repo/src/core/engine.rs:128 and 150. -/
def theta (a : List Nat) : List Nat :=
  let d := effects (parities a)
  (List.range 25).map fun i => a.getD i 0 ^^^ d.getD (i % 5) 0

/-- ρ and π, FIPS 202, sections 3.2.2 and 3.2.3.  External (crate `sha3`), used at /repo/src/core/engine.rs:128 and 150. -/
def rhoPi (a : List Nat) : List Nat :=
  (List.range 25).map fun i =>
    let j := (i % 5 + 3 * (i / 5)) % 5 + 5 * (i % 5)
    rotl (a.getD j 0) (rotations.getD j 0)

/-- χ, FIPS 202, section 3.2.4.  External (crate `sha3`), used at /repo/src/core/engine.rs:128 and 150. -/
def chi (a : List Nat) : List Nat :=
  (List.range 25).map fun i =>
    a.getD i 0 ^^^ ((a.getD ((i % 5 + 1) % 5 + 5 * (i / 5)) 0 ^^^ (2 ^ 64 - 1)) &&& a.getD ((i % 5 + 2) % 5 + 5 * (i / 5)) 0)

/-- ι, FIPS 202, section 3.2.5.  External (crate `sha3`), used at /repo/src/core/engine.rs:128 and 150. -/
def iota (r : Nat) (a : List Nat) : List Nat := a.set 0 (a.getD 0 0 ^^^ r)

/-- KECCAK-p[1600, 24], FIPS 202, section 3.3.  External (crate `sha3`), used at /repo/src/core/engine.rs:128 and 150. -/
def permute (a : List Nat) : List Nat := roundConstants.foldl (fun a r => iota r (chi (rhoPi (theta a)))) a

/-- The number of bytes of a block of SHAKE256, FIPS 202, section 6.2.  External (crate `sha3`), used at /repo/src/core/engine.rs:128 and 150. -/
def rate : Nat := 136

/-- Eight bytes as a lane, the first byte being the least, FIPS 202, section B.1.  External (crate `sha3`), used at /repo/src/core/engine.rs:128 and 150. -/
def lane : Bytes → Nat
  | [] => 0
  | x :: b => x.toNat + 256 * lane b

/-- The bytes of a lane.  External (crate `sha3`), used at /repo/src/core/engine.rs:128 and 150. -/
def laneBytes (n : Nat) : Bytes := (List.range 8).map fun i => (n >>> (8 * i)).toUInt8

/-- The padding of SHAKE: `1111` and then `10*1`, FIPS 202, sections 5.1, 6.2 and B.2.  External (crate `sha3`), used at /repo/src/core/engine.rs:128 and 150. -/
def pad (b : Bytes) : Bytes :=
  if b.length % rate = rate - 1 then b ++ [0x9f] else b ++ 0x1f :: (List.replicate (rate - 2 - b.length % rate) 0 ++ [0x80])

/-- A block is added to the first lanes.  External (crate `sha3`), used at /repo/src/core/engine.rs:128 and 150. -/
def addBlock (a : List Nat) (block : Bytes) : List Nat := (List.range 25).map fun i => a.getD i 0 ^^^ lane ((block.drop (8 * i)).take 8)

/-- Absorption of `n` blocks, FIPS 202, section 4.  External (crate `sha3`), used at /repo/src/core/engine.rs:128 and 150. -/
def absorb : Nat → List Nat → Bytes → List Nat
  | 0, a, _ => a
  | n + 1, a, b => absorb n (permute (addBlock a (b.take rate))) (b.drop rate)

/-- `n` blocks of output, FIPS 202, section 4.  External (crate `sha3`), used at /repo/src/core/engine.rs:128 and 150. -/
def squeeze : Nat → List Nat → Bytes
  | 0, _ => []
  | n + 1, a => (a.flatMap laneBytes).take rate ++ squeeze n (permute a)

end Keccak

/-- `Shake256::default().chain(b).finalize_xof().read_boxed(n)`, /repo/src/core/engine.rs:128-132 and 150-154; FIPS 202, section 6.2.  External (crate `sha3`). -/
def shake256 (b : Bytes) (n : Nat) : Bytes :=
  (Keccak.squeeze (n / Keccak.rate + 1) (Keccak.absorb ((Keccak.pad b).length / Keccak.rate) (List.replicate 25 0) (Keccak.pad b))).take n

end Abe
