import Verif.Model.Res
import Mathlib.Logic.Function.Iterate

/-!
# Specification of SHAKE256

FIPS 202, word for word, on strings of bits: no lanes, no tables.
-/

namespace Abe.Fips202

/-- A state array of 5 × 5 × 64 bits, section 3.1. -/
abbrev Array3 := Nat → Nat → Nat → Bool

/-- Section 3.2.1. -/
def theta (A : Array3) : Array3 :=
  let C := fun x z => A x 0 z ^^ A x 1 z ^^ A x 2 z ^^ A x 3 z ^^ A x 4 z
  let D := fun x z => C ((x + 4) % 5) z ^^ C ((x + 1) % 5) ((z + 63) % 64)
  fun x y z => A x y z ^^ D x z

/-- The position after `t` steps of the walk of section 3.2.2. -/
def walk : Nat → Nat × Nat
  | 0 => (1, 0)
  | t + 1 => ((walk t).2, (2 * (walk t).1 + 3 * (walk t).2) % 5)

/-- The offset of a lane, section 3.2.2: `(t + 1) (t + 2) / 2` for the lane reached at the step `t` of the walk, which reaches every lane but that of the origin. -/
def offset (x y : Nat) : Nat := (((List.range 24).find? fun t => walk t = (x, y)).map fun t => (t + 1) * (t + 2) / 2).getD 0

/-- Section 3.2.2 (the offsets are at most 300). -/
def rho (A : Array3) : Array3 := fun x y z => A x y ((z + 320 - offset x y) % 64)

/-- Section 3.2.3. -/
def pi (A : Array3) : Array3 := fun x y z => A ((x + 3 * y) % 5) x z

/-- Section 3.2.4. -/
def chi (A : Array3) : Array3 := fun x y z => A x y z ^^ ((A ((x + 1) % 5) y z ^^ true) && A ((x + 2) % 5) y z)

/-- One step of the register of algorithm 5, section 3.2.5. -/
def shiftRegister (R : List Bool) : List Bool :=
  let R := false :: R
  let r8 := R.getD 8 false
  (List.range 8).map fun i => R.getD i false ^^ (r8 && (i = 0 || i = 4 || i = 5 || i = 6))

/-- Algorithm 5, section 3.2.5. -/
def rc (t : Nat) : Bool := (shiftRegister^[t % 255] [true, false, false, false, false, false, false, false]).getD 0 false

/-- The round constant: bit `2 ^ j - 1` is `rc (j + 7 i)`, section 3.2.5. -/
def RC (i z : Nat) : Bool := (List.range 7).any fun j => z = 2 ^ j - 1 && rc (j + 7 * i)

/-- Section 3.2.5. -/
def iota (i : Nat) (A : Array3) : Array3 := fun x y z => if x = 0 ∧ y = 0 then A x y z ^^ RC i z else A x y z

/-- A string of 1600 bits as a state array, section 3.1.2. -/
def array (S : Nat → Bool) : Array3 := fun x y z => S (64 * (5 * y + x) + z)

/-- A state array as a string of bits, section 3.1.3. -/
def string (A : Array3) : Nat → Bool := fun i => A (i / 64 % 5) (i / 320) (i % 64)

/-- KECCAK-p[1600, 24], section 3.3. -/
def permute (S : Nat → Bool) : Nat → Bool :=
  string ((List.range 24).foldl (fun A i => iota i (chi (pi (rho (theta A))))) (array S))

/-- The padding `10*1` of a string of `m` bits to blocks of `x` bits, section 5.1. -/
def pad (x m : Nat) : List Bool := true :: (List.replicate ((x - (m + 2) % x) % x) false ++ [true])

/-- The state after the blocks of `r` bits of `P`, section 4. -/
def absorb (r : Nat) (P : List Bool) : Nat → Bool :=
  (List.range (P.length / r)).foldl (fun S i => permute fun k => S k ^^ (k < r && P.getD (r * i + k) false)) fun _ => false

/-- SPONGE[KECCAK-p[1600, 24], pad10*1, r] (N, d), section 4. -/
def sponge (r : Nat) (N : List Bool) (d : Nat) : List Bool :=
  (List.range d).map fun k => (permute^[k / r] (absorb r (N ++ pad r N.length))) (k % r)

/-- SHAKE256, section 6.2: the capacity is 512 bits. -/
def shake256 (M : List Bool) (d : Nat) : List Bool := sponge (1600 - 512) (M ++ [true, true, true, true]) d

/-- The bits of a byte string, section B.1: the first bit of a byte is the least one. -/
def bits (b : Bytes) : List Bool := b.flatMap fun x => (List.range 8).map fun i => x.toNat.testBit i

end Abe.Fips202
