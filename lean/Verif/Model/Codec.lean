import Verif.Model.Scheme
import Mathlib.Data.ZMod.Basic

/-!
# Byte encodings

Model of `trait AsBytes` and its implementations: /repo/src/core/gpsw/mod.rs:8-109, /repo/src/core/msp.rs:26-107,
/repo/src/core/gpsw/scheme.rs:101-232 and /repo/src/core/bilinear_map/bls12_381.rs:93-216.
`usize` arithmetic on values read from the input is done with the operations of a `Target`.
-/

namespace Abe

/-- `trait AsBytes`, /repo/src/core/gpsw/mod.rs:8-12.  `len_bytes` is applied to values held in memory, whose encoding is not
longer than their representation, so its arithmetic is not checked for overflow here. -/
structure Codec (α : Type) where
  /-- `try_into_bytes` -/
  enc : α → Out Bytes
  /-- `try_from_bytes` -/
  dec : Bytes → Out α
  /-- `len_bytes` -/
  len : α → Nat

/-- `u32::to_be_bytes`.  Used at /repo/src/core/gpsw/mod.rs:16, 36 and 55, /repo/src/core/msp.rs:31-34 and /repo/src/interfaces/hybrid_crypto/statics.rs:28. -/
def be32 (n : UInt32) : Bytes :=
  [(n.toNat / 2 ^ 24).toUInt8, (n.toNat / 2 ^ 16).toUInt8, (n.toNat / 2 ^ 8).toUInt8, n.toNat.toUInt8]

/-- `u32::from_be_bytes` on the first four bytes.
Used at /repo/src/core/gpsw/mod.rs:26, 40 and 76, /repo/src/core/msp.rs:52-65 and /repo/src/interfaces/hybrid_crypto/statics.rs:40. -/
def ofBe32 : Bytes → UInt32
  | b0 :: b1 :: b2 :: b3 :: _ => (((b0.toNat * 256 + b1.toNat) * 256 + b2.toNat) * 256 + b3.toNat).toUInt32
  | _ => 0

/-- `u32::try_from(n)` for `n: usize`.
Used at /repo/src/core/gpsw/mod.rs:55, /repo/src/core/msp.rs:31-32 and /repo/src/interfaces/hybrid_crypto/statics.rs:291. -/
def u32TryFrom (n : Nat) : Out UInt32 :=
  if n < 2 ^ 32 then .ok n.toUInt32 else .err .tryFromIntError

/-- `impl AsBytes for u32`, /repo/src/core/gpsw/mod.rs:14-32. -/
def u32Codec : Codec UInt32 where
  enc n := .ok (be32 n)
  dec bytes :=
    if bytes.length < 4 then .err (.deserialization "cannot deserialize u32 element since input bytes size is less than 4 bytes")
    else do
      let b ← slice bytes 0 4
      .ok (ofBe32 b)
  len _ := 4

/-- `impl AsBytes for i32`, /repo/src/core/gpsw/mod.rs:34-46: no length check, the slice panics. -/
def i32Codec : Codec Int32 where
  enc n := .ok (be32 n.toUInt32)
  dec bytes := do
    let b ← slice bytes 0 4
    .ok (ofBe32 b).toInt32
  len _ := 4

/-- Little-endian bytes of `n`, on `k` bytes.
The encoding of scalars in crate `cosmian_bls12_381` (external), used at /repo/src/core/bilinear_map/bls12_381.rs:95 and 108. -/
def leBytes : Nat → Nat → Bytes
  | 0, _ => []
  | k + 1, n => n.toUInt8 :: leBytes k (n / 256)

/-- Number denoted by little-endian bytes.
The encoding of scalars in crate `cosmian_bls12_381` (external), used at /repo/src/core/bilinear_map/bls12_381.rs:95 and 108. -/
def ofLe : Bytes → Nat
  | [] => 0
  | b :: bs => b.toNat + 256 * ofLe bs

/-- The order of the BLS12-381 groups, modulus of `cosmian_bls12_381::Scalar` (external constant). -/
def blsOrder : Nat := 0x73eda753299d7d483339d80809a1d80553bda402fffe5bfeffffffff00000001

/-- `cosmian_bls12_381::Scalar::from_bytes` (external): 32 little-endian bytes of a number below the modulus `q`. -/
def scalarFromBytes (q : Nat) (bytes : Bytes) : Option (ZMod q) :=
  if ofLe bytes < q then some (ofLe bytes : ZMod q) else none

/-- `impl AsBytes for Scalar`, /repo/src/core/bilinear_map/bls12_381.rs:93-121; `to_bytes` is the inverse of
`scalarFromBytes`. -/
def scalarCodec (q : Nat) : Codec (ZMod q) where
  enc x := .ok (leBytes 32 x.val)
  dec bytes :=
    if bytes.length < 32 then
      .err (.invalidSize ("Invalid scalar element (size " ++ toString bytes.length ++
        ", expected size at least: 32 bytes long), unable to deserialize this scalar element."))
    else do
      let b ← slice bytes 0 32
      match scalarFromBytes q b with
      | some x => .ok x
      | none => .err (.deserialization "Failed deserializing scalar")
  len _ := 32

/-- `impl AsBytes for G1Affine | G2Affine | Gt`, /repo/src/core/bilinear_map/bls12_381.rs:123-150, 152-179, 181-216:
fixed size `n` (48, 96, 288); `toC` and `ofC` are the external `to_compressed` and `from_compressed`; `name` (`G1`, `G2`, `Gt`) and `name'` (`G1Affine`,
`G2Affine`, `Gt`) are the names in the error messages. -/
def pointCodec {α : Type} (name name' : String) (n : Nat) (toC : α → Bytes) (ofC : Bytes → Option α) : Codec α where
  enc x := .ok (toC x)
  dec bytes :=
    if bytes.length < n then
      .err (.invalidSize ("Invalid " ++ name ++ " element (size " ++ toString bytes.length ++ ", compressed expected size at least: " ++ toString n ++
        " bytes long), unable to deserialize this " ++ name ++ " element."))
    else do
      let b ← slice bytes 0 n
      match ofC b with
      | some x => .ok x
      | none => .err (.deserialization ("Error deserializing " ++ name'))
  len _ := n

section Vec

variable {α : Type}

/-- `Vec::<T>::try_into_bytes`, /repo/src/core/gpsw/mod.rs:49-61. -/
def vecEnc (c : Codec α) (l : List α) : Out Bytes :=
  if l.isEmpty then .ok []
  else do
    let len ← u32TryFrom l.length
    let parts ← mapRes c.enc l
    .ok (be32 len ++ parts.flatten)

/-- First half of `Vec::<T>::try_from_bytes` (non-empty input), /repo/src/core/gpsw/mod.rs:68-90: the count and the first
element.  The count is then the argument of `with_capacity` (line 92). -/
def vecHeader (t : Target) (c : Codec α) (bytes : Bytes) : Out (Nat × α) :=
  if bytes.length ≤ 4 then .err (.deserialization "deserializing element failed. Data are too small. Data altered?")
  else do
    let b ← slice bytes 0 4
    let len := (ofBe32 b).toNat
    if len ≥ 2 ^ 32 - 1 then .err (.deserialization "deserializing element failed. Data altered?")
    else do
      let tail ← sliceFrom bytes 4
      let res0 ← c.dec tail
      let n ← t.usub len 1
      let m ← t.umul n (c.len res0)
      let s ← t.uadd 4 m
      if s ≥ bytes.length then .err (.deserialization "deserializing element failed. Data altered?")
      else .ok (len, res0)

/-- `T::try_from_bytes(&bytes[4 + i * len..])`, /repo/src/core/gpsw/mod.rs:96-97. -/
def vecItem (t : Target) (c : Codec α) (bytes : Bytes) (size : Nat) (i : Nat) : Out α := do
  let b ← t.umul i size
  let o ← t.uadd 4 b
  let s ← sliceFrom bytes o
  c.dec s

/-- `Vec::<T>::try_from_bytes`, /repo/src/core/gpsw/mod.rs:63-100. -/
def vecDec (t : Target) (c : Codec α) (bytes : Bytes) : Out (List α) :=
  if bytes.isEmpty then .ok []
  else do
    let (len, res0) ← vecHeader t c bytes
    let rest ← mapRes (vecItem t c bytes (c.len res0)) (List.range' 1 (len - 1))
    .ok (res0 :: rest)

/-- `Vec::<T>::len_bytes`, /repo/src/core/gpsw/mod.rs:102-108. -/
def vecLen (c : Codec α) : List α → Nat
  | [] => 0
  | x :: l => 4 + (l.length + 1) * c.len x

/-- `impl<T: AsBytes> AsBytes for Vec<T>`, /repo/src/core/gpsw/mod.rs:48-109. -/
def vecCodec (t : Target) (c : Codec α) : Codec (List α) := ⟨vecEnc c, vecDec t c, vecLen c⟩

end Vec

section Msp

variable {I : Type}

/-- `MonotoneSpanProgram::try_into_bytes`, /repo/src/core/msp.rs:27-43.  `self.matrix[0][0]` panics on an empty matrix. -/
def mspEnc (c : Codec I) (m : Msp I) : Out Bytes := do
  let row ← idx m.matrix 0
  let _ ← idx row 0
  let nr ← u32TryFrom m.nbRow
  let nc ← u32TryFrom m.nbCol
  let parts ← mapRes (fun r => mapRes c.enc r) m.matrix
  .ok (be32 nr ++ be32 nc ++ (m.rowToAttr.map be32).flatten ++ (parts.map List.flatten).flatten)

/-- The loop over the labels, /repo/src/core/msp.rs:63-72; `i` counts from 0. -/
def mspLabels (t : Target) (bytes : Bytes) :
    List Nat → List UInt32 → List (UInt32 × Nat) → Out (List UInt32 × List (UInt32 × Nat))
  | [], vec, map => .ok (vec, map)
  | i :: is, vec, map => do
    let i4 ← t.umul i 4
    let a ← t.uadd 8 i4
    let b ← t.uadd 12 i4
    let s ← slice bytes a b
    let u := ofBe32 s
    match hget map u with
    | some _ => .err (.deserialization "error deserializing MSP, leaf already inserted")
    | none => mspLabels t bytes is (vec ++ [u]) (hinsert map u i)

/-- First part of `MonotoneSpanProgram::try_from_bytes`, /repo/src/core/msp.rs:45-72: dimensions and labels.
The capacities requested are `nb_row` (lines 61, 62, 74) and `nb_col` (lines 75, 88); see `Verif.Model.Alloc`. -/
def mspHeader (t : Target) (bytes : Bytes) : Out (Nat × Nat × List UInt32 × List (UInt32 × Nat)) :=
  if bytes.length < 8 then .err (.invalidSize "minimum len of 8 bytes is required for MSP")
  else do
    let b0 ← slice bytes 0 4
    let nbRow := (ofBe32 b0).toNat
    let b1 ← slice bytes 4 8
    let nbCol := (ofBe32 b1).toNat
    let r4 ← t.umul 4 nbRow
    let need ← t.uadd 8 r4
    if bytes.length < need then .err (.invalidSize "invalid MSP size read from bytes")
    else do
      let (vec, map) ← mspLabels t bytes (List.range nbRow) [] []
      .ok (nbRow, nbCol, vec, map)

/-- `8 + (4 * nb_row)`.  /repo/src/core/msp.rs:76-90. -/
def mspBase (t : Target) (nbRow : Nat) : Out Nat := do
  let r4 ← t.umul 4 nbRow
  t.uadd 8 r4

/-- `I::try_from_bytes(&bytes[8 + (4 * nb_row) + (k * size)..])`, /repo/src/core/msp.rs:83-84 and 90-91. -/
def mspEntry (t : Target) (c : Codec I) (bytes : Bytes) (nbRow size k : Nat) : Out I := do
  let base ← mspBase t nbRow
  let o ← t.umul k size
  let index ← t.uadd base o
  let s ← sliceFrom bytes index
  c.dec s

/-- `MonotoneSpanProgram::try_from_bytes`, /repo/src/core/msp.rs:45-102. -/
def mspDec (t : Target) (c : Codec I) (bytes : Bytes) : Out (Msp I) := do
  let (nbRow, nbCol, vec, map) ← mspHeader t bytes
  let base ← mspBase t nbRow
  let s ← sliceFrom bytes base
  let first ← c.dec s
  let size := c.len first
  let rc ← t.umul nbRow nbCol
  let total ← t.umul rc size
  let need ← t.uadd base total
  if bytes.length < need then .err (.invalidSize "invalid matrix size read from bytes")
  else do
    let rest ← mapRes (mspEntry t c bytes nbRow size) (List.range' 1 (nbCol - 1))
    let rows ← mapRes (fun r => mapRes (fun col => do
        let rn ← t.umul r nbCol
        let k ← t.uadd rn col
        mspEntry t c bytes nbRow size k) (List.range nbCol)) (List.range' 1 (nbRow - 1))
    .ok { nbRow := nbRow, nbCol := nbCol, matrix := (first :: rest) :: rows, attrToRow := map, rowToAttr := vec }

/-- `MonotoneSpanProgram::len_bytes`, /repo/src/core/msp.rs:104-106 (for a matrix with a first entry; the code panics
otherwise). -/
def mspLen (c : Codec I) (m : Msp I) : Nat :=
  match m.matrix with
  | (x :: _) :: _ => 8 + m.nbRow * m.nbCol * c.len x + m.nbRow * 4
  | _ => 0

/-- `impl<I: AsBytes> AsBytes for MonotoneSpanProgram<I>`, /repo/src/core/msp.rs:26-107. -/
def mspCodec (t : Target) (c : Codec I) : Codec (Msp I) := ⟨mspEnc c, mspDec t c, mspLen c⟩

end Msp

/-- The encodings of the scalars and group elements of a `BilinearMap`.  They are those of /repo/src/core/bilinear_map/bls12_381.rs. -/
structure Codecs (K G2 G3 Gt : Type) where
  scalar : Codec K
  g2 : Codec G2
  g3 : Codec G3
  gt : Codec Gt

/-- The encodings of `Bls12_381`, /repo/src/core/bilinear_map/bls12_381.rs:225-229 (`G2` is `G1Affine`, `G3` is `G2Affine`), with the external functions
`to_compressed` and `from_compressed` of the three groups. -/
def blsCodecs {P Q T : Type} (q : Nat) (toP : P → Bytes) (ofP : Bytes → Option P) (toQ : Q → Bytes) (ofQ : Bytes → Option Q) (toT : T → Bytes)
    (ofT : Bytes → Option T) : Codecs (ZMod q) P Q T :=
  ⟨scalarCodec q, pointCodec "G1" "G1Affine" 48 toP ofP, pointCodec "G2" "G2Affine" 96 toQ ofQ, pointCodec "Gt" "Gt" 288 toT ofT⟩

variable {K G1 G2 G3 Gt : Type}

/-- `impl AsBytes for GpswMasterPrivateKey`, /repo/src/core/gpsw/scheme.rs:101-124. -/
def privKeyCodec (t : Target) (cs : Codecs K G2 G3 Gt) : Codec (MasterPrivateKey K) where
  enc k := do
    let a ← vecEnc cs.scalar k.tI
    let b ← cs.scalar.enc k.y
    .ok (a ++ b)
  dec bytes := do
    let tI ← vecDec t cs.scalar bytes
    let rest ← sliceFrom bytes (vecLen cs.scalar tI)
    let y ← cs.scalar.dec rest
    .ok ⟨tI, y⟩
  len k := vecLen cs.scalar k.tI + cs.scalar.len k.y

/-- `impl AsBytes for GpswMasterPublicKey`, /repo/src/core/gpsw/scheme.rs:126-149. -/
def pubKeyCodec (t : Target) (cs : Codecs K G2 G3 Gt) : Codec (MasterPublicKey G2 Gt) where
  enc k := do
    let a ← vecEnc cs.g2 k.tI
    let b ← cs.gt.enc k.y
    .ok (a ++ b)
  dec bytes := do
    let tI ← vecDec t cs.g2 bytes
    let rest ← sliceFrom bytes (vecLen cs.g2 tI)
    let y ← cs.gt.dec rest
    .ok ⟨tI, y⟩
  len k := vecLen cs.g2 k.tI + cs.gt.len k.y

/-- `impl AsBytes for GpswMasterPublicDelegationKey`, /repo/src/core/gpsw/scheme.rs:151-170. -/
def delKeyCodec (t : Target) (cs : Codecs K G2 G3 Gt) : Codec (DelegationKey G3) where
  enc k := vecEnc cs.g3 k.invTI
  dec bytes := do
    let inv ← vecDec t cs.g3 bytes
    .ok ⟨inv⟩
  len k := vecLen cs.g3 k.invTI

/-- `impl AsBytes for GpswDecryptionKey`, /repo/src/core/gpsw/scheme.rs:172-199. -/
def userKeyCodec (t : Target) (cs : Codecs K G2 G3 Gt) (bm : BilinearMap K G1 G2 G3 Gt) :
    Codec (DecryptionKey K G1 G3) where
  enc k := do
    let a ← vecEnc cs.g3 k.rawDI
    let b ← mspEnc cs.scalar k.msp
    .ok (a ++ b)
  dec bytes :=
    if bytes.isEmpty then .err .emptyPrivateKey
    else do
      let rawDI ← vecDec t cs.g3 bytes
      let rest ← sliceFrom bytes (vecLen cs.g3 rawDI)
      let msp ← mspDec t cs.scalar rest
      .ok { rawDI := rawDI, dI := rawDI.map bm.g3ToG1, msp := msp }
  len k := vecLen cs.g3 k.rawDI + mspLen cs.scalar k.msp

/-- `impl AsBytes for GpswCipherText`, /repo/src/core/gpsw/scheme.rs:201-232 (labels, then `e_i`, then `e_prime`). -/
def cipherTextCodec (t : Target) (cs : Codecs K G2 G3 Gt) : Codec (CipherText G2 Gt) where
  enc x := do
    let gamma ← vecEnc u32Codec x.gamma
    let ePrime ← cs.gt.enc x.ePrime
    let eI ← vecEnc cs.g2 x.eI
    .ok (gamma ++ eI ++ ePrime)
  dec bytes := do
    let gamma ← vecDec t u32Codec bytes
    let rest ← sliceFrom bytes (vecLen u32Codec gamma)
    let eI ← vecDec t cs.g2 rest
    let rest' ← sliceFrom bytes (vecLen u32Codec gamma + vecLen cs.g2 eI)
    let ePrime ← cs.gt.dec rest'
    .ok ⟨gamma, ePrime, eI⟩
  len x := vecLen u32Codec x.gamma + vecLen cs.g2 x.eI + cs.gt.len x.ePrime

/-- `Gpsw::ciphertext_len`, /repo/src/core/gpsw/scheme.rs:321-329. -/
def ciphertextLen (nbAttr : Nat) : Nat :=
  let gammaLen := 4 + nbAttr * 4
  let eiLen := 4 + nbAttr * 48
  let ePrimeLen := 288
  gammaLen + eiLen + ePrimeLen

end Abe
