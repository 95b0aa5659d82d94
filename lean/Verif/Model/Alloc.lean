import Verif.Model.Codec

/-!
# Memory requested while decoding

The decoders of `Verif.Model.Codec` once more, recording the arguments of the calls of `with_capacity` in the order in
which they are made.  Growth of vectors by `push` beyond the requested capacity does not occur in these functions.
-/

namespace Abe

/-- A call of `with_capacity`, with its argument.  /repo/src/core/gpsw/mod.rs:92, /repo/src/core/msp.rs:61, 62, 74, 75 and 88. -/
inductive Req where
  /-- the elements of a vector, /repo/src/core/gpsw/mod.rs:92 -/
  | elements (n : Nat)
  /-- the labels of a matrix, /repo/src/core/msp.rs:61 -/
  | labels (n : Nat)
  /-- the index of the labels of a matrix, /repo/src/core/msp.rs:62 -/
  | index (n : Nat)
  /-- the rows of a matrix, /repo/src/core/msp.rs:74 -/
  | rows (n : Nat)
  /-- the entries of one row of a matrix, /repo/src/core/msp.rs:75 and 88 -/
  | entries (n : Nat)
  deriving DecidableEq, Repr

/-- The requested capacity.  The argument at /repo/src/core/gpsw/mod.rs:92 and /repo/src/core/msp.rs:61, 62, 74, 75 and 88. -/
def Req.count : Req → Nat
  | .elements n => n
  | .labels n => n
  | .index n => n
  | .rows n => n
  | .entries n => n

/-- A computation with the requests it makes.  For the parsers at /repo/src/core/gpsw/mod.rs:63-100 and /repo/src/core/msp.rs:45-102. -/
structure Tr (α : Type) where
  reqs : List Req
  res : Out α

namespace Tr

variable {α β : Type}

/-- Sequencing: the second computation only runs when the first succeeds. -/
protected def bind (x : Tr α) (f : α → Tr β) : Tr β :=
  match x.res with
  | .ok a => ⟨x.reqs ++ (f a).reqs, (f a).res⟩
  | .err e => ⟨x.reqs, .err e⟩
  | .panic => ⟨x.reqs, .panic⟩

/-- `?` of Rust, for example at /repo/src/core/msp.rs:76. -/
instance : Monad Tr where
  pure a := ⟨[], .ok a⟩
  bind := Tr.bind

/-- A computation without request.  For the parsers at /repo/src/core/gpsw/mod.rs:63-100 and /repo/src/core/msp.rs:45-102. -/
def lift (x : Out α) : Tr α := ⟨[], x⟩

/-- A call of `with_capacity`.  For the parsers at /repo/src/core/gpsw/mod.rs:63-100 and /repo/src/core/msp.rs:45-102. -/
def request (r : Req) : Tr Unit := ⟨[r], .ok ()⟩

/-- `for` loop collecting the results, as `mapRes`.  The loops at /repo/src/core/gpsw/mod.rs:95-98 and /repo/src/core/msp.rs:82-94. -/
def map (f : α → Tr β) : List α → Tr (List β)
  | [] => pure []
  | a :: l => do
    let b ← f a
    let bs ← map f l
    pure (b :: bs)

/-- The outcome on a target, where a type of elements occupies `size r` bytes each in memory: `with_capacity` panics when the number
of bytes exceeds `isize::MAX`.  Failure of the allocation itself (an abort) is not modelled; for the hash table `size` counts the
entries only, without the free slots and control bytes.  For the parsers at /repo/src/core/gpsw/mod.rs:63-100 and /repo/src/core/msp.rs:45-102. -/
def run (t : Target) (size : Req → Nat) (x : Tr α) : Out α :=
  if x.reqs.any fun r => decide (t.modulus ≤ 2 * (r.count * size r)) then .panic else x.res

end Tr

section
variable {α : Type}

/-- `Vec::<T>::try_from_bytes`, /repo/src/core/gpsw/mod.rs:63-100. -/
def vecDecT (t : Target) (c : Codec α) (bytes : Bytes) : Tr (List α) :=
  if bytes.isEmpty then pure []
  else do
    let (len, res0) ← Tr.lift (vecHeader t c bytes)
    Tr.request (.elements len)
    let rest ← Tr.lift (mapRes (vecItem t c bytes (c.len res0)) (List.range' 1 (len - 1)))
    pure (res0 :: rest)

/-- First part of `MonotoneSpanProgram::try_from_bytes`, /repo/src/core/msp.rs:45-72. -/
def mspHeaderT (t : Target) (bytes : Bytes) : Tr (Nat × Nat × List UInt32 × List (UInt32 × Nat)) :=
  if bytes.length < 8 then Tr.lift (.err (.invalidSize "minimum len of 8 bytes is required for MSP"))
  else do
    let b0 ← Tr.lift (slice bytes 0 4)
    let nbRow := (ofBe32 b0).toNat
    let b1 ← Tr.lift (slice bytes 4 8)
    let nbCol := (ofBe32 b1).toNat
    let r4 ← Tr.lift (t.umul 4 nbRow)
    let need ← Tr.lift (t.uadd 8 r4)
    if bytes.length < need then Tr.lift (.err (.invalidSize "invalid MSP size read from bytes"))
    else do
      Tr.request (.labels nbRow)
      Tr.request (.index nbRow)
      let (vec, map) ← Tr.lift (mspLabels t bytes (List.range nbRow) [] [])
      pure (nbRow, nbCol, vec, map)

/-- `MonotoneSpanProgram::try_from_bytes`, /repo/src/core/msp.rs:45-102. -/
def mspDecT (t : Target) (c : Codec α) (bytes : Bytes) : Tr (Msp α) := do
  let (nbRow, nbCol, vec, map) ← mspHeaderT t bytes
  Tr.request (.rows nbRow)
  Tr.request (.entries nbCol)
  let base ← Tr.lift (mspBase t nbRow)
  let s ← Tr.lift (sliceFrom bytes base)
  let first ← Tr.lift (c.dec s)
  let size := c.len first
  let rc ← Tr.lift (t.umul nbRow nbCol)
  let total ← Tr.lift (t.umul rc size)
  let need ← Tr.lift (t.uadd base total)
  if bytes.length < need then Tr.lift (.err (.invalidSize "invalid matrix size read from bytes"))
  else do
    let rest ← Tr.lift (mapRes (mspEntry t c bytes nbRow size) (List.range' 1 (nbCol - 1)))
    let rows ← Tr.map (fun r => do
        Tr.request (.entries nbCol)
        Tr.lift (mapRes (fun col => do
          let rn ← t.umul r nbCol
          let k ← t.uadd rn col
          mspEntry t c bytes nbRow size k) (List.range nbCol))) (List.range' 1 (nbRow - 1))
    pure { nbRow := nbRow, nbCol := nbCol, matrix := (first :: rest) :: rows, attrToRow := map, rowToAttr := vec }

end

section
variable {K G1 G2 G3 Gt : Type}

/-- `GpswMasterPrivateKey::try_from_bytes`, /repo/src/core/gpsw/scheme.rs:113-119. -/
def privKeyDecT (t : Target) (cs : Codecs K G2 G3 Gt) (bytes : Bytes) : Tr (MasterPrivateKey K) := do
  let tI ← vecDecT t cs.scalar bytes
  let rest ← Tr.lift (sliceFrom bytes (vecLen cs.scalar tI))
  let y ← Tr.lift (cs.scalar.dec rest)
  pure ⟨tI, y⟩

/-- `GpswMasterPublicKey::try_from_bytes`, /repo/src/core/gpsw/scheme.rs:138-144. -/
def pubKeyDecT (t : Target) (cs : Codecs K G2 G3 Gt) (bytes : Bytes) : Tr (MasterPublicKey G2 Gt) := do
  let tI ← vecDecT t cs.g2 bytes
  let rest ← Tr.lift (sliceFrom bytes (vecLen cs.g2 tI))
  let y ← Tr.lift (cs.gt.dec rest)
  pure ⟨tI, y⟩

/-- `GpswMasterPublicDelegationKey::try_from_bytes`, /repo/src/core/gpsw/scheme.rs:161-165. -/
def delKeyDecT (t : Target) (cs : Codecs K G2 G3 Gt) (bytes : Bytes) : Tr (DelegationKey G3) := do
  let inv ← vecDecT t cs.g3 bytes
  pure ⟨inv⟩

/-- `GpswDecryptionKey::try_from_bytes`, /repo/src/core/gpsw/scheme.rs:184-194. -/
def userKeyDecT (t : Target) (cs : Codecs K G2 G3 Gt) (bm : BilinearMap K G1 G2 G3 Gt) (bytes : Bytes) : Tr (DecryptionKey K G1 G3) :=
  if bytes.isEmpty then Tr.lift (.err .emptyPrivateKey)
  else do
    let rawDI ← vecDecT t cs.g3 bytes
    let rest ← Tr.lift (sliceFrom bytes (vecLen cs.g3 rawDI))
    let msp ← mspDecT t cs.scalar rest
    pure { rawDI := rawDI, dI := rawDI.map bm.g3ToG1, msp := msp }

/-- `GpswCipherText::try_from_bytes`, /repo/src/core/gpsw/scheme.rs:215-227. -/
def cipherTextDecT (t : Target) (cs : Codecs K G2 G3 Gt) (bytes : Bytes) : Tr (CipherText G2 Gt) := do
  let gamma ← vecDecT t u32Codec bytes
  let rest ← Tr.lift (sliceFrom bytes (vecLen u32Codec gamma))
  let eI ← vecDecT t cs.g2 rest
  let rest' ← Tr.lift (sliceFrom bytes (vecLen u32Codec gamma + vecLen cs.g2 eI))
  let ePrime ← Tr.lift (cs.gt.dec rest')
  pure ⟨gamma, ePrime, eI⟩

end

end Abe
