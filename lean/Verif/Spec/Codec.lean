import Verif.Model.Codec

/-!
# What is expected of byte encodings
-/

namespace Abe

variable {α : Type}

/-- A fixed-size encoding of `n` bytes: every value is encoded, decoding reads the first `n` bytes and ignores the rest, short
input is refused with an error, decoding never panics, and only the encoding of a value decodes to it. -/
structure Codec.Fixed (c : Codec α) (n : Nat) : Prop where
  pos : 0 < n
  len : ∀ x, c.len x = n
  enc : ∀ x, ∃ b, c.enc x = .ok b ∧ b.length = n
  round : ∀ x b r, c.enc x = .ok b → c.dec (b ++ r) = .ok x
  short : ∀ b, b.length < n → ∃ e, c.dec b = .err e
  canon : ∀ b x, c.dec b = .ok x → c.enc x = .ok (b.take n)
  total : ∀ b, c.dec b ≠ .panic

/-- `x` is encoded, on the announced number of bytes, and recovered whatever follows (within `B` bytes overall). -/
def Codec.RoundTrips (c : Codec α) (B : Nat) (x : α) : Prop :=
  ∃ b, c.enc x = .ok b ∧ b.length = c.len x ∧ ∀ r, (b ++ r).length < B → c.dec (b ++ r) = .ok x

/-- Every strict prefix of the encoding of `x` is refused with an error. -/
def Codec.RefusesPrefixes (c : Codec α) (x : α) : Prop :=
  ∀ b, c.enc x = .ok b → ∀ k < b.length, ∃ e, c.dec (b.take k) = .err e

/-- The bytes `b` decode to an object whose encoding they start with. -/
def Codec.CanonicalAt (c : Codec α) (b : Bytes) : Prop :=
  ∀ x, c.dec b = .ok x → c.len x ≤ b.length ∧ c.enc x = .ok (b.take (c.len x))

/-- A matrix as produced by the compilation of a formula: at least one row and one column, rectangular, one distinct label
per row, and the index is the inverse of the list of labels (here in the order of insertion). -/
structure Msp.Regular {I : Type} (m : Msp I) : Prop where
  rows : m.matrix.length = m.nbRow
  labels : m.rowToAttr.length = m.nbRow
  width : ∀ r ∈ m.matrix, r.length = m.nbCol
  row_pos : 0 < m.nbRow
  col_pos : 0 < m.nbCol
  nodup : m.rowToAttr.Nodup
  index : m.attrToRow = m.rowToAttr.zipIdx.reverse

/-- The component counts of a user key and a ciphertext agree with the dimensions they announce. -/
structure Consistent {K G1 G2 G3 Gt : Type} (key : DecryptionKey K G1 G3) (enc : CipherText G2 Gt) : Prop where
  msp : key.msp.Regular
  parts : key.dI.length = key.msp.nbRow
  slots : enc.eI.length = enc.gamma.length

/-- The assumed encodings of group elements: fixed sizes of the compressed forms. -/
structure Codecs.Lawful {K G2 G3 Gt : Type} (cs : Codecs K G2 G3 Gt) : Prop where
  scalar : cs.scalar.Fixed 32
  g2 : cs.g2.Fixed 48
  g3 : cs.g3.Fixed 96
  gt : cs.gt.Fixed 288

/-- No Rust slice is longer than `isize::MAX` bytes; stated for the targets of at least 32 bits. -/
structure InSlice (t : Target) (b : Bytes) : Prop where
  bits : 32 ≤ t.bits
  size : 2 * b.length < t.modulus

/-- The conditions under which decoding a vector panics. -/
def VecPanics (t : Target) (c : Codec α) (n : Nat) (b : Bytes) : Prop :=
  t.checked = true ∧ 4 < b.length ∧ (ofBe32 b).toNat ≠ 2 ^ 32 - 1 ∧ (∃ x, c.dec (b.drop 4) = .ok x) ∧
    (ofBe32 b = 0 ∨ t.modulus ≤ 4 + ((ofBe32 b).toNat - 1) * n)

/-- The announced labels of a matrix, read from the bytes. -/
def labelsOf (b : Bytes) (k : Nat) : List UInt32 := (List.range k).map fun i => ofBe32 (b.drop (8 + 4 * i))

/-- The conditions under which decoding a matrix panics: the announced number of rows does not fit in the address space (with
overflow checks always; without, when the wrapped size check passes and the bytes run out before a label is repeated), or
the size of the entries does not fit and there are overflow checks. -/
def MspPanics (t : Target) (c : Codec α) (n : Nat) (b : Bytes) : Prop :=
  8 ≤ b.length ∧
  ((t.modulus ≤ 8 + 4 * (ofBe32 b).toNat ∧ (t.checked = true ∨
      ((8 + 4 * (ofBe32 b).toNat) % t.modulus ≤ b.length ∧ (labelsOf b ((b.length - 8) / 4)).Nodup))) ∨
   (8 + 4 * (ofBe32 b).toNat ≤ b.length ∧ (labelsOf b (ofBe32 b).toNat).Nodup ∧
      (∃ x, c.dec (b.drop (8 + 4 * (ofBe32 b).toNat)) = .ok x) ∧ t.checked = true ∧
      t.modulus ≤ 8 + 4 * (ofBe32 b).toNat + (ofBe32 b).toNat * (ofBe32 (b.drop 4)).toNat * n))

/-- The conditions under which decoding a user key panics: those of its vector, or, after a vector accepted, those of its matrix. -/
def UserKeyPanics {K G2 G3 Gt : Type} (t : Target) (cs : Codecs K G2 G3 Gt) (b : Bytes) : Prop :=
  VecPanics t cs.g3 96 b ∨
    ((∃ l, l ≠ [] ∧ vecDec t cs.g3 b = .ok l) ∧ MspPanics t cs.scalar 32 (b.drop (4 + 96 * (ofBe32 b).toNat)))

/-- The conditions under which decoding a ciphertext panics: those of its two vectors. -/
def CipherTextPanics {K G2 G3 Gt : Type} (t : Target) (cs : Codecs K G2 G3 Gt) (b : Bytes) : Prop :=
  VecPanics t u32Codec 4 b ∨
    ∃ l, l ≠ [] ∧ vecDec t u32Codec b = .ok l ∧ VecPanics t cs.g2 48 (b.drop (4 + 4 * l.length))

end Abe
