import Verif.Model.Codec

/-!
# Printing and comparing keys

`Display` of the keys (/repo/src/core/gpsw/scheme.rs:47-85) and of span programs (/repo/src/core/msp.rs:109-117), equality of user keys
(/repo/src/core/gpsw/scheme.rs:94-99, /repo/src/core/msp.rs:17).
-/

namespace Abe

/-- The digits of `hex::encode` (external crate `hex`): lower case. -/
def hexDigits : List Char := ['0', '1', '2', '3', '4', '5', '6', '7', '8', '9', 'a', 'b', 'c', 'd', 'e', 'f']

/-- `hex::encode` (external crate `hex`): two digits for each byte. -/
def hexEncode (b : Bytes) : List Char :=
  b.flatMap fun x => [hexDigits.getD (x.toNat / 16) '0', hexDigits.getD (x.toNat % 16) '0']

/-- `Display for GpswDecryptionKey`, `GpswMasterPrivateKey`, `GpswMasterPublicKey` and `GpswMasterPublicDelegationKey`,
/repo/src/core/gpsw/scheme.rs:47-85, which differ in the encoding only. -/
def keyDisplay {α : Type} (c : Codec α) (key : α) : Out (List Char) :=
  match c.enc key with
  | .ok bytes => .ok (hexEncode bytes)
  | .err _ => .ok "Invalid input".toList
  | .panic => .panic

/-- `{:>4}` of a number: padded with spaces on the left.  /repo/src/core/msp.rs:109-117. -/
def padLeft4 (l : List Char) : List Char := List.replicate (4 - l.length) ' ' ++ l

/-- The entries of a vector printed with `{:?}`, without the brackets; `dbg` prints an entry.  /repo/src/core/msp.rs:109-117. -/
def debugItems {I : Type} (dbg : I → List Char) : List I → List Char
  | [] => []
  | [x] => dbg x
  | x :: xs => dbg x ++ (',' :: ' ' :: debugItems dbg xs)

/-- A line of `Display for MonotoneSpanProgram`, /repo/src/core/msp.rs:113. -/
def mspLine {I : Type} (dbg : I → List Char) (attr : UInt32) (row : List I) : List Char :=
  "attr ".toList ++ (padLeft4 (Nat.toDigits 10 attr.toNat) ++ (": [".toList ++ (debugItems dbg row ++ "]\n".toList)))

/-- `Display for MonotoneSpanProgram`, /repo/src/core/msp.rs:109-117. -/
def Msp.display {I : Type} (dbg : I → List Char) (m : Msp I) : List Char :=
  '\n' :: (m.rowToAttr.zip m.matrix).flatMap fun p => mspLine dbg p.1 p.2

/-- `{:?}` of an `i32`.  /repo/src/core/msp.rs:109-117. -/
def debugInt (n : Int) : List Char := if n < 0 then '-' :: Nat.toDigits 10 n.natAbs else Nat.toDigits 10 n.natAbs

/-- `PartialEq for HashMap`: as many entries, and every entry of the first is in the second.  /repo/src/core/msp.rs:17-24. -/
def hashEq {κ α : Type} [DecidableEq κ] [DecidableEq α] (m m' : List (κ × α)) : Bool :=
  m.length == m'.length && m.all fun p => hget m' p.1 == some p.2

/-- `#[derive(PartialEq)]` of `MonotoneSpanProgram`, /repo/src/core/msp.rs:17. -/
def Msp.eq {I : Type} [DecidableEq I] (m m' : Msp I) : Bool :=
  m.nbRow == m'.nbRow && m.nbCol == m'.nbCol && m.matrix == m'.matrix && hashEq m.attrToRow m'.attrToRow && m.rowToAttr == m'.rowToAttr

/-- `PartialEq for GpswDecryptionKey`, /repo/src/core/gpsw/scheme.rs:94-99: the prepared elements `d_i` are not compared. -/
def keyEq {K G1 G3 : Type} [DecidableEq K] [DecidableEq G3] (key key' : DecryptionKey K G1 G3) : Bool :=
  key.rawDI == key'.rawDI && key.msp.eq key'.msp

end Abe
