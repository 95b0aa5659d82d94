import Verif.Spec.Reveal
import Verif.Model.Hybrid
import Mathlib.Data.Finset.Card
import Mathlib.Data.Fintype.Pi

/-!
# Random draws that are zero or repeated

What outsiders do with headers and keys made with bad random draws (property C96).
-/

namespace Abe

variable {K G1 G2 G3 Gt Key Nonce : Type}

/-- The masked element in an encrypted header: the last 288 bytes of the encapsulation. -/
def maskedBytes (header : Bytes) : Bytes := (header.drop (wordAt header 0 + 4 - 288)).take 288

/-- The symmetric key an outsider gets who takes the masked element for the element itself. -/
def peek (e : External Key Nonce) (header : Bytes) : Out Key := e.keyDec (e.shake (maskedBytes header) e.keyLen)

/-- The symmetric key of `header'` for somebody who knows the element in `header`, if both have the same mask. -/
def transfer [AddCommGroup Gt] (e : External Key Nonce) (cs : Codecs K G2 G3 Gt) (header : Bytes) (element : Gt) (header' : Bytes) : Out Key := do
  let m ← cs.gt.dec (maskedBytes header)
  let m' ← cs.gt.dec (maskedBytes header')
  let b ← cs.gt.enc (m' - m + element)
  e.keyDec (e.shake b e.keyLen)

/-- The key with the components of `key` for the first label and of `key'` for the other ones, and the span program `msp`. -/
def spliced (key key' : DecryptionKey K G1 G3) (msp : Msp K) : DecryptionKey K G1 G3 where
  rawDI := key.rawDI.take 1 ++ key'.rawDI.drop 1
  dI := key.dI.take 1 ++ key'.dI.drop 1
  msp := msp

/-- Two of the draws are the same. -/
def Repeats {n : Nat} (f : Fin n → K) : Prop := ∃ i j, i < j ∧ f i = f j

end Abe
