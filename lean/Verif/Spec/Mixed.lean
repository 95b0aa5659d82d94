import Verif.Model.Hybrid

/-!
# Ciphertexts with several scalars

What somebody with the public key can make instead of an encryption (property C93): a ciphertext whose components do not come from one scalar.
-/

namespace Abe

variable {K G1 G2 G3 Gt : Type} [Field K] [DecidableEq K]

/-- The component of label `l.1` is made with the scalar `l.2`, for each entry of the list; `masked` takes the place of the masked message.  An encryption is the
case where all scalars are the same. -/
def mixed (bm : BilinearMap K G1 G2 G3 Gt) (pub : MasterPublicKey G2 Gt) (masked : Gt) (l : List (UInt32 × K)) : Out (CipherText G2 Gt) := do
  let eI ← mapRes (fun x => do
    let ti ← idx pub.tI x.1.toNat
    .ok (bm.g2Exp ti x.2)) l
  .ok ⟨l.map Prod.fst, masked, eI⟩

/-- The same with the framing of a header without metadata. -/
def mixedHeader (bm : BilinearMap K G1 G2 G3 Gt) (cs : Codecs K G2 G3 Gt) (t : Target) (pub : MasterPublicKey G2 Gt) (masked : Gt) (l : List (UInt32 × K)) :
    Out Bytes := do
  let ct ← mixed bm pub masked l
  let ek ← (cipherTextCodec t cs).enc ct
  let size ← u32Len ek
  .ok (size ++ ek)

end Abe
