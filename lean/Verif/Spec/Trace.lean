import Verif.Model.Scheme
import Verif.Spec.Policy

/-!
# Pairings computed by an operation

For property C94: a bilinear map that records the pairings it computes.
-/

namespace Abe

variable {K G1 G2 G3 Gt : Type} [Field K] [DecidableEq K]

/-- The bilinear map `bm` with a record, beside each element of the target group, of the pairings computed to obtain it; an entry is the pair of points and the
exponent.  Nothing else is changed: operations on the target group concatenate the records. -/
def traced (bm : BilinearMap K G1 G2 G3 Gt) : BilinearMap K G1 G2 G3 (Gt × List (G1 × G2 × K)) where
  fromI32 := bm.fromI32
  g1GenExp := bm.g1GenExp
  g3GenExp := bm.g3GenExp
  g3Mul := bm.g3Mul
  g3Exp := bm.g3Exp
  g2GenExp := bm.g2GenExp
  g2Exp := bm.g2Exp
  gtGenExp k := (bm.gtGenExp k, [])
  gtExp x k := (bm.gtExp x.1 k, x.2)
  gtMul x x' := (bm.gtMul x.1 x'.1, x.2 ++ x'.2)
  gtDiv x x' := (bm.gtDiv x.1 x'.1, x.2 ++ x'.2)
  prodGtExp d e a := (bm.prodGtExp d e a, d.zip (e.zip a))
  g3ToG1 := bm.g3ToG1

/-- A ciphertext with nothing recorded. -/
def CipherText.untraced (ct : CipherText G2 Gt) : CipherText G2 (Gt × List (G1 × G2 × K)) := ⟨ct.gamma, (ct.ePrime, []), ct.eI⟩

/-- The recorded pairing `x` is the one for the label `v`: of the component of the key for `v` with a component of the ciphertext for `v`. -/
def PairingFor (key : DecryptionKey K G1 G3) (ct : CipherText G2 Gt) (v : UInt32) (x : G1 × G2 × K) : Prop :=
  (∃ row, key.msp.getRowFromAttr v = some row ∧ key.dI[row]? = some x.1) ∧ ∃ j : Nat, ct.gamma[j]? = some v ∧ ct.eI[j]? = some x.2.1

/-- The labels `l` satisfy the access policy, and none of them can be left out. -/
def AccessPolicy.Needs (p : Policy) (ap : AccessPolicy) (l : List UInt32) : Prop :=
  (ap.Sat p fun b => ∃ v, p.HasValue b v ∧ v ∈ l) ∧ ∀ a ∈ l, ¬ ap.Sat p fun b => ∃ v, p.HasValue b v ∧ v ∈ l ∧ v ≠ a

end Abe
