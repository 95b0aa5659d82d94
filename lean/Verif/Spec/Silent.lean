import Verif.Model.Hybrid

/-!
# Outcomes of the same kind

For property C97: what an observer of an operation sees who is not shown its result.
-/

namespace Abe

/-- Two outcomes of the same kind: two results related by `R`, the same error, or two panics. -/
inductive SameKind {ε α β : Type} (R : α → β → Prop) : Res ε α → Res ε β → Prop
  | ok {a : α} {b : β} (h : R a b) : SameKind R (.ok a) (.ok b)
  | err (e : ε) : SameKind R (.err e) (.err e)
  | panic : SameKind R .panic .panic

/-- Two ciphertexts with the same labels and the same number of components; all group elements may differ, and even the groups. -/
structure CipherText.Alike {G2 Gt G2' Gt' : Type} (x : CipherText G2 Gt) (x' : CipherText G2' Gt') : Prop where
  labels : x.gamma = x'.gamma
  parts : x.eI.length = x'.eI.length

/-- Two user keys with the same matrix and the same numbers of components; all group elements may differ, and even the groups. -/
structure DecryptionKey.Alike {K G1 G3 G1' G3' : Type} (k : DecryptionKey K G1 G3) (k' : DecryptionKey K G1' G3') : Prop where
  msp : k.msp = k'.msp
  raw : k.rawDI.length = k'.rawDI.length
  parts : k.dI.length = k'.dI.length

/-- Two master private keys with the same number of slots, of which the same ones are zero. -/
structure MasterPrivateKey.Alike {K : Type} [Field K] (k k' : MasterPrivateKey K) : Prop where
  slots : k.tI.length = k'.tI.length
  zeros : ∀ i : Nat, k.tI[i]? = some 0 ↔ k'.tI[i]? = some 0

end Abe
