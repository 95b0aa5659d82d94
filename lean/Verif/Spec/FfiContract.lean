import Verif.Spec.Ffi

/-!
# The contract of callers of the C interface

What a caller has to guarantee about its pointers, and what it can rely on in return.
-/

namespace Abe

/-- An output buffer as C programs announce it: a null pointer, or memory of at least the announced capacity, which is not negative. -/
def OutBuf.Honest (b : OutBuf) : Prop :=
  b.mem = none ∨ ∃ m, ∃ n : Int32, b = ⟨some m, some n⟩ ∧ 0 ≤ n.toInt ∧ n.toInt ≤ m.length

/-- Only the announced part of the buffer `b` may differ in `b'`: the size of the memory and the bytes after the announced capacity are the same. -/
def OutBuf.Within (b b' : OutBuf) : Prop :=
  (b.mem = none → b'.mem = none) ∧
  ∀ m, ∀ n : Int32, b = ⟨some m, some n⟩ → ∃ m', b'.mem = some m' ∧ m'.length = m.length ∧ m'.drop n.toInt.toNat = m.drop n.toInt.toNat

/-- The inputs of the call: null pointers, zero-terminated strings, buffers containing the announced bytes; the pointer for a new handle is not null. -/
def InputsHonest {K Gt Nonce : Type} (m : CMem) : FCall K Gt Nonce → Prop
  | .setError msg => HonestStr msg
  | .generateMasterKeys p _ _ => HonestStr p
  | .generateUserPrivateKey priv ap p _ => priv.Honest ∧ HonestStr ap ∧ HonestStr p
  | .rotateAttributes a p => HonestStr a ∧ HonestStr p
  | .createEncryptionCache a => HonestStr a.policy ∧ a.publicKey.Honest ∧ m.handle ≠ none
  | .encryptHeaderUsingCache _ a => HonestStr a.attributes ∧ a.uid.Honest ∧ a.additional.Honest
  | .encryptHeader c a => HonestStr c.policy ∧ c.publicKey.Honest ∧ HonestStr a.attributes ∧ a.uid.Honest ∧ a.additional.Honest
  | .createDecryptionCache k => k.Honest ∧ m.handle ≠ none
  | .decryptHeaderUsingCache hd _ => hd.Honest
  | .decryptHeader hd k => hd.Honest ∧ k.Honest
  | .getEncryptedHeaderSize e => e.Honest
  | .encryptBlock a _ => a.key.Honest ∧ a.uid.Honest ∧ a.data.Honest
  | .decryptBlock a => a.key.Honest ∧ a.uid.Honest ∧ a.data.Honest
  | .getLastError => True
  | .destroyEncryptionCache _ => True
  | .destroyDecryptionCache _ => True
  | .symmetricEncryptionOverhead => True

/-- The caller keeps the contract. -/
def Contract {K Gt Nonce : Type} (m : CMem) (c : FCall K Gt Nonce) : Prop :=
  (∀ k, (m.slots k).Honest) ∧ InputsHonest m c

/-- A call ends in an orderly way: no undefined behaviour, and nothing is written outside the announced buffers. -/
def Orderly (m : CMem) (x : FReply) : Prop := x.1 ≠ .ub ∧ ∀ k, (m.slots k).Within (x.2.slots k)

end Abe
