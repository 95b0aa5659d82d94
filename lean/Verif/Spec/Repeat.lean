import Verif.Spec.Ffi

/-!
# Using the variables of a call again

C programs pass a buffer and a variable with its capacity, in which the call leaves the size of the result.  Here: what happens if both are given unchanged to the next call.
-/

namespace Abe

/-- The calls, each with what its caller reads after it, succeed one after the other, the memory and the lengths being those left by the call before. -/
def AllSucceed {E D : Type} : List (Prog E D Int32 × List (Slot × Bytes)) → FState E D → Prop
  | [], _ => True
  | (call, outs) :: rest, s => ∃ s', call.run s = (.ret 0, s') ∧ (∀ x ∈ outs, (s'.mem.slots x.1).Holds x.2) ∧ AllSucceed rest s'

/-- The buffer has memory for, and announces, `n` bytes or more. -/
def OutBuf.RoomFor (b : OutBuf) (n : Nat) : Prop := ∃ m, ∃ k : Int32, b = ⟨some m, some k⟩ ∧ 0 < k.toInt ∧ n ≤ k.toInt ∧ n ≤ m.length

/-- The call is one that returns a single output, and `b` is what it has to return. -/
inductive OneOutput {K G1 G2 G3 Gt Key Nonce : Type} [Field K] [DecidableEq K] (lib : FfiLib K G1 G2 G3 Gt Key Nonce) :
    Prog (EncryptionCache G2 Gt) (DecryptionKey K G1 G3) Int32 → Bytes → Prop
  | masterKeys {p rnd y b} : MasterKeysAnswer lib p rnd y b → OneOutput lib (hGenerateMasterKeys lib p rnd y) b
  | userKey {priv ap p rnd b} : UserKeyAnswer lib priv ap p rnd b → OneOutput lib (hGenerateUserPrivateKey lib priv ap p rnd) b
  | rotation {a p b} : RotationAnswer lib a p b → OneOutput lib (hRotateAttributes lib a p) b
  | encryptBlock {a n b} : BlockAnswer lib a n b → OneOutput lib (hEncryptBlock lib a n) b
  | decryptBlock {a b} : ClearBlockAnswer lib a b → OneOutput lib (hDecryptBlock lib a) b

/-- The outputs, the first for a buffer of `n` bytes, each not longer than the one before, and none after an empty one. -/
def Shrinks : Nat → List Bytes → Prop
  | _, [] => True
  | n, x :: rest => 0 < n ∧ x.length ≤ n ∧ Shrinks x.length rest

end Abe
