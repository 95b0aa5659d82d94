import Verif.Model.Wasm
import Verif.Spec.Py
import Verif.Spec.Hybrid

/-!
# Histories of calls of the JavaScript interface
-/

namespace Abe

variable {K G1 G2 G3 Gt Key Nonce : Type} [Field K] [DecidableEq K] (lib : Lib K G1 G2 G3 Gt Key Nonce)

/-- None of the calls panics. -/
def JsNoPanic : JsState K G1 G2 G3 Gt → List (JsCall K Gt Nonce) → Prop
  | _, [] => True
  | st, c :: L => (c.run lib st).1 ≠ .panic ∧ JsNoPanic (c.run lib st).2 L

/-- The number of calls creating an encryption cache. -/
def jsEncCreations (L : List (JsCall K Gt Nonce)) : Nat :=
  (L.filter fun | .createEncryptionCache _ _ => true | _ => false).length

/-- The number of calls creating a decryption cache. -/
def jsDecCreations (L : List (JsCall K Gt Nonce)) : Nat :=
  (L.filter fun | .createDecryptionCache _ => true | _ => false).length

/-- A creation of an encryption cache among the calls returned the handle. -/
def JsEncReturned (st : JsState K G1 G2 G3 Gt) (L : List (JsCall K Gt Nonce)) (h : Int32) : Prop :=
  ∃ L1 policy pub L2, L = L1 ++ .createEncryptionCache policy pub :: L2 ∧
    ((JsCall.createEncryptionCache policy pub : JsCall K Gt Nonce).run lib (jsRun lib st L1)).1 = .ok (.handle h)

/-- A creation of a decryption cache among the calls returned the handle. -/
def JsDecReturned (st : JsState K G1 G2 G3 Gt) (L : List (JsCall K Gt Nonce)) (h : Int32) : Prop :=
  ∃ L1 key L2, L = L1 ++ .createDecryptionCache key :: L2 ∧
    ((JsCall.createDecryptionCache key : JsCall K Gt Nonce).run lib (jsRun lib st L1)).1 = .ok (.handle h)

/-- The calls are empty, or end with a successful destruction of the encryption cache. -/
def JsEncForgotten (L : List (JsCall K Gt Nonce)) (h : Int32) : Prop :=
  L = [] ∨ ∃ L0, L = L0 ++ [.destroyEncryptionCache h] ∧
    ((JsCall.destroyEncryptionCache h : JsCall K Gt Nonce).run lib (jsRun lib JsState.init L0)).1 = .ok .unit

/-- The calls are empty, or end with a successful destruction of the decryption cache. -/
def JsDecForgotten (L : List (JsCall K Gt Nonce)) (h : Int32) : Prop :=
  L = [] ∨ ∃ L0, L = L0 ++ [.destroyDecryptionCache h] ∧
    ((JsCall.destroyDecryptionCache h : JsCall K Gt Nonce).run lib (jsRun lib JsState.init L0)).1 = .ok .unit

end Abe
