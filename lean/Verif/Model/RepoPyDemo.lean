import Verif.Model.Py
import Verif.Model.RepoTests

/-!
# The demonstration of the Python interface

/repo/src/interfaces/pyo3/tests/demo.py as a program.  The texts made by `json.dumps` are arguments; random draws are arguments.  A failed `assert` ends the
script (`panic`), as does an exception that is not caught.  Printing is left out.
-/

namespace Abe.RepoPy

variable {K G1 G2 G3 Gt Key Nonce : Type} [Field K] [DecidableEq K] (lib : Lib K G1 G2 G3 Gt Key Nonce)

/-- The texts of the script, /repo/src/interfaces/pyo3/tests/demo.py:6-30,46-47,52-57,91-92. -/
structure Texts where
  axes : Bytes
  metadata : Bytes
  lowMkg : Bytes
  topMkg : Bytes
  lowFin : Bytes
  low : Bytes

/-- What the random generator yields: for the keys, and for the i-th encryption.  For /repo/src/interfaces/pyo3/tests/demo.py:59-112. -/
structure Draws (K Gt Nonce : Type) where
  setup : Nat → K
  y : K
  key : Nat → Nat → K
  random : Nat → Gt
  enc : Nat → K
  nonce : Nat → Nonce
  nonce' : Nat → Nonce

/-- `metadata_json = {"uid": [0, 0, 0, 0, 0, 0, 0, 1]}`, /repo/src/interfaces/pyo3/tests/demo.py:45-46. -/
def metadata : Metadata := ⟨[0, 0, 0, 0, 0, 0, 0, 1], none⟩

/-- `bytes("My secret data", 'utf-8')`, /repo/src/interfaces/pyo3/tests/demo.py:47-48. -/
def plaintext : Bytes := [0x4d, 0x79, 0x20, 0x73, 0x65, 0x63, 0x72, 0x65, 0x74, 0x20, 0x64, 0x61, 0x74, 0x61]

/-- An exception that is not caught ends the script.  For /repo/src/interfaces/pyo3/tests/demo.py:59-112. -/
def must {α : Type} : PyOut α → PyOut α
  | .ok a => .ok a
  | _ => .panic

/-- `cleartext = decrypt(..)` followed by `assert(str(bytes(cleartext), "utf-8") == plaintext)`.  For /repo/src/interfaces/pyo3/tests/demo.py:59-112. -/
def opens (key ct : Bytes) : PyOut Unit := do
  let clear ← must (pyDecrypt lib key ct)
  if clear = plaintext then .ok () else .panic

/-- `try: decrypt(..) except Exception as ex: print(..)`: whether the exception was raised.  The script does not look at that: it also goes on if the
decryption succeeds.  A panic of the library is `PanicException`, which `except Exception` does not catch.
For /repo/src/interfaces/pyo3/tests/demo.py:59-112. -/
def tries (key ct : Bytes) : PyOut Bool :=
  match pyDecrypt lib key ct with
  | .ok _ => .ok false
  | .err _ => .ok true
  | .panic => .panic

/-- /repo/src/interfaces/pyo3/tests/demo.py: whether the three decryptions in `try` raised an exception, and the delegated key. -/
def demo (j : Texts) (d : Draws K Gt Nonce) : PyOut (List Bool × Bytes) := do
  let policy ← must (pyGeneratePolicy lib.serde j.axes 100)
  let master ← must (pyGenerateMasterKeys lib policy d.setup d.y)
  let topMkgFinUser ← must (pyGenerateUserPrivateKey lib master.1 "Security Level::Top Secret && (Department::MKG || Department::FIN)" policy (d.key 0))
  let mediumMkgUser ← must (pyGenerateUserPrivateKey lib master.1 "Security Level::Medium Secret && Department::MKG" policy (d.key 1))
  let lowMkg ← must (pyEncrypt lib j.metadata policy j.lowMkg master.2.1 plaintext (d.random 0) (d.enc 0) (d.nonce 0) (d.nonce' 0))
  let topMkg ← must (pyEncrypt lib j.metadata policy j.topMkg master.2.1 plaintext (d.random 1) (d.enc 1) (d.nonce 1) (d.nonce' 1))
  let lowFin ← must (pyEncrypt lib j.metadata policy j.lowFin master.2.1 plaintext (d.random 2) (d.enc 2) (d.nonce 2) (d.nonce' 2))
  opens lib mediumMkgUser lowMkg
  let r1 ← tries lib mediumMkgUser topMkg
  let r2 ← tries lib mediumMkgUser lowFin
  opens lib topMkgFinUser lowMkg
  opens lib topMkgFinUser topMkg
  opens lib topMkgFinUser lowFin
  let newPolicy ← must (pyRotateAttributes lib.serde j.low policy)
  let newLowMkg ← must (pyEncrypt lib j.metadata newPolicy j.lowMkg master.2.1 plaintext (d.random 3) (d.enc 3) (d.nonce 3) (d.nonce' 3))
  let r3 ← tries lib mediumMkgUser newLowMkg
  let newMediumMkgUser ← must (pyGenerateUserPrivateKey lib master.1 "Security Level::Medium Secret && Department::MKG" newPolicy (d.key 2))
  opens lib newMediumMkgUser newLowMkg
  let delegate ← must (pyGenerateDelegatedKey lib master.2.2 topMkgFinUser
    "(Department::FIN || Department::MKG) && Security Level::Medium Secret" policy (d.key 3))
  .ok ([r1, r2, r3], delegate)

end Abe.RepoPy
