import Verif.Model.RepoPyDemo
import Verif.Model.Ffi

/-!
# The notebook on the Python interface

/repo/src/interfaces/pyo3/tests/notebooks/confidential-data-access.ipynb as a program: its code cells in order.  The notebook imports the module as `abe_gpsw`, which is now
called `cosmian_abe_gpsw` (/repo/src/interfaces/pyo3/mod.rs:23); the model takes the functions of the latter.  The texts made by `json.dumps` and random draws are
arguments.  An exception that is not caught ends the notebook (`panic`).  Of what is printed, the model keeps the clear texts and which calls failed; the conversion of
clear texts from UTF-8 is left out.
-/

namespace Abe.RepoNotebook

open RepoPy (must Draws)

variable {K G1 G2 G3 Gt Key Nonce : Type} [Field K] [DecidableEq K] (lib : Lib K G1 G2 G3 Gt Key Nonce)

/-- The texts of the notebook, /repo/src/interfaces/pyo3/tests/notebooks/confidential-data-access.ipynb:105-128,237-238,327,387,434-435,451-452. -/
structure Texts where
  axes : Bytes
  metadata : Bytes
  mediumMkg : Bytes
  topMkg : Bytes
  mediumHr : Bytes
  medium : Bytes

/-- The clear texts, /repo/src/interfaces/pyo3/tests/notebooks/confidential-data-access.ipynb:239,328,388,453. -/
def plain : Nat → Bytes
  | 0 => utf8 "✅ Marketing message medium secret"
  | 1 => utf8 "✅ Marketing message top_secret"
  | 2 => utf8 "✅ human resources message medium secret"
  | _ => utf8 "✅ New marketing message medium secret"

/-- `abe_decrypt`: the clear text which is printed, or none if the failure is.  A panic of the library is `PanicException`, which `except Exception` does not catch.
/repo/src/interfaces/pyo3/tests/notebooks/confidential-data-access.ipynb:27-34. -/
def abeDecrypt (key ct : Bytes) : PyOut (Option Bytes) :=
  match pyDecrypt lib key ct with
  | .ok b => .ok (some b)
  | .err _ => .ok none
  | .panic => .panic

/-- `try: .. except Exception as err: print(..)`: whether the failure is printed.
/repo/src/interfaces/pyo3/tests/notebooks/confidential-data-access.ipynb:651-661. -/
def fails {α : Type} : PyOut α → PyOut Bool
  | .ok _ => .ok false
  | .err _ => .ok true
  | .panic => .panic

/-- `try: .. except: print(..)`, which also catches a panic of the library.
/repo/src/interfaces/pyo3/tests/notebooks/confidential-data-access.ipynb:678-688. -/
def failsAnyhow {α : Type} : PyOut α → PyOut Bool
  | .ok _ => .ok false
  | _ => .ok true

/-- The expressions of the notebook, /repo/src/interfaces/pyo3/tests/notebooks/confidential-data-access.ipynb:193,199,205,508,587,593,618,625,655,682. -/
def aliceStr : String := "Department::Marketing && Security Level::Medium Secret"
/-- Line 199 of the notebook. /repo/src/interfaces/pyo3/tests/notebooks/confidential-data-access.ipynb:199,655. -/
def bobStr : String := "Department::Marketing && Security Level::Top Secret"
/-- Line 205 of the notebook. /repo/src/interfaces/pyo3/tests/notebooks/confidential-data-access.ipynb:205. -/
def carolStr : String := "Department::Human Resources && Security Level::Medium Secret"
/-- Line 587 of the notebook. /repo/src/interfaces/pyo3/tests/notebooks/confidential-data-access.ipynb:587. -/
def superStr : String :=
  "(Department::Finance || Department::Marketing || Department::R&D || Department::Human Resources) && Security Level::Top Secret"
/-- Line 593 of the notebook. /repo/src/interfaces/pyo3/tests/notebooks/confidential-data-access.ipynb:593. -/
def delegateStr : String := "(Department::Finance || Department::Marketing) && Security Level::High Secret"
/-- Line 618 of the notebook. /repo/src/interfaces/pyo3/tests/notebooks/confidential-data-access.ipynb:618,625. -/
def userStr : String := "Department::Marketing && Security Level::High Secret"
/-- Line 682 of the notebook. /repo/src/interfaces/pyo3/tests/notebooks/confidential-data-access.ipynb:682. -/
def hrStr : String := "Department::Human Resources && Security Level::Top Secret"

/-- The notebook: what the 12 decryptions print, the keys made by delegation, and whether the last two delegations fail.
/repo/src/interfaces/pyo3/tests/notebooks/confidential-data-access.ipynb:147-690. -/
def run (j : Texts) (d : Draws K Gt Nonce) : PyOut (List (Option Bytes) × List Bytes × List Bool) := do
  let policy ← must (pyGeneratePolicy lib.serde j.axes 100)
  let master ← must (pyGenerateMasterKeys lib policy d.setup d.y)
  let alice ← must (pyGenerateUserPrivateKey lib master.1 aliceStr policy (d.key 0))
  let bob ← must (pyGenerateUserPrivateKey lib master.1 bobStr policy (d.key 1))
  let carol ← must (pyGenerateUserPrivateKey lib master.1 carolStr policy (d.key 2))
  let mediumMkg ← must (pyEncrypt lib j.metadata policy j.mediumMkg master.2.1 (plain 0) (d.random 0) (d.enc 0) (d.nonce 0) (d.nonce' 0))
  let r0 ← abeDecrypt lib alice mediumMkg
  let r1 ← abeDecrypt lib bob mediumMkg
  let r2 ← abeDecrypt lib carol mediumMkg
  let topMkg ← must (pyEncrypt lib j.metadata policy j.topMkg master.2.1 (plain 1) (d.random 1) (d.enc 1) (d.nonce 1) (d.nonce' 1))
  let r3 ← abeDecrypt lib alice topMkg
  let r4 ← abeDecrypt lib bob topMkg
  let r5 ← abeDecrypt lib carol topMkg
  let mediumHr ← must (pyEncrypt lib j.metadata policy j.mediumHr master.2.1 (plain 2) (d.random 2) (d.enc 2) (d.nonce 2) (d.nonce' 2))
  let r6 ← abeDecrypt lib alice mediumHr
  let r7 ← abeDecrypt lib bob mediumHr
  let r8 ← abeDecrypt lib carol mediumHr
  let newPolicy ← must (pyRotateAttributes lib.serde j.medium policy)
  let newMediumMkg ← must (pyEncrypt lib j.metadata newPolicy j.mediumMkg master.2.1 (plain 3) (d.random 3) (d.enc 3) (d.nonce 3) (d.nonce' 3))
  let r9 ← abeDecrypt lib alice newMediumMkg
  let newAlice ← must (pyGenerateUserPrivateKey lib master.1 aliceStr newPolicy (d.key 3))
  let r10 ← abeDecrypt lib newAlice newMediumMkg
  let r11 ← abeDecrypt lib newAlice mediumMkg
  let superDelegate ← must (pyGenerateUserPrivateKey lib master.1 superStr policy (d.key 4))
  let delegate ← must (pyGenerateDelegatedKey lib master.2.2 superDelegate delegateStr policy (d.key 5))
  let user ← must (pyGenerateDelegatedKey lib master.2.2 superDelegate userStr policy (d.key 6))
  let user' ← must (pyGenerateDelegatedKey lib master.2.2 delegate userStr policy (d.key 7))
  let f0 ← fails (pyGenerateDelegatedKey lib master.2.2 delegate bobStr policy (d.key 8))
  let f1 ← failsAnyhow (pyGenerateDelegatedKey lib master.2.2 delegate hrStr policy (d.key 9))
  .ok ([r0, r1, r2, r3, r4, r5, r6, r7, r8, r9, r10, r11], [delegate, user, user'], [f0, f1])

end Abe.RepoNotebook
