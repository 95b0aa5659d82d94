import Verif.Model.Lib
import Verif.Model.Show
import Verif.Model.RepoBytesTests

/-!
# The tests of the engine on files

`generate_non_regression_files`, `generate_another_non_regression_files` and `symmetric_key_test` of /repo/src/core/tests/engine_tests.rs.  Creating and
writing files always succeeds here; the first two programs give the contents of the files, the third takes the contents of the files it includes.  Every
`unwrap` of an error is a panic.  Printing and the order of hash maps are left out (see `RepoTests` and C75 for the order).
-/

namespace Abe.RepoFiles

/-- `Result::unwrap`.  For example /repo/src/core/tests/engine_tests.rs:134. -/
def unwrapRes {ε α : Type} : Res ε α → Out α
  | .ok a => .ok a
  | _ => .panic

/-- The value of a digit for `hex::decode` (external crate `hex`): both cases are accepted. -/
def hexValue (c : Char) : Option Nat :=
  if '0' ≤ c ∧ c ≤ '9' then some (c.toNat - '0'.toNat)
  else if 'a' ≤ c ∧ c ≤ 'f' then some (c.toNat - 'a'.toNat + 10)
  else if 'A' ≤ c ∧ c ≤ 'F' then some (c.toNat - 'A'.toNat + 10)
  else none

/-- `hex::decode` (external crate `hex`): an even number of digits. -/
def hexDecode : List Char → Option Bytes
  | [] => some []
  | [_] => none
  | a :: b :: l =>
    match hexValue a, hexValue b, hexDecode l with
    | some x, some y, some r => some (UInt8.ofNat (16 * x + y) :: r)
    | _, _, _ => none

/-- /repo/src/core/tests/engine_tests.rs:19-26; also /repo/src/interfaces/wasm_bindgen/tests.rs:48-52. -/
def securityLevel : PolicyAxis := ⟨"Security Level", ["Protected", "Confidential", "Top Secret"], true⟩

/-- /repo/src/core/tests/engine_tests.rs:27. -/
def department : PolicyAxis := ⟨"Department", ["FIN", "MKG", "HR"], false⟩

/-- /repo/src/core/tests/engine_tests.rs:35-36. -/
def confidentialFin : AccessPolicy := .and (.attr ⟨"Security Level", "Confidential"⟩) (.attr ⟨"Department", "FIN"⟩)

/-- /repo/src/core/tests/engine_tests.rs:91-93. -/
def topFinMkg : AccessPolicy :=
  .and (.attr ⟨"Security Level", "Top Secret"⟩) (.or (.attr ⟨"Department", "FIN"⟩) (.attr ⟨"Department", "MKG"⟩))

/-- /repo/src/core/tests/engine_tests.rs:100-101. -/
def mediumMkg : AccessPolicy := .and (.attr ⟨"Security Level", "Medium Secret"⟩) (.attr ⟨"Department", "MKG"⟩)

/-- /repo/src/core/tests/engine_tests.rs:163-164, as parsed by `abe_policy`. -/
def topFin : AccessPolicy := .and (.attr ⟨"Security Level", "Top Secret"⟩) (.attr ⟨"Department", "FIN"⟩)

/-- Files read by the test.  /repo/src/core/tests/engine_tests.rs:128-170. -/
structure Files where
  publicKey : List Char
  policy : List Char
  userKey : List Char

variable {K G1 G2 G3 Gt Key Nonce : Type} [Field K] [DecidableEq K]
variable (e : External Key Nonce) (bm : BilinearMap K G1 G2 G3 Gt) (cs : Codecs K G2 G3 Gt) (serde : Serde) (t : Target)

/-- `hex::encode(policy.to_string())`, /repo/src/core/tests/engine_tests.rs:49; `to_string` fails, and panics, when the policy cannot be encoded. -/
def policyText (policy : Policy) : Out (List Char) := do
  let b ← Res.unwrap (serde.policyEnc policy)
  return hexEncode b

/-- `generate_non_regression_files`, /repo/src/core/tests/engine_tests.rs:15-55. -/
def generate (setup : Nat → K) (y : K) (key : Nat → K) : Out Files := do
  let policy ← Res.unwrap ((Policy.new 20).addAxis securityLevel)
  let policy ← Res.unwrap (policy.addAxis department)
  let mk ← unwrapRes (engineGenerateMasterKey bm policy setup y)
  let uk ← unwrapRes (engineGenerateUserKey bm policy mk.privKey confidentialFin key)
  let publicKey ← keyDisplay (pubKeyCodec t cs) mk.pubKey
  let policy ← policyText serde policy
  let userKey ← keyDisplay (userKeyCodec t cs bm) uk
  return ⟨publicKey, policy, userKey⟩

/-- `generate_another_non_regression_files`, /repo/src/core/tests/engine_tests.rs:57-126: the files with the first and with the second user key, and the
file of the private key. -/
def generateAnother (setup : Nat → K) (y : K) (key key' : Nat → K) : Out (Files × Files × List Char) := do
  let policy ← Res.unwrap ((Policy.new 20).addAxis RepoDemo.securityLevel)
  let policy ← Res.unwrap (policy.addAxis RepoDemo.department)
  let mk ← unwrapRes (engineGenerateMasterKey bm policy setup y)
  let top ← unwrapRes (engineGenerateUserKey bm policy mk.privKey topFinMkg key)
  let medium ← unwrapRes (engineGenerateUserKey bm policy mk.privKey mediumMkg key')
  let publicKey ← keyDisplay (pubKeyCodec t cs) mk.pubKey
  let privateKey ← keyDisplay (privKeyCodec t cs) mk.privKey
  let policy ← policyText serde policy
  let top ← keyDisplay (userKeyCodec t cs bm) top
  let medium ← keyDisplay (userKeyCodec t cs bm) medium
  return (⟨publicKey, policy, top⟩, ⟨publicKey, policy, medium⟩, privateKey)

/-- `symmetric_key_test`, /repo/src/core/tests/engine_tests.rs:128-170. -/
def symmetricKeyTest (f : Files) (random : Gt) (s : K) (setup : Nat → K) (y : K) (key : Nat → K) : Out Unit := do
  let pb ← Res.unwrap (hexDecode f.publicKey)
  let publicKey ← unwrapRes ((pubKeyCodec t cs).dec pb)
  let pj ← Res.unwrap (hexDecode f.policy)
  let policy ← Res.unwrap (serde.policyDec pj)
  let kb ← Res.unwrap (hexDecode f.userKey)
  let userKey ← unwrapRes ((userKeyCodec t cs bm).dec kb)
  let r ← unwrapRes (generateSymmetricKey e bm cs t policy publicKey RepoHybrid.attributes 32 random s)
  assert (32 == r.1.length)
  let k ← unwrapRes (decryptSymmetricKey e bm cs t userKey r.2 32)
  assert (r.1 == k)
  let mk ← unwrapRes (engineGenerateMasterKey bm policy setup y)
  let _ ← keyDisplay (pubKeyCodec t cs) mk.pubKey
  let uk ← unwrapRes (engineGenerateUserKey bm policy mk.privKey topFin key)
  let _ ← keyDisplay (userKeyCodec t cs bm) uk

end Abe.RepoFiles
