import Verif.Model.Engine
import Verif.Model.Parse

/-!
# The tests of the repository

Programs: the demonstration /repo/src/core/demo.rs and tests of /repo/src/core/tests.  A failing `assert!`, `expect` or `unwrap` is a panic, `?` returns
the error.  Random draws are parameters.  Boolean expressions and attribute lists are parsed by `abe_policy` (external) and given here as the values they
denote.  `ord` stands for the order of the hash maps of a policy, which may change with every operation on it.  Printing is left out.
-/

namespace Abe

variable {K G1 G2 G3 Gt : Type} [Field K] [DecidableEq K]

/-- `assert!`.  For /repo/src/core/demo.rs:19-327. -/
def assert (b : Bool) : Out Unit := if b then .ok () else .panic

/-- `Result::is_err` of a call; a panic of the call goes through.  For /repo/src/core/demo.rs:19-327. -/
def isErrCall {α : Type} : Out α → Out Bool
  | .ok _ => .ok false
  | .err _ => .ok true
  | .panic => .panic

/-- `decrypt(..)?.expect(..)` followed by `assert_eq!` with the message.  For /repo/src/core/demo.rs:19-327. -/
def assertOpens [DecidableEq Gt] (bm : BilinearMap K G1 G2 G3 Gt) (ct : CipherText G2 Gt) (key : DecryptionKey K G1 G3) (msg : Gt) : Out Unit := do
  let r ← engineDecrypt bm ct key
  let m ← Res.unwrap r
  assert (decide (msg = m))

/-- `decrypt(..)?` followed by `assert!(result.is_none())`.  For /repo/src/core/demo.rs:19-327. -/
def assertNone (bm : BilinearMap K G1 G2 G3 Gt) (ct : CipherText G2 Gt) (key : DecryptionKey K G1 G3) : Out Unit := do
  let r ← engineDecrypt bm ct key
  assert r.isNone

/-- What the random generator yields in a test.  For /repo/src/core/demo.rs:19-327. -/
structure TestDraws (K Gt : Type) where
  /-- scalars of the master key -/
  setup : Nat → K
  /-- secret of the master key -/
  y : K
  /-- scalars of the i-th key made -/
  key : Nat → Nat → K
  /-- i-th message -/
  msg : Nat → Gt
  /-- scalar of the i-th encryption -/
  enc : Nat → K

namespace RepoDemo

/-- /repo/src/core/demo.rs:52-62. -/
def securityLevel : PolicyAxis := ⟨"Security Level", ["Protected", "Low Secret", "Medium Secret", "High Secret", "Top Secret"], true⟩

/-- /repo/src/core/demo.rs:64-68. -/
def department : PolicyAxis := ⟨"Department", ["R&D", "HR", "MKG", "FIN"], false⟩

/-- An attribute of an axis of /repo/src/core/demo.rs:52-68. -/
def level (s : String) : Attribute := ⟨"Security Level", s⟩
/-- An attribute of an axis of /repo/src/core/demo.rs:52-68. -/
def dept (s : String) : Attribute := ⟨"Department", s⟩

/-- /repo/src/core/demo.rs:99-101. -/
def highMkgFin : AccessPolicy := .and (.attr (level "High Secret")) (.or (.attr (dept "MKG")) (.attr (dept "FIN")))
/-- /repo/src/core/demo.rs:111-113. -/
def topMkgFin : AccessPolicy := .and (.attr (level "Top Secret")) (.or (.attr (dept "MKG")) (.attr (dept "FIN")))
/-- /repo/src/core/demo.rs:131-132. -/
def mediumMkg : AccessPolicy := .and (.attr (level "Medium Secret")) (.attr (dept "MKG"))
/-- /repo/src/core/demo.rs:153-154. -/
def topMkg : AccessPolicy := .and (.attr (level "Top Secret")) (.attr (dept "MKG"))
/-- /repo/src/core/demo.rs:165-166. -/
def mediumHr : AccessPolicy := .and (.attr (level "Medium Secret")) (.attr (dept "HR"))

/-- `abe`, /repo/src/core/demo.rs:19-327. -/
def abe [DecidableEq Gt] (bm : BilinearMap K G1 G2 G3 Gt) (t : Target) (ord : Policy → Policy) (d : TestDraws K Gt) : Out Unit := do
  let policy ← Res.ofOption .policyError ((ord (Policy.new 100)).addAxis securityLevel)
  let policy ← Res.ofOption .policyError ((ord policy).addAxis department)
  let policy := ord policy
  let mk ← engineGenerateMasterKey bm policy d.setup d.y
  let highDelegate ← engineGenerateUserKey bm policy mk.privKey highMkgFin (d.key 0)
  let _ ← engineGenerateUserKey bm policy mk.privKey topMkgFin (d.key 1)
  let superDelegate ← engineGenerateUserKey bm policy mk.privKey .all (d.key 2)
  let _ ← engineDelegateUserKey bm policy mk.delKey superDelegate mediumMkg (d.key 3)
  let user ← engineDelegateUserKey bm policy mk.delKey highDelegate mediumMkg (d.key 4)
  let e ← isErrCall (engineDelegateUserKey bm policy mk.delKey highDelegate topMkg (d.key 5))
  assert e
  let e ← isErrCall (engineDelegateUserKey bm policy mk.delKey highDelegate mediumHr (d.key 6))
  assert e
  let superUser ← engineDelegateUserKey bm policy mk.delKey superDelegate .all (d.key 7)
  let lowMkgCt ← engineEncrypt bm t policy mk.pubKey [level "Low Secret", dept "MKG"] (d.msg 0) (d.enc 0)
  assertOpens bm lowMkgCt user (d.msg 0)
  assertOpens bm lowMkgCt superUser (d.msg 0)
  let topMkgCt ← engineEncrypt bm t policy mk.pubKey [level "Top Secret", dept "MKG"] (d.msg 1) (d.enc 1)
  assertNone bm topMkgCt user
  assertOpens bm topMkgCt superUser (d.msg 1)
  let lowHrCt ← engineEncrypt bm t policy mk.pubKey [level "Low Secret", dept "HR"] (d.msg 2) (d.enc 2)
  assertNone bm lowHrCt user
  assertOpens bm lowHrCt superUser (d.msg 2)
  let policy ← Res.ofOption .policyError (policy.rotate (level "Low Secret"))
  let policy := ord policy
  let newCt ← engineEncrypt bm t policy mk.pubKey [level "Low Secret", dept "MKG"] (d.msg 3) (d.enc 3)
  assertNone bm newCt user
  assertOpens bm newCt superUser (d.msg 3)
  let highDelegate ← engineGenerateUserKey bm policy mk.privKey highMkgFin (d.key 8)
  let user ← engineDelegateUserKey bm policy mk.delKey highDelegate mediumMkg (d.key 9)
  assertOpens bm newCt user (d.msg 3)
  assertOpens bm lowMkgCt user (d.msg 0)

end RepoDemo

namespace RepoComplex

/-- /repo/src/core/tests/engine_tests.rs:177-181. -/
def entity : PolicyAxis := ⟨"Entity", ["BCEF", "BNPPF", "CIB", "CashMgt"], false⟩
/-- /repo/src/core/tests/engine_tests.rs:185-189. -/
def country : PolicyAxis := ⟨"Country", ["France", "Germany", "Italy", "Hungary", "Spain", "Belgium"], false⟩

/-- /repo/src/core/tests/engine_tests.rs:196-199; `||` associates to the left in the parser of `abe_policy` or to the right, here to the right. -/
def bnppfAll : AccessPolicy :=
  .and (.attr ⟨"Entity", "BNPPF"⟩) (.or (.attr ⟨"Country", "France"⟩) (.or (.attr ⟨"Country", "Germany"⟩) (.or (.attr ⟨"Country", "Italy"⟩)
    (.or (.attr ⟨"Country", "Hungary"⟩) (.or (.attr ⟨"Country", "Spain"⟩) (.attr ⟨"Country", "Belgium"⟩))))))

/-- `complex_access_policy_test`, /repo/src/core/tests/engine_tests.rs:172-257.  `Result::unwrap` panics on an error; the access policy read back from
JSON is the access policy. -/
def test [DecidableEq Gt] (bm : BilinearMap K G1 G2 G3 Gt) (t : Target) (ord : Policy → Policy) (d : TestDraws K Gt) : Out Unit := do
  let policy ← Res.unwrap ((ord (Policy.new 100)).addAxis entity)
  let policy ← Res.unwrap ((ord policy).addAxis country)
  let policy := ord policy
  let mk ← unwrapRes (engineGenerateMasterKey bm policy d.setup d.y)
  let _ ← unwrapRes (policyToMsp policy bnppfAll)
  let user ← unwrapRes (engineGenerateUserKey bm policy mk.privKey bnppfAll (d.key 0))
  let e ← isErrCall (engineEncrypt bm t policy mk.pubKey [⟨"Bad_Entity", "BNPPF"⟩, ⟨"Country", "France"⟩] (d.msg 0) (d.enc 0))
  assert e
  let ct ← unwrapRes (engineEncrypt bm t policy mk.pubKey [⟨"Entity", "BNPPF"⟩, ⟨"Country", "France"⟩] (d.msg 0) (d.enc 1))
  let r ← unwrapRes (engineDecrypt bm ct user)
  let m ← Res.unwrap r
  assert (decide (d.msg 0 = m))
  let user' ← unwrapRes (engineGenerateUserKey bm policy mk.privKey bnppfAll (d.key 1))
  let r ← unwrapRes (engineDecrypt bm ct user')
  let m ← Res.unwrap r
  assert (decide (d.msg 0 = m))
where
  /-- `Result::unwrap`. -/
  unwrapRes {α : Type} : Out α → Out α
    | .ok a => .ok a
    | _ => .panic

end RepoComplex

/-- `encrypt_decrypt_with_multiple_key_pair`, /repo/src/core/tests/gpsw_tests.rs:118-167; `msg` stands for the encoding of the bytes of "test"
(C34). -/
def multipleKeyPairTest [DecidableEq Gt] (bm : BilinearMap K G1 G2 G3 Gt) (t : Target) (d : TestDraws K Gt) : Out Unit := do
  let policy1 ← Msp.parse t "1 | 2".toList
  let policy2 ← Msp.parse t "1 & 2".toList
  let policy3 ← Msp.parse t "1".toList
  let policy4 ← Msp.parse t "1 & 3".toList
  let policy5 ← Msp.parse t "1 | 3".toList
  let mk ← generateMasterKey bm 10 d.setup d.y
  let uk1 ← keyGeneration bm policy1 mk.privKey (d.key 0)
  let uk2 ← keyGeneration bm policy2 mk.privKey (d.key 1)
  let uk3 ← keyGeneration bm policy3 mk.privKey (d.key 2)
  let uk4 ← keyGeneration bm policy4 mk.privKey (d.key 3)
  let uk5 ← keyGeneration bm policy5 mk.privKey (d.key 4)
  let ct ← encrypt bm t (d.msg 0) [1, 2] mk.pubKey (d.enc 0)
  assertOpens bm ct uk1 (d.msg 0)
  assertOpens bm ct uk2 (d.msg 0)
  assertOpens bm ct uk3 (d.msg 0)
  assertNone bm ct uk4
  assertOpens bm ct uk5 (d.msg 0)

/-- `encrypt_decrypt`, /repo/src/core/tests/gpsw_tests.rs:16-41.  The comparison of the messages is only printed. -/
def encryptDecryptTest [DecidableEq Gt] (bm : BilinearMap K G1 G2 G3 Gt) (t : Target) (d : TestDraws K Gt) : Out Bool := do
  let msp ← (Node.and (.leaf 1) (.or (.leaf 4) (.and (.leaf 2) (.leaf 3)))).toMsp
  let mk ← generateMasterKey bm 10 d.setup d.y
  let uk ← keyGeneration bm msp mk.privKey (d.key 0)
  let ct ← encrypt bm t (d.msg 0) [1, 4] mk.pubKey (d.enc 0)
  let r ← decrypt bm ct uk
  let m ← Res.unwrap r
  .ok (decide (d.msg 0 = m))

end Abe
