import Verif.Model.RepoTests
import Verif.Model.Hybrid
import Verif.Model.Show

/-!
# More tests of the repository: text, bytes and headers

Programs as in `Verif.Model.RepoTests`, from /repo/src/core/tests/msp_tests.rs, /repo/src/core/tests/gpsw_tests.rs,
/repo/src/core/tests/policy_tests.rs, /repo/src/core/bilinear_map/bls12_381.rs and /repo/src/interfaces/hybrid_crypto/tests/mod.rs.  A test marked
`#[should_panic]` succeeds if its program panics.
-/

namespace Abe

/-- `Result::unwrap`.  For example /repo/src/core/tests/msp_tests.rs:16-99. -/
def unwrapCall {ε α : Type} : Res ε α → Out α
  | .ok a => .ok a
  | _ => .panic

/-- `Result::is_err` of a parse; a panic goes through.  For example /repo/src/core/tests/msp_tests.rs:16-99. -/
def isErrParse {ε α : Type} : Res ε α → Out Bool
  | .ok _ => .ok false
  | .err _ => .ok true
  | .panic => .panic

/-- `assert_eq!` on two span programs.  /repo/src/core/tests/msp_tests.rs:47-63. -/
def assertSame {I : Type} [DecidableEq I] (m m' : Msp I) : Out Unit := assert (m.eq m')

/-- `assert_ne!` on two span programs.  /repo/src/core/tests/msp_tests.rs:47-63. -/
def assertDiffer {I : Type} [DecidableEq I] (m m' : Msp I) : Out Unit := assert (!m.eq m')

/-- `1 & (4 | (2 & 3))`, /repo/src/core/tests/msp_tests.rs:38-39. -/
def testFormula : Node := .and (.leaf 1) (.or (.leaf 4) (.and (.leaf 2) (.leaf 3)))

namespace RepoMsp

/-- `parsing`, /repo/src/core/tests/msp_tests.rs:16-45. -/
def parsing (t : Target) : Out Unit := do
  let a ← (Node.leaf 1).toMsp
  let ab ← (Node.and (.leaf 1) (.leaf 2)).toMsp
  let aob ← (Node.or (.leaf 1) (.leaf 2)).toMsp
  assertSame (← Msp.parse t "1".toList) a
  assertSame (← Msp.parse t "1&2".toList) ab
  assertSame (← Msp.parse t " 1 | 2 ".toList) aob
  assertSame (← Msp.parse t "(1&2)".toList) ab
  assertSame (← Msp.parse t "((1&2))".toList) ab
  assertSame (← Msp.parse t "((1)&(2))".toList) ab
  assertSame (← Msp.parse t "((1))&((2))".toList) ab
  assertSame (← Msp.parse t "(((1))&((2)))".toList) ab
  let m ← testFormula.toMsp
  assertSame m (← Msp.parse t "1 & (4 | (2 & 3))".toList)

/-- `test_equality`, /repo/src/core/tests/msp_tests.rs:47-63. -/
def equality (t : Target) : Out Unit := do
  let m1 ← Msp.parse t "1 & (4 | (2 & 3))".toList
  let m2 ← Msp.parse t "1 & (4 | (2 & 3))".toList
  let m3 ← Msp.parse t "1 & 2".toList
  assertSame m1 m2
  assertDiffer m2 m3
  assertDiffer (← Msp.parse t "1&2".toList) (← Msp.parse t "1|2".toList)

/-- `parsing_multi`, /repo/src/core/tests/msp_tests.rs:65-73. -/
def parsingMulti (t : Target) : Res ParsingError Unit := do
  let _ ← Node.parse t "1 & (4 | (2 & 3))".toList
  let _ ← Node.parse t "(1 & 2) | (2 & 3)".toList
  let _ ← Node.parse t "1 | 2".toList
  let _ ← Node.parse t "1 | (2 & 3)".toList
  let _ ← Node.parse t "(1 & 2) | 3".toList
  .ok ()

/-- `parsing_fail`, /repo/src/core/tests/msp_tests.rs:75-85. -/
def parsingFail (t : Target) : Out Unit := do
  assert (← isErrParse (Node.parse t "1 & 4 | (2 & 3))".toList))
  assert (← isErrParse (Node.parse t "(1 & 2)  (2 & 3)".toList))
  assert (← isErrParse (Node.parse t "1 | ".toList))
  assert (← isErrParse (Node.parse t "1 | 2 & 3)".toList))

/-- `parsing_with_failures` (should panic), /repo/src/core/tests/msp_tests.rs:87-92. -/
def withFailures (t : Target) : Out Node := unwrapCall (Node.parse t "1 && (4 | (2 & 3))".toList)

/-- `parsing_with_bad_formula` (should panic), /repo/src/core/tests/msp_tests.rs:94-99. -/
def badFormula (t : Target) : Out Node := unwrapCall (Node.parse t "1 && ((4 | 2 & 3)))".toList)

/-- `leaf_already_inserted` (should panic), /repo/src/core/tests/msp_tests.rs:138-142. -/
def alreadyInserted (t : Target) : Out (Msp Int) := do
  let n ← unwrapCall (Node.parse t "3 & (4 | (2 & 3))".toList)
  unwrapCall n.toMsp

/-- `msp_as_bytes`, /repo/src/core/tests/msp_tests.rs:115-136, for any formula; the entries are `i32`. -/
def asBytes (t : Target) (formula : Node) : Out Unit := do
  let m ← formula.toMsp
  let m := m.convert Int32.ofInt
  let b ← (mspCodec t i32Codec).enc m
  let m' ← (mspCodec t i32Codec).dec b
  assert (m.nbRow == m'.nbRow)
  assert (m.nbCol == m'.nbCol)
  assert (m.rowToAttr == m'.rowToAttr)
  assert (m.matrix == m'.matrix)
  assert (hashEq m.attrToRow m'.attrToRow)

end RepoMsp

namespace RepoBytes

/-- `*_as_bytes`, /repo/src/core/bilinear_map/bls12_381.rs:346-380: the same program for scalars, points and elements of the target group. -/
def element {α : Type} [DecidableEq α] (c : Codec α) (x : α) : Out Unit := do
  let b ← c.enc x
  let x' ← c.dec b
  assert (x == x')

variable {K G1 G2 G3 Gt : Type} [Field K] [DecidableEq K]

/-- `user_key_as_bytes`, /repo/src/core/tests/gpsw_tests.rs:43-66. -/
def userKey [DecidableEq G3] (bm : BilinearMap K G1 G2 G3 Gt) (cs : Codecs K G2 G3 Gt) (t : Target) (d : TestDraws K Gt) : Out Unit := do
  let msp ← testFormula.toMsp
  let mk ← generateMasterKey bm 10 d.setup d.y
  let uk ← keyGeneration bm msp mk.privKey (d.key 0)
  let b ← (userKeyCodec t cs bm).enc uk
  let uk' ← (userKeyCodec t cs bm).dec b
  assertSame uk.msp uk'.msp
  assert (uk.rawDI == uk'.rawDI)

/-- `ciphertext_as_bytes`, /repo/src/core/tests/gpsw_tests.rs:68-93; `d.msg 0` stands for the encoding of the bytes of "test" (C34). -/
def ciphertext [DecidableEq G2] [DecidableEq Gt] (bm : BilinearMap K G1 G2 G3 Gt) (cs : Codecs K G2 G3 Gt) (t : Target) (d : TestDraws K Gt) :
    Out Unit := do
  let _ ← testFormula.toMsp
  let mk ← generateMasterKey bm 10 d.setup d.y
  let enc ← encrypt bm t (d.msg 0) [1, 4] mk.pubKey (d.enc 0)
  let b ← (cipherTextCodec t cs).enc enc
  let enc' ← (cipherTextCodec t cs).dec b
  assert (enc.gamma == enc'.gamma)
  assert (decide (enc.ePrime = enc'.ePrime))
  assert (enc.eI == enc'.eI)

/-- `master_public_key_as_bytes`, /repo/src/core/tests/gpsw_tests.rs:95-116. -/
def publicKey [DecidableEq G2] [DecidableEq Gt] (bm : BilinearMap K G1 G2 G3 Gt) (cs : Codecs K G2 G3 Gt) (t : Target) (d : TestDraws K Gt) :
    Out Unit := do
  let _ ← testFormula.toMsp
  let mk ← generateMasterKey bm 10 d.setup d.y
  let b ← (pubKeyCodec t cs).enc mk.pubKey
  let k ← (pubKeyCodec t cs).dec b
  assert (mk.pubKey.tI == k.tI)
  assert (decide (mk.pubKey.y = k.y))

/-- `master_private_key_as_bytes`, /repo/src/core/tests/gpsw_tests.rs:169-181. -/
def privateKey (bm : BilinearMap K G1 G2 G3 Gt) (cs : Codecs K G2 G3 Gt) (t : Target) (d : TestDraws K Gt) : Out Unit := do
  let mk ← generateMasterKey bm 10 d.setup d.y
  let b ← (privKeyCodec t cs).enc mk.privKey
  let k ← (privKeyCodec t cs).dec b
  assert (mk.privKey.tI == k.tI)
  assert (decide (mk.privKey.y = k.y))

/-- `master_public_delegation_key_as_bytes`, /repo/src/core/tests/gpsw_tests.rs:183-194. -/
def delegationKey [DecidableEq G3] (bm : BilinearMap K G1 G2 G3 Gt) (cs : Codecs K G2 G3 Gt) (t : Target) (d : TestDraws K Gt) : Out Unit := do
  let mk ← generateMasterKey bm 10 d.setup d.y
  let b ← (delKeyCodec t cs).enc mk.delKey
  let k ← (delKeyCodec t cs).dec b
  assert (mk.delKey.invTI == k.invTI)

end RepoBytes

namespace RepoVerify

/-- /repo/src/core/tests/policy_tests.rs:169-173. -/
def level : PolicyAxis := ⟨"Level", ["level 1", "level 2", "level 3", "level 4", "level 5"], true⟩
/-- /repo/src/core/tests/policy_tests.rs:177-181. -/
def department : PolicyAxis := ⟨"Department", ["R&D", "HR", "MKG", "fin"], false⟩

/-- /repo/src/core/tests/policy_tests.rs:184, 191 and 197, with the axis and the name of the first attribute. -/
def policyWith (axis name : String) : AccessPolicy :=
  .and (.or (.attr ⟨axis, name⟩) (.attr ⟨"Department", "R&D"⟩)) (.attr ⟨"Level", "level 2"⟩)

/-- `verify_access_policy`, /repo/src/core/tests/policy_tests.rs:166-202. -/
def test (ord : Policy → Policy) : Out Unit := do
  let policy ← Res.unwrap ((ord (Policy.new 1000)).addAxis level)
  let policy ← Res.unwrap ((ord policy).addAxis department)
  let policy := ord policy
  let _ ← unwrapCall (policyToMsp policy (policyWith "Department" "HR"))
  assert (← isErrCall (policyToMsp policy (policyWith "Axis_Name_Not_Existing_in_Policy" "HR")))
  assert (← isErrCall (policyToMsp policy (policyWith "Department" "Attribute_Value_Not_Existing_in_Policy")))

end RepoVerify

namespace RepoHybrid

variable {K G1 G2 G3 Gt Key Nonce : Type} [Field K] [DecidableEq K]

/-- /repo/src/interfaces/hybrid_crypto/tests/mod.rs:41-44. -/
def attributes : List Attribute := [⟨"Department", "FIN"⟩, ⟨"Security Level", "Top Secret"⟩]

/-- /repo/src/interfaces/hybrid_crypto/tests/mod.rs:45-48. -/
def metaData : Metadata := ⟨[1, 2, 3, 4, 5, 6, 7, 8, 9], some [10, 11, 12, 13, 14]⟩

/-- /repo/src/interfaces/hybrid_crypto/tests/mod.rs:60. -/
def clearText : Bytes := [1, 2, 3, 4, 5, 6, 7, 8, 9]

/-- `test_aes_hybrid_encryption`, /repo/src/interfaces/hybrid_crypto/tests/mod.rs:26-103.  The public key, the policy and the user key, which the test
reads from JSON files, are arguments (the keys as bytes). -/
def test (e : External Key Nonce) (bm : BilinearMap K G1 G2 G3 Gt) (cs : Codecs K G2 G3 Gt) (t : Target) (publicKey : Bytes) (policy : Policy)
    (userKey : Bytes) (random : Gt) (s : K) (nonce nonce' : Nonce) : Out Unit := do
  let pub ← (pubKeyCodec t cs).dec publicKey
  let header ← encryptHybridHeader e bm cs t policy pub attributes (some metaData) random s nonce
  assert (32 == (e.keyEnc header.symmetricKey).length)
  let block ← encryptHybridBlock e (2 ^ 30) header.symmetricKey metaData.uid 0 clearText nonce'
  assert (clearText.length + symmetricEncryptionOverhead e == block.length)
  let key ← (userKeyCodec t cs bm).dec userKey
  let _ ← (userKeyCodec t cs bm).enc key
  let header' ← decryptHybridHeader e bm cs t key header.encryptedHeaderBytes
  assert (e.keyEnc header.symmetricKey == e.keyEnc header'.symmetricKey)
  assert (decide (metaData = header'.metaData))
  let clear ← decryptHybridBlock e (2 ^ 30) header'.symmetricKey header'.metaData.uid 0 block
  assert (clearText == clear)

end RepoHybrid

end Abe
