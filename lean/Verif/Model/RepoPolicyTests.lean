import Verif.Model.Json
import Verif.Model.RepoTests

/-!
# The tests of the repository on policies and attributes as texts

Programs: tests of /repo/src/core/tests/policy_tests.rs, with the JSON and the attributes of `Verif.Model.Json`.  The tests on the parser of boolean expressions and on the equality of
access policies (/repo/src/core/tests/policy_tests.rs:59-86 and 108-163) only call `abe_policy` functions which are not modelled.
-/

namespace Abe.RepoPolicy

/-- The functions on texts; the parser of expressions is not used by these tests, /repo/src/core/tests/policy_tests.rs:8-57 and 88-106. -/
def serde : Serde := jsonSerde fun _ => none

/-- /repo/src/core/tests/policy_tests.rs:10-14. -/
def level : PolicyAxis := ⟨"Security Level", ["level 1", "level 2", "level 3", "level 4", "level 5"], true⟩
/-- /repo/src/core/tests/policy_tests.rs:15-19. -/
def department : PolicyAxis := ⟨"Department", ["R&D", "HR", "MKG", "fin"], false⟩

/-- `policy_group`, /repo/src/core/tests/policy_tests.rs:8-26.  `?` is an error, which is reported as `policyError`; the test does not compare the policies, the one that was read is
returned here. -/
def policyGroup (ord : Policy → Policy) : Out (Policy × Policy) := do
  let policy ← Res.ofOption .policyError ((ord (Policy.new 1000)).addAxis level)
  let policy ← Res.ofOption .policyError ((ord policy).addAxis department)
  let policy := ord policy
  let json ← Res.unwrap (serde.policyEnc policy)
  let read ← Res.unwrap (serde.policyDec json)
  .ok (policy, read)

/-- `Attribute::try_from` a text.  For /repo/src/core/tests/policy_tests.rs:28-44. -/
def tryFrom (s : String) : Option Attribute := Attribute.ofChars s.toList

/-- `attribute_parser`, /repo/src/core/tests/policy_tests.rs:28-44. -/
def attributeParser : Out Unit := do
  let _ ← Res.unwrap (Attribute.ofChars (Attribute.chars ⟨"Security Level", "level 1"⟩))
  assert (tryFrom "").isNone
  assert (tryFrom "A:B").isNone
  assert (tryFrom "::").isNone
  assert (tryFrom "::::").isNone
  let a ← Res.unwrap (tryFrom " Security Level::level 1  ")
  assert (a == ⟨"Security Level", "level 1"⟩)

/-- `attributes_parser`, /repo/src/core/tests/policy_tests.rs:46-57. -/
def attributesParser : Out Unit := do
  let attributes ← Res.unwrap (serde.attributesParse " Security Level::level 1 ,    Department::HR ")
  let a ← Res.unwrap (tryFrom "Security Level::level 1")
  let b ← Res.unwrap (tryFrom "Department::HR")
  assert (attributes == [a, b])

/-- /repo/src/core/tests/policy_tests.rs:90. -/
def java : String :=
  "{\"last_attribute_value\":10,\"max_attribute_creations\":1000,\"axes\":{\"Department\":[[\"HR\",\"MKG\",\"R&D\",\"fin\"],false],\"Security Level\":[[\"level 1\",\"level 2\",\"level 3\",\"level 4\",\"level 5\"],true]},\"attribute_to_int\":{\"Security Level::level 5\":[5],\"Security Level::level 3\":[3],\"Department::HR\":[10,6],\"Department::R&D\":[8],\"Security Level::level 4\":[4],\"Security Level::level 1\":[1],\"Department::MKG\":[7],\"Security Level::level 2\":[2],\"Department::fin\":[9]}}"

/-- `policy_group_from_java`, /repo/src/core/tests/policy_tests.rs:88-106. -/
def fromJava (json : Bytes) : Out Unit := do
  let policy ← Res.unwrap (serde.policyDec json)
  assert (policy.lastAttributeValue == 10)
  assert (policy.maxAttributeCreations == 1000)
  let dept ← Res.unwrap (hget policy.axes "Department")
  assert (!dept.2)
  assert (dept.1.contains "MKG")
  let hr ← Res.unwrap (hget policy.attributeToInt ⟨"Department", "HR"⟩)
  assert (hr == [10, 6])

end Abe.RepoPolicy
