import Verif.Model.RepoPolicyTests
import Verif.Props.JsonRepo
import Verif.Props.RepoBytesTests

/-!
# C74 for the tests of policies and attributes as texts
-/

namespace Abe

namespace RepoPolicy

/-- The policies of `policy_group`, in one order. -/
def levels : Policy :=
  ⟨5, 1000, [("Security Level", (["level 1", "level 2", "level 3", "level 4", "level 5"], true))],
    [(⟨"Security Level", "level 5"⟩, [5]), (⟨"Security Level", "level 4"⟩, [4]), (⟨"Security Level", "level 3"⟩, [3]), (⟨"Security Level", "level 2"⟩, [2]), (⟨"Security Level", "level 1"⟩, [1])]⟩

def policy : Policy :=
  ⟨9, 1000, [("Department", (["R&D", "HR", "MKG", "fin"], false)), ("Security Level", (["level 1", "level 2", "level 3", "level 4", "level 5"], true))],
    [(⟨"Department", "fin"⟩, [9]), (⟨"Department", "MKG"⟩, [8]), (⟨"Department", "HR"⟩, [7]), (⟨"Department", "R&D"⟩, [6]),
      (⟨"Security Level", "level 5"⟩, [5]), (⟨"Security Level", "level 4"⟩, [4]), (⟨"Security Level", "level 3"⟩, [3]), (⟨"Security Level", "level 2"⟩, [2]), (⟨"Security Level", "level 1"⟩, [1])]⟩

theorem levels_eq : (Policy.new 1000).addAxis level = some levels := by decide +kernel
theorem policy_eq : levels.addAxis department = some policy := by decide +kernel
theorem policy_reachable : policy.Reachable := .addAxis _ (.addAxis _ (.new _) levels_eq) policy_eq

theorem policy_spelled : policy.Spelled := by
  rw [spelled_keys (reachable_wf policy_reachable)]
  have : ∀ x ∈ policy.attributeToInt, Attribute.ofChars x.1.chars = some x.1 := by decide +kernel
  exact fun x hx => ofChars_chars_iff.1 (this x hx)

/-- The policy of the text from Java. -/
def javaPolicy : Policy :=
  ⟨10, 1000, [("Department", (["HR", "MKG", "R&D", "fin"], false)), ("Security Level", (["level 1", "level 2", "level 3", "level 4", "level 5"], true))],
    [(⟨"Security Level", "level 5"⟩, [5]), (⟨"Security Level", "level 3"⟩, [3]), (⟨"Department", "HR"⟩, [10, 6]), (⟨"Department", "R&D"⟩, [8]), (⟨"Security Level", "level 4"⟩, [4]),
      (⟨"Security Level", "level 1"⟩, [1]), (⟨"Department", "MKG"⟩, [7]), (⟨"Security Level", "level 2"⟩, [2]), (⟨"Department", "fin"⟩, [9])]⟩

/-- It is a policy that the library makes: the axes are added and `Department::HR` is rotated. -/
theorem javaPolicy_reachable : javaPolicy.Reachable := by
  obtain ⟨p, h1, h2⟩ : ∃ p, ((levels.addAxis ⟨"Department", ["HR", "MKG", "R&D", "fin"], false⟩).bind fun p => p.rotate ⟨"Department", "HR"⟩) = some p ∧ p.Reorders javaPolicy :=
    ⟨⟨10, 1000, [("Department", (["HR", "MKG", "R&D", "fin"], false)), ("Security Level", (["level 1", "level 2", "level 3", "level 4", "level 5"], true))],
      [(⟨"Department", "fin"⟩, [9]), (⟨"Department", "R&D"⟩, [8]), (⟨"Department", "MKG"⟩, [7]), (⟨"Department", "HR"⟩, [10, 6]),
      (⟨"Security Level", "level 5"⟩, [5]), (⟨"Security Level", "level 4"⟩, [4]), (⟨"Security Level", "level 3"⟩, [3]), (⟨"Security Level", "level 2"⟩, [2]),
      (⟨"Security Level", "level 1"⟩, [1])]⟩, by decide +kernel, ⟨by decide, by decide, by decide +kernel, by decide +kernel⟩⟩
  rw [Option.bind_eq_some_iff] at h1
  obtain ⟨q, h3, h4⟩ := h1
  exact .reorder (.rotate _ (.addAxis _ (.addAxis _ (.new _) levels_eq) h3) h4) h2

theorem javaPolicy_spelled : javaPolicy.Spelled := by
  rw [spelled_keys (reachable_wf javaPolicy_reachable)]
  have : ∀ x ∈ javaPolicy.attributeToInt, Attribute.ofChars x.1.chars = some x.1 := by decide +kernel
  exact fun x hx => ofChars_chars_iff.1 (this x hx)

end RepoPolicy

open RepoPolicy

/-- **C74**, `policy_group`, whatever the order of the hash maps: the policy that is read from its JSON is the one that was written (a comparison which the test leaves out). -/
theorem C74_policy_group {ord : Policy → Policy} (hord : ∀ p : Policy, p.Reorders (ord p)) : ∃ p, policyGroup ord = .ok (p, p) ∧ policy.Reorders p := by
  have hr0 : levels.Reachable := .addAxis _ (.new _) levels_eq
  obtain ⟨q1, hq1, hr1⟩ := addAxis_reorders (hord (Policy.new 1000)) (new_wf 1000) levels_eq
  obtain ⟨q2, hq2, hr2⟩ := addAxis_reorders (hr1.trans (hord q1)) (reachable_wf hr0) policy_eq
  have hP := hr2.trans (hord q2)
  obtain ⟨⟨b, b1, b2, _⟩, h⟩ := C103_policies (parse := fun _ => none) (Policy.Reachable.reorder policy_reachable hP)
  refine ⟨ord q2, ?_, hP⟩
  unfold policyGroup serde
  rw [hq1, show Res.ofOption FormatErr.policyError (some q1) = .ok q1 from rfl, Res.ok_bind, hq2, show Res.ofOption FormatErr.policyError (some q2) = .ok q2 from rfl, Res.ok_bind]
  dsimp only
  rw [b1, show Res.unwrap (ε := FormatErr) (some b) = .ok b from rfl, Res.ok_bind, (h b b2).2 (RepoPy.reorders_spelled policy_reachable hP policy_spelled)]
  rfl

/-- **C74**, `policy_group_from_java`, for every text of the policy: whatever the white space, the escapes, the order of the fields and the unknown fields are. -/
theorem C74_policy_group_from_java {b : Bytes} (h : javaPolicy.Text b) : fromJava b = .ok () := by
  have := ((C103_policies (parse := fun _ => none) javaPolicy_reachable).2 b h).2 javaPolicy_spelled
  unfold fromJava serde
  rw [this]
  decide +kernel

/-- The text of the test is one of them. -/
theorem java_text : javaPolicy.json.toBytes = utf8 java := by decide +kernel

example : fromJava (utf8 java) = .ok () := by
  obtain ⟨⟨b, b1, b2, _⟩, _⟩ := C103_policies (parse := fun _ => none) javaPolicy_reachable
  rw [jsonSerde_policyEnc, java_text] at b1
  have b3 := Option.some.inj b1
  rw [b3]
  exact C74_policy_group_from_java b2

example : ∃ p, policyGroup id = .ok (p, p) ∧ policy.Reorders p := C74_policy_group fun p => .refl p

/-- `attribute_parser` and `attributes_parser` (without input: evaluated). -/
example : attributeParser = .ok () ∧ attributesParser = .ok () := by
  refine ⟨by decide +kernel, ?_⟩
  unfold attributesParser serde
  rw [show (jsonSerde fun _ => none).attributesParse = attributesOfString from rfl]
  decide +kernel

end Abe
