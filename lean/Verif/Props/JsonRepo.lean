import Verif.Props.Json
import Verif.Props.RepoPyDemo

/-!
# C103 for the texts of the repository
-/

namespace Abe

namespace RepoPy

/-- The texts of /repo/src/interfaces/pyo3/tests/demo.py:6-30, 45-46, 51-56, 92-93, as `json.dumps` writes them. -/
def texts : Texts where
  axes := utf8 "[{\"name\": \"Security Level\", \"attributes\": [\"Protected\", \"Low Secret\", \"Medium Secret\", \"High Secret\", \"Top Secret\"], \"hierarchical\": true}, {\"name\": \"Department\", \"attributes\": [\"R&D\", \"HR\", \"MKG\", \"FIN\"], \"hierarchical\": false}]"
  metadata := utf8 "{\"uid\": [0, 0, 0, 0, 0, 0, 0, 1]}"
  lowMkg := utf8 "[\"Security Level::Low Secret\", \"Department::MKG\"]"
  topMkg := utf8 "[\"Security Level::Top Secret\", \"Department::MKG\"]"
  lowFin := utf8 "[\"Security Level::Low Secret\", \"Department::FIN\"]"
  low := utf8 "[\"Security Level::Low Secret\"]"

theorem policy_spelled : RepoDemo.policy.Spelled := by
  rw [spelled_keys (reachable_wf RepoDemo.policy_reachable)]
  have : ∀ x ∈ RepoDemo.policy.attributeToInt, Attribute.ofChars x.1.chars = some x.1 := by decide +kernel
  exact fun x hx => ofChars_chars_iff.1 (this x hx)

theorem rotated_spelled : RepoDemo.rotated.Spelled := by
  rw [spelled_keys (reachable_wf RepoDemo.rotated_reachable)]
  have : ∀ x ∈ RepoDemo.rotated.attributeToInt, Attribute.ofChars x.1.chars = some x.1 := by decide +kernel
  exact fun x hx => ofChars_chars_iff.1 (this x hx)

theorem reorders_spelled {p q : Policy} (hp : p.Reachable) (h : p.Reorders q) (hs : p.Spelled) : q.Spelled := by
  rw [spelled_keys (reachable_wf (.reorder hp h))]
  rw [spelled_keys (reachable_wf hp)] at hs
  exact fun x hx => hs x (h.values.subset hx)

end RepoPy

/-- **C103** for demo.py: with the JSON of this model, all that the demonstration assumes of the texts holds as soon as the parser of expressions reads its three expressions. -/
theorem C103_py_demo {parse : String → Option AccessPolicy}
    (h1 : parse "Security Level::Top Secret && (Department::MKG || Department::FIN)" = some RepoDemo.topMkgFin)
    (h2 : parse "Security Level::Medium Secret && Department::MKG" = some RepoDemo.mediumMkg)
    (h3 : parse "(Department::FIN || Department::MKG) && Security Level::Medium Secret" = some RepoPy.finMkgMedium) :
    RepoPy.Knows (jsonSerde parse) RepoPy.texts where
  axes := by
    rw [jsonSerde_axesDec]
    decide +kernel
  metadata := by
    rw [jsonSerde_metadataDec]
    decide +kernel
  lowMkg := by
    rw [jsonSerde_attributesDec]
    decide +kernel
  topMkg := by
    rw [jsonSerde_attributesDec]
    decide +kernel
  lowFin := by
    rw [jsonSerde_attributesDec]
    decide +kernel
  low := by
    rw [jsonSerde_attributesDec]
    decide +kernel
  top := h1
  medium := h2
  delegate := h3
  policies := by
    intro p hp
    have hr : p.Reachable ∧ p.Spelled := by
      rcases hp with hp | hp
      · exact ⟨.reorder RepoDemo.policy_reachable hp, RepoPy.reorders_spelled RepoDemo.policy_reachable hp RepoPy.policy_spelled⟩
      · exact ⟨.reorder RepoDemo.rotated_reachable hp, RepoPy.reorders_spelled RepoDemo.rotated_reachable hp RepoPy.rotated_spelled⟩
    obtain ⟨⟨b, b1, _⟩, _⟩ := C103_policies (parse := parse) hr.1
    obtain ⟨q, q1, q2⟩ := C103_keeps (parse := parse) p b hr.1 hr.2 b1
    exact ⟨b, q, b1, q1, q2⟩

/-- The parser which reads the three expressions and no other. -/
def RepoPy.parse (s : String) : Option AccessPolicy :=
  if s = "Security Level::Top Secret && (Department::MKG || Department::FIN)" then some RepoDemo.topMkgFin
  else if s = "Security Level::Medium Secret && Department::MKG" then some RepoDemo.mediumMkg
  else if s = "(Department::FIN || Department::MKG) && Security Level::Medium Secret" then some RepoPy.finMkgMedium else none

example : RepoPy.Knows (jsonSerde RepoPy.parse) RepoPy.texts := C103_py_demo (by decide +kernel) (by decide +kernel) (by decide +kernel)

/-- The policy of /repo/src/core/tests/policy.txt: what is written of it is the content of the file. -/
theorem C103_policy_file (parse : String → Option AccessPolicy) : (jsonSerde parse).policyEnc Fixtures.policy = some (utf8
    "{\"last_attribute_value\":9,\"max_attribute_creations\":100,\"axes\":{\"Security Level\":[[\"Protected\",\"Low Secret\",\"Medium Secret\",\"High Secret\",\"Top Secret\"],true],\"Department\":[[\"R&D\",\"HR\",\"MKG\",\"FIN\"],false]},\"attribute_to_int\":{\"Security Level::Protected\":[1],\"Department::MKG\":[8],\"Security Level::Low Secret\":[2],\"Security Level::Medium Secret\":[3],\"Department::R&D\":[6],\"Security Level::Top Secret\":[5],\"Security Level::High Secret\":[4],\"Department::HR\":[7],\"Department::FIN\":[9]}}") := by
  rw [jsonSerde_policyEnc]
  decide +kernel

/-- It is read again. -/
example (parse : String → Option AccessPolicy) : ∃ b, (jsonSerde parse).policyEnc Fixtures.policy = some b ∧ (jsonSerde parse).policyDec b = some Fixtures.policy ∧
    0 ∉ b ∧ validUtf8 b = true := by
  have hR : RepoDemo.policy.Reorders Fixtures.policy := ⟨by decide, by decide, by decide +kernel, by decide +kernel⟩
  obtain ⟨⟨b, b1, b2, b3, b4⟩, h⟩ := C103_policies (parse := parse) (Policy.Reachable.reorder RepoDemo.policy_reachable hR)
  exact ⟨b, b1, (h b b2).2 (RepoPy.reorders_spelled RepoDemo.policy_reachable hR RepoPy.policy_spelled), b3, b4⟩

/-- The access policy stored in /repo/src/interfaces/hybrid_crypto/tests/fin_top_secret_user_key.json. -/
example (parse : String → Option AccessPolicy) :
    (jsonSerde parse).accessPolicyDec (utf8 "{\"And\":[{\"Attr\":\"Department::FIN\"},{\"Attr\":\"Security Level::Confidential\"}]}") =
      some (.and (.attr ⟨"Department", "FIN"⟩) (.attr ⟨"Security Level", "Confidential"⟩)) := by
  refine ((C103_access _).1 _ (C103_documents.1 (Json.ofBytes_same (by decide +kernel)))).2 ?_
  rintro a (rfl | rfl) <;> exact ofChars_chars_iff.1 (by decide +kernel)

/-- Attributes and metadata with additional data; other names are not read as themselves. -/
example (parse : String → Option AccessPolicy) :
    (jsonSerde parse).attributesDec (utf8 " [ \"Department::MKG\" , \"a:::b\"]") = some [⟨"Department", "MKG"⟩, ⟨"a", ":b"⟩] ∧
    (jsonSerde parse).metadataDec (utf8 "{\"additional_data\":[255],\"uid\":[]}") = some ⟨[], some [255]⟩ ∧
    (jsonSerde parse).attributesDec (utf8 "[\"a::b::c\"]") = none ∧ (jsonSerde parse).metadataDec (utf8 "{\"uid\":[256]}") = none := by
  simp only [jsonSerde_attributesDec, jsonSerde_metadataDec]
  refine ⟨?_, ?_, ?_, ?_⟩ <;> decide +kernel

example : Attribute.Spelled ⟨"Department", "R&D"⟩ ∧ ¬ Attribute.Spelled ⟨"Department", "R::D"⟩ ∧ ¬ Attribute.Spelled ⟨"Department", " HR"⟩ ∧ ¬ Attribute.Spelled ⟨"a:", "b"⟩ := by
  simp only [← ofChars_chars_iff]
  decide +kernel

/-- `Attributes::try_from("Department::MKG, Security Level::Top Secret ")`. -/
example (parse : String → Option AccessPolicy) : (jsonSerde parse).attributesParse "Department::MKG, Security Level::Top Secret " =
    some [⟨"Department", "MKG"⟩, ⟨"Security Level", "Top Secret"⟩] := by
  have hall : ∀ a ∈ [(⟨"Department", "MKG"⟩ : Attribute), ⟨"Security Level", "Top Secret"⟩], Attribute.ofChars a.chars = some a ∧ ',' ∉ a.axis.toList ∧ ',' ∉ a.name.toList := by
    decide +kernel
  have := C103_attribute_list (parse := parse) (l := [⟨"Department", "MKG"⟩, ⟨"Security Level", "Top Secret"⟩]) (by simp) (fun a ha => ofChars_chars_iff.1 (hall a ha).1)
    (fun a ha => (hall a ha).2) (fun a => if a.axis = "Department" then ([], []) else ([' '], [' '])) (by decide +kernel)
  rw [show "Department::MKG, Security Level::Top Secret " = String.ofList (List.intercalate [',']
    ([(⟨"Department", "MKG"⟩ : Attribute), ⟨"Security Level", "Top Secret"⟩].map fun a =>
      (if a.axis = "Department" then (([] : List Char), ([] : List Char)) else ([' '], [' '])).1 ++ (a.axis.toList ++ "::".toList ++ a.name.toList) ++
        (if a.axis = "Department" then (([] : List Char), ([] : List Char)) else ([' '], [' '])).2)) by decide +kernel]
  exact this

namespace Json103

/-- A policy with an attribute whose name begins with a space. -/
def spaced : Policy := ⟨1, 5, [("D", ([" HR"], false))], [(⟨"D", " HR"⟩, [1])]⟩

theorem spaced_reachable : spaced.Reachable := (Policy.Reachable.new 5).addAxis ⟨"D", [" HR"], false⟩ (by decide +kernel)

end Json103

/-- **C103**, what happens to names which are not spelled: the policy is read as another one, in which the attribute of the axis has no value any more. -/
theorem C103_lost_attribute (parse : String → Option AccessPolicy) : ∃ p b q, p.Reachable ∧ (jsonSerde parse).policyEnc p = some b ∧ (jsonSerde parse).policyDec b = some q ∧
    p.Known ⟨"D", " HR"⟩ ∧ q.Known ⟨"D", " HR"⟩ ∧ p.HasValue ⟨"D", " HR"⟩ 1 ∧ ∀ v, ¬ q.HasValue ⟨"D", " HR"⟩ v := by
  refine ⟨Json103.spaced, Json103.spaced.json.toBytes, ⟨1, 5, [("D", ([" HR"], false))], [(⟨"D", "HR"⟩, [1])]⟩, Json103.spaced_reachable, rfl, ?_, ?_, ?_, ?_, ?_⟩
  · rw [jsonSerde_policyDec, Json.ofBytes_toBytes (Json.fits_mono (by decide) (policy_fits _)), Option.bind_some]
    decide +kernel
  · exact ⟨_, _, rfl, by decide⟩
  · exact ⟨_, _, rfl, by decide⟩
  · exact ⟨_, rfl, by decide⟩
  · rintro v ⟨h, h1, _⟩
    revert h1
    rw [show hget [((⟨"D", "HR"⟩ : Attribute), [(1 : UInt32)])] ⟨"D", " HR"⟩ = none by decide +kernel]
    simp

/-! ### A conjunction of 65 attributes -/

namespace Json103

/-- `a1 && a2 && …`, nested to the left. -/
def conjunction (a : Attribute) : List Attribute → AccessPolicy
  | [] => .attr a
  | b :: l => .and (conjunction b l) (.attr a)

theorem conjunction_nesting (a : Attribute) (l : List Attribute) : (conjunction a l).nesting = l.length := by
  induction l generalizing a with
  | nil => rfl
  | cons b l ih => simp [conjunction, AccessPolicy.nesting, ih]

theorem conjunction_mentions {a x : Attribute} {l : List Attribute} : (conjunction a l).Mentions x ↔ x ∈ a :: l := by
  induction l generalizing a with
  | nil => simp [conjunction, AccessPolicy.Mentions]
  | cons b l ih =>
    simp only [conjunction, AccessPolicy.Mentions, ih, List.mem_cons]
    tauto

theorem conjunction_grants {p : Policy} {a x : Attribute} {l : List Attribute} : (conjunction a l).Grants p x ↔ ∃ b ∈ a :: l, p.Covers b x := by
  induction l generalizing a with
  | nil => simp [conjunction, AccessPolicy.Grants]
  | cons b l ih =>
    simp only [conjunction, AccessPolicy.Grants, ih]
    simp only [List.mem_cons, exists_eq_or_imp]
    exact Or.comm

theorem conjunction_valid {p : Policy} {a : Attribute} {l : List Attribute} (hn : (a :: l).Nodup) (hk : ∀ b ∈ a :: l, p.Known b)
    (hc : ∀ b ∈ a :: l, ∀ x, p.Covers b x → x = b) : (conjunction a l).NoAll ∧ (conjunction a l).Disjoint p := by
  induction l generalizing a with
  | nil => exact ⟨trivial, trivial⟩
  | cons b l ih =>
    obtain ⟨h1, h2⟩ := ih (List.nodup_cons.1 hn).2 (fun x hx => hk x (by simp [List.mem_cons.1 hx])) (fun x hx => hc x (by simp [List.mem_cons.1 hx]))
    refine ⟨⟨h1, trivial⟩, h2, trivial, ?_⟩
    rintro x ⟨g1, g2⟩
    obtain ⟨y, hy, hyx⟩ := conjunction_grants.1 g1
    have e1 := hc y (by simp [List.mem_cons.1 hy]) x hyx
    have e2 := hc a (by simp) x g2
    rw [e1] at e2
    rw [e2] at hy
    exact (List.nodup_cons.1 hn).1 hy

def names : List String := (List.range 65).map toString
def axis : PolicyAxis := ⟨"A", names, false⟩
def wide : Policy := ((Policy.new 100).addAxis axis).getD (Policy.new 0)
theorem wide_eq : (Policy.new 100).addAxis axis = some wide := by decide +kernel
def attributes : List Attribute := names.map fun n => ⟨"A", n⟩
def ap : AccessPolicy := conjunction ⟨"A", "0"⟩ attributes.tail

theorem attributes_eq : attributes = ⟨"A", "0"⟩ :: attributes.tail := by decide +kernel

theorem ap_valid : ap.Valid wide := by
  have hk : ∀ b ∈ attributes, wide.Known b := by
    intro b hb
    obtain ⟨n, hn, rfl⟩ := List.mem_map.1 hb
    exact ((addAxis_spec (new_wf 100) wide_eq).2.2.2.1 _).2 (.inr ⟨rfl, hn⟩)
  have hax : hget wide.axes "A" = some (names, false) := by decide +kernel
  have hc : ∀ b ∈ attributes, ∀ x, wide.Covers b x → x = b := by
    intro b hb x hx
    obtain ⟨n, hn, rfl⟩ := List.mem_map.1 hb
    obtain ⟨below, above, h, h1, _, h2, h3⟩ := hx
    rw [hax, Option.some.injEq, Prod.mk.injEq] at h1
    obtain ⟨_, rfl⟩ := h1
    rcases h3 with h3 | ⟨h3, _⟩
    · cases x; simp_all
    · cases h3
  have hn : attributes.Nodup := by decide +kernel
  rw [attributes_eq] at hk hc hn
  obtain ⟨h1, h2⟩ := conjunction_valid hn hk hc
  have : ap = .and (conjunction (attributes.tail.head (by decide +kernel)) attributes.tail.tail) (.attr ⟨"A", "0"⟩) := by
    unfold ap
    conv_lhs => rw [← List.cons_head_tail (l := attributes.tail) (by decide +kernel)]
    rfl
  rw [this]
  change AccessPolicy.NoAll _ ∧ (∀ a, AccessPolicy.Mentions a _ → _) ∧ AccessPolicy.Disjoint wide _
  rw [← this]
  exact ⟨h1, fun a ha => hk a (conjunction_mentions.1 ha), h2⟩

end Json103

/-- **C103**, refutation of "the C interface accepts what the Rust interface accepts": there is a user key for a conjunction of 65 attributes, but the C interface refuses its text. -/
theorem C103_wide {K P Q QP T Key Nonce : Type} [Field K] [DecidableEq K] [AddCommGroup P] [Module K P] [AddCommGroup Q] [Module K Q] [AddCommGroup T] [Module K T]
    {parse : String → Option AccessPolicy} (c : Curve K P Q QP T) {lib : FfiLib K QP P Q T Key Nonce} (ht : 31 ≤ lib.t.bits) (hs : lib.serde = jsonSerde parse)
    {tI : List K} (hnz : ∀ t ∈ tI, t ≠ 0) (hl : tI.length = 100) (y : K) (rnd : Nat → K) :
    ∃ p ap, p.Reachable ∧ ap.Spelled ∧ (∃ key, engineGenerateUserKey (bls c) p ⟨tI, y⟩ ap rnd = .ok key) ∧
      ∀ priv policy, NeverWrites (hGenerateUserPrivateKey lib priv (some (ap.json.toBytes ++ [0])) policy rnd) := by
  have hr : Json103.wide.Reachable := (Policy.Reachable.new 100).addAxis _ Json103.wide_eq
  have hw := reachable_wf hr
  refine ⟨Json103.wide, Json103.ap, hr, ?_, ?_, fun priv policy => C103_deep ht hs ?_ priv policy rnd⟩
  · intro a ha
    have := Json103.conjunction_mentions.1 ha
    rw [← Json103.attributes_eq] at this
    have hall : ∀ a ∈ Json103.attributes, Attribute.ofChars a.chars = some a := by decide +kernel
    exact ofChars_chars_iff.1 (hall a this)
  · refine (C07_key_generation_success c hw hnz y _ rnd).1 ⟨Json103.ap_valid, fun b v _ ⟨heap, h1, h2⟩ => ?_⟩
    have h3 := (hw.range v (by
      unfold Policy.allValues
      rw [List.mem_flatten]
      exact ⟨heap, List.mem_map.2 ⟨_, hget_mem h1, rfl⟩, h2⟩)).2
    have h4 : Json103.wide.lastAttributeValue = 65 := by decide +kernel
    rw [h4] at h3
    have : (65 : UInt32).toNat = 65 := rfl
    omega
  · unfold Json103.ap
    rw [Json103.conjunction_nesting]
    decide +kernel

/-- With the curve of the examples, whose group has order 11. -/
example : ∃ p ap, p.Reachable ∧ ap.Spelled ∧ (∃ key, engineGenerateUserKey (bls Demo.curveF) p ⟨List.replicate 100 1, 3⟩ ap Demo.drawsF = .ok key) ∧
    ∀ priv policy, NeverWrites (hGenerateUserPrivateKey { Demo.ffi with serde := jsonSerde RepoPy.parse } priv (some (ap.json.toBytes ++ [0])) policy Demo.drawsF) :=
  C103_wide Demo.curveF (by decide) rfl (fun t ht => by rw [List.eq_of_mem_replicate ht]; exact one_ne_zero) (by simp) 3 Demo.drawsF

end Abe
