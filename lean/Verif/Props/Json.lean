import Verif.Proofs.JsonRead
import Verif.Props.FfiFlow
import Verif.Props.Access
import Verif.Props.Fixtures

/-!
# C103: the JSON texts of policies, access policies, attributes, axes and metadata

`Verif/Spec/Json.lean` says which bytes are a JSON text of a value, and which value stands for a policy.
-/

namespace Abe

variable {parse : String → Option AccessPolicy}

theorem jsonSerde_policyDec (parse : String → Option AccessPolicy) (b : Bytes) : (jsonSerde parse).policyDec b = (Json.ofBytes b).bind Policy.ofJson := rfl
theorem jsonSerde_policyEnc (parse : String → Option AccessPolicy) (p : Policy) : (jsonSerde parse).policyEnc p = some p.json.toBytes := rfl
theorem jsonSerde_attributesDec (parse : String → Option AccessPolicy) (b : Bytes) :
    (jsonSerde parse).attributesDec b = (Json.ofBytes b).bind (Json.asList Attribute.ofJson) := rfl
theorem jsonSerde_metadataDec (parse : String → Option AccessPolicy) (b : Bytes) : (jsonSerde parse).metadataDec b = (Json.ofBytes b).bind Metadata.ofJson := rfl
theorem jsonSerde_axesDec (parse : String → Option AccessPolicy) (b : Bytes) : (jsonSerde parse).axesDec b = (Json.ofBytes b).bind (Json.asList PolicyAxis.ofJson) := rfl
theorem jsonSerde_accessPolicyDec (parse : String → Option AccessPolicy) (b : Bytes) : (jsonSerde parse).accessPolicyDec b = (Json.ofBytes b).bind AccessPolicy.ofJson := rfl

/-- **C103**, texts: bytes are read as a value exactly if they are a JSON text of it.  (A text has at most one value.) -/
theorem C103_documents {b : Bytes} {j : Json} : Json.ofBytes b = some j ↔ JsonDocument j b := Json.ofBytes_iff

/-- White space, escapes, a number with a fraction: the text ` [ "\u0041\n", 1.5e3 ] `. -/
example : JsonDocument (.arr [.str ['A', '\n'], .num "1.5e3".toList]) (" [ \"\\u0041\\n\", 1.5e3 ] ".toByteArray.data.toList) :=
  C103_documents.1 (Json.ofBytes_same (by decide +kernel))
/-- A comma too many, a number with a leading zero, an unfinished string and bytes after the value are refused. -/
example : ∀ t ∈ ["[1,]", "01", "\"a", "1 2", "nul", "{\"a\" 1}", "\"\\ud800\""], ∀ j, ¬ JsonDocument j t.toByteArray.data.toList := by
  intro t ht j h
  rw [← C103_documents] at h
  have : ∀ t ∈ ["[1,]", "01", "\"a", "1 2", "nul", "{\"a\" 1}", "\"\\ud800\""], Json.ofBytes t.toByteArray.data.toList = none := by decide +kernel
  rw [this t ht] at h
  cases h

/-- **C103**, attributes: the text of an attribute is read as the attribute exactly if both names are trimmed, not empty and without `::`, and the first does not end with a colon. -/
theorem C103_attribute_names {a : Attribute} : Attribute.ofJson a.value = some a ↔ a.Spelled := by
  rw [attribute_value_json]
  exact ofChars_chars_iff

example : Attribute.ofJson (.str "Department::R&D".toList) = some ⟨"Department", "R&D"⟩ ∧ Attribute.Spelled ⟨"Department", "R&D"⟩ ∧ ¬ Attribute.Spelled ⟨"Department", "R::D"⟩ := by
  simp only [← C103_attribute_names]
  decide +kernel

/-- **C103**, attributes: a value is read as an attribute exactly if it is a string with the two names, trimmed, around a `::`, and white space around each. -/
theorem C103_attribute_text {a : Attribute} {j : Json} : Attribute.ofJson j = some a ↔ ∃ s, j = .str s ∧ a.Text s := by
  constructor
  · intro h
    cases j with
    | str s => exact ⟨s, rfl, ofChars_iff.1 h⟩
    | _ => cases h
  · rintro ⟨s, rfl, h⟩
    exact ofChars_iff.2 h

/-- White space around the names goes; the axis ends at the first `::`. -/
example : Attribute.Text ⟨"Security Level", "Low"⟩ " Security Level ::\tLow ".toList ∧ Attribute.Text ⟨"a", ":b"⟩ "a:::b".toList ∧
    ∀ a : Attribute, ¬ a.Text "a::b::c".toList ∧ ¬ a.Text " ::b".toList ∧ ¬ a.Text "a".toList := by
  simp only [← ofChars_iff]
  refine ⟨by decide +kernel, by decide +kernel, fun a => ?_⟩
  have h : Attribute.ofChars "a::b::c".toList = none ∧ Attribute.ofChars " ::b".toList = none ∧ Attribute.ofChars "a".toList = none := by decide +kernel
  rw [h.1, h.2.1, h.2.2]
  simp only [reduceCtorEq, not_false_eq_true, and_self]

theorem doc_of_fits {j : Json} (h : Json.Fits 127 j) : JsonDocument j j.toBytes ∧ 0 ∉ j.toBytes ∧ validUtf8 j.toBytes = true :=
  ⟨C103_documents.1 (Json.ofBytes_toBytes h), Json.toBytes_clean h⟩

/-- **C103**, policies: what is written of a reachable policy is a text of it, without zero byte and in UTF-8 (hence a C string); every text of it, whatever the white space, the escapes,
the order of the fields and the unknown fields are, also as an array of the fields, is read as the policy exactly if its attributes are spelled. -/
theorem C103_policies {p : Policy} (hr : p.Reachable) :
    (∃ b, (jsonSerde parse).policyEnc p = some b ∧ p.Text b ∧ 0 ∉ b ∧ validUtf8 b = true) ∧
    ∀ b, p.Text b → ((jsonSerde parse).policyDec b = some p ↔ p.Spelled) := by
  constructor
  · obtain ⟨h1, h2, h3⟩ := doc_of_fits (Json.fits_mono (by decide) (policy_fits p))
    refine ⟨_, rfl, ⟨_, .inl ⟨p.membersJson, rfl, ?_⟩, h1⟩, h2, h3⟩
    have hall : (p.membersJson.filter fun x => x.1 ∈ p.membersJson.map Prod.fst) = p.membersJson :=
      List.filter_eq_self.2 fun x hx => decide_eq_true (List.mem_map_of_mem hx)
    rw [members_json, hall]
  · rintro b ⟨j, h2, h1⟩
    rw [← C103_documents] at h1
    simp only [jsonSerde, h1, Option.bind_some]
    exact policy_ofJson_iff hr h2

namespace Json103

/-- A policy with one axis. -/
def small : Policy := ⟨2, 5, [("D", (["HR", "FIN"], false))], [(⟨"D", "FIN"⟩, [2]), (⟨"D", "HR"⟩, [1])]⟩

theorem small_reachable : small.Reachable := (Policy.Reachable.new 5).addAxis ⟨"D", ["HR", "FIN"], false⟩ (by decide +kernel)

theorem small_spelled : small.Spelled := by
  rw [spelled_keys (reachable_wf small_reachable)]
  have : ∀ x ∈ small.attributeToInt, Attribute.ofChars x.1.chars = some x.1 := by decide +kernel
  exact fun x hx => ofChars_chars_iff.1 (this x hx)

/-- A text of it, with the fields in another order, one more field, white space and an escape. -/
def smallText : Bytes :=
  "{\"axes\": {\"D\":[[\"HR\",\"FI\\u004e\"],false]}, \"more\": [null],\n\"attribute_to_int\":{\"D::FIN\":[2],\"D::HR\":[1]},\"max_attribute_creations\":5,\"last_attribute_value\":2}".toByteArray.data.toList

/-- A text of it as an array. -/
def smallArray : Bytes := "[2,5,{\"D\":[[\"HR\",\"FIN\"],false]},{\"D::FIN\":[2],\"D::HR\":[1]}]".toByteArray.data.toList

/-- The fields of the first text. -/
def smallFields : List (List Char × Json) :=
  [("axes".toList, .obj [("D".toList, .arr [.arr [.str "HR".toList, .str "FIN".toList], .bool false])]), ("more".toList, .arr [.null]),
    ("attribute_to_int".toList, .obj [("D::FIN".toList, .arr [.num ['2']]), ("D::HR".toList, .arr [.num ['1']])]),
    ("max_attribute_creations".toList, .num ['5']), ("last_attribute_value".toList, .num ['2'])]

theorem small_fields : (smallFields.filter fun x => x.1 ∈ small.members.map Prod.fst).Perm small.members := by
  refine (fields_iff (by simp [Policy.members])).2 fun x hx => ?_
  simp only [Policy.members, List.mem_cons, List.not_mem_nil, or_false] at hx
  rcases hx with rfl | rfl | rfl | rfl <;> rfl

end Json103

open Json103 in
example : small.Text smallText ∧ (jsonSerde parse).policyDec smallText = some small := by
  have h : small.Text smallText := ⟨.obj smallFields, .inl ⟨smallFields, rfl, small_fields⟩, C103_documents.1 (Json.ofBytes_same (by decide +kernel))⟩
  exact ⟨h, ((C103_policies small_reachable).2 _ h).2 small_spelled⟩
open Json103 in
example : small.Text smallArray ∧ (jsonSerde parse).policyDec smallArray = some small := by
  have h : small.Text smallArray := ⟨_, .inr rfl, C103_documents.1 (Json.ofBytes_same (by decide +kernel))⟩
  exact ⟨h, ((C103_policies small_reachable).2 _ h).2 small_spelled⟩

/-- **C103**, what is read as a policy, whoever wrote it: the two numbers, the axes and the values are those of the text; each field is there once; of repeated keys the last counts; the
current value of an attribute is the greatest of its values.  Nothing else is read, and everything of this form is. -/
theorem C103_read {b : Bytes} :
    (∀ p, (jsonSerde parse).policyDec b = some p → p.Said b) ∧ ((∃ p, (jsonSerde parse).policyDec b = some p) ↔ ∃ p : Policy, p.Said b) := by
  have h : ∀ p, (jsonSerde parse).policyDec b = some p → p.Said b := by
    intro p h
    rw [jsonSerde_policyDec] at h
    obtain ⟨j, h1, h2⟩ := Option.bind_eq_some_iff.1 h
    exact policy_said (C103_documents.1 h1) h2
  refine ⟨h, fun ⟨p, hp⟩ => ⟨p, h p hp⟩, ?_⟩
  rintro ⟨p, hp⟩
  obtain ⟨j, q, h1, h2⟩ := policy_read_of_said hp
  refine ⟨q, ?_⟩
  rw [jsonSerde_policyDec, C103_documents.2 h1]
  exact h2

/-- A repeated key, values in another order; this policy is not one that the library makes. -/
example : (jsonSerde parse).policyDec "[1,0,{},{\"D::HR\":[9],\" D :: HR\":[3,7,5]}]".toByteArray.data.toList = some ⟨1, 0, [], [(⟨"D", "HR"⟩, [7, 3, 5])]⟩ := by
  rw [jsonSerde_policyDec]
  decide +kernel
/-- A repeated field, a missing field and a negative number are refused. -/
example : ∀ t ∈ ["{\"axes\":{},\"axes\":{},\"attribute_to_int\":{},\"max_attribute_creations\":5,\"last_attribute_value\":2}",
    "{\"attribute_to_int\":{},\"max_attribute_creations\":5,\"last_attribute_value\":2}", "[-1,0,{},{}]", "[1,4294967296,{},{}]"], ∀ p : Policy, ¬ p.Said t.toByteArray.data.toList := by
  intro t ht p hp
  obtain ⟨q, hq⟩ := (C103_read (parse := fun _ => none)).2.2 ⟨p, hp⟩
  rw [jsonSerde_policyDec] at hq
  have : ∀ t ∈ ["{\"axes\":{},\"axes\":{},\"attribute_to_int\":{},\"max_attribute_creations\":5,\"last_attribute_value\":2}",
    "{\"attribute_to_int\":{},\"max_attribute_creations\":5,\"last_attribute_value\":2}", "[-1,0,{},{}]", "[1,4294967296,{},{}]"],
    (Json.ofBytes t.toByteArray.data.toList).bind Policy.ofJson = none := by decide +kernel
  rw [this t ht] at hq
  cases hq

/-- **C103**: hence what the other properties assume of the texts of policies (`Serde.KeepsPolicies`) holds. -/
theorem C103_keeps : (jsonSerde parse).KeepsPolicies := by
  intro p b hr hs h
  obtain ⟨⟨b', h1, h2, _⟩, h3⟩ := C103_policies (parse := parse) hr
  rw [h1, Option.some.injEq] at h
  exact ⟨p, (h3 b (h ▸ h2)).2 hs, rfl, rfl, .refl _, .refl _⟩

open Json103 in
example : ∃ b q, (jsonSerde parse).policyEnc small = some b ∧ (jsonSerde parse).policyDec b = some q := by
  obtain ⟨q, h, _⟩ := C103_keeps (parse := parse) small _ small_reachable small_spelled rfl
  exact ⟨_, q, rfl, h⟩

/-- **C103**, lists of attributes. -/
theorem C103_attributes (l : List Attribute) :
    (∃ b, JsonDocument (.arr (l.map Attribute.value)) b ∧ 0 ∉ b ∧ validUtf8 b = true) ∧
    ∀ b, JsonDocument (.arr (l.map Attribute.value)) b → ((jsonSerde parse).attributesDec b = some l ↔ ∀ a ∈ l, a.Spelled) := by
  have e : l.map Attribute.value = l.map Attribute.json := List.map_congr_left fun a _ => attribute_value_json a
  rw [e]
  refine ⟨⟨_, doc_of_fits (Json.fits_mono (by decide) (attributes_fits l))⟩, fun b h => ?_⟩
  rw [← C103_documents] at h
  simp only [jsonSerde, h, Option.bind_some]
  exact attributes_iff l

/-- **C103**, lists of attributes, whoever wrote them. -/
theorem C103_attributes_read {b : Bytes} {l : List Attribute} :
    (jsonSerde parse).attributesDec b = some l ↔ ∃ ss, JsonDocument (.arr (ss.map .str)) b ∧ List.Forall₂ Attribute.Text l ss := by
  rw [jsonSerde_attributesDec, Option.bind_eq_some_iff]
  simp only [C103_documents, asList_iff, C103_attribute_text]
  constructor
  · rintro ⟨j, hd, xs, rfl, h⟩
    have : ∃ ss, xs = ss.map .str ∧ List.Forall₂ Attribute.Text l ss := by
      clear hd
      induction h with
      | nil => exact ⟨[], rfl, .nil⟩
      | cons h1 _ ih =>
        obtain ⟨s, rfl, h2⟩ := h1
        obtain ⟨ss, rfl, h3⟩ := ih
        exact ⟨s :: ss, rfl, .cons h2 h3⟩
    obtain ⟨ss, rfl, this⟩ := this
    exact ⟨ss, hd, this⟩
  · rintro ⟨ss, hd, h⟩
    refine ⟨_, hd, _, rfl, ?_⟩
    rw [List.forall₂_map_right_iff]
    exact h.imp fun a s h => ⟨s, rfl, h⟩

example : (jsonSerde parse).attributesDec " [ \"Department::MKG\" , \" a::b\\n\"]".toByteArray.data.toList = some [⟨"Department", "MKG"⟩, ⟨"a", "b"⟩] := by
  rw [jsonSerde_attributesDec]
  decide +kernel
example : (jsonSerde parse).attributesDec "[\"D::HR\"]".toByteArray.data.toList = some [⟨"D", "HR"⟩] :=
  ((C103_attributes [⟨"D", "HR"⟩]).2 _ (C103_documents.1 (Json.ofBytes_same (by decide +kernel)))).2 (by
    intro a ha
    rw [List.mem_singleton.1 ha]
    exact ofChars_chars_iff.1 (by decide +kernel))

theorem splitCommas_ne (s : List Char) : splitCommas s ≠ [] := by
  cases s with
  | nil => simp [splitCommas]
  | cons c r =>
    unfold splitCommas
    split
    · simp
    · split <;> simp

theorem splitCommas_plain {x : List Char} (h : ',' ∉ x) : splitCommas x = [x] := by
  induction x with
  | nil => rfl
  | cons c x ih =>
    simp only [List.mem_cons, not_or] at h
    rw [splitCommas, if_neg (fun e => h.1 e.symm), ih h.2]

theorem splitCommas_append {x : List Char} (h : ',' ∉ x) (r : List Char) : splitCommas (x ++ ',' :: r) = x :: splitCommas r := by
  induction x with
  | nil => rw [List.nil_append, splitCommas, if_pos rfl]
  | cons c x ih =>
    simp only [List.mem_cons, not_or] at h
    rw [List.cons_append, splitCommas, if_neg (fun e => h.1 e.symm), ih h.2]

/-- **C103**, the other text of lists of attributes, `axis::name, axis::name`: each one is read, if it is spelled and contains no comma, whatever the white space around it is. -/
theorem C103_attribute_list {l : List Attribute} (hl : l ≠ []) (hs : ∀ a ∈ l, a.Spelled) (hc : ∀ a ∈ l, ',' ∉ a.axis.toList ∧ ',' ∉ a.name.toList)
    (pad : Attribute → List Char × List Char) (hp : ∀ a ∈ l, ∀ c ∈ (pad a).1 ++ (pad a).2, isWhite c = true) :
    (jsonSerde parse).attributesParse (String.ofList (List.intercalate [','] (l.map fun a => (pad a).1 ++ (a.axis.toList ++ "::".toList ++ a.name.toList) ++ (pad a).2))) =
      some l := by
  simp only [jsonSerde, attributesOfString, chars_eq, String.toList_ofList]
  have hone : ∀ a ∈ l, ',' ∉ (pad a).1 ++ a.chars ++ (pad a).2 ∧ Attribute.ofChars ((pad a).1 ++ a.chars ++ (pad a).2) = some a := by
    intro a ha
    constructor
    · intro h
      have hw : ¬ isWhite ',' = true := by decide
      simp only [List.mem_append] at h
      rcases h with (h | h) | h
      · exact hw (hp a ha _ (by simp [h]))
      · simp only [Attribute.chars, List.mem_append, List.mem_cons] at h
        rcases h with h | h | h | h
        · exact (hc a ha).1 h
        · revert h; decide
        · revert h; decide
        · exact (hc a ha).2 h
      · exact hw (hp a ha _ (by simp [h]))
    · have hch := ofChars_chars_iff.2 (hs a ha)
      have ht : trim ((pad a).1 ++ a.chars ++ (pad a).2) = trim a.chars := by
        have h1 : TrimmedL a.chars := by
          obtain ⟨hat, hnt, _⟩ := hs a ha
          refine ⟨?_, ?_⟩
          · obtain ⟨⟨c, h1, h2⟩, _⟩ := hat
            refine ⟨c, ?_, h2⟩
            unfold Attribute.chars
            cases hl : a.axis.toList with
            | nil => rw [hl] at h1; simp at h1
            | cons e u => rw [hl] at h1; exact h1
          · obtain ⟨_, c, h1, h2⟩ := hnt
            refine ⟨c, ?_, h2⟩
            obtain ⟨u, hu⟩ := List.getLast?_eq_some_iff.1 h1
            unfold Attribute.chars
            rw [hu]
            exact last_chars _ _ _
        have hpre : ∀ (w x : List Char), (∀ c ∈ w, isWhite c = true) → (∃ c, x.head? = some c ∧ ¬ isWhite c) → (w ++ x).dropWhile isWhite = x := by
          intro w x hw ⟨c, hx, hc⟩
          induction w with
          | nil =>
            cases x with
            | nil => rfl
            | cons d x =>
              simp only [List.head?_cons, Option.some.injEq] at hx
              subst hx
              exact List.dropWhile_cons_of_neg hc
          | cons d w ih =>
            rw [List.cons_append, List.dropWhile_cons_of_pos (hw d (by simp))]
            exact ih fun c hc => hw c (by simp [hc])
        rw [trim_eq h1]
        unfold trim
        obtain ⟨⟨c, hc1, hc2⟩, d, hd1, hd2⟩ := h1
        rw [List.append_assoc, hpre _ _ (fun c hc => hp a ha c (by simp [hc])) ⟨c, by rw [List.head?_append, hc1]; rfl, hc2⟩, List.reverse_append,
          hpre _ _ (fun c hc => hp a ha c (by simp at hc; simp [hc])) ⟨d, by rw [List.head?_reverse]; exact hd1, hd2⟩, List.reverse_reverse]
      unfold Attribute.ofChars at hch ⊢
      rw [ht]
      exact hch
  suffices H : ∀ (f : Attribute → List Char) (l : List Attribute), l ≠ [] → (∀ a ∈ l, ',' ∉ f a ∧ Attribute.ofChars (f a) = some a) →
      (splitCommas (List.intercalate [','] (l.map f))).mapM Attribute.ofChars = some l from H _ l hl hone
  intro f l
  induction l with
  | nil => intro h; exact absurd rfl h
  | cons a l ih =>
    intro _ h
    obtain ⟨h1, h2⟩ := h a (by simp)
    cases l with
    | nil =>
      have : List.intercalate [','] ([a].map f) = f a := by simp [List.intercalate]
      rw [this, splitCommas_plain h1, List.mapM_cons, h2]
      rfl
    | cons b l =>
      have : List.intercalate [','] ((a :: b :: l).map f) = f a ++ ',' :: List.intercalate [','] ((b :: l).map f) := by simp [List.intercalate]
      rw [this, splitCommas_append h1, List.mapM_cons, h2, ih (by simp) fun x hx => h x (by simp [List.mem_cons.1 hx])]
      rfl

example : (jsonSerde parse).attributesParse " D::HR,D::FIN" = some [⟨"D", "HR"⟩, ⟨"D", "FIN"⟩] := by
  have hall : ∀ a ∈ [(⟨"D", "HR"⟩ : Attribute), ⟨"D", "FIN"⟩], Attribute.ofChars a.chars = some a ∧ ',' ∉ a.axis.toList ∧ ',' ∉ a.name.toList := by decide +kernel
  have := C103_attribute_list (parse := parse) (l := [⟨"D", "HR"⟩, ⟨"D", "FIN"⟩]) (by simp) (fun a ha => ofChars_chars_iff.1 (hall a ha).1)
    (fun a ha => (hall a ha).2) (fun a => if a.name = "HR" then ([' '], []) else ([], [])) (by decide +kernel)
  rw [show " D::HR,D::FIN" = String.ofList (List.intercalate [','] ([(⟨"D", "HR"⟩ : Attribute), ⟨"D", "FIN"⟩].map fun a =>
      (if a.name = "HR" then ([' '], ([] : List Char)) else ([], [])).1 ++ (a.axis.toList ++ "::".toList ++ a.name.toList) ++
        (if a.name = "HR" then ([' '], ([] : List Char)) else ([], [])).2)) by decide +kernel]
  exact this

/-- **C103**, access policies: every text of one is read as it exactly if its attributes are spelled; it has a text exactly if at most 63 `And` and `Or` are nested; what the Rust library
writes of one with more is read by none of the interfaces. -/
theorem C103_access (ap : AccessPolicy) :
    (∀ b, JsonDocument ap.value b → ((jsonSerde parse).accessPolicyDec b = some ap ↔ ap.Spelled)) ∧
    ((∃ b, JsonDocument ap.value b) ↔ ap.nesting ≤ 63) ∧
    (ap.nesting ≤ 63 → JsonDocument ap.value ap.json.toBytes) ∧ (63 < ap.nesting → (jsonSerde parse).accessPolicyDec ap.json.toBytes = none) ∧
    0 ∉ ap.json.toBytes ∧ validUtf8 ap.json.toBytes = true := by
  have hw : ∀ t, JsonWritten 127 ap.json t → ap.nesting ≤ 63 := fun t h => by
    have := access_depth ap h
    omega
  have hd : ap.nesting ≤ 63 → JsonDocument ap.json ap.json.toBytes := fun h => (doc_of_fits (access_fits ap 127 (by omega))).1
  rw [value_json]
  refine ⟨fun b h => ?_, ⟨fun ⟨b, w, t, w', _, h, _⟩ => hw t h, fun h => ⟨_, hd h⟩⟩, hd, fun h => ?_, Json.toBytes_clean (access_fits ap _ (Nat.le_refl _))⟩
  · rw [← C103_documents] at h
    simp only [jsonSerde, h, Option.bind_some]
    exact access_ofJson_iff ap
  · simp only [jsonSerde]
    rw [Json.ofBytes_deep (access_fits ap _ (Nat.le_refl _)) fun t ht => absurd (hw t ht) (by omega)]
    rfl

example : (AccessPolicy.and (.attr ⟨"D", "HR"⟩) .all).nesting ≤ 63 := by decide
/-- With spaces, which the text of an attribute may have. -/
example : (jsonSerde parse).accessPolicyDec "{\"And\":[{\"Attr\":\"D::HR\"},\"All\"]}".toByteArray.data.toList = some (.and (.attr ⟨"D", "HR"⟩) .all) :=
  ((C103_access _).1 _ (C103_documents.1 (Json.ofBytes_same (by decide +kernel)))).2 (by
    rintro a (rfl | h)
    · exact ofChars_chars_iff.1 (by decide +kernel)
    · exact h.elim)

/-- **C103**, access policies, whoever wrote them: exactly the texts of the access policy are read as it. -/
theorem C103_access_read {ap : AccessPolicy} {b : Bytes} : (jsonSerde parse).accessPolicyDec b = some ap ↔ ap.Text b := by
  rw [jsonSerde_accessPolicyDec, Option.bind_eq_some_iff]
  simp only [C103_documents, access_ofJson_value]
  unfold AccessPolicy.Text
  exact exists_congr fun j => and_comm

/-- The second form of `All`, white space around a name. -/
example : (AccessPolicy.or (.attr ⟨"D", "HR"⟩) .all).Text "{\"Or\":[{\"Attr\":\"D:: HR\"},{\"All\":null}]}".toByteArray.data.toList := by
  rw [← C103_access_read (parse := fun _ => none), jsonSerde_accessPolicyDec]
  decide +kernel
/-- An unknown variant, three members, two keys. -/
example : ∀ t ∈ ["{\"Not\":\"D::HR\"}", "{\"And\":[\"All\",\"All\",\"All\"]}", "{\"Attr\":\"D::HR\",\"All\":null}", "\"D::HR\""],
    ∀ ap : AccessPolicy, ¬ ap.Text t.toByteArray.data.toList := by
  intro t ht ap h
  rw [← C103_access_read (parse := fun _ => none), jsonSerde_accessPolicyDec] at h
  have : ∀ t ∈ ["{\"Not\":\"D::HR\"}", "{\"And\":[\"All\",\"All\",\"All\"]}", "{\"Attr\":\"D::HR\",\"All\":null}", "\"D::HR\""],
    (Json.ofBytes t.toByteArray.data.toList).bind AccessPolicy.ofJson = none := by decide +kernel
  rw [this t ht] at h
  cases h

/-- **C103**, axes: exactly the texts of a list of axes are read as the list. -/
theorem C103_axes {l : List PolicyAxis} {b : Bytes} :
    (jsonSerde parse).axesDec b = some l ↔ ∃ js, JsonDocument (.arr js) b ∧ List.Forall₂ (fun a j => Json.Struct a.members j) l js := by
  rw [jsonSerde_axesDec, Option.bind_eq_some_iff]
  simp only [C103_documents, asList_iff, axis_ofJson_iff]
  constructor
  · rintro ⟨j, hd, xs, rfl, h⟩
    exact ⟨xs, hd, h⟩
  · rintro ⟨js, hd, h⟩
    exact ⟨_, hd, js, rfl, h⟩

/-- An axis as an object, another as an array. -/
example : (jsonSerde parse).axesDec "[{\"hierarchical\":true,\"attributes\":[\"a\",\" b\"],\"name\":\"A\"},[\"B\",[],false]]".toByteArray.data.toList =
    some [⟨"A", ["a", " b"], true⟩, ⟨"B", [], false⟩] := by
  rw [jsonSerde_axesDec]
  decide +kernel

/-- **C103**, metadata: exactly the texts of metadata are read as it; absent additional data may be left out. -/
theorem C103_metadata {m : Metadata} {b : Bytes} : (jsonSerde parse).metadataDec b = some m ↔ ∃ j, JsonDocument j b ∧ m.Value j := by
  rw [jsonSerde_metadataDec, Option.bind_eq_some_iff]
  simp only [C103_documents, metadata_ofJson_iff]

example : (jsonSerde parse).metadataDec "{\"uid\": [0,255]}".toByteArray.data.toList = some ⟨[0, 255], none⟩ ∧
    (jsonSerde parse).metadataDec "{\"additional_data\":[],\"uid\":[]}".toByteArray.data.toList = some ⟨[], some []⟩ ∧
    (jsonSerde parse).metadataDec "[[1],null]".toByteArray.data.toList = some ⟨[1], none⟩ ∧
    (jsonSerde parse).metadataDec "{\"uid\":[256]}".toByteArray.data.toList = none := by
  simp only [jsonSerde_metadataDec]
  decide +kernel

/-- **C103**, consequence for the C interface: the text that the Rust library writes of an access policy with more than 63 nested `And` and `Or` is refused by the generation of a user key,
whatever the other arguments are. -/
theorem C103_deep {K P Q QP T Key Nonce : Type} [Field K] [DecidableEq K] {lib : FfiLib K QP P Q T Key Nonce} (ht : 31 ≤ lib.t.bits)
    (hs : lib.serde = jsonSerde parse) {ap : AccessPolicy} (hn : 63 < ap.nesting) (priv : InBuf) (policy : Option Bytes) (rnd : Nat → K) :
    NeverWrites (hGenerateUserPrivateKey lib priv (some (ap.json.toBytes ++ [0])) policy rnd) := by
  obtain ⟨_, _, _, h4, h5, _⟩ := C103_access (parse := parse) ap
  rcases C47_user_key ht priv (some (ap.json.toBytes ++ [0])) policy rnd with ⟨b, ⟨p, sk, ap', key, _, _, ⟨s, hc, _, hd⟩, _⟩, _⟩ | h
  · obtain rfl := hc.unique ⟨[], rfl, h5⟩
    rw [hs, h4 hn] at hd
    cases hd
  · exact h.2

namespace Json103

/-- `n` nested `And`. -/
def deep : Nat → AccessPolicy
  | 0 => .all
  | n + 1 => .and (deep n) .all

end Json103

example : 63 < (Json103.deep 64).nesting := by decide +kernel

end Abe
