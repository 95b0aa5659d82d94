import Verif.Proofs.JsonPolicy

/-!
# JSON texts of policies, access policies, attributes, axes and metadata, continued
-/

namespace Abe

open Json (Fits)

theorem fits_num (d n : Nat) : Fits d (natJson n) := by
  cases d <;> exact toDigits_number n

theorem fits_str (d : Nat) (s : List Char) : Fits d (.str s) := by
  cases d <;> trivial

theorem fits_bool (d : Nat) (b : Bool) : Fits d (.bool b) := by
  cases d <;> trivial

theorem fits_null (d : Nat) : Fits d .null := by
  cases d <;> trivial

/-! ## Access policies -/

theorem access_fits (ap : AccessPolicy) : ∀ d, 2 * ap.nesting + 1 ≤ d → Fits d ap.json := by
  induction ap with
  | attr a =>
    intro d hd
    obtain ⟨d, rfl⟩ := Nat.exists_eq_add_of_le' (show 1 ≤ d by omega)
    intro m hm
    simp only [List.mem_singleton] at hm
    subst hm
    exact fits_str _ _
  | all => intro d _; exact fits_str _ _
  | and l r hl hr =>
    intro d hd
    simp only [AccessPolicy.nesting] at hd
    obtain ⟨d, rfl⟩ := Nat.exists_eq_add_of_le' (show 2 ≤ d by omega)
    intro m hm
    simp only [List.mem_singleton] at hm
    subst hm
    intro x hx
    simp only [List.mem_cons, List.not_mem_nil, or_false] at hx
    rcases hx with rfl | rfl
    · exact hl d (by omega)
    · exact hr d (by omega)
  | or l r hl hr =>
    intro d hd
    simp only [AccessPolicy.nesting] at hd
    obtain ⟨d, rfl⟩ := Nat.exists_eq_add_of_le' (show 2 ≤ d by omega)
    intro m hm
    simp only [List.mem_singleton] at hm
    subst hm
    intro x hx
    simp only [List.mem_cons, List.not_mem_nil, or_false] at hx
    rcases hx with rfl | rfl
    · exact hl d (by omega)
    · exact hr d (by omega)

theorem items_each {α : Type} {R : α → List Char → Prop} {l : List α} {s : List Char} (h : ItemsWritten R l s) : ∀ x ∈ l, ∃ t, R x t := by
  induction h with
  | empty _ => simp
  | last _ h _ => intro x hx; simp only [List.mem_singleton] at hx; subst hx; exact ⟨_, h⟩
  | more _ h _ _ ih =>
    intro x hx
    rcases List.mem_cons.1 hx with rfl | hx
    · exact ⟨_, h⟩
    · exact ih x hx

theorem written_arr {d : Nat} {l : List Json} {t : List Char} (h : JsonWritten d (.arr l) t) : ∃ e, d = e + 1 ∧ ∀ x ∈ l, ∃ s, JsonWritten e x s := by
  cases d with
  | zero => cases h
  | succ d =>
    rcases h with h | ⟨l', s, hl, hi, _⟩ | ⟨l', s, hl, _⟩
    · cases h
    · cases hl; exact ⟨d, rfl, items_each hi⟩
    · cases hl

theorem written_obj {d : Nat} {l : List (List Char × Json)} {t : List Char} (h : JsonWritten d (.obj l) t) :
    ∃ e, d = e + 1 ∧ ∀ x ∈ l, ∃ s, JsonWritten e x.2 s := by
  cases d with
  | zero => cases h
  | succ d =>
    rcases h with h | ⟨l', s, hl, _⟩ | ⟨l', s, hl, hi, _⟩
    · cases h
    · cases hl
    · cases hl
      refine ⟨d, rfl, fun x hx => ?_⟩
      obtain ⟨t, k, w, w', v, _, _, _, hv, _⟩ := items_each hi x hx
      exact ⟨v, hv⟩

theorem access_depth (ap : AccessPolicy) : ∀ {d : Nat} {t : List Char}, JsonWritten d ap.json t → 2 * ap.nesting ≤ d := by
  have step : ∀ {k : List Char} {l r : AccessPolicy}, (∀ {d : Nat} {t : List Char}, JsonWritten d l.json t → 2 * l.nesting ≤ d) →
      (∀ {d : Nat} {t : List Char}, JsonWritten d r.json t → 2 * r.nesting ≤ d) → ∀ {d : Nat} {t : List Char},
      JsonWritten d (.obj [(k, .arr [l.json, r.json])]) t → 2 * (max l.nesting r.nesting + 1) ≤ d := by
    intro k l r hl hr d t h
    obtain ⟨e, rfl, h1⟩ := written_obj h
    obtain ⟨s, h1⟩ := h1 _ (List.mem_singleton.2 rfl)
    obtain ⟨e, rfl, h2⟩ := written_arr h1
    obtain ⟨s1, g1⟩ := h2 l.json (by simp)
    obtain ⟨s2, g2⟩ := h2 r.json (by simp)
    have := hl g1
    have := hr g2
    omega
  induction ap with
  | attr a => intro d t _; simp [AccessPolicy.nesting]
  | all => intro d t _; simp [AccessPolicy.nesting]
  | and l r hl hr => exact fun h => step hl hr h
  | or l r hl hr => exact fun h => step hl hr h

theorem access_ofJson_iff (ap : AccessPolicy) : AccessPolicy.ofJson ap.json = some ap ↔ ap.Spelled := by
  induction ap with
  | attr a =>
    have e : AccessPolicy.ofJson (AccessPolicy.attr a).json = (Attribute.ofChars a.chars).map .attr := by
      simp [AccessPolicy.json, Attribute.json, AccessPolicy.ofJson]
    rw [e, Option.map_eq_some_iff]
    constructor
    · rintro ⟨b, hb, he⟩ c hc
      cases he
      rw [AccessPolicy.Mentions] at hc
      rw [hc]
      exact ofChars_chars_iff.1 hb
    · intro h
      exact ⟨a, ofChars_chars_iff.2 (h a rfl), rfl⟩
  | all =>
    refine ⟨fun _ a ha => ha.elim, fun _ => ?_⟩
    simp [AccessPolicy.json, AccessPolicy.ofJson, strJson]
  | and l r hl hr =>
    have e : AccessPolicy.ofJson (AccessPolicy.and l r).json = (AccessPolicy.ofJson l.json).bind fun l => (AccessPolicy.ofJson r.json).bind fun r => some (.and l r) := by
      simp [AccessPolicy.json, AccessPolicy.ofJson]
    rw [e, Option.bind_eq_some_iff]
    constructor
    · rintro ⟨l', h1, h⟩
      obtain ⟨r', h2, h⟩ := Option.bind_eq_some_iff.1 h
      cases h
      rintro a (ha | ha)
      · exact hl.1 h1 a ha
      · exact hr.1 h2 a ha
    · intro h
      exact ⟨l, hl.2 fun a ha => h a (.inl ha), by rw [hr.2 fun a ha => h a (.inr ha)]; rfl⟩
  | or l r hl hr =>
    have e : AccessPolicy.ofJson (AccessPolicy.or l r).json = (AccessPolicy.ofJson l.json).bind fun l => (AccessPolicy.ofJson r.json).bind fun r => some (.or l r) := by
      simp [AccessPolicy.json, AccessPolicy.ofJson]
    rw [e, Option.bind_eq_some_iff]
    constructor
    · rintro ⟨l', h1, h⟩
      obtain ⟨r', h2, h⟩ := Option.bind_eq_some_iff.1 h
      cases h
      rintro a (ha | ha)
      · exact hl.1 h1 a ha
      · exact hr.1 h2 a ha
    · intro h
      exact ⟨l, hl.2 fun a ha => h a (.inl ha), by rw [hr.2 fun a ha => h a (.inr ha)]; rfl⟩

/-! ## Attributes, axes, metadata -/

theorem fits_map {α : Type} {g : α → Json} {l : List α} {d : Nat} (h : ∀ x ∈ l, Fits d (g x)) : Fits (d + 1) (.arr (l.map g)) := by
  intro x hx
  obtain ⟨y, hy, rfl⟩ := List.mem_map.1 hx
  exact h y hy

theorem attributes_fits (l : List Attribute) : Fits 1 (.arr (l.map Attribute.json)) := fits_map fun _ _ => fits_str _ _

theorem mapM_self {α : Type} {f : Json → Option α} {g : α → Json} : ∀ {l : List α}, (l.map g).mapM f = some l → ∀ x ∈ l, f (g x) = some x := by
  intro l
  induction l with
  | nil => simp
  | cons x l ih =>
    intro h y hy
    rw [List.map_cons, List.mapM_cons] at h
    obtain ⟨x', h1, h⟩ := Option.bind_eq_some_iff.1 h
    obtain ⟨l', h2, h⟩ := Option.bind_eq_some_iff.1 h
    simp only [Option.pure_def, Option.some.injEq, List.cons.injEq] at h
    obtain ⟨rfl, rfl⟩ := h
    rcases List.mem_cons.1 hy with rfl | hy
    · exact h1
    · exact ih h2 y hy

theorem attributes_iff (l : List Attribute) : Json.asList Attribute.ofJson (.arr (l.map Attribute.json)) = some l ↔ ∀ a ∈ l, a.Spelled := by
  constructor
  · exact fun h a ha => ofChars_chars_iff.1 (mapM_self h a ha)
  · exact fun h => asList_self fun a ha => ofChars_chars_iff.2 (h a ha)

theorem axis_fits (a : PolicyAxis) : Fits 2 a.json := by
  intro m hm
  simp only [List.mem_cons, List.not_mem_nil, or_false] at hm
  rcases hm with rfl | rfl | rfl
  · exact fits_str _ _
  · exact fits_map fun _ _ => fits_str _ _
  · exact fits_bool _ _

theorem bytes_fits (d : Nat) (b : Bytes) : Fits (d + 1) (bytesJson b) := fits_map fun _ _ => fits_num _ _

theorem bytes_ofJson (b : Bytes) : Json.asList Json.asU8 (bytesJson b) = some b := asList_self fun x _ => asU8_natJson x

theorem metadata_fits (m : Metadata) : Fits 2 m.json := by
  intro x hx
  simp only [List.mem_cons, List.not_mem_nil, or_false] at hx
  rcases hx with rfl | rfl
  · exact bytes_fits 0 _
  · cases m.additionalData with
    | none => exact fits_null _
    | some b => exact bytes_fits 0 b

/-! ## Policies -/

theorem policy_fits (p : Policy) : Fits 4 p.json := by
  intro m hm
  simp only [List.mem_cons, List.not_mem_nil, or_false] at hm
  rcases hm with rfl | rfl | rfl | rfl
  · exact fits_num _ _
  · exact fits_num _ _
  · intro m hm
    obtain ⟨x, _, rfl⟩ := List.mem_map.1 hm
    intro y hy
    simp only [List.mem_cons, List.not_mem_nil, or_false] at hy
    rcases hy with rfl | rfl
    · exact fits_map fun _ _ => fits_str _ _
    · exact fits_bool _ _
  · intro m hm
    obtain ⟨x, _, rfl⟩ := List.mem_map.1 hm
    exact fits_map fun _ _ => fits_num _ _

theorem field_iff {name : String} {l : List (List Char × Json)} {x : Json} :
    Json.field name l = some x ↔ (l.filter fun m => m.1 = name.toList) = [(name.toList, x)] := by
  unfold Json.field
  constructor
  · intro h
    split at h
    · next k y hf =>
      simp only [Option.some.injEq] at h
      have : (k, y) ∈ l.filter fun m => m.1 = name.toList := by rw [hf]; simp
      have hk : k = name.toList := by simpa using (List.mem_filter.1 this).2
      rw [hf, hk, h]
    · cases h
  · intro h
    rw [h]

/-- Fields may come in any order, among others. -/
theorem fields_iff {l : List (List Char × Json)} : ∀ {fields : List (List Char × Json)}, (fields.map Prod.fst).Nodup →
    ((l.filter fun x => x.1 ∈ fields.map Prod.fst).Perm fields ↔ ∀ x ∈ fields, (l.filter fun m => m.1 = x.1) = [x]) := by
  intro fields hn
  constructor
  · intro h x hx
    have h1 := h.filter (fun y => y.1 = x.1)
    have h2 : (fields.filter fun y => y.1 = x.1) = [x] := by
      clear h h1
      induction fields with
      | nil => cases hx
      | cons y fields ih =>
        simp only [List.map_cons, List.nodup_cons] at hn
        rcases List.mem_cons.1 hx with rfl | hx
        · rw [List.filter_cons_of_pos (by simp), List.filter_eq_nil_iff.2]
          intro z hz
          have : z.1 ≠ x.1 := fun e => hn.1 (e ▸ List.mem_map_of_mem hz)
          simpa using this
        · rw [List.filter_cons_of_neg, ih hn.2 hx]
          have : y.1 ≠ x.1 := fun e => hn.1 (e ▸ List.mem_map_of_mem hx)
          simpa using this
    rw [h2, List.perm_singleton, List.filter_filter] at h1
    rw [← h1]
    apply List.filter_congr
    intro y _
    by_cases e : y.1 = x.1
    · have : x.1 ∈ fields.map Prod.fst := List.mem_map_of_mem hx
      simp only [e, this, decide_true, Bool.and_true]
    · simp only [e, decide_false, Bool.false_and]
  · intro h
    induction fields with
    | nil => simp
    | cons x fields ih =>
      simp only [List.map_cons, List.nodup_cons] at hn
      have ih' := ih hn.2 fun y hy => h y (by simp [hy])
      have hx := h x (by simp)
      have hp := (List.filter_append_perm (fun m : List Char × Json => decide (m.1 = x.1)) (l.filter fun m => m.1 ∈ (x :: fields).map Prod.fst)).symm
      refine hp.trans ?_
      rw [List.filter_filter, List.filter_filter]
      have e1 : (l.filter fun m => decide (m.1 = x.1) && decide (m.1 ∈ (x :: fields).map Prod.fst)) = l.filter fun m => decide (m.1 = x.1) := by
        apply List.filter_congr
        intro y _
        by_cases e : y.1 = x.1
        · simp [e]
        · simp [e]
      have e2 : (l.filter fun m => !decide (m.1 = x.1) && decide (m.1 ∈ (x :: fields).map Prod.fst)) = l.filter fun m => decide (m.1 ∈ fields.map Prod.fst) := by
        apply List.filter_congr
        intro y _
        by_cases e : y.1 = x.1
        · have h1 : y.1 ∉ fields.map Prod.fst := e ▸ hn.1
          simp only [e, decide_true, Bool.not_true, Bool.false_and]
          rw [e] at h1
          simp [h1]
        · simp [e]
      rw [e1, e2, hx]
      exact ih'.cons x

/-- A struct is read through its fields. -/
theorem struct_iff {fields : List (List Char × Json)} (hn : (fields.map Prod.fst).Nodup) {j : Json} :
    Json.Struct fields j ↔ (∃ l, j = .obj l ∧ ∀ x ∈ fields, (l.filter fun m => m.1 = x.1) = [x]) ∨ j = .arr (fields.map Prod.snd) := by
  unfold Json.Struct
  simp only [fields_iff hn]

/-- The members of `Policy.json`. -/
def Policy.membersJson (p : Policy) : List (List Char × Json) :=
  [("last_attribute_value".toList, natJson p.lastAttributeValue.toNat),
    ("max_attribute_creations".toList, natJson p.maxAttributeCreations.toNat),
    ("axes".toList, .obj (p.axes.map fun (n, (l, h)) => (n.toList, .arr [.arr (l.map strJson), .bool h]))),
    ("attribute_to_int".toList, .obj (p.attributeToInt.map fun (a, h) => (a.chars, .arr (h.map fun v => natJson v.toNat))))]

theorem chars_eq (a : Attribute) : a.axis.toList ++ "::".toList ++ a.name.toList = a.chars := by
  simp [Attribute.chars]

theorem members_json (p : Policy) : p.members = p.membersJson := by
  simp only [Policy.members, Policy.membersJson, chars_eq]
  rfl

theorem value_json (ap : AccessPolicy) : ap.value = ap.json := by
  induction ap with
  | attr a => simp only [AccessPolicy.value, AccessPolicy.json, Attribute.value, chars_eq]; rfl
  | all => rfl
  | and l r hl hr => simp only [AccessPolicy.value, AccessPolicy.json, hl, hr]
  | or l r hl hr => simp only [AccessPolicy.value, AccessPolicy.json, hl, hr]

theorem attribute_value_json (a : Attribute) : a.value = a.json := by
  simp only [Attribute.value, chars_eq]; rfl

/-- The fields of a policy with these values. -/
def policyMembers (last max axes values : Json) : List (List Char × Json) :=
  [("last_attribute_value".toList, last), ("max_attribute_creations".toList, max), ("axes".toList, axes), ("attribute_to_int".toList, values)]

theorem policy_ofJson_struct {j : Json} {p : Policy} :
    Policy.ofJson j = some p ↔ ∃ last max axes values, Json.Struct (policyMembers last max axes values) j ∧ Policy.ofFields last max axes values = some p := by
  have hn : ∀ a b c d, ((policyMembers a b c d).map Prod.fst).Nodup := fun _ _ _ _ => by simp [policyMembers]
  constructor
  · intro h
    unfold Policy.ofJson at h
    split at h
    · next a b c d => exact ⟨a, b, c, d, .inr rfl, h⟩
    · next l =>
      simp only [Option.bind_eq_bind, Option.bind_eq_some_iff] at h
      obtain ⟨a, ha, b, hb, c, hc, d, hd, h⟩ := h
      refine ⟨a, b, c, d, (struct_iff (hn a b c d)).2 (.inl ⟨l, rfl, ?_⟩), h⟩
      intro x hx
      simp only [policyMembers, List.mem_cons, List.not_mem_nil, or_false] at hx
      rcases hx with rfl | rfl | rfl | rfl
      · exact field_iff.1 ha
      · exact field_iff.1 hb
      · exact field_iff.1 hc
      · exact field_iff.1 hd
    · cases h
  · rintro ⟨a, b, c, d, hs, h⟩
    rcases (struct_iff (hn a b c d)).1 hs with ⟨l, rfl, hl⟩ | rfl
    · have g1 := field_iff.2 (hl _ (List.mem_cons_self ..))
      have g2 := field_iff.2 (hl ("max_attribute_creations".toList, b) (by simp [policyMembers]))
      have g3 := field_iff.2 (hl ("axes".toList, c) (by simp [policyMembers]))
      have g4 := field_iff.2 (hl ("attribute_to_int".toList, d) (by simp [policyMembers]))
      simp only [Policy.ofJson, g1, g2, g3, g4, Option.bind_eq_bind, Option.bind_some]
      exact h
    · exact h

/-- The fields are determined by the struct. -/
theorem policy_struct_unique {j a b c d a' b' c' d' : Json} (h : Json.Struct (policyMembers a b c d) j) (h' : Json.Struct (policyMembers a' b' c' d') j) :
    a = a' ∧ b = b' ∧ c = c' ∧ d = d' := by
  have hn : ∀ a b c d, ((policyMembers a b c d).map Prod.fst).Nodup := fun _ _ _ _ => by simp [policyMembers]
  rcases (struct_iff (hn _ _ _ _)).1 h with ⟨l, rfl, hl⟩ | rfl
  · rcases (struct_iff (hn _ _ _ _)).1 h' with ⟨l', he, hl'⟩ | he
    · cases he
      have key : ∀ {k : List Char} {x y : Json}, (l.filter fun m => m.1 = k) = [(k, x)] → (l.filter fun m => m.1 = k) = [(k, y)] → x = y := by
        intro k x y h1 h2
        rw [h1] at h2
        simpa using h2
      exact ⟨key (hl ("last_attribute_value".toList, a) (by simp [policyMembers])) (hl' ("last_attribute_value".toList, a') (by simp [policyMembers])),
        key (hl ("max_attribute_creations".toList, b) (by simp [policyMembers])) (hl' ("max_attribute_creations".toList, b') (by simp [policyMembers])),
        key (hl ("axes".toList, c) (by simp [policyMembers])) (hl' ("axes".toList, c') (by simp [policyMembers])),
        key (hl ("attribute_to_int".toList, d) (by simp [policyMembers])) (hl' ("attribute_to_int".toList, d') (by simp [policyMembers]))⟩
    · cases he
  · rcases (struct_iff (hn _ _ _ _)).1 h' with ⟨l', he, _⟩ | he
    · cases he
    · simpa [policyMembers] using he

theorem policy_ofJson_members (p : Policy) {j : Json} (h : Json.Struct p.membersJson j) :
    Policy.ofJson j = ((p.membersJson.getD 2 ([], .null)).2.asMap (fun k => some (String.ofList k)) axisOfJson).bind fun axes =>
      ((p.membersJson.getD 3 ([], .null)).2.asMap Attribute.ofChars fun j => (j.asList Json.asU32).map heapify).bind fun values =>
        some ⟨p.lastAttributeValue, p.maxAttributeCreations, axes, values⟩ := by
  have hf : Policy.ofJson j = Policy.ofFields (natJson p.lastAttributeValue.toNat) (natJson p.maxAttributeCreations.toNat) (p.membersJson.getD 2 ([], .null)).2
      (p.membersJson.getD 3 ([], .null)).2 := by
    have h' : Json.Struct (policyMembers (natJson p.lastAttributeValue.toNat) (natJson p.maxAttributeCreations.toNat) (p.membersJson.getD 2 ([], .null)).2
      (p.membersJson.getD 3 ([], .null)).2) j := h
    apply Option.ext
    intro q
    rw [policy_ofJson_struct]
    constructor
    · rintro ⟨a, b, c, d, h1, h2⟩
      obtain ⟨rfl, rfl, rfl, rfl⟩ := policy_struct_unique h1 h'
      exact h2
    · exact fun h2 => ⟨_, _, _, _, h', h2⟩
  rw [hf]
  unfold Policy.ofFields
  simp only [Option.bind_eq_bind, Option.bind_some, asU32_natJson]

theorem axes_ofJson {p : Policy} (hn : (p.axes.map Prod.fst).Nodup) :
    (p.membersJson.getD 2 ([], .null)).2.asMap (fun k => some (String.ofList k)) axisOfJson = some p.axes := by
  have := asMap_map (m := p.axes) (key := fun k => some (String.ofList k)) (f := axisOfJson) (kt := String.toList)
    (g := fun x => .arr [.arr (x.2.1.map strJson), .bool x.2.2]) (h := id)
    (fun x _ => by simp) (fun x _ => by
      have : Json.asList Json.asString (.arr (x.2.1.map strJson)) = some x.2.1 := asList_self fun y _ => asString_strJson y
      simp [axisOfJson, this, Json.asBool]) hn
  simpa [Policy.membersJson] using this

theorem values_ofJson {p : Policy} (hn : (p.attributeToInt.map Prod.fst).Nodup) (hh : ∀ x ∈ p.attributeToInt, IsHeap x.2)
    (hs : ∀ x ∈ p.attributeToInt, x.1.Spelled) :
    ((p.membersJson.getD 3 ([], .null)).2.asMap Attribute.ofChars fun j => (j.asList Json.asU32).map heapify) = some p.attributeToInt := by
  have := asMap_map (m := p.attributeToInt) (key := Attribute.ofChars) (f := fun j => (j.asList Json.asU32).map heapify) (kt := Attribute.chars)
    (g := fun x => .arr (x.2.map fun v => natJson v.toNat)) (h := id)
    (fun x hx => ofChars_chars_iff.2 (hs x hx)) (fun x hx => by
      have : Json.asList Json.asU32 (.arr (x.2.map fun v => natJson v.toNat)) = some x.2 := asList_self fun y _ => asU32_natJson y
      simp [this, heapify_eq (hh x hx)]) hn
  simpa [Policy.membersJson] using this

/-- Reading as many entries as there are members means that no two keys are read alike. -/
theorem asMap_keys {κ α : Type} [DecidableEq κ] {key : List Char → Option κ} {f : Json → Option α} : ∀ {l : List (List Char × Json)} {acc r : List (κ × α)},
    List.foldlM (fun (m : List (κ × α)) (x : List Char × Json) => (key x.1).bind fun k => (f x.2).bind fun y => some (m.filter (fun p => ¬ p.1 = k) ++ [(k, y)]))
      acc l = some r →
    r.length ≤ acc.length + l.length ∧ (r.length = acc.length + l.length → ∃ ys, r = acc ++ ys ∧ List.Forall₂ (fun x y => key x.1 = some y.1) l ys) := by
  intro l
  induction l with
  | nil =>
    intro acc r h
    simp only [List.foldlM_nil, Option.pure_def, Option.some.injEq] at h
    subst h
    exact ⟨by simp, fun _ => ⟨[], by simp, .nil⟩⟩
  | cons x l ih =>
    intro acc r h
    rw [List.foldlM_cons] at h
    obtain ⟨acc', h1, h⟩ := Option.bind_eq_some_iff.1 h
    obtain ⟨k, hk, h1⟩ := Option.bind_eq_some_iff.1 h1
    obtain ⟨y, _, h1⟩ := Option.bind_eq_some_iff.1 h1
    simp only [Option.some.injEq] at h1
    obtain ⟨g1, g2⟩ := ih h
    have hle := List.length_filter_le (fun p : κ × α => decide (¬ p.1 = k)) acc
    have hlen := congrArg List.length h1
    simp only [List.length_append, List.length_cons, List.length_nil] at hlen
    refine ⟨by simp only [List.length_cons]; omega, fun he => ?_⟩
    simp only [List.length_cons] at he
    obtain ⟨ys, hr, hf⟩ := g2 (by omega)
    have hfil : acc.filter (fun p => decide (¬ p.1 = k)) = acc := List.filter_sublist.eq_of_length (by omega)
    rw [hfil] at h1
    refine ⟨(k, y) :: ys, by rw [hr, ← h1]; simp, .cons hk hf⟩

theorem values_spelled {p : Policy}
    (h : ((p.membersJson.getD 3 ([], .null)).2.asMap Attribute.ofChars fun j => (j.asList Json.asU32).map heapify) = some p.attributeToInt) :
    ∀ x ∈ p.attributeToInt, x.1.Spelled := by
  have h' : List.foldlM (fun (m : List (Attribute × List UInt32)) (x : List Char × Json) => (Attribute.ofChars x.1).bind fun k =>
      ((x.2.asList Json.asU32).map heapify).bind fun y => some (m.filter (fun p => ¬ p.1 = k) ++ [(k, y)])) []
      (p.attributeToInt.map fun (a, h) => (a.chars, Json.arr (h.map fun v => natJson v.toNat))) = some p.attributeToInt := h
  obtain ⟨ys, hr, hf⟩ := (asMap_keys (key := Attribute.ofChars) (f := fun j => (j.asList Json.asU32).map heapify) h').2 (by simp)
  rw [List.nil_append] at hr
  rw [← hr, List.forall₂_map_left_iff] at hf
  intro x hx
  have : ∀ {l : List (Attribute × List UInt32)}, List.Forall₂ (fun x y : Attribute × List UInt32 => Attribute.ofChars x.1.chars = some y.1) l l →
      ∀ x ∈ l, x.1.Spelled := by
    intro l hl
    rw [List.forall₂_same] at hl
    exact fun x hx => ofChars_chars_iff.1 (hl x hx)
  exact this hf x hx

theorem spelled_keys {p : Policy} (hw : p.WF) : p.Spelled ↔ ∀ x ∈ p.attributeToInt, x.1.Spelled := by
  constructor
  · intro h x hx
    exact h _ ((hw.known _).2 ⟨x.2, (hget_eq_some hw.keysNodup).2 hx⟩)
  · intro h a ha
    obtain ⟨heap, hh⟩ := (hw.known a).1 ha
    exact h _ (hget_mem hh)

/-- A reachable policy is read again from its JSON exactly when its attributes are spelled. -/
theorem policy_ofJson_iff {p : Policy} (hr : p.Reachable) {j : Json} (h : Json.Struct p.members j) : Policy.ofJson j = some p ↔ p.Spelled := by
  have hw := reachable_wf hr
  rw [members_json] at h
  rw [policy_ofJson_members p h, axes_ofJson hw.axesNodup, Option.bind_some, spelled_keys hw]
  constructor
  · intro h
    obtain ⟨v, h1, h2⟩ := Option.bind_eq_some_iff.1 h
    simp only [Option.some.injEq] at h2
    have : v = p.attributeToInt := by rw [← h2]
    rw [this] at h1
    exact values_spelled h1
  · intro hs
    rw [values_ofJson hw.keysNodup (reachable_heaps hr) hs, Option.bind_some]

/-! ## Rotations -/

theorem rotations_reachable {p p' : Policy} {l : List Attribute} (h : Policy.Rotations p l p') (hr : p.Reachable) : p'.Reachable := by
  induction h with
  | nil => exact hr
  | cons h _ ih => exact ih (.rotate _ hr h)

theorem rotations_spelled {p p' : Policy} {l : List Attribute} (h : Policy.Rotations p l p') (hw : p.WF) (hs : p.Spelled) : p'.Spelled := by
  induction h with
  | nil => exact hs
  | cons h _ ih =>
    obtain ⟨h1, h2, _⟩ := rotate_spec hw h
    refine ih h1 fun a ha => hs a ?_
    unfold Policy.Known at ha ⊢
    rwa [h2] at ha

end Abe
