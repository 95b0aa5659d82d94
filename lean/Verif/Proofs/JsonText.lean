import Verif.Proofs.Json
import Verif.Model.Ffi

/-!
# JSON documents, and the texts written by `serde_json`
-/

namespace Abe
namespace Json

/-! ## Bytes -/

theorem utf8_decode (l : List Char) : ByteArray.utf8Decode? ⟨(String.ofList l).toByteArray.data.toList.toArray⟩ = some l.toArray := by
  change ByteArray.utf8Decode? ⟨l.utf8Encode.data.toList.toArray⟩ = _
  rw [Array.toArray_toList]
  exact List.utf8Decode?_utf8Encode

theorem utf8_encode {b : Bytes} {a : Array Char} (h : ByteArray.utf8Decode? ⟨b.toArray⟩ = some a) : b = (String.ofList a.toList).toByteArray.data.toList := by
  have hs : (ByteArray.utf8Decode? ⟨b.toArray⟩).isSome := by rw [h]; rfl
  have := ByteArray.utf8Encode_get_utf8Decode? (b := ⟨b.toArray⟩) (h := hs)
  simp only [h, Option.get_some] at this
  change b = a.toList.utf8Encode.data.toList
  rw [this]

theorem utf8_valid (l : List Char) : validUtf8 (String.ofList l).toByteArray.data.toList = true := by
  unfold validUtf8
  rw [← ByteArray.isSome_utf8Decode?_eq_validateUTF8, utf8_decode]
  rfl

theorem encodeChar_zero {c : Char} (h : (0 : UInt8) ∈ String.utf8EncodeChar c) : c.toNat = 0 := by
  unfold String.utf8EncodeChar at h
  have key : ∀ n : Nat, n < 256 → 0 = n.toUInt8 → n = 0 := by
    intro n hn h0
    have := congrArg UInt8.toNat h0
    simp at this
    omega
  simp only at h
  split at h
  · simp only [List.mem_cons, List.not_mem_nil, or_false] at h
    exact key _ (by change c.val.toNat < 256; omega) h
  · split at h
    · simp only [List.mem_cons, List.not_mem_nil, or_false] at h
      rcases h with h | h <;> exact absurd (key _ (by omega) h) (by omega)
    · split at h
      · simp only [List.mem_cons, List.not_mem_nil, or_false] at h
        rcases h with h | h | h <;> exact absurd (key _ (by omega) h) (by omega)
      · simp only [List.mem_cons, List.not_mem_nil, or_false] at h
        rcases h with h | h | h | h <;> exact absurd (key _ (by omega) h) (by omega)

theorem utf8_zero {l : List Char} (h : ∀ c ∈ l, c.toNat ≠ 0) : (0 : UInt8) ∉ (String.ofList l).toByteArray.data.toList := by
  change (0 : UInt8) ∉ l.utf8Encode.data.toList
  induction l with
  | nil => simp [List.utf8Encode]
  | cons c l ih =>
    rw [← List.singleton_append, List.utf8Encode_append, List.utf8Encode_singleton]
    intro h0
    have : (0 : UInt8) ∈ String.utf8EncodeChar c ++ l.utf8Encode.data.toList := by
      simpa using h0
    rcases List.mem_append.1 this with h1 | h1
    · exact h c (by simp) (encodeChar_zero h1)
    · exact ih (fun c hc => h c (by simp [hc])) h1

/-! ## Documents -/

theorem ends_nil : Ends [] := fun c hc => by simp at hc

/-- The reader accepts exactly the documents. -/
theorem ofBytes_iff {b : Bytes} {j : Json} : ofBytes b = some j ↔ JsonDocument j b := by
  constructor
  · intro h
    simp only [ofBytes, Option.bind_eq_bind, Option.bind_eq_some_iff] at h
    obtain ⟨a, ha, ⟨j', r⟩, hv, h⟩ := h
    split at h
    · next hr =>
      simp only [Option.some.injEq] at h
      subst h
      obtain ⟨w, hw, h1⟩ := skip_spec a.toList
      obtain ⟨w', hw', h2⟩ := skip_spec r
      obtain ⟨t, h3, h4⟩ := value_sound _ hv
      refine ⟨w, t, w', hw, h4, hw', ?_⟩
      change skip r = [] at hr
      rw [hr, List.append_nil] at h2
      rw [utf8_encode ha, h1, h3, h2, List.append_assoc]
    · simp at h
  · rintro ⟨w, t, w', hw, ht, hw', rfl⟩
    have hE : Ends w' := by
      have := ends_blank hw' ends_nil
      rwa [List.append_nil] at this
    have h1 := value_complete _ ht w' hE
    have h2 : skip (w ++ t ++ w') = t ++ w' := by
      obtain ⟨c, u, a, b, c', _⟩ := written_start ht
      exact skip_start (close := ']') ⟨c, u, a, b, c'⟩ hw
    simp only [ofBytes, utf8_decode, Option.bind_eq_bind, Option.bind_some]
    rw [h2]
    change (value 127 (t ++ w')).bind _ = _
    rw [h1]
    simp only [Option.bind_some]
    rw [if_pos (skip_blank hw')]

/-! ## Written texts -/

theorem written_mono {d e : Nat} (h : d ≤ e) : ∀ {j : Json} {t : List Char}, JsonWritten d j t → JsonWritten e j t := by
  have hitems : ∀ {α : Type} {R S : α → List Char → Prop}, (∀ {x t}, R x t → S x t) → ∀ {l s}, ItemsWritten R l s → ItemsWritten S l s := by
    intro α R S hRS l s h
    induction h with
    | empty hw => exact .empty hw
    | last h1 h2 h3 => exact .last h1 (hRS h2) h3
    | more h1 h2 h3 _ ih => exact .more h1 (hRS h2) h3 ih
  induction d generalizing e with
  | zero =>
    intro j t hj
    cases e with
    | zero => exact hj
    | succ e => exact .inl hj
  | succ d ih =>
    obtain ⟨e, rfl⟩ : ∃ f, e = f + 1 := ⟨e - 1, by omega⟩
    intro j t hj
    have h' : d ≤ e := by omega
    rcases hj with hj | ⟨l, s, h1, h2, h3⟩ | ⟨l, s, h1, h2, h3⟩
    · exact .inl hj
    · exact .inr (.inl ⟨l, s, h1, hitems (ih h') h2, h3⟩)
    · refine .inr (.inr ⟨l, s, h1, hitems ?_ h2, h3⟩)
      rintro x t ⟨k, w, w', v, a, b, c, hv, e⟩
      exact ⟨k, w, w', v, a, b, c, ih h' hv, e⟩

/-- A text writes at most one value. -/
theorem written_unique {d e : Nat} {j j' : Json} {t : List Char} (h : JsonWritten d j t) (h' : JsonWritten e j' t) : j = j' := by
  have h1 := value_complete _ (written_mono (Nat.le_max_left d e) h) [] ends_nil
  have h2 := value_complete _ (written_mono (Nat.le_max_right d e) h') [] ends_nil
  rw [h1] at h2
  simpa using h2

/-- Values whose numbers are well written, with at most `depth` nested arrays and objects. -/
def Fits : (depth : Nat) → Json → Prop
  | _, null => True
  | _, bool _ => True
  | _, num t => NumberText t
  | _, str _ => True
  | 0, arr _ => False
  | 0, obj _ => False
  | d + 1, arr l => ∀ x ∈ l, Fits d x
  | d + 1, obj l => ∀ m ∈ l, Fits d m.2

theorem blank_nil : Blank [] := fun c hc => by simp at hc

theorem escapeChar_written (c : Char) : CharWritten c (escapeChar c) := by
  unfold escapeChar
  split
  · next h => rw [h]; exact .quote
  · next h1 =>
    split
    · next h => rw [h]; exact .backslash
    · next h2 =>
      split
      · next h => rw [h]; exact .newline
      · split
        · next h => rw [h]; exact .carriageReturn
        · split
          · next h => rw [h]; exact .tab
          · split
            · next h => rw [← char_ofNat h]; exact .backspace
            · split
              · next h => rw [← char_ofNat h]; exact .formFeed
              · split
                · next h =>
                  refine .unicode (v := c.toNat) ?_ rfl
                  generalize c.toNat = n at h
                  refine ⟨_, _, _, _, 0, 0, n / 16, n % 16, rfl, ?_, ?_, ?_, ?_, by omega⟩
                  · exact .inl rfl
                  · exact .inl rfl
                  · left; interval_cases n <;> rfl
                  · left; interval_cases n <;> rfl
                · next h => exact .plain (by omega) h1 h2

theorem escape_written (s : List Char) : StringWritten s (s.flatMap escapeChar) := by
  induction s with
  | nil => exact .nil
  | cons c s ih => rw [List.flatMap_cons]; exact .cons (escapeChar_written c) ih

theorem items_text {α : Type} {R : α → List Char → Prop} (f : α → List Char) : ∀ {l : List α}, (∀ x ∈ l, R x (f x)) → ∀ (x : α), R x (f x) →
    ItemsWritten R (x :: l) (f x ++ l.flatMap fun y => ',' :: f y) := by
  intro l
  induction l with
  | nil =>
    intro _ x hx
    have := ItemsWritten.last (item := R) blank_nil hx blank_nil
    simpa using this
  | cons y l ih =>
    intro hl x hx
    have := ItemsWritten.more (item := R) blank_nil hx blank_nil (ih (fun z hz => hl z (by simp [hz])) y (hl y (by simp)))
    simpa using this

theorem elems_eq (l : List Json) : tailElems l = l.flatMap fun y => ',' :: text y := by
  induction l with
  | nil => simp [tailElems]
  | cons x l ih => simp [tailElems, ih]

theorem members_eq (l : List (List Char × Json)) : tailMembers l = l.flatMap fun y => ',' :: (quote y.1 ++ ':' :: text y.2) := by
  induction l with
  | nil => simp [tailMembers]
  | cons x l ih => obtain ⟨k, x⟩ := x; simp [tailMembers, ih]

/-- The compact text is a text of the value. -/
theorem text_written (d : Nat) : ∀ {j : Json}, Fits d j → JsonWritten d j j.text := by
  have hs : ∀ {d : Nat} {j : Json}, ScalarWritten j j.text → JsonWritten d j j.text := by
    intro d j h
    cases d with
    | zero => exact h
    | succ d => exact .inl h
  have hscalar : ∀ {d : Nat} {j : Json}, Fits d j → (∃ l, j = arr l) ∨ (∃ l, j = obj l) ∨ ScalarWritten j j.text := by
    intro d j h
    cases j with
    | null => refine .inr (.inr ?_); rw [text]; exact .null
    | bool b =>
      refine .inr (.inr ?_)
      cases b with
      | true => rw [text]; exact .true
      | false => rw [text]; exact .false
    | num t =>
      refine .inr (.inr ?_)
      rw [text]
      refine .num ?_
      cases d <;> exact h
    | str s => refine .inr (.inr ?_); rw [text]; exact .str (escape_written s)
    | arr l => exact .inl ⟨l, rfl⟩
    | obj l => exact .inr (.inl ⟨l, rfl⟩)
  induction d with
  | zero =>
    intro j h
    rcases hscalar h with ⟨l, rfl⟩ | ⟨l, rfl⟩ | h'
    · exact absurd h (by simp [Fits])
    · exact absurd h (by simp [Fits])
    · exact hs h'
  | succ d ih =>
    intro j h
    rcases hscalar h with ⟨l, rfl⟩ | ⟨l, rfl⟩ | h'
    · refine .inr (.inl ⟨l, elems l, rfl, ?_, by rw [text]⟩)
      have hl : ∀ x ∈ l, JsonWritten d x x.text := fun x hx => ih (h x hx)
      cases l with
      | nil => rw [elems]; exact .empty blank_nil
      | cons x l =>
        rw [elems, elems_eq]
        exact items_text text (fun y hy => hl y (by simp [hy])) x (hl x (by simp))
    · refine .inr (.inr ⟨l, members l, rfl, ?_, by rw [text]⟩)
      have hl : ∀ x ∈ l, MemberWritten (JsonWritten d) x (quote x.1 ++ ':' :: text x.2) := by
        intro x hx
        exact ⟨x.1.flatMap escapeChar, [], [], text x.2, escape_written _, blank_nil, blank_nil, ih (h x hx), by simp [quote]⟩
      cases l with
      | nil => rw [members]; exact .empty blank_nil
      | cons x l =>
        have := items_text (R := MemberWritten (JsonWritten d)) (fun x => quote x.1 ++ ':' :: text x.2) (l := l) (fun y hy => hl y (by simp [hy])) x (hl x (by simp))
        obtain ⟨k, x⟩ := x
        rw [members, members_eq]
        simpa using this
    · exact hs h'

theorem fits_mono {d e : Nat} (h : d ≤ e) : ∀ {j : Json}, Fits d j → Fits e j := by
  induction d generalizing e with
  | zero =>
    intro j hj
    cases j <;> first | (cases e <;> exact hj) | exact absurd hj (by simp [Fits])
  | succ d ih =>
    obtain ⟨e, rfl⟩ : ∃ f, e = f + 1 := ⟨e - 1, by omega⟩
    intro j hj
    cases j with
    | arr l => exact fun x hx => ih (by omega) (hj x hx)
    | obj l => exact fun x hx => ih (by omega) (hj x hx)
    | _ => exact hj

/-- What is written is read again. -/
theorem ofBytes_toBytes {j : Json} (h : Fits 127 j) : ofBytes j.toBytes = some j :=
  ofBytes_iff.2 ⟨[], j.text, [], blank_nil, text_written _ h, blank_nil, by simp [toBytes]⟩

/-- What is written too deep is not read. -/
theorem ofBytes_deep {d : Nat} {j : Json} (h : Fits d j) (hn : ∀ t, ¬ JsonWritten 127 j t) : ofBytes j.toBytes = none := by
  cases h0 : ofBytes j.toBytes with
  | none => rfl
  | some j' =>
    have hv := text_written _ h
    obtain ⟨c, u, hc, hsp, hb, _⟩ := written_start hv
    simp only [ofBytes, toBytes, utf8_decode, Option.bind_eq_bind, Option.bind_some, Option.bind_eq_some_iff] at h0
    obtain ⟨⟨j1, r⟩, hj, h0⟩ := h0
    have hsk : skip j.text = j.text := by
      rw [hc]
      exact skip_of_not (by intro x hx; simp only [List.head?_cons, Option.some.injEq] at hx; rw [← hx, hsp])
    rw [hsk] at hj
    obtain ⟨t, h1, h2⟩ := value_sound _ hj
    split at h0
    · next hr =>
      change skip r = [] at hr
      obtain ⟨w, hw, h3⟩ := skip_spec r
      rw [hr, List.append_nil] at h3
      have hE : Ends r := by
        have := ends_blank hw ends_nil
        rw [List.append_nil] at this
        rwa [h3]
      have e1 := value_complete (max 127 d) (written_mono (Nat.le_max_left _ _) h2) r hE
      have e2 := value_complete (max 127 d) (written_mono (Nat.le_max_right _ _) hv) [] ends_nil
      rw [List.append_nil, h1, e1] at e2
      simp only [Option.some.injEq, Prod.mk.injEq] at e2
      obtain ⟨rfl, _⟩ := e2
      exact absurd h2 (hn _)
    · simp at h0

/-! ## No control characters -/

theorem quote_clean (s : List Char) : ∀ c ∈ quote s, 32 ≤ c.toNat := by
  intro c hc
  simp only [quote, List.mem_cons, List.mem_append, List.mem_flatMap, List.not_mem_nil, or_false] at hc
  rcases hc with rfl | ⟨x, _, hx⟩ | rfl
  · decide
  · unfold escapeChar at hx
    split at hx
    · revert c; decide
    split at hx
    · revert c; decide
    split at hx
    · revert c; decide
    split at hx
    · revert c; decide
    split at hx
    · revert c; decide
    split at hx
    · revert c; decide
    split at hx
    · revert c; decide
    split at hx
    · next h =>
      generalize x.toNat = n at h hx
      revert c
      interval_cases n <;> decide
    · next h =>
      simp only [List.mem_singleton] at hx
      subst hx; omega
  · decide

theorem numberText_clean {t : List Char} (h : NumberText t) : ∀ c ∈ t, 32 ≤ c.toNat := by
  obtain ⟨g, i, f, e, rfl, hg, hi, _, hf, he⟩ := h
  have hd : ∀ {d : List Char}, Digits d → ∀ c ∈ d, 32 ≤ c.toNat := by
    intro d hd c hc
    have := isDigit_iff.2 (hd.2 c hc)
    simp only [isDigit, decide_eq_true_eq] at this
    omega
  intro c hc
  simp only [List.mem_append] at hc
  rcases hc with ((hc | hc) | hc) | hc
  · rcases hg with rfl | rfl
    · simp at hc
    · simp only [List.mem_singleton] at hc; subst hc; decide
  · exact hd hi c hc
  · rcases hf with rfl | ⟨d, hd', rfl⟩
    · simp at hc
    · rcases List.mem_cons.1 hc with rfl | hc
      · decide
      · exact hd hd' c hc
  · rcases he with rfl | ⟨x, g, d, hx, hg, hd', rfl⟩
    · simp at hc
    · rcases List.mem_cons.1 hc with rfl | hc
      · rcases hx with rfl | rfl <;> decide
      · rcases List.mem_append.1 hc with hc | hc
        · rcases hg with rfl | rfl | rfl
          · simp at hc
          · simp only [List.mem_singleton] at hc; subst hc; decide
          · simp only [List.mem_singleton] at hc; subst hc; decide
        · exact hd hd' c hc

/-- Written texts have no control characters. -/
theorem text_clean (d : Nat) : ∀ {j : Json}, Fits d j → ∀ c ∈ j.text, 32 ≤ c.toNat := by
  induction d with
  | zero =>
    intro j h
    cases j with
    | null => rw [text]; decide
    | bool b => cases b <;> (rw [text]; decide)
    | num t => rw [text]; exact numberText_clean h
    | str s => rw [text]; exact quote_clean s
    | arr l => exact absurd h (by simp [Fits])
    | obj l => exact absurd h (by simp [Fits])
  | succ d ih =>
    intro j h
    cases j with
    | null => rw [text]; decide
    | bool b => cases b <;> (rw [text]; decide)
    | num t => rw [text]; exact numberText_clean h
    | str s => rw [text]; exact quote_clean s
    | arr l =>
      have hl : ∀ x ∈ l, ∀ c ∈ x.text, 32 ≤ c.toNat := fun x hx => ih (h x hx)
      rw [text]
      intro c hc
      simp only [List.mem_cons, List.mem_append, List.not_mem_nil, or_false] at hc
      rcases hc with rfl | hc | rfl
      · decide
      · cases l with
        | nil => simp [elems] at hc
        | cons x l =>
          rw [elems, elems_eq] at hc
          simp only [List.mem_append, List.mem_flatMap, List.mem_cons] at hc
          rcases hc with hc | ⟨y, hy, rfl | hc⟩
          · exact hl x (by simp) c hc
          · decide
          · exact hl y (by simp [hy]) c hc
      · decide
    | obj l =>
      have hl : ∀ x ∈ l, ∀ c ∈ x.2.text, 32 ≤ c.toNat := fun x hx => ih (h x hx)
      rw [text]
      intro c hc
      simp only [List.mem_cons, List.mem_append, List.not_mem_nil, or_false] at hc
      rcases hc with rfl | hc | rfl
      · decide
      · cases l with
        | nil => simp [members] at hc
        | cons x l =>
          obtain ⟨k, x⟩ := x
          rw [members, members_eq] at hc
          simp only [List.mem_append, List.mem_flatMap, List.mem_cons] at hc
          rcases hc with hc | rfl | hc | ⟨y, hy, rfl | hc | rfl | hc⟩
          · exact quote_clean _ c hc
          · decide
          · exact hl (k, x) (by simp) c hc
          · decide
          · exact quote_clean _ c hc
          · decide
          · exact hl y (by simp [hy]) c hc
      · decide

/-- Written bytes can be handed over as a C string. -/
theorem toBytes_clean {d : Nat} {j : Json} (h : Fits d j) : 0 ∉ j.toBytes ∧ validUtf8 j.toBytes = true :=
  ⟨utf8_zero fun c hc => by have := text_clean d h c hc; omega, utf8_valid _⟩

end Json

/-! ## Numbers -/

theorem digitsVal_toDigits (n : Nat) : digitsVal (Nat.toDigits 10 n) = n := by
  have := Nat.ofDigitChars_ten_toDigits (n := n)
  unfold Nat.ofDigitChars at this
  unfold digitsVal digitVal
  refine Eq.trans ?_ this
  congr 1
  funext a c
  rw [Nat.mul_comm]

theorem toDigits_number (n : Nat) : NumberText (Nat.toDigits 10 n) := by
  have hd : ∀ n : Nat, ∀ c ∈ Nat.toDigits 10 n, Json.isDigit c = true := by
    intro n c hc
    have := Nat.isDigit_of_mem_toDigits (by decide) (by decide) hc
    simp only [Char.isDigit, Bool.and_eq_true, decide_eq_true_eq, UInt32.le_iff_toNat_le, ge_iff_le] at this
    simp only [Json.isDigit, decide_eq_true_eq]
    exact this
  have h0 : ∀ n : Nat, (Nat.toDigits 10 n).head? = some '0' → n = 0 := by
    intro n
    induction n using Nat.strongRecOn with
    | ind n ih =>
      intro h
      by_cases hn : n < 10
      · rw [Nat.toDigits_of_lt_base hn] at h
        interval_cases n <;> first | rfl | (simp [Nat.digitChar] at h)
      · rw [Nat.toDigits_of_base_le (by decide) (by omega)] at h
        have hne : Nat.toDigits 10 (n / 10) ≠ [] := Nat.toDigits_ne_nil
        rw [List.head?_append_of_ne_nil _ hne] at h
        have := ih (n / 10) (by omega) h
        omega
  refine ⟨[], Nat.toDigits 10 n, [], [], by simp, .inl rfl, ⟨Nat.toDigits_ne_nil, fun c hc => Json.isDigit_iff.1 (hd n c hc)⟩, fun h => ?_, .inl rfl, .inl rfl⟩
  rw [h0 n h]; rfl

theorem asNat_natJson {n bound : Nat} (h : n < bound) : (natJson n).asNat bound = some n := by
  obtain ⟨g, i, f, e, _, _, _⟩ := toDigits_number n
  have hd : (Nat.toDigits 10 n).all Json.isDigit = true := by
    rw [List.all_eq_true]
    intro c hc
    have := Nat.isDigit_of_mem_toDigits (by decide) (by decide) hc
    simp only [Char.isDigit, Bool.and_eq_true, decide_eq_true_eq, UInt32.le_iff_toNat_le, ge_iff_le] at this
    simp only [Json.isDigit, decide_eq_true_eq]
    exact this
  simp only [natJson, Json.asNat, hd, digitsVal_toDigits, h, and_self, if_true]

end Abe

/-! ## Equality of values -/

namespace Abe.Json

mutual
/-- Equality as a Boolean. -/
def same : Json → Json → Bool
  | null, null => true
  | bool a, bool b => a == b
  | num a, num b => a == b
  | str a, str b => a == b
  | arr a, arr b => sameList a b
  | obj a, obj b => sameMembers a b
  | _, _ => false
def sameList : List Json → List Json → Bool
  | [], [] => true
  | x :: l, y :: m => same x y && sameList l m
  | _, _ => false
def sameMembers : List (List Char × Json) → List (List Char × Json) → Bool
  | [], [] => true
  | (a, x) :: l, (b, y) :: m => a == b && same x y && sameMembers l m
  | _, _ => false
end

mutual
theorem same_eq : ∀ a b : Json, same a b = true → a = b
  | null, b, h => by cases b <;> simp_all [same]
  | bool a, b, h => by cases b <;> simp_all [same]
  | num a, b, h => by cases b <;> simp_all [same]
  | str a, b, h => by cases b <;> simp_all [same]
  | arr a, b, h => by
    cases b <;> simp only [same, Bool.false_eq_true] at h
    rw [sameList_eq _ _ h]
  | obj a, b, h => by
    cases b <;> simp only [same, Bool.false_eq_true] at h
    rw [sameMembers_eq _ _ h]
theorem sameList_eq : ∀ a b : List Json, sameList a b = true → a = b
  | [], b, h => by cases b <;> simp_all [sameList]
  | x :: l, b, h => by
    cases b with
    | nil => simp [sameList] at h
    | cons y m =>
      simp only [sameList, Bool.and_eq_true] at h
      rw [same_eq _ _ h.1, sameList_eq _ _ h.2]
theorem sameMembers_eq : ∀ a b : List (List Char × Json), sameMembers a b = true → a = b
  | [], b, h => by cases b <;> simp_all [sameMembers]
  | (k, x) :: l, b, h => by
    cases b with
    | nil => simp [sameMembers] at h
    | cons y m =>
      simp only [sameMembers, Bool.and_eq_true, beq_iff_eq] at h
      rw [same_eq _ _ h.1.2, sameMembers_eq _ _ h.2, h.1.1]
end

theorem ofBytes_same {b : Bytes} {j : Json} (h : (ofBytes b).any (same · j) = true) : ofBytes b = some j := by
  cases hb : ofBytes b with
  | none => rw [hb] at h; cases h
  | some x => rw [hb] at h; rw [same_eq _ _ h]

end Abe.Json
