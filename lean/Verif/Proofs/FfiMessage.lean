import Verif.Spec.Ffi
import Verif.Proofs.Parse

/-!
# The sizes written in the error messages of the C interface
-/

namespace Abe

theorem utf8_append (a b : String) : utf8 (a ++ b) = utf8 a ++ utf8 b := by
  simp [utf8, String.toByteArray_append]

theorem utf8_ofList (l : List Char) : utf8 (String.ofList l) = l.flatMap String.utf8EncodeChar := by
  simp [utf8, List.utf8Encode]

/-- A decimal digit as a byte. -/
def digitByte (c : UInt8) : Bool := 48 ≤ c && c ≤ 57

theorem utf8_digit {c : Char} (h : c.isDigit = true) : String.utf8EncodeChar c = [c.toNat.toUInt8] ∧ digitByte c.toNat.toUInt8 = true ∧
    c.toNat.toUInt8.toNat - 48 = c.toNat - 48 := by
  have : ∀ c ∈ Text.digits, String.utf8EncodeChar c = [c.toNat.toUInt8] ∧ digitByte c.toNat.toUInt8 = true ∧
    c.toNat.toUInt8.toNat - 48 = c.toNat - 48 := by decide +kernel
  exact this c ((isDigit_iff c).1 h)

theorem utf8_digits {l : List Char} (h : ∀ c ∈ l, c.isDigit = true) : utf8 (String.ofList l) = l.map fun c => c.toNat.toUInt8 := by
  rw [utf8_ofList]
  induction l with
  | nil => rfl
  | cons c l ih =>
    rw [List.flatMap_cons, (utf8_digit (h c (by simp))).1, ih fun c hc => h c (by simp [hc])]
    rfl

theorem utf8_nat (n : Nat) : utf8 (toString n) = (Nat.toDigits 10 n).map fun c => c.toNat.toUInt8 := by
  rw [show toString n = String.ofList (Nat.toDigits 10 n) from rfl]
  exact utf8_digits fun c hc => Nat.isDigit_of_mem_toDigits (by decide) (by decide) hc

theorem firstNumber_eq {pre post : Bytes} (n : Nat) (hp : ∀ c ∈ pre, digitByte c = false)
    (hq : ∀ c, post.head? = some c → digitByte c = false) : firstNumber (pre ++ (utf8 (toString n) ++ post)) = some n := by
  have hd : ∀ c ∈ Nat.toDigits 10 n, c.isDigit = true := fun c hc => Nat.isDigit_of_mem_toDigits (by decide) (by decide) hc
  have hne : Nat.toDigits 10 n ≠ [] := fun e => by have := Nat.length_toDigits_pos (b := 10) (n := n); simp [e] at this
  have hv : (Nat.toDigits 10 n).foldl (fun a c => 10 * a + (c.toNat - 48)) 0 = n := by
    have := Nat.ofDigitChars_ten_toDigits (n := n)
    simpa [Nat.ofDigitChars] using this
  rw [utf8_nat]
  generalize Nat.toDigits 10 n = ds at hd hne hv
  have hb : ∀ c ∈ ds.map (fun c => c.toNat.toUInt8), digitByte c = true := by
    intro c hc
    obtain ⟨x, hx, rfl⟩ := List.mem_map.1 hc
    exact (utf8_digit (hd x hx)).2.1
  have h1 : (pre ++ (ds.map (fun c => c.toNat.toUInt8) ++ post)).dropWhile (fun c => !digitByte c) = ds.map (fun c => c.toNat.toUInt8) ++ post := by
    rw [List.dropWhile_append_of_pos (by simpa using hp)]
    cases ds with
    | nil => exact absurd rfl hne
    | cons d ds => simp [hb d.toNat.toUInt8 (by simp)]
  have h2 : (ds.map (fun c => c.toNat.toUInt8) ++ post).takeWhile digitByte = ds.map (fun c => c.toNat.toUInt8) := by
    rw [List.takeWhile_append_of_pos hb]
    cases post with
    | nil => simp
    | cons c post => simp [hq c rfl]
  have h3 : firstNumber (pre ++ (ds.map (fun c => c.toNat.toUInt8) ++ post)) = match ds.map (fun c => c.toNat.toUInt8) with
      | [] => none
      | ds => some (ds.foldl (fun n c => 10 * n + (c.toNat - 48)) 0) := by
    conv_rhs => rw [← h2, ← h1]
    rfl
  rw [h3]
  have hf : ∀ (ds : List Char), (∀ c ∈ ds, c.isDigit = true) → ∀ a : Nat,
      (ds.map (fun c => c.toNat.toUInt8)).foldl (fun n c => 10 * n + (c.toNat - 48)) a = ds.foldl (fun a c => 10 * a + (c.toNat - 48)) a := by
    intro ds hd
    induction ds with
    | nil => intro a; rfl
    | cons d ds ih =>
      intro a
      rw [List.map_cons, List.foldl_cons, List.foldl_cons, (utf8_digit (hd d (by simp))).2.2, ih fun c hc => hd c (by simp [hc])]
  cases ds with
  | nil => exact absurd rfl hne
  | cons d ds =>
    have := hf (d :: ds) hd 0
    rw [hv] at this
    exact congrArg some this

theorem firstNumber_none {t : Bytes} (h : ∀ c ∈ t, digitByte c = false) : firstNumber t = none := by
  have h1 : t.dropWhile (fun c => !digitByte c) = [] := by
    induction t with
    | nil => rfl
    | cons c t ih =>
      simp only [List.dropWhile_cons, h c (by simp), Bool.not_false, if_true]
      exact ih fun c hc => h c (by simp [hc])
  have h2 : firstNumber t = match (t.dropWhile fun c => !digitByte c).takeWhile digitByte with
      | [] => none
      | ds => some (ds.foldl (fun n c => 10 * n + (c.toNat - 48)) 0) := rfl
  rw [h2, h1]
  rfl

theorem tooSmall_says {what : String} (hw : ∀ c ∈ utf8 what, digitByte c = false) (n : Nat) (a : Int32) :
    firstNumber (FfiError.generic (tooSmall what n a)).text = some n := by
  have : (FfiError.generic (tooSmall what n a)).text = (utf8 "FFI error: " ++ utf8 "The pre-allocated " ++ utf8 what ++
      utf8 " buffer is too small; need ") ++ (utf8 (toString n) ++ (utf8 " bytes, allocated " ++ utf8 (toString a.toInt))) := by
    simp only [FfiError.text, tooSmall, utf8_append, List.append_assoc]
  rw [this]
  refine firstNumber_eq n ?_ ?_
  · intro c hc
    simp only [List.mem_append] at hc
    have h1 : ∀ c ∈ utf8 "FFI error: ", digitByte c = false := by decide +kernel
    have h2 : ∀ c ∈ utf8 "The pre-allocated ", digitByte c = false := by decide +kernel
    have h3 : ∀ c ∈ utf8 " buffer is too small; need ", digitByte c = false := by decide +kernel
    rcases hc with ((hc | hc) | hc) | hc
    exacts [h1 c hc, h2 c hc, hw c hc, h3 c hc]
  · intro c hc
    have h : (utf8 " bytes, allocated ").head? = some 32 := by decide +kernel
    rw [List.head?_append, h] at hc
    cases hc
    decide

theorem tooSmall'_says {what : String} (hw : ∀ c ∈ utf8 what, digitByte c = false) (n : Nat) (a : Int32) :
    firstNumber (FfiError.generic (tooSmall' what n a)).text = some n := by
  have : (FfiError.generic (tooSmall' what n a)).text = (utf8 "FFI error: " ++ utf8 "The pre-allocated " ++ utf8 what ++
      utf8 " buffer is too small; need ") ++ (utf8 (toString n) ++ utf8 " bytes") := by
    simp only [FfiError.text, tooSmall', utf8_append, List.append_assoc]
  rw [this]
  refine firstNumber_eq n ?_ ?_
  · intro c hc
    simp only [List.mem_append] at hc
    have h1 : ∀ c ∈ utf8 "FFI error: ", digitByte c = false := by decide +kernel
    have h2 : ∀ c ∈ utf8 "The pre-allocated ", digitByte c = false := by decide +kernel
    have h3 : ∀ c ∈ utf8 " buffer is too small; need ", digitByte c = false := by decide +kernel
    rcases hc with ((hc | hc) | hc) | hc
    exacts [h1 c hc, h2 c hc, hw c hc, h3 c hc]
  · intro c hc
    have h : (utf8 " bytes").head? = some 32 := by decide +kernel
    rw [h] at hc
    cases hc
    decide

theorem tooSmallPolicy_says (n : Nat) (a : Int32) : firstNumber (FfiError.generic (tooSmallPolicy n a)).text = none := by
  have : ∀ c ∈ utf8 "FFI error: " ++ utf8 "The pre-allocated output policy buffer is too small; need {len} bytes, allocated {allocated}",
    digitByte c = false := by decide +kernel
  exact firstNumber_none this

end Abe
