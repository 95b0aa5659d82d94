import Verif.Model.Json
import Verif.Spec.White

/-!
# C103: what is trimmed from attributes
-/

namespace Abe

/-- C103.  White space is what Unicode says; the trimmed text is what is left after the longest parts of white space at both ends. -/
theorem C103_white_space (c : Char) (s : List Char) : (isWhite c = true ↔ c.toNat ∈ whiteSpace) ∧
    ∃ before after, s = before ++ trim s ++ after ∧ (∀ d ∈ before ++ after, d.toNat ∈ whiteSpace) ∧ (∀ d, (trim s).head? = some d → d.toNat ∉ whiteSpace) ∧
      ∀ d, (trim s).getLast? = some d → d.toNat ∉ whiteSpace := by
  have hw : ∀ c : Char, isWhite c = true ↔ c.toNat ∈ whiteSpace := by
    intro c
    simp only [isWhite, whiteSpace, List.mem_cons, List.not_mem_nil, or_false, Bool.or_eq_true, Bool.and_eq_true, decide_eq_true_eq]
    omega
  have htake : ∀ {d : Char} (l : List Char), d ∈ l.takeWhile isWhite → isWhite d = true := by
    intro d l h
    induction l with
    | nil => simp at h
    | cons a l ih =>
      rw [List.takeWhile_cons] at h
      split at h
      · rcases List.mem_cons.1 h with rfl | h
        · assumption
        · exact ih h
      · simp at h
  refine ⟨hw c, s.takeWhile isWhite, ((s.dropWhile isWhite).reverse.takeWhile isWhite).reverse, ?_, ?_, ?_, ?_⟩
  · unfold trim
    rw [List.append_assoc, ← List.reverse_append, List.takeWhile_append_dropWhile, List.reverse_reverse, List.takeWhile_append_dropWhile]
  · intro d hd
    rw [← hw]
    rcases List.mem_append.1 hd with h | h
    · exact htake _ h
    · exact htake _ (List.mem_reverse.1 h)
  · intro d hd
    rw [← hw]
    have hne : s.dropWhile isWhite ≠ [] := by
      intro h
      rw [trim, h] at hd
      simp at hd
    have h1 : (trim s).head? = (s.dropWhile isWhite).head? := by
      have e : s.dropWhile isWhite = trim s ++ ((s.dropWhile isWhite).reverse.takeWhile isWhite).reverse := by
        unfold trim
        rw [← List.reverse_append, List.takeWhile_append_dropWhile, List.reverse_reverse]
      conv_rhs => rw [e]
      cases ht : trim s with
      | nil => rw [ht] at hd; simp at hd
      | cons a l => simp
    rw [h1] at hd
    have := List.head?_dropWhile_not isWhite s
    rw [hd] at this
    simpa using this
  · intro d hd
    rw [← hw]
    rw [trim, List.getLast?_reverse] at hd
    have := List.head?_dropWhile_not isWhite (s.dropWhile isWhite).reverse
    rw [hd] at this
    simpa using this

/-- A name between a tab and a carriage return. -/
example : trim ['\t', ' ', 'H', 'R', '\r', '\n'] = ['H', 'R'] ∧ (0x200B ∉ whiteSpace) := by decide

end Abe
