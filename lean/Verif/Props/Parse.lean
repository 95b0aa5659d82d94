import Verif.Proofs.Parse

/-!
# The formula parser

Properties C41–C43.  The specification (`Text.Denotes`) is a grammar; `t` is any target.
-/

namespace Abe

open Text

/-- **C41.** Parsing a string shorter than 2^31 characters does not panic; an accepted string has only authorised characters
and balanced parentheses. -/
theorem C41_total (t : Target) (s : List Char) (hs : s.length < 2 ^ 31) :
    Node.parse t s ≠ .panic ∧
    ∀ n, Node.parse t s = .ok n → (∀ c ∈ s, c ∈ " ()&|0123456789".toList) ∧ Balanced (noSpaces s) := by
  refine ⟨parse_total t _ s (le_refl _) hs, fun n h => ?_⟩
  obtain ⟨h1, h2⟩ := parse_sound t _ s n (le_refl _) hs h
  exact ⟨h1, denotes_balanced h2⟩

/-- **C41**, exact form: the accepted strings are those of the grammar, with the formula given by the grammar. -/
theorem C41_grammar (t : Target) (s : List Char) (hs : s.length < 2 ^ 31) (n : Node) :
    Node.parse t s = .ok n ↔ (∀ c ∈ s, c ∈ " ()&|0123456789".toList) ∧ Denotes (noSpaces s) n :=
  ⟨fun h => parse_sound t _ s n (le_refl _) hs h, fun h => parse_complete t h.2 s rfl h.1 hs⟩

/-- The grammar gives at most one meaning to a string. -/
theorem C41_unambiguous {e : List Char} {n m : Node} (he : e.length < 2 ^ 31) (h1 : Denotes e n) (h2 : Denotes e m) : n = m := by
  have self : noSpaces e = e := noSpaces_self fun x hx => ((denotes_chars h1).2 x hx).1
  have a1 := parse_complete .debug64 h1 e self (fun x hx => ((denotes_chars h1).2 x hx).2) he
  have a2 := parse_complete .debug64 h2 e self (fun x hx => ((denotes_chars h2).2 x hx).2) he
  rw [a1] at a2
  simpa using a2

/-- **C41**, refutation: the depth counter is an `i32`; with overflow checks, 2^31 + 1 opening parentheses make it panic. -/
theorem C41_counter_refuted {t : Target} (ht : t.checked = true) :
    Node.parse t (List.replicate (2 ^ 31 + 1) '(' ++ ')' :: []) = .panic := by
  have scan : ∀ (k : Nat) (c : Int) (i : Nat) (r : List Char), 0 ≤ c → c + k = 2 ^ 31 → 0 < k →
      closingIndex t c i (List.replicate k '(' ++ r) = .panic := by
    intro k
    induction k with
    | zero => intro _ _ _ _ _ h; omega
    | succ k ih =>
      intro c i r h0 hk _
      rw [List.replicate_succ, List.cons_append, closingIndex]
      by_cases hc : c = 2 ^ 31 - 1
      · simp [hc, ht]
      · simp only [if_true, if_neg hc, Res.ok_bind]
        rw [if_neg (by omega)]
        exact ih (c + 1) (i + 1) r (by omega) (by omega) (by omega)
  generalize hk : (2 : Nat) ^ 31 = k
  have hsplit : List.replicate (k + 1) '(' ++ [')'] = '(' :: (List.replicate k '(' ++ [')']) := by
    rw [List.replicate_succ, List.cons_append]
  rw [hsplit, parse_unfold]
  have hsp : noSpaces ('(' :: (List.replicate k '(' ++ [')'])) = '(' :: (List.replicate k '(' ++ [')']) := by
    apply noSpaces_self
    intro x hx
    rcases List.mem_cons.1 hx with rfl | hx
    · decide
    · rcases List.mem_append.1 hx with hx | hx
      · rw [(List.mem_replicate.1 hx).2]; decide
      · rw [List.mem_singleton.1 hx]; decide
  have hauth : ∀ x ∈ '(' :: (List.replicate k '(' ++ [')']), x ∈ authorizedChars := by
    intro x hx
    rcases List.mem_cons.1 hx with rfl | hx
    · decide
    · rcases List.mem_append.1 hx with hx | hx
      · rw [(List.mem_replicate.1 hx).2]; decide
      · rw [List.mem_singleton.1 hx]; decide
  rw [hsp, if_neg, if_neg]
  · dsimp only
    rw [if_neg (by simp), if_neg (by simp), scan k 0 0 [')'] (le_refl _) (by omega) (by omega)]
  · rw [List.takeWhile_cons_of_neg (by decide)]
    simp
  · simp only [Bool.or_eq_true, List.isEmpty_iff, List.any_eq_true, Bool.not_eq_true', List.contains_eq_mem,
      decide_eq_false_iff_not, not_or, not_exists, not_and, not_not]
    exact ⟨by simp, hauth⟩

/-- An accepted string, and refused ones. -/
example : Node.parse .debug64 "1 & (4 | (2 & 3))".toList = .ok (.and (.leaf 1) (.or (.leaf 4) (.and (.leaf 2) (.leaf 3)))) ∧
    Node.parse .debug64 "(1 & (4 | 2)".toList =
      .err (.unexpectedCharacter "formula must contain only digits, parenthesis and operators & and |. Given formula: ") ∧
    Node.parse .debug64 "(1 & 4".toList = .err (.unexpectedCharacter "closing parenthesis expected") ∧
    Node.parse .debug64 "1 & 2)".toList = .err (.unsupportedOperator ')') ∧
    Node.parse .debug64 " ".toList = .err (.unexpectedEnd "no further character while getting first char in: ") := by decide +kernel

/-- **C42.** Parsing the fully parenthesised text of a formula, with spaces inserted anywhere, gives back the formula. -/
theorem C42_parse_print (t : Target) (n : Node) (s : List Char) (h : noSpaces s = print n) (hs : s.length < 2 ^ 31) :
    Node.parse t s = .ok n := by
  refine parse_complete t (print_denotes n) s h (fun c hc => ?_) hs
  by_cases hsp : c = ' '
  · subst hsp; decide
  · have : c ∈ noSpaces s := by
      unfold noSpaces
      rw [List.mem_filter]
      exact ⟨hc, by simpa using hsp⟩
    rw [h] at this
    exact ((denotes_chars (print_denotes n)).2 c this).2

/-- **C42**, spaces: strings equal up to spaces are accepted together, with the same formula. -/
theorem C42_spaces (t : Target) {s s' : List Char} (h : noSpaces s = noSpaces s') (hs : s.length < 2 ^ 31) (hs' : s'.length < 2 ^ 31)
    (n : Node) : Node.parse t s = .ok n ↔ Node.parse t s' = .ok n := by
  have key : ∀ {s s' : List Char}, noSpaces s = noSpaces s' → s.length < 2 ^ 31 → s'.length < 2 ^ 31 → Node.parse t s = .ok n →
      Node.parse t s' = .ok n := by
    intro s s' h hs hs' hp
    obtain ⟨_, h2⟩ := parse_sound t _ s n (le_refl _) hs hp
    rw [h] at h2
    refine parse_complete t h2 s' rfl (fun c hc => ?_) hs'
    by_cases hsp : c = ' '
    · subst hsp; decide
    · refine ((denotes_chars h2).2 c ?_).2
      unfold noSpaces
      rw [List.mem_filter]
      exact ⟨hc, by simpa using hsp⟩
  exact ⟨key h hs hs', key h.symm hs' hs⟩

/-- **C42**, associativity: labels separated by operators, without parentheses, are read from the right whatever the
operators (`&` does not bind more tightly than `|`). -/
theorem C42_right_associative (t : Target) (l : List (UInt32 × Op)) (a : UInt32) (hs : (flat l a).length < 2 ^ 31) :
    Node.parse t (flat l a) = .ok (rightAssoc l a) := by
  have h := flat_denotes a l
  exact parse_complete t h _ (noSpaces_self fun x hx => ((denotes_chars h).2 x hx).1) (fun x hx => ((denotes_chars h).2 x hx).2) hs

/-- A printed formula with spaces; and `&` before `|`. -/
example : print (.and (.leaf 12) (.or (.leaf 4) (.leaf 0))) = "(12)&((4)|(0))".toList ∧
    Node.parse .release64 "(1 2)& ((4)| (0) )".toList = .ok (.and (.leaf 12) (.or (.leaf 4) (.leaf 0))) ∧
    flat [(1, .and), (2, .or)] 3 = "1&2|3".toList ∧
    Node.parse .release64 "1&2|3".toList = .ok (.and (.leaf 1) (.or (.leaf 2) (.leaf 3))) := by
  have hl : ∀ a : UInt32, a = 12 ∨ a = 4 ∨ a = 0 ∨ a = 1 ∨ a = 2 ∨ a = 3 → (label a).length ≤ 2 := by
    rintro a (rfl | rfl | rfl | rfl | rfl | rfl) <;> simp [label, decimal]
  refine ⟨by simp [print, label, decimal, Text.digits], ?_, by simp [flat, label, decimal, Text.digits, Op.char], ?_⟩
  · exact C42_parse_print _ _ _ (by simp [noSpaces, print, label, decimal, Text.digits]) (by decide)
  · have := C42_right_associative .release64 [(1, .and), (2, .or)] 3 (by
      simp only [flat, List.length_append, List.length_cons]
      have := hl 1 (by simp)
      have := hl 2 (by simp)
      have := hl 3 (by simp)
      omega)
    simpa [flat, label, decimal, Text.digits, Op.char, rightAssoc, Op.node] using this

example (n : Node) : Node.parse .release64 "(1 2)& ((4)| (0) )".toList = .ok n ↔ Node.parse .release64 "( 12 ) & ( (4) | (0) )".toList = .ok n :=
  C42_spaces .release64 (by decide +kernel) (by decide +kernel) (by decide +kernel) n

/-- **C43.** A string containing a character that is not authorised is refused; so is a string in which (spaces removed) some
digits in a row write a number of 2^32 or more. -/
theorem C43_rejects (t : Target) (s : List Char) (hs : s.length < 2 ^ 31) :
    ((∃ c ∈ s, c ∉ " ()&|0123456789".toList) →
      Node.parse t s = .err (.unexpectedCharacter ("formula must contain only digits, parenthesis and operators & and |. Given formula: " ++ String.ofList s))) ∧
    ((∃ ds, ds <:+: noSpaces s ∧ (∀ c ∈ ds, c ∈ Text.digits) ∧ 2 ^ 32 ≤ number ds) → ∃ e, Node.parse t s = .err e) := by
  constructor
  · rintro ⟨c, hc, hbad⟩
    rw [parse_unfold, if_pos]
    simp only [Bool.or_eq_true, List.any_eq_true, Bool.not_eq_true', List.contains_eq_mem, decide_eq_false_iff_not]
    exact Or.inr ⟨c, hc, hbad⟩
  · rintro ⟨ds, h1, h2, h3⟩
    cases hp : Node.parse t s with
    | err e => exact ⟨e, rfl⟩
    | panic => exact absurd hp (parse_total t _ s (le_refl _) hs)
    | ok n =>
      exfalso
      have hd := (parse_sound t _ s n (le_refl _) hs hp).2
      have hne : ds ≠ [] := by rintro rfl; simp [number] at h3
      have := denotes_numbers hd hne h2 h1
      omega

/-- Unauthorised characters and 2^32. -/
example : (∃ c ∈ "1 & x".toList, c ∉ " ()&|0123456789".toList) ∧
    (∃ ds, ds <:+: noSpaces "1&42949 67296".toList ∧ (∀ c ∈ ds, c ∈ Text.digits) ∧ 2 ^ 32 ≤ number ds) ∧
    Node.parse .debug64 "1&42949 67296".toList = .err .parseIntError := by
  refine ⟨⟨'x', by decide, by decide⟩, ⟨"4294967296".toList, ⟨['1', '&'], [], by decide⟩, by decide, ?_⟩, by decide +kernel⟩
  decide +kernel

end Abe
