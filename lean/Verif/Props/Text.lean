import Verif.Proofs.Engine
import Verif.Props.Parse
import Verif.Props.Msp
import Verif.Props.Demo

/-!
# From the text of a formula to decryption: C66, and the display of formulas: C67
-/

namespace Abe

set_option linter.unusedSectionVars false

open Text

variable {K P Q QP T : Type} [Field K] [DecidableEq K] [AddCommGroup P] [Module K P] [AddCommGroup Q] [Module K Q]
  [AddCommGroup T] [Module K T]

theorem mspParse_spec (t : Target) (s : List Char) (hs : s.length < 2 ^ 31) :
    (∃ F m, (∀ c ∈ s, c ∈ " ()&|0123456789".toList) ∧ Denotes (noSpaces s) F ∧ F.leaves.Nodup ∧ Msp.parse t s = .ok m ∧ F.toMsp = .ok m ∧
      MspFor F m) ∨
    (∃ F, (∀ c ∈ s, c ∈ " ()&|0123456789".toList) ∧ Denotes (noSpaces s) F ∧ ¬ F.leaves.Nodup ∧ Msp.parse t s = .err (.deserialization "error deserializing MSP, leaf already inserted")) ∨
    ((¬ ∃ F, (∀ c ∈ s, c ∈ " ()&|0123456789".toList) ∧ Denotes (noSpaces s) F) ∧ ∃ e, Msp.parse t s = .err (.parsingError e)) := by
  unfold Msp.parse
  cases h : Node.parse t s with
  | ok F =>
    obtain ⟨h1, h2⟩ := (C41_grammar t s hs F).1 h
    rcases toMsp_spec F with ⟨g1, m, g2, g3⟩ | ⟨g1, g2⟩
    · exact .inl ⟨F, m, h1, h2, g1, g2, g2, g3⟩
    · exact .inr (.inl ⟨F, h1, h2, g1, g2⟩)
  | err e =>
    refine .inr (.inr ⟨?_, e, rfl⟩)
    rintro ⟨F, h1, h2⟩
    rw [(C41_grammar t s hs F).2 ⟨h1, h2⟩] at h
    simp at h
  | panic => exact absurd h (C41_total t s hs).1

/-- **C66.** Compiling a text shorter than 2^31 characters to a matrix succeeds exactly when the text belongs to the grammar and no label
occurs twice; it does not panic; the rows of the matrix are labelled by the labels of the formula and they can be combined to the vector of
ones exactly by the sets of labels that satisfy it. -/
theorem C66_text_to_matrix (t : Target) (s : List Char) (hs : s.length < 2 ^ 31) :
    Msp.parse t s ≠ .panic ∧
    ((∃ m, Msp.parse t s = .ok m) ↔
      (∀ c ∈ s, c ∈ " ()&|0123456789".toList) ∧ ∃ F, Denotes (noSpaces s) F ∧ F.leaves.Nodup) ∧
    ∀ m F, Msp.parse t s = .ok m → Denotes (noSpaces s) F → m.rowToAttr.Perm F.leaves ∧ ∀ γ : UInt32 → Prop,
      (∃ coefs : List K, CombinesToOnes coefs (m.matrix.map fun row => row.map fun n : Int => (n : K)) m.nbCol ∧
        ∀ (i : Nat) (a : UInt32), m.rowToAttr[i]? = some a → ¬ γ a → coefs[i]? = some 0) ↔ F.Sat γ := by
  have hl : (noSpaces s).length < 2 ^ 31 := lt_of_le_of_lt (List.length_filter_le _ _) hs
  rcases mspParse_spec t s hs with ⟨F, m, h1, h2, h3, h4, h5, h6⟩ | ⟨F, h1, h2, h3, h4⟩ | ⟨h1, e, h2⟩
  · rw [h4]
    refine ⟨by simp, ⟨fun _ => ⟨h1, F, h2, h3⟩, fun _ => ⟨m, rfl⟩⟩, fun m' F' hm hF => ?_⟩
    obtain rfl := Res.ok.inj hm
    obtain rfl := C41_unambiguous hl h2 hF
    exact ⟨h6.perm, fun γ => C03_matrix_realises_formula h5 γ⟩
  · rw [h4]
    refine ⟨by simp, ⟨by simp, ?_⟩, fun m' F' hm => by simp at hm⟩
    rintro ⟨_, F', h5, h6⟩
    obtain rfl := C41_unambiguous hl h2 h5
    exact absurd h6 h3
  · rw [h2]
    refine ⟨by simp, ⟨by simp, ?_⟩, fun m' F' hm => by simp at hm⟩
    rintro ⟨h3, F', h5, h6⟩
    exact absurd ⟨F', h3, h5⟩ h1

/-- **C66**, whole chain: a key generated from the text of a formula decrypts a ciphertext exactly when the labels of the ciphertext satisfy
the formula given to the text by the grammar; the key can be generated if and only if all labels are below the number of slots of the
master key. -/
theorem C66_text_to_decryption (c : Curve K P Q QP T) {t : Target} {s : List Char} (hs : s.length < 2 ^ 31) {msp : Msp Int}
    (hm : Msp.parse t s = .ok msp) {F : Node} (hF : Denotes (noSpaces s) F) {size : Nat} {rnd : Nat → K} {y : K} {mk : MasterKey K P Q T}
    (hmk : generateMasterKey (bls c) size rnd y = .ok mk) (rnd' : Nat → K) :
    ((∃ a ∈ F.leaves, size ≤ a.toNat) → ∃ e, keyGeneration (bls c) msp mk.privKey rnd' = .err e) ∧
    ((∀ a ∈ F.leaves, a.toNat < size) → ∃ key, keyGeneration (bls c) msp mk.privKey rnd' = .ok key ∧
      ∀ (t' : Target) (gamma : List UInt32) (msg : T) (r : K) (ct : CipherText P T), encrypt (bls c) t' msg gamma mk.pubKey r = .ok ct →
        (F.Sat (· ∈ gamma) → decrypt (bls c) ct key = .ok (some msg)) ∧
        (¬ F.Sat (· ∈ gamma) → (∃ a ∈ gamma, a ∈ F.leaves) → decrypt (bls c) ct key = .ok none) ∧
        ((∀ a ∈ gamma, a ∉ F.leaves) → decrypt (bls c) ct key = .err (.internalOperation "empty input matrix"))) := by
  have hl : (noSpaces s).length < 2 ^ 31 := lt_of_le_of_lt (List.length_filter_le _ _) hs
  have h : MspFor F msp := by
    rcases mspParse_spec t s hs with ⟨F', m, h1, h2, h3, h4, h5, h6⟩ | ⟨F', h1, h2, h3, h4⟩ | ⟨h1, e, h2⟩
    · rw [hm, Res.ok.injEq] at h4
      subst h4
      obtain rfl := C41_unambiguous hl h2 hF
      exact h6
    · rw [hm] at h4; simp at h4
    · rw [hm] at h2; simp at h2
  obtain ⟨tI, rfl, hnz, rfl⟩ := generateMasterKey_inv c hmk
  constructor
  · rintro ⟨a, ha, hge⟩
    rcases keyGeneration_cases c h tI y rnd' hnz with ⟨h1, _⟩ | ⟨_, h2⟩
    · have := h1 a ha; omega
    · exact h2
  · intro hlt
    have hcov : Covers tI F := fun a ha => ⟨hlt a ha, by rw [← tOf_eq (hlt a ha)]; exact hnz _ (List.getElem_mem _)⟩
    obtain ⟨lam, h1, h2⟩ := keyGeneration_shares c h tI y rnd' hcov
    refine ⟨_, h1, fun t' gamma msg r ct hct => ?_⟩
    have hct' : ct = ctOf c tI y r msg gamma := by
      rcases encrypt_cases c t' tI y r msg gamma with ⟨_, _, g⟩ | g | ⟨g1, g2, g⟩ | ⟨_, _, g⟩
      · rw [g] at hct; simp at hct
      · exfalso
        cases hfl : F.leaves with
        | nil => exact F.leaves_ne_nil hfl
        | cons a l => have := hlt a (by rw [hfl]; simp); omega
      · rw [g, Res.ok.injEq] at hct; exact hct.symm
      · rw [g] at hct; simp at hct
    subst hct'
    obtain ⟨d1, d2, d3⟩ := decrypt_keyOf c h tI hcov lam h2 y r msg gamma
    refine ⟨fun hsat => ?_, fun hsat hex => d2 hex hsat, fun hno => d1 hno⟩
    rw [d3 hsat, add_sub_cancel_right]

/-- The text of the tests. -/
example : ∃ msp key, Msp.parse .release64 "1 & (4 | (2 & 3))".toList = .ok msp ∧
    keyGeneration (bls Demo.curve) msp Demo.mk.privKey Demo.draws = .ok key ∧
    ∃ ct ct', encrypt (bls Demo.curve) .release64 5 [2, 1, 3] Demo.mk.pubKey 7 = .ok ct ∧ decrypt (bls Demo.curve) ct key = .ok (some 5) ∧
      encrypt (bls Demo.curve) .release64 5 [4, 2, 3] Demo.mk.pubKey 7 = .ok ct' ∧ decrypt (bls Demo.curve) ct' key = .ok none := by
  have hp : Node.parse .release64 "1 & (4 | (2 & 3))".toList = .ok (.and (.leaf 1) (.or (.leaf 4) (.and (.leaf 2) (.leaf 3)))) := by
    decide +kernel
  obtain ⟨h1, h2⟩ := (C41_grammar .release64 _ (by decide) _).1 hp
  obtain ⟨_, h3, _⟩ := C66_text_to_matrix (K := ℚ) .release64 "1 & (4 | (2 & 3))".toList (by decide)
  obtain ⟨msp, hm⟩ := h3.2 ⟨h1, _, h2, by decide⟩
  obtain ⟨key, hk, hd⟩ := (C66_text_to_decryption Demo.curve (by decide) hm h2 Demo.mk_eq Demo.draws).2 (by decide)
  obtain ⟨ct, hc⟩ : ∃ ct, encrypt (bls Demo.curve) .release64 5 [2, 1, 3] Demo.mk.pubKey 7 = .ok ct :=
    Demo.exists_of_isOk (by decide +kernel)
  obtain ⟨ct', hc'⟩ : ∃ ct, encrypt (bls Demo.curve) .release64 5 [4, 2, 3] Demo.mk.pubKey 7 = .ok ct :=
    Demo.exists_of_isOk (by decide +kernel)
  exact ⟨msp, key, hm, hk, ct, ct', hc, (hd _ _ _ _ _ hc).1 (by simp [Node.Sat]), hc', (hd _ _ _ _ _ hc').2.1 (by simp [Node.Sat])
    ⟨4, by simp, by simp [Node.leaves]⟩⟩

/-- Unique readability. -/
theorem display_prefix : ∀ (n m : Node) (r r' : List Char), n.display ++ r = m.display ++ r' → n = m ∧ r = r' := by
  have dig : ∀ (a b : Nat) (r r' : List Char), Nat.toDigits 10 a ++ ')' :: r = Nat.toDigits 10 b ++ ')' :: r' → a = b ∧ r = r' := by
    intro a b r r' h
    have hd : ∀ x, ∀ c ∈ Nat.toDigits 10 x, c ≠ ')' := by
      intro x c hc hn
      have := Nat.isDigit_of_mem_toDigits (by decide) (by decide) hc
      subst hn
      revert this; decide
    have hspan : ∀ (l : List Char) (r : List Char), (∀ c ∈ l, c ≠ ')') → (l ++ ')' :: r).takeWhile (· ≠ ')') = l := by
      intro l r hl
      rw [List.takeWhile_append_of_pos (by simpa using hl)]
      simp
    have h1 := congrArg (List.takeWhile (· ≠ ')')) h
    rw [hspan _ _ (hd a), hspan _ _ (hd b)] at h1
    have h2 := congrArg (fun l => Nat.ofDigitChars 10 l 0) h1
    simp only [Nat.ofDigitChars_ten_toDigits] at h2
    subst h2
    simpa using h
  intro n
  induction n with
  | and l r ihl ihr =>
    intro m s s' h
    cases m with
    | and l' r' =>
      simp only [Node.display, List.append_assoc, List.append_cancel_left_eq] at h
      obtain ⟨rfl, h1⟩ := ihl _ _ _ h
      obtain ⟨rfl, h2⟩ := ihr _ _ _ (List.append_cancel_left h1)
      exact ⟨rfl, List.append_cancel_left h2⟩
    | or l' r' => simp [Node.display] at h
    | leaf a => simp [Node.display] at h
  | or l r ihl ihr =>
    intro m s s' h
    cases m with
    | or l' r' =>
      simp only [Node.display, List.append_assoc, List.append_cancel_left_eq] at h
      obtain ⟨rfl, h1⟩ := ihl _ _ _ h
      obtain ⟨rfl, h2⟩ := ihr _ _ _ (List.append_cancel_left h1)
      exact ⟨rfl, List.append_cancel_left h2⟩
    | and l' r' => simp [Node.display] at h
    | leaf a => simp [Node.display] at h
  | leaf a =>
    intro m s s' h
    cases m with
    | leaf b =>
      simp only [Node.display, List.append_assoc, List.append_cancel_left_eq] at h
      obtain ⟨h1, h2⟩ := dig _ _ _ _ h
      exact ⟨by rw [UInt32.toNat_inj.1 h1], h2⟩
    | and l' r' => simp [Node.display] at h
    | or l' r' => simp [Node.display] at h

/-- **C67.** Two formulas are displayed alike only if they are equal; and the display is never accepted by the parser. -/
theorem C67_display (n : Node) : (∀ m : Node, n.display = m.display → n = m) ∧ ∀ t, ∃ m, Node.parse t n.display = .err (.unexpectedCharacter m) := by
  refine ⟨fun m h => (display_prefix n m [] [] (by rw [List.append_nil, List.append_nil, h])).1, fun t => ?_⟩
  refine Exists.intro ("formula must contain only digits, parenthesis and operators & and |. Given formula: " ++ String.ofList n.display) ?_
  rw [parse_unfold, if_pos]
  simp only [Bool.or_eq_true, List.any_eq_true]
  right
  cases n with
  | and l r => exact ⟨'A', by simp [Node.display], by decide⟩
  | or l r => exact ⟨'O', by simp [Node.display], by decide⟩
  | leaf a => exact ⟨'L', by simp [Node.display], by decide⟩

example : String.ofList (Node.display (.and (.leaf 12) (.or (.leaf 4) (.leaf 0)))) = "AND( LEAF(12), OR( LEAF(4), LEAF(0) ) )" := by
  decide +kernel

end Abe
