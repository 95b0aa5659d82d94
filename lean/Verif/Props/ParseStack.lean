import Verif.Model.ParseStack
import Verif.Props.Parse

/-!
# Recursion of the parser

Property C79.
-/

namespace Abe

open Text

/-- Number of nested calls that suffice: one for each opening parenthesis and operator, and one. -/
def callsFor (s : List Char) : Nat := (s.filter fun c => c = '(' ∨ c = '&' ∨ c = '|').length + 1

/-- The grammar of formulas (`Denotes`) with the nesting of a derivation: the operand after an operator and the text between parentheses are one level
deeper. -/
inductive Nested : List Char → Node → Nat → Prop
  | leaf {ds : List Char} {a : UInt32} : Writes ds a → Nested ds (.leaf a) 1
  | leafOp {ds r : List Char} {a : UInt32} {n : Node} {d : Nat} (op : Op) :
      Writes ds a → Nested r n d → Nested (ds ++ op.char :: r) (op.node (.leaf a) n) (d + 1)
  | paren {e : List Char} {n : Node} {d : Nat} : Nested e n d → Nested ('(' :: (e ++ [')'])) n (d + 1)
  | parenOp {e r : List Char} {n m : Node} {d d' : Nat} (op : Op) :
      Nested e n d → Nested r m d' → Nested ('(' :: (e ++ ')' :: op.char :: r)) (op.node n m) (max d d' + 1)

/-- Height of a formula. -/
def Node.height : Node → Nat
  | .leaf _ => 1
  | .and l r => max l.height r.height + 1
  | .or l r => max l.height r.height + 1

/-- A combination that did not exhaust the stack is the one of the operands. -/
theorem combineIn_sound {op : Char} {l r : Option (Res ParsingError Node)} {l' r' x : Res ParsingError Node} (hl : ∀ y, l = some y → l' = y)
    (hr : ∀ y, r = some y → r' = y) (h : Node.combineIn op l r = some x) : Node.combine op l' r' = x := by
  unfold Node.combineIn at h
  split at h
  · rename_i hop
    cases l with
    | none => simp at h
    | some y =>
      obtain rfl := hl y rfl
      cases l' with
      | ok a =>
        cases r with
        | none => simp at h
        | some z =>
          obtain rfl := hr z rfl
          simpa using h
      | err e =>
        simp only [Option.some.injEq] at h
        subst h
        rcases hop with rfl | rfl <;> rfl
      | panic =>
        simp only [Option.some.injEq] at h
        subst h
        rcases hop with rfl | rfl <;> rfl
  · rename_i hop
    rw [not_or] at hop
    simp only [Option.some.injEq] at h
    simpa [Node.combine, hop.1, hop.2] using h

theorem combineIn_isSome {op : Char} {l r : Option (Res ParsingError Node)} (hl : (op = '&' ∨ op = '|') → l.isSome) (hr : (op = '&' ∨ op = '|') → r.isSome) :
    (Node.combineIn op l r).isSome := by
  unfold Node.combineIn
  split
  · rename_i hop
    obtain ⟨l, rfl⟩ := Option.isSome_iff_exists.1 (hl hop)
    obtain ⟨r, rfl⟩ := Option.isSome_iff_exists.1 (hr hop)
    cases l <;> rfl
  · rfl

/-- A result of the bounded parser is that of the parser. -/
theorem parseIn_sound (t : Target) : ∀ (k : Nat) (s : List Char) (r : Res ParsingError Node), Node.parseIn t k s = some r → Node.parse t s = r := by
  intro k
  induction k with
  | zero => intro s r h; simp [Node.parseIn] at h
  | succ k ih =>
    intro s r h
    rw [parse_unfold]
    rw [Node.parseIn] at h
    change (if _ then _ else if (noSpaces s).takeWhile Char.isDigit ≠ [] then _ else _) = _ at h
    split at h
    · rename_i h0
      rw [if_pos h0]
      exact Option.some.inj h
    · rename_i h0
      rw [if_neg h0]
      split at h
      · rename_i h1
        rw [if_pos h1]
        change (match parseU32 ((noSpaces s).takeWhile Char.isDigit) with
          | none => _
          | some n => match (noSpaces s).drop ((noSpaces s).takeWhile Char.isDigit).length with
            | [] => _
            | op :: rest => _) = _ at h
        cases h2 : parseU32 ((noSpaces s).takeWhile Char.isDigit) with
        | none => rw [h2] at h; exact Option.some.inj h
        | some n =>
          rw [h2] at h
          dsimp only at h ⊢
          cases h3 : (noSpaces s).drop ((noSpaces s).takeWhile Char.isDigit).length with
          | nil => rw [h3] at h; exact Option.some.inj h
          | cons op rest =>
            rw [h3] at h
            exact combineIn_sound (fun y hy => Option.some.inj hy) (fun y hy => ih rest y hy) h
      · rename_i h1
        rw [if_neg h1]
        change (match noSpaces s with
          | [] => _
          | c :: rest => _) = _ at h
        cases h2 : noSpaces s with
        | nil => rw [h2] at h; exact Option.some.inj h
        | cons c rest =>
          rw [h2] at h
          dsimp only at h ⊢
          split at h
          · rename_i h3; rw [if_pos h3]; exact Option.some.inj h
          · rename_i h3
            rw [if_neg h3]
            split at h
            · rename_i h4; rw [if_pos h4]; exact Option.some.inj h
            · rename_i h4
              rw [if_neg h4]
              cases h5 : closingIndex t 0 0 rest with
              | err e => rw [h5] at h; exact Option.some.inj h
              | panic => rw [h5] at h; exact Option.some.inj h
              | ok i =>
                rw [h5] at h
                dsimp only at h ⊢
                match h6 : rest.drop i with
                | [] => rw [h6] at h; exact Option.some.inj h
                | [y] => rw [h6] at h; exact ih _ _ h
                | y :: op :: rest' =>
                  rw [h6] at h
                  exact combineIn_sound (fun y hy => ih _ y hy) (fun y hy => ih _ y hy) h

theorem combineIn_height {op : Char} {l r : Option (Res ParsingError Node)} {n : Node} {k : Nat} (hl : ∀ a, l = some (.ok a) → a.height ≤ k)
    (hr : ∀ b, r = some (.ok b) → b.height ≤ k) (h : Node.combineIn op l r = some (.ok n)) : n.height ≤ k + 1 := by
  unfold Node.combineIn at h
  split at h
  · rename_i hop
    cases l with
    | none => simp at h
    | some y =>
      cases y with
      | ok a =>
        cases r with
        | none => simp at h
        | some z =>
          have h1 := hl a rfl
          cases z with
          | ok b =>
            have h2 := hr b rfl
            rcases hop with rfl | rfl
            · have : n = .and a b := by simpa [Node.combine, bind, Res.bind] using h.symm
              subst this
              simp only [Node.height]; omega
            · have : n = .or a b := by simpa [Node.combine, bind, Res.bind] using h.symm
              subst this
              simp only [Node.height]; omega
          | err e => rcases hop with rfl | rfl <;> simp [Node.combine, bind, Res.bind] at h
          | panic => rcases hop with rfl | rfl <;> simp [Node.combine, bind, Res.bind] at h
      | err e => simp at h
      | panic => simp at h
  · simp at h

/-- The parser needs at least as many nested calls as the height of the formula it returns. -/
theorem parseIn_height (t : Target) : ∀ (k : Nat) (s : List Char) (n : Node), Node.parseIn t k s = some (.ok n) → n.height ≤ k := by
  intro k
  induction k with
  | zero => intro s r h; simp [Node.parseIn] at h
  | succ k ih =>
    intro s n h
    rw [Node.parseIn] at h
    dsimp only at h
    split at h
    · simp at h
    split at h
    · split at h
      · simp at h
      · split at h
        · rw [← Res.ok.inj (Option.some.inj h)]; simp [Node.height]
        · rename_i op rest _
          refine combineIn_height (k := k) (fun a ha => ?_) (fun b hb => ih rest b hb) h
          rw [← Res.ok.inj (Option.some.inj ha)]
          cases k with
          | zero =>
            unfold Node.combineIn at h
            split at h
            · simp [Node.parseIn] at h
            · simp at h
          | succ k => simp [Node.height]
    · split at h
      · simp at h
      · split at h
        · simp at h
        · split at h
          · simp at h
          · split at h
            · simp at h
            · simp at h
            · split at h
              · simp at h
              · split at h
                · exact (ih _ _ h).trans (Nat.le_succ _)
                · exact combineIn_height (fun a ha => ih _ a ha) (fun b hb => ih _ b hb) h

/-- Every nested call is made after an opening parenthesis or an operator was consumed. -/
theorem parseIn_enough (t : Target) : ∀ (k : Nat) (s : List Char), callsFor s ≤ k → (Node.parseIn t k s).isSome := by
  intro k
  induction k with
  | zero => intro s h; simp [callsFor] at h
  | succ k ih =>
    intro s h
    have hn : callsFor (s.filter (· ≠ ' ')) ≤ k + 1 := by
      refine le_trans ?_ h
      unfold callsFor
      exact Nat.succ_le_succ ((List.filter_sublist.filter _).length_le)
    have key : ∀ {s' u : List Char} {x : Char}, (x :: u).Sublist (s.filter (· ≠ ' ')) → (x = '(' ∨ x = '&' ∨ x = '|') → s'.Sublist u → callsFor s' ≤ k := by
      intro s' u x h1 h2 h3
      have := (h1.filter fun c => c = '(' ∨ c = '&' ∨ c = '|').length_le
      have h4 := (h3.filter fun c => c = '(' ∨ c = '&' ∨ c = '|').length_le
      rw [List.filter_cons_of_pos (by simpa using h2), List.length_cons] at this
      unfold callsFor at hn ⊢
      omega
    rw [Node.parseIn]
    dsimp only
    split
    · rfl
    split
    · split
      · rfl
      · split
        · rfl
        · rename_i op rest hd
          refine combineIn_isSome (fun _ => rfl) (fun hop => ih _ ?_)
          exact key (x := op) (u := rest) (hd ▸ List.drop_sublist _ _) (.inr hop) (List.Sublist.refl _)
    · split
      · rfl
      · rename_i c rest hc
        split
        · rfl
        · rename_i h1
          split
          · rfl
          · split
            · rfl
            · rfl
            · rename_i i hi
              have hp : c = '(' := by simpa using h1
              split
              · rfl
              · rename_i y after hd
                have hl : callsFor (rest.take i) ≤ k := key (x := c) (u := rest) (by rw [hc]) (.inl hp) (List.take_sublist _ _)
                split
                · exact ih _ hl
                · rename_i op rest'
                  refine combineIn_isSome (fun _ => ih _ hl) (fun hop => ih _ ?_)
                  refine key (x := c) (u := rest) (by rw [hc]) (.inl hp) ?_
                  have : (y :: op :: rest').Sublist rest := hd ▸ List.drop_sublist _ _
                  exact ((List.sublist_cons_self _ _).trans (List.sublist_cons_self _ _)).trans this

theorem Nested.denotes {e : List Char} {n : Node} {d : Nat} (h : Nested e n d) : Denotes e n := by
  induction h with
  | leaf hw => exact .leaf hw
  | leafOp op hw _ ih => exact .leafOp op hw ih
  | paren _ ih => exact .paren ih
  | parenOp op _ _ ih1 ih2 => exact .parenOp op ih1 ih2

theorem Denotes.nested {e : List Char} {n : Node} (h : Denotes e n) : ∃ d, Nested e n d := by
  induction h with
  | leaf hw => exact ⟨_, .leaf hw⟩
  | leafOp op hw _ ih => obtain ⟨d, ih⟩ := ih; exact ⟨_, .leafOp op hw ih⟩
  | paren _ ih => obtain ⟨d, ih⟩ := ih; exact ⟨_, .paren ih⟩
  | parenOp op _ _ ih1 ih2 =>
    obtain ⟨d1, ih1⟩ := ih1
    obtain ⟨d2, ih2⟩ := ih2
    exact ⟨_, .parenOp op ih1 ih2⟩

theorem combineIn_op (o : Op) (a b : Node) {d d' k : Nat} :
    Node.combineIn o.char (if d ≤ k then some (.ok a) else none) (if d' ≤ k then some (.ok b) else none) =
      if max d d' ≤ k then some (.ok (o.node a b)) else none := by
  by_cases h1 : d ≤ k <;> by_cases h2 : d' ≤ k <;> simp [h1, h2] <;> cases o <;> rfl

/-- The exact number of nested calls on an accepted text. -/
theorem parseIn_exact (t : Target) {e : List Char} {n : Node} {d : Nat} (h : Nested e n d) : ∀ s : List Char, noSpaces s = e →
    (∀ c ∈ s, c ∈ authorizedChars) → s.length < 2 ^ 31 → ∀ k, Node.parseIn t k s = if d ≤ k then some (.ok n) else none := by
  have guard : ∀ (s e : List Char), noSpaces s = e → e ≠ [] → (∀ c ∈ s, c ∈ authorizedChars) →
      ¬ (s.isEmpty || s.any (fun c => !authorizedChars.contains c)) = true := by
    intro s e he hne ha
    simp only [Bool.or_eq_true, List.isEmpty_iff, List.any_eq_true, Bool.not_eq_true', List.contains_eq_mem,
      decide_eq_false_iff_not, not_or, not_exists, not_and, not_not]
    refine ⟨?_, ha⟩
    rintro rfl
    exact hne he.symm
  have self : ∀ {e n d}, Nested e n d → noSpaces e = e := fun h => noSpaces_self fun x hx => ((denotes_chars h.denotes).2 x hx).1
  have auth : ∀ {e n d}, Nested e n d → ∀ x ∈ e, x ∈ authorizedChars := fun h x hx => ((denotes_chars h.denotes).2 x hx).2
  have notdigit : ∀ r : List Char, ¬ ('(' :: r).takeWhile Char.isDigit ≠ [] := by
    intro r
    rw [List.takeWhile_cons_of_neg (by decide)]
    simp
  induction h with
  | @leaf ds a hw =>
    intro s he ha hB k
    cases k with
    | zero => rfl
    | succ k =>
      rw [Node.parseIn, if_neg (guard s _ he hw.nonempty ha)]
      unfold noSpaces at he
      rw [he]
      have h1 := takeWhile_digits (r := []) hw.digit (by simp)
      rw [List.append_nil] at h1
      simp only [h1]
      rw [if_pos hw.nonempty, (parseU32_eq hw.digit).2 hw.value]
      simp
  | @leafOp ds r a n d op hw hr ih =>
    intro s he ha hB k
    have hl := noSpaces_length s
    rw [he, List.length_append, List.length_cons] at hl
    cases k with
    | zero => rfl
    | succ k =>
      have h1 := takeWhile_digits (r := op.char :: r) hw.digit (by simpa using (op_not_paren op).2.2.2.2)
      rw [Node.parseIn, if_neg (guard s _ he (by simp) ha)]
      unfold noSpaces at he
      rw [he]
      simp only [h1]
      rw [if_pos hw.nonempty, (parseU32_eq hw.digit).2 hw.value]
      simp only [List.drop_left]
      rw [ih r (self hr) (auth hr) (by omega)]
      simpa using combineIn_op op (.leaf a) n (d := 0) (d' := d) (k := k)
  | @paren e n d hd ih =>
    intro s he ha hB k
    have hl := noSpaces_length s
    rw [he] at hl
    simp only [List.length_cons, List.length_append, List.length_nil] at hl
    cases k with
    | zero => rfl
    | succ k =>
      rw [Node.parseIn, if_neg (guard s _ he (by simp) ha)]
      unfold noSpaces at he
      rw [he]
      dsimp only
      rw [if_neg (notdigit _)]
      simp only [ne_eq, not_true_eq_false, if_false]
      rw [if_neg (by simp), denotes_neutral hd.denotes t 0 0 _ (le_refl _) (by omega), closingIndex_close (by omega), if_pos (by omega)]
      simp only [Nat.zero_add, List.drop_left, List.take_left]
      rw [ih e (self hd) (auth hd) (by omega)]
      simp
  | @parenOp e r n m d d' op hd hr ih1 ih2 =>
    intro s he ha hB k
    have hl := noSpaces_length s
    rw [he] at hl
    simp only [List.length_cons, List.length_append] at hl
    cases k with
    | zero => rfl
    | succ k =>
      rw [Node.parseIn, if_neg (guard s _ he (by simp) ha)]
      unfold noSpaces at he
      rw [he]
      dsimp only
      rw [if_neg (notdigit _)]
      simp only [ne_eq, not_true_eq_false, if_false]
      rw [if_neg (by simp), denotes_neutral hd.denotes t 0 0 _ (le_refl _) (by omega), closingIndex_close (by omega), if_pos (by omega)]
      simp only [Nat.zero_add, List.drop_left, List.take_left]
      rw [ih1 e (self hd) (auth hd) (by omega), ih2 r (self hr) (auth hr) (by omega), combineIn_op]
      simp

/-- **C79.** With room for `k` nested calls the parser either overflows its stack or returns what `Node.parse` returns.  One call for each opening
parenthesis and operator of the text, and one, are always enough: also on texts that are refused. -/
theorem C79_enough_calls (t : Target) (k : Nat) (s : List Char) :
    (Node.parseIn t k s = none ∨ Node.parseIn t k s = some (Node.parse t s)) ∧ (callsFor s ≤ k → Node.parseIn t k s = some (Node.parse t s)) := by
  have h : ∀ r, Node.parseIn t k s = some r → Node.parseIn t k s = some (Node.parse t s) := fun r hr => by rw [parseIn_sound t k s r hr, hr]
  constructor
  · cases hr : Node.parseIn t k s with
    | none => exact .inl rfl
    | some r => exact .inr (hr ▸ h r hr)
  · intro hk
    obtain ⟨r, hr⟩ := Option.isSome_iff_exists.1 (parseIn_enough t k s hk)
    exact h r hr

/-- **C79.** A text that is accepted has one nesting, and it is the least number of nested calls with which it is parsed: with fewer the stack overflows. -/
theorem C79_exact_calls (t : Target) {s : List Char} {n : Node} (hs : s.length < 2 ^ 31) (h : Node.parse t s = .ok n) :
    ∃ d, Nested (noSpaces s) n d ∧ n.height ≤ d ∧ d ≤ callsFor s ∧ ∀ k, Node.parseIn t k s = if d ≤ k then some (.ok n) else none := by
  obtain ⟨ha, hd⟩ := parse_sound t s.length s n (le_refl _) hs h
  obtain ⟨d, hd⟩ := Denotes.nested hd
  have he := parseIn_exact t hd s rfl ha hs
  refine ⟨d, hd, parseIn_height t d s n (by rw [he, if_pos (le_refl _)]), ?_, he⟩
  by_contra hc
  have := parseIn_enough t (callsFor s) s (le_refl _)
  rw [he, if_neg hc] at this
  simp at this

theorem height_rightAssoc (a : UInt32) : ∀ l : List (UInt32 × Op), (rightAssoc l a).height = l.length + 1
  | [] => rfl
  | (b, op) :: l => by
    have := height_rightAssoc a l
    cases op <;> simp only [rightAssoc, Op.node, Node.height, this, List.length_cons] <;> omega

/-- A label within `d` pairs of parentheses. -/
def wrapped (a : UInt32) : Nat → List Char
  | 0 => label a
  | d + 1 => '(' :: (wrapped a d ++ [')'])

theorem wrapped_nested (a : UInt32) : ∀ d, Nested (wrapped a d) (.leaf a) (d + 1)
  | 0 => .leaf (label_writes a)
  | d + 1 => .paren (wrapped_nested a d)

theorem flat_ones (k : Nat) : (flat (List.replicate k (1, .and)) 1).length = 2 * k + 1 := by
  induction k with
  | zero => simp [flat, label, decimal, Text.digits]
  | succ k ih =>
    simp only [List.replicate_succ, flat, List.length_append, List.length_cons, ih]
    simp [label, decimal, Text.digits]
    omega

theorem wrapped_length (k : Nat) : (wrapped 1 k).length = 2 * k + 1 := by
  induction k with
  | zero => simp [wrapped, label, decimal, Text.digits]
  | succ k ih => simp [wrapped, ih]; omega

/-- **C79** (refuted): no stack is enough.  Whatever number of nested calls there is room for, an accepted text of twice that many characters overflows it;
the chain `1&1&…&1` does, and so does `((…1…))`, though its formula is a single leaf. -/
theorem C79_bounded_stack_refuted (t : Target) (k : Nat) (hk : 2 * k + 1 < 2 ^ 31) :
    (∃ s n, s.length = 2 * k + 1 ∧ '(' ∉ s ∧ Node.parse t s = .ok n ∧ Node.parseIn t k s = none) ∧
      ∃ s, s.length = 2 * k + 1 ∧ Node.parse t s = .ok (.leaf 1) ∧ Node.parseIn t k s = none := by
  constructor
  · have hl := flat_ones k
    have hp := C42_right_associative t (List.replicate k (1, .and)) 1 (by omega)
    refine ⟨_, _, hl, ?_, hp, ?_⟩
    · clear hl hp hk
      induction k with
      | zero => simp [flat, label, decimal, Text.digits]
      | succ k ih =>
        simp only [List.replicate_succ, flat, List.mem_append, List.mem_cons, not_or]
        exact ⟨by simp [label, decimal, Text.digits], by simp [Op.char], ih⟩
    · obtain ⟨d, -, h1, -, h2⟩ := C79_exact_calls t (by omega) hp
      rw [height_rightAssoc, List.length_replicate] at h1
      rw [h2, if_neg (by omega)]
  · have hn := wrapped_nested 1 k
    have hl := wrapped_length k
    have hc := denotes_chars hn.denotes
    refine ⟨_, hl, parse_complete t hn.denotes _ (noSpaces_self fun x hx => (hc.2 x hx).1) (fun x hx => (hc.2 x hx).2) (by omega), ?_⟩
    rw [parseIn_exact t hn _ (noSpaces_self fun x hx => (hc.2 x hx).1) (fun x hx => (hc.2 x hx).2) (by omega), if_neg (by omega)]

/-- Three calls parse `(1&2)|3`, two do not: the right operand is the second level, but `2` the third. -/
example : Node.parseIn .release64 3 "(1&2)|3".toList = some (.ok (.or (.and (.leaf 1) (.leaf 2)) (.leaf 3))) ∧
    Node.parseIn .release64 2 "(1&2)|3".toList = none ∧ Node.parse .release64 "(1&2)|3".toList = .ok (.or (.and (.leaf 1) (.leaf 2)) (.leaf 3)) ∧
    callsFor "(1&2)|3".toList = 4 ∧ Node.parseIn .release64 1 "1*((".toList = 
      some (.err (.unexpectedCharacter "formula must contain only digits, parenthesis and operators & and |. Given formula: 1*((")) := by decide +kernel

end Abe
