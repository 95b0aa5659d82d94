import Verif.Spec.Crafted
import Verif.Proofs.Engine

/-! Access policies under policies that were not built by the library. -/

namespace Abe

theorem findIdx_first {s t : List String} {x : String} (hs : x ∉ s) : (s ++ x :: t).findIdx? (· == x) = some s.length := by
  rw [List.findIdx?_append]
  have : s.findIdx? (· == x) = none := by
    rw [List.findIdx?_eq_none_iff]
    intro y hy
    simp only [beq_eq_false_iff_ne]
    rintro rfl; exact hs hy
  rw [this]
  simp [List.findIdx?_cons]

theorem first_unique {s s' t t' : List String} {x : String} (hs : x ∉ s) (hs' : x ∉ s') (h : s ++ x :: t = s' ++ x :: t') : s = s' := by
  have e := findIdx_first (t := t) hs
  rw [h, findIdx_first hs'] at e
  exact (List.append_inj h (by simpa using e.symm)).1

theorem Policy.Lookups.unique {p : Policy} {a : Attribute} {l l' : List Attribute} (h : p.Lookups a l) (h' : p.Lookups a l') : l = l' := by
  obtain ⟨s, t, b, h1, h2, rfl⟩ := h
  obtain ⟨s', t', b', h1', h2', rfl⟩ := h'
  rw [h1] at h1'
  simp only [Option.some.injEq, Prod.mk.injEq] at h1'
  obtain ⟨e, rfl⟩ := h1'
  rw [first_unique h2 h2' e]

theorem Policy.ValuesOf.unique {p : Policy} {l : List Attribute} {vs vs' : List UInt32} (h : p.ValuesOf l vs) (h' : p.ValuesOf l vs') :
    vs = vs' := by
  induction h generalizing vs' with
  | nil => cases h'; rfl
  | cons h1 _ _ ih =>
    cases h' with
    | cons g1 _ g3 =>
      rw [h1] at g1
      cases g1
      rw [ih g3]

theorem Policy.ValuesOf.mem {p : Policy} {l : List Attribute} {vs : List UInt32} (h : p.ValuesOf l vs) (v : UInt32) :
    v ∈ vs ↔ ∃ b ∈ l, p.HasValue b v := by
  induction h with
  | nil => simp
  | @cons a heap l vs h1 _ _ ih =>
    rw [List.mem_append, ih]
    simp only [List.mem_cons, exists_eq_or_imp]
    refine or_congr ?_ Iff.rfl
    unfold Policy.HasValue
    rw [h1]
    simp

theorem Policy.Lookups.covers {p : Policy} {a : Attribute} {l : List Attribute} (h : p.Lookups a l) (b : Attribute) :
    b ∈ l ↔ p.Covers a b := by
  obtain ⟨s, t, hh, h1, h2, rfl⟩ := h
  rw [List.mem_cons]
  constructor
  · rintro (rfl | hb)
    · exact ⟨s, t, hh, h1, h2, rfl, .inl rfl⟩
    · cases hh with
      | false => simp at hb
      | true =>
        simp only [if_true, List.mem_map] at hb
        obtain ⟨x, hx, rfl⟩ := hb
        exact ⟨s, t, true, h1, h2, rfl, .inr ⟨rfl, hx⟩⟩
  · rintro ⟨s', t', b', h1', h2', h3, h4⟩
    rw [h1] at h1'
    simp only [Option.some.injEq, Prod.mk.injEq] at h1'
    obtain ⟨e, rfl⟩ := h1'
    obtain rfl := first_unique h2 h2' e
    obtain ⟨ax, n⟩ := b
    obtain rfl : ax = a.axis := h3
    rcases h4 with h4 | ⟨rfl, h4⟩
    · left
      obtain rfl : n = a.name := h4
      rfl
    · right
      rw [if_pos rfl]
      exact List.mem_map.2 ⟨n, h4, rfl⟩

theorem AccessPolicy.Inner.unique {p : Policy} {ap : AccessPolicy} {vs vs' : List UInt32} (h : ap.Inner p vs) (h' : ap.Inner p vs') : vs = vs' := by
  induction h generalizing vs' with
  | attr h1 h2 =>
    cases h' with
    | attr g1 g2 =>
      rw [h1.unique g1] at h2
      exact h2.unique g2
  | and _ _ ih1 ih2 =>
    cases h' with
    | and g1 g2 => rw [ih1 g1, ih2 g2]
  | or _ _ ih1 ih2 =>
    cases h' with
    | or g1 g2 => rw [ih1 g1, ih2 g2]

/-- What is known of the outcome of a conversion: the values in order, and when they satisfy. -/
structure NodeOf (vs : List UInt32) (sat : (UInt32 → Prop) → Prop) (n : Node) : Prop where
  leaves : n.leaves = vs
  sat : ∀ γ, n.Sat γ ↔ sat γ

/-- One look-up. -/
theorem heapNode_any (p : Policy) (of a : Attribute) :
    (∃ heap n, hget p.attributeToInt a = some heap ∧ heap ≠ [] ∧ heapNode p of a = .ok n ∧ OrOf heap n) ∨
    (hget p.attributeToInt a = none ∧ heapNode p of a = .panic) ∨
    (hget p.attributeToInt a = some [] ∧ ∃ e, heapNode p of a = .err e) := by
  unfold heapNode
  cases h : hget p.attributeToInt a with
  | none => exact .inr (.inl ⟨rfl, rfl⟩)
  | some heap =>
    cases heap with
    | nil => exact .inr (.inr ⟨rfl, _, rfl⟩)
    | cons v vs =>
      cases ho : orAll (v :: vs) with
      | none => simp [orAll] at ho
      | some n => exact .inl ⟨_, n, rfl, by simp, by simp only [ho, Res.ofOption], orAll_spec ho⟩

/-- The look-ups after the first. -/
theorem lowerFold_any (p : Policy) (of : Attribute) (ax : String) : ∀ (names : List String) (val : Node),
    (∃ n vs, foldRes (fun val elem => (do
        let n ← heapNode p of ⟨ax, elem⟩
        .ok (.or val n) : Out Node)) val names = .ok n ∧ p.ValuesOf (names.map fun x => ⟨ax, x⟩) vs ∧
      NodeOf (val.leaves ++ vs) (fun γ => val.Sat γ ∨ ∃ v ∈ vs, γ v) n) ∨
    (foldRes (fun val elem => (do
        let n ← heapNode p of ⟨ax, elem⟩
        .ok (.or val n) : Out Node)) val names = .panic ∧
      ∃ pre b post vs, names.map (fun x => (⟨ax, x⟩ : Attribute)) = pre ++ b :: post ∧ p.ValuesOf pre vs ∧ hget p.attributeToInt b = none) ∨
    ((∃ e, foldRes (fun val elem => (do
        let n ← heapNode p of ⟨ax, elem⟩
        .ok (.or val n) : Out Node)) val names = .err e) ∧
      ∃ pre b post vs, names.map (fun x => (⟨ax, x⟩ : Attribute)) = pre ++ b :: post ∧ p.ValuesOf pre vs ∧ hget p.attributeToInt b = some [])
  | [], val => .inl ⟨val, [], rfl, .nil, by simp, by simp⟩
  | x :: names, val => by
    rw [foldRes_cons]
    rcases heapNode_any p of ⟨ax, x⟩ with ⟨heap, n, h1, h2, h3, h4⟩ | ⟨h1, h2⟩ | ⟨h1, e, h2⟩
    · rw [h3]
      simp only [Res.ok_bind]
      rcases lowerFold_any p of ax names (.or val n) with ⟨n', vs, g1, g2, g3⟩ | ⟨g1, pre, b, post, vs, g2, g3, g4⟩ | ⟨g1, pre, b, post, vs, g2, g3, g4⟩
      · refine .inl ⟨n', heap ++ vs, g1, .cons h1 h2 g2, ?_, ?_⟩
        · rw [g3.leaves]
          simp [Node.leaves, h4.leaves]
        · intro γ
          rw [g3.sat]
          simp only [Node.Sat, h4.sat, List.mem_append]
          constructor
          · rintro ((h | ⟨v, hv, h⟩) | ⟨v, hv, h⟩)
            exacts [.inl h, .inr ⟨v, .inl hv, h⟩, .inr ⟨v, .inr hv, h⟩]
          · rintro (h | ⟨v, hv | hv, h⟩)
            exacts [.inl (.inl h), .inl (.inr ⟨v, hv, h⟩), .inr ⟨v, hv, h⟩]
      · exact .inr (.inl ⟨g1, _ :: pre, b, post, heap ++ vs, by simp [g2], .cons h1 h2 g3, g4⟩)
      · exact .inr (.inr ⟨g1, _ :: pre, b, post, heap ++ vs, by simp [g2], .cons h1 h2 g3, g4⟩)
    · rw [h2]
      exact .inr (.inl ⟨rfl, [], _, _, [], rfl, .nil, h1⟩)
    · rw [h2]
      exact .inr (.inr ⟨⟨e, rfl⟩, [], _, _, [], rfl, .nil, h1⟩)

theorem Policy.ValuesOf.found {p : Policy} {l : List Attribute} {vs : List UInt32} (h : p.ValuesOf l vs) :
    ∀ b ∈ l, ∃ heap, hget p.attributeToInt b = some heap ∧ heap ≠ [] := by
  induction h with
  | nil => simp
  | cons h1 h2 _ ih =>
    intro b hb
    rcases List.mem_cons.1 hb with rfl | hb
    · exact ⟨_, h1, h2⟩
    · exact ih b hb

theorem Policy.ValuesOf.append {p : Policy} {l l' : List Attribute} {vs vs' : List UInt32} (h : p.ValuesOf l vs) (h' : p.ValuesOf l' vs') :
    p.ValuesOf (l ++ l') (vs ++ vs') := by
  induction h with
  | nil => exact h'
  | cons h1 h2 _ ih =>
    rw [List.cons_append, List.append_assoc]
    exact .cons h1 h2 ih

/-- At most one of the two ways to stop. -/
theorem stop_unique {p : Policy} {pre pre' post post' : List Attribute} {b b' : Attribute} {vs vs' : List UInt32}
    (h : pre ++ b :: post = pre' ++ b' :: post') (h1 : p.ValuesOf pre vs) (h1' : p.ValuesOf pre' vs')
    (h2 : ¬ ∃ heap, hget p.attributeToInt b = some heap ∧ heap ≠ []) (h2' : ¬ ∃ heap, hget p.attributeToInt b' = some heap ∧ heap ≠ []) : b = b' := by
  induction pre generalizing pre' vs vs' with
  | nil =>
    cases pre' with
    | nil => simpa using (List.cons.inj h).1
    | cons c pre' =>
      obtain rfl : b = c := (List.cons.inj h).1
      exact absurd (h1'.found b (by simp)) h2
  | cons c pre ih =>
    cases pre' with
    | nil =>
      obtain rfl : c = b' := (List.cons.inj h).1
      exact absurd (h1.found c (by simp)) h2'
    | cons c' pre' =>
      cases h1 with
      | cons _ _ h1 => cases h1' with
        | cons _ _ h1' => exact ih (List.cons.inj h).2 h1 h1'

/-- The three outcomes of the conversion of an access policy which is not `All`. -/
def FormulaOutcome (p : Policy) (ap : AccessPolicy) (x : Out Node) : Prop :=
  (∃ n vs, x = .ok n ∧ ap.Inner p vs ∧ ¬ ap.Crashes p ∧ NodeOf vs (fun γ => ap.SatValues p γ) n) ∨
  (x = .panic ∧ ap.Crashes p ∧ ∀ vs, ¬ ap.Inner p vs) ∨
  ((∃ e, x = .err e) ∧ ¬ ap.Crashes p ∧ ∀ vs, ¬ ap.Inner p vs)

theorem crashes_attr_iff {p : Policy} {a : Attribute} : (AccessPolicy.attr a).Crashes p ↔
    ∃ pre b post vs, p.Lookups a (pre ++ b :: post) ∧ p.ValuesOf pre vs ∧ hget p.attributeToInt b = none := by
  constructor
  · intro h
    cases h with
    | attr h1 h2 h3 => exact ⟨_, _, _, _, h1, h2, h3⟩
  · rintro ⟨_, _, _, _, h1, h2, h3⟩
    exact .attr h1 h2 h3

theorem inner_attr_iff {p : Policy} {a : Attribute} {vs : List UInt32} : (AccessPolicy.attr a).Inner p vs ↔
    ∃ l, p.Lookups a l ∧ p.ValuesOf l vs := by
  constructor
  · intro h
    cases h with
    | attr h1 h2 => exact ⟨_, h1, h2⟩
  · rintro ⟨_, h1, h2⟩
    exact .attr h1 h2

theorem policyToNode_any (p : Policy) (a : Attribute) : FormulaOutcome p (.attr a) (policyToNode p a) := by
  unfold policyToNode
  cases hax : hget p.axes a.axis with
  | none =>
    refine .inr (.inr ⟨⟨_, rfl⟩, ?_, ?_⟩)
    · rw [crashes_attr_iff]
      rintro ⟨pre, b, post, vs, ⟨s, t, h, h1, _⟩, _⟩
      rw [hax] at h1
      cases h1
    · intro vs h
      obtain ⟨l, ⟨s, t, h, h1, _⟩, _⟩ := inner_attr_iff.1 h
      rw [hax] at h1
      cases h1
  | some q =>
    obtain ⟨list, hier⟩ := q
    simp only []
    by_cases hmem : a.name ∈ list
    · rw [if_pos (by simpa using hmem)]
      obtain ⟨s, t, rfl, hs⟩ := List.eq_append_cons_of_mem hmem
      rw [findIdx_first hs]
      simp only [Res.ofOption, Res.ok_bind]
      rw [List.take_left]
      set rest : List Attribute := if hier = true then s.map (fun x => (⟨a.axis, x⟩ : Attribute)) else [] with hrest
      have hlook : p.Lookups a (a :: rest) := ⟨s, t, hier, hax, hs, rfl⟩
      -- the outcome decided by what is found
      have good : ∀ (n : Node) (vs : List UInt32), p.ValuesOf (a :: rest) vs → n.leaves = vs → (∀ γ, n.Sat γ ↔ ∃ v ∈ vs, γ v) →
          FormulaOutcome p (.attr a) (.ok n) := by
        intro n vs h1 h2 h3
        refine .inl ⟨n, vs, rfl, .attr hlook h1, ?_, h2, ?_⟩
        · rw [crashes_attr_iff]
          rintro ⟨pre, b, post, ws, g1, _, g3⟩
          have := g1.unique hlook
          obtain ⟨heap, hh, _⟩ := h1.found b (by rw [← this]; simp)
          rw [g3] at hh
          cases hh
        · intro γ
          rw [h3]
          simp only [AccessPolicy.SatValues, h1.mem, hlook.covers]
          constructor
          · rintro ⟨v, ⟨b, hb, hv⟩, hγ⟩; exact ⟨b, v, hb, hv, hγ⟩
          · rintro ⟨b, v, hb, hv, hγ⟩; exact ⟨v, ⟨b, hb, hv⟩, hγ⟩
      have noInner : ∀ pre b post, a :: rest = pre ++ b :: post → (¬ ∃ heap, hget p.attributeToInt b = some heap ∧ heap ≠ []) →
          ∀ vs, ¬ (AccessPolicy.attr a).Inner p vs := by
        intro pre b post h1 h2 vs h
        obtain ⟨l, g1, g2⟩ := inner_attr_iff.1 h
        rw [g1.unique hlook] at g2
        exact h2 (g2.found b (by rw [h1]; simp))
      have crash : ∀ pre b post vs, a :: rest = pre ++ b :: post → p.ValuesOf pre vs → hget p.attributeToInt b = none →
          FormulaOutcome p (.attr a) .panic := by
        intro pre b post vs h1 h2 h3
        exact .inr (.inl ⟨rfl, .attr (h1 ▸ hlook) h2 h3, noInner pre b post h1 (by rw [h3]; simp)⟩)
      have refuse : ∀ pre b post vs e, a :: rest = pre ++ b :: post → p.ValuesOf pre vs → hget p.attributeToInt b = some [] →
          FormulaOutcome p (.attr a) (.err e) := by
        intro pre b post vs e h1 h2 h3
        have hb : ¬ ∃ heap, hget p.attributeToInt b = some heap ∧ heap ≠ [] := by rw [h3]; simp
        refine .inr (.inr ⟨⟨e, rfl⟩, ?_, noInner pre b post h1 hb⟩)
        rw [crashes_attr_iff]
        rintro ⟨pre', b', post', vs', g1, g2, g3⟩
        have := stop_unique (h1.symm.trans (hlook.unique g1)) h2 g2 hb (by rw [g3]; simp)
        rw [← this, h3] at g3
        cases g3
      rcases heapNode_any p a a with ⟨heap, n, h1, h2, h3, h4⟩ | ⟨h1, h2⟩ | ⟨h1, e, h2⟩
      · rw [h3]
        simp only [Res.ok_bind]
        cases hier with
        | false =>
          simp only [Bool.false_eq_true, if_false] at hrest ⊢
          exact good n heap (by rw [hrest]; simpa using Policy.ValuesOf.cons h1 h2 .nil) h4.leaves h4.sat
        | true =>
          simp only [if_true] at hrest ⊢
          rcases lowerFold_any p a a.axis s n with ⟨n', vs, g1, g2, g3⟩ | ⟨g1, pre, b, post, vs, g2, g3, g4⟩ | ⟨⟨e, g1⟩, pre, b, post, vs, g2, g3, g4⟩
          · rw [g1]
            refine good n' (heap ++ vs) (by rw [hrest]; exact .cons h1 h2 g2) (by rw [g3.leaves, h4.leaves]) ?_
            intro γ
            rw [g3.sat, h4.sat]
            simp only [List.mem_append, or_and_right, exists_or]
          · rw [g1]
            exact crash (a :: pre) b post (heap ++ vs) (by rw [hrest, g2]; rfl) (.cons h1 h2 g3) g4
          · rw [g1]
            exact refuse (a :: pre) b post (heap ++ vs) e (by rw [hrest, g2]; rfl) (.cons h1 h2 g3) g4
      · rw [h2]
        exact crash [] a rest [] rfl .nil h1
      · rw [h2]
        exact refuse [] a rest [] e rfl .nil h1
    · rw [if_neg (by simpa using hmem)]
      refine .inr (.inr ⟨⟨_, rfl⟩, ?_, ?_⟩)
      · rw [crashes_attr_iff]
        rintro ⟨pre, b, post, vs, ⟨s, t, h, h1, _⟩, _⟩
        rw [hax] at h1
        simp only [Option.some.injEq, Prod.mk.injEq] at h1
        exact hmem (by rw [h1.1]; simp)
      · intro vs h
        obtain ⟨l, ⟨s, t, h, h1, _⟩, _⟩ := inner_attr_iff.1 h
        rw [hax] at h1
        simp only [Option.some.injEq, Prod.mk.injEq] at h1
        exact hmem (by rw [h1.1]; simp)

/-- Two conversions in a row. -/
theorem formula_pair {p : Policy} {l r ap : AccessPolicy} {x y : Out Node} (f : Node → Node → Node)
    (hx : FormulaOutcome p l x) (hy : FormulaOutcome p r y)
    (hi : ∀ vs, ap.Inner p vs ↔ ∃ v w, l.Inner p v ∧ r.Inner p w ∧ vs = v ++ w)
    (hc : ap.Crashes p ↔ l.Crashes p ∨ (∃ vs, l.Inner p vs) ∧ r.Crashes p)
    (hl : ∀ a b, (f a b).leaves = a.leaves ++ b.leaves)
    (hs : ∀ a b γ, (a.Sat γ ↔ l.SatValues p γ) → (b.Sat γ ↔ r.SatValues p γ) → ((f a b).Sat γ ↔ ap.SatValues p γ)) :
    FormulaOutcome p ap (do let a ← x; let b ← y; .ok (f a b)) := by
  rcases hx with ⟨n, vs, rfl, h1, h2, h3⟩ | ⟨rfl, h1, h2⟩ | ⟨⟨e, rfl⟩, h1, h2⟩
  · simp only [Res.ok_bind]
    rcases hy with ⟨m, ws, rfl, g1, g2, g3⟩ | ⟨rfl, g1, g2⟩ | ⟨⟨e, rfl⟩, g1, g2⟩
    · refine .inl ⟨_, vs ++ ws, rfl, (hi _).2 ⟨_, _, h1, g1, rfl⟩, ?_, ?_, ?_⟩
      · rw [hc]
        rintro (h | ⟨_, h⟩)
        exacts [h2 h, g2 h]
      · rw [hl, h3.leaves, g3.leaves]
      · intro γ
        exact hs _ _ _ (h3.sat γ) (g3.sat γ)
    · refine .inr (.inl ⟨rfl, hc.2 (.inr ⟨⟨_, h1⟩, g1⟩), ?_⟩)
      intro vs h
      obtain ⟨_, w, _, h, _⟩ := (hi _).1 h
      exact g2 w h
    · refine .inr (.inr ⟨⟨e, rfl⟩, ?_, ?_⟩)
      · rw [hc]
        rintro (h | ⟨_, h⟩)
        exacts [h2 h, g1 h]
      · intro vs h
        obtain ⟨_, w, _, h, _⟩ := (hi _).1 h
        exact g2 w h
  · refine .inr (.inl ⟨rfl, hc.2 (.inl h1), ?_⟩)
    intro vs h
    obtain ⟨v, _, h, _, _⟩ := (hi _).1 h
    exact h2 v h
  · refine .inr (.inr ⟨⟨e, rfl⟩, ?_, ?_⟩)
    · rw [hc]
      rintro (h | ⟨⟨v, h⟩, _⟩)
      exacts [h1 h, h2 v h]
    · intro vs h
      obtain ⟨v, _, h, _, _⟩ := (hi _).1 h
      exact h2 v h

theorem policyToFormula_any (p : Policy) (ap : AccessPolicy) : FormulaOutcome p ap (policyToFormula p ap) := by
  induction ap with
  | attr a => exact policyToNode_any p a
  | and l r ihl ihr =>
    refine formula_pair .and ihl ihr ?_ ?_ (fun _ _ => rfl) ?_
    · intro vs
      constructor
      · intro h; cases h with | and h1 h2 => exact ⟨_, _, h1, h2, rfl⟩
      · rintro ⟨_, _, h1, h2, rfl⟩; exact .and h1 h2
    · constructor
      · intro h
        cases h with
        | andLeft h => exact .inl h
        | andRight h1 h2 => exact .inr ⟨⟨_, h1⟩, h2⟩
      · rintro (h | ⟨⟨_, h1⟩, h2⟩)
        exacts [.andLeft h, .andRight h1 h2]
    · intro a b γ h1 h2
      simp only [Node.Sat, AccessPolicy.SatValues, h1, h2]
  | or l r ihl ihr =>
    refine formula_pair .or ihl ihr ?_ ?_ (fun _ _ => rfl) ?_
    · intro vs
      constructor
      · intro h; cases h with | or h1 h2 => exact ⟨_, _, h1, h2, rfl⟩
      · rintro ⟨_, _, h1, h2, rfl⟩; exact .or h1 h2
    · constructor
      · intro h
        cases h with
        | orLeft h => exact .inl h
        | orRight h1 h2 => exact .inr ⟨⟨_, h1⟩, h2⟩
      · rintro (h | ⟨⟨_, h1⟩, h2⟩)
        exacts [.orLeft h, .orRight h1 h2]
    · intro a b γ h1 h2
      simp only [Node.Sat, AccessPolicy.SatValues, h1, h2]
  | all =>
    refine .inr (.inr ⟨⟨_, rfl⟩, ?_, ?_⟩)
    · intro h; cases h
    · intro vs h; cases h

theorem AccessPolicy.Yields.unique {p : Policy} {ap : AccessPolicy} {vs vs' : List UInt32} (h : ap.Yields p vs) (h' : ap.Yields p vs') :
    vs = vs' := by
  cases h with
  | inner h =>
    cases h' with
    | inner h' => exact h.unique h'
    | all => cases h
  | all =>
    cases h' with
    | inner h' => cases h'
    | all => rfl

/-- The three outcomes of the conversion to a matrix. -/
theorem policyToMsp_any (p : Policy) (ap : AccessPolicy) :
    (∃ m n vs, policyToMsp p ap = .ok m ∧ MspFor n m ∧ ap.Yields p vs ∧ vs.Nodup ∧ ¬ ap.Crashes p ∧ NodeOf vs (fun γ => ap.SatValues p γ) n) ∨
    (policyToMsp p ap = .panic ∧ ap.Crashes p ∧ ∀ vs, ¬ ap.Yields p vs) ∨
    ((∃ e, policyToMsp p ap = .err e) ∧ ¬ ap.Crashes p ∧ ∀ vs, ap.Yields p vs → ¬ vs.Nodup) := by
  have main : ap ≠ .all →
      (∃ m n vs, (do let n ← policyToFormula p ap; n.toMsp : Out (Msp Int)) = .ok m ∧ MspFor n m ∧ ap.Yields p vs ∧ vs.Nodup ∧ ¬ ap.Crashes p ∧ NodeOf vs (fun γ => ap.SatValues p γ) n) ∨
      ((do let n ← policyToFormula p ap; n.toMsp : Out (Msp Int)) = .panic ∧ ap.Crashes p ∧ ∀ vs, ¬ ap.Yields p vs) ∨
      ((∃ e, (do let n ← policyToFormula p ap; n.toMsp : Out (Msp Int)) = .err e) ∧ ¬ ap.Crashes p ∧ ∀ vs, ap.Yields p vs → ¬ vs.Nodup) := by
    intro hap
    have inner : ∀ {vs}, ap.Yields p vs → ap.Inner p vs := by
      intro vs h
      cases h with
      | inner h => exact h
      | all => exact absurd rfl hap
    rcases policyToFormula_any p ap with ⟨n, vs, h1, h2, h3, h4⟩ | ⟨h1, h2, h3⟩ | ⟨⟨e, h1⟩, h2, h3⟩
    · rw [h1]
      simp only [Res.ok_bind]
      rcases toMsp_spec n with ⟨g1, m, g2, g3⟩ | ⟨g1, g2⟩
      · exact .inl ⟨m, n, vs, g2, g3, .inner h2, h4.leaves ▸ g1, h3, h4⟩
      · refine .inr (.inr ⟨⟨_, g2⟩, h3, ?_⟩)
        intro ws hw
        rw [← (h2.unique (inner hw)), ← h4.leaves]
        exact g1
    · rw [h1]
      exact .inr (.inl ⟨rfl, h2, fun vs h => h3 vs (inner h)⟩)
    · rw [h1]
      exact .inr (.inr ⟨⟨e, rfl⟩, h2, fun vs h => absurd (inner h) (h3 vs)⟩)
  cases ap with
  | attr a => exact main (by simp)
  | and l r => exact main (by simp)
  | or l r => exact main (by simp)
  | all =>
    have hc : ¬ AccessPolicy.all.Crashes p := by intro h; cases h
    have inner : ∀ {vs}, AccessPolicy.all.Yields p vs → vs = p.allValues ∧ p.allValues ≠ [] := by
      intro vs h
      cases h with
      | inner h => cases h
      | all h => exact ⟨rfl, h⟩
    unfold policyToMsp
    change (∃ m n vs, (do let n ← Res.ofOption _ (orAll p.allValues); n.toMsp : Out (Msp Int)) = .ok m ∧ _) ∨ _ 
    cases ho : orAll p.allValues with
    | none =>
      have he : p.allValues = [] := by
        cases h : p.allValues with
        | nil => rfl
        | cons v vs => rw [h] at ho; simp [orAll] at ho
      refine .inr (.inr ⟨⟨.missingAttribute none none, ?_⟩, hc, fun vs h => absurd he (inner h).2⟩)
      change (do let n ← Res.ofOption _ (orAll p.allValues); n.toMsp : Out (Msp Int)) = _
      rw [ho]
      rfl
    | some n =>
      have ne : p.allValues ≠ [] := by
        intro h; rw [h] at ho; simp [orAll] at ho
      have hn := orAll_spec ho
      rcases toMsp_spec n with ⟨g1, m, g2, g3⟩ | ⟨g1, g2⟩
      · exact .inl ⟨m, n, _, g2, g3, .all ne, hn.leaves ▸ g1, hc, hn.leaves, hn.sat⟩
      · refine .inr (.inr ⟨⟨.deserialization "error deserializing MSP, leaf already inserted", ?_⟩, hc, ?_⟩)
        · change (do let n ← Res.ofOption _ (orAll p.allValues); n.toMsp : Out (Msp Int)) = _
          rw [ho]
          exact g2
        · intro vs h
          rw [(inner h).1, ← hn.leaves]
          exact g1

end Abe
