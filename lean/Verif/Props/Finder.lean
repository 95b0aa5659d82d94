import Verif.Spec.Finder
import Verif.Props.Generic

/-!
# Encapsulated elements cannot be recovered by generic attackers

Property C78.
-/

namespace Abe

set_option linter.unusedSectionVars false

variable {K P Q QP T : Type} [Field K] [DecidableEq K] [AddCommGroup P] [Module K P] [AddCommGroup Q] [Module K Q]
  [AddCommGroup T] [Module K T]

section
variable {size k w : Nat}

/-- The known element `m • genT`. -/
def Strategy.known (m : K) : Strategy K := ⟨fun _ _ => 0, fun i => if i = 0 then m else 0⟩

/-- Subtracting the element `m • genT`. -/
def Strategy.less (σ : Strategy K) (m : K) : Strategy K := ⟨σ.pairs, fun i => σ.direct i - if i = 0 then m else 0⟩

theorem known_eval (c : Curve K P Q QP T) (m : K) (st : GameState K P Q QP T) : (Strategy.known m).eval c (st.view c) = m • c.genT := by
  cases h : st.ct <;> simp [Strategy.eval, Strategy.known, GameState.view, h]

theorem less_eval (c : Curve K P Q QP T) (σ : Strategy K) (m : K) (st : GameState K P Q QP T) :
    (σ.less m).eval c (st.view c) = σ.eval c (st.view c) - m • c.genT := by
  unfold Strategy.eval Strategy.less GameState.view
  simp only [List.cons_append, List.zipIdx_cons, List.map_cons, List.sum_cons, if_true, sub_smul, Nat.zero_add]
  rw [add_sub_assoc]
  congr 1
  rw [sub_add_eq_add_sub]
  congr 2
  simp only [Nat.reduceAdd, one_ne_zero, if_false, sub_zero, zero_smul, add_right_inj]
  congr 1
  refine List.map_congr_left fun x hx => ?_
  have := List.le_snd_of_mem_zipIdx hx
  rw [if_neg (by omega), zero_smul, sub_zero]

/-- Trying the candidates one after the other. -/
def tryAll (m : K) : List (Strategy K) → Adversary K
  | [] => .guess false
  | σ :: l => .compare (.t (σ.less m)) (.guess true) (tryAll m l)

/-- A finder as an attacker who distinguishes encryptions of `m • genT` and zero. -/
def Finder.toAdversary (m : K) : Finder K → Adversary K
  | .answer l => tryAll m l
  | .compare q yes no => .compare q (yes.toAdversary m) (no.toAdversary m)
  | .key p ap next => .key p ap (next.toAdversary m)
  | .challenge gamma next => .challenge gamma (.known 0) (.known m) (next.toAdversary m)

theorem tryAll_run (c : Curve K P Q QP T) (t : Target) (ω : Coins K size k w) (b : Bool) (m : K) (l : List (Strategy K)) (st : GameState K P Q QP T) :
    (tryAll m l).run c t ω b st = true ↔ ∃ σ ∈ l, σ.eval c (st.view c) = m • c.genT := by
  induction l with
  | nil => simp [tryAll, Adversary.run]
  | cons σ l ih =>
    rw [tryAll, Adversary.run, Query.Holds, less_eval]
    by_cases h : σ.eval c (st.view c) = m • c.genT
    · simp [h, Adversary.run]
    · rw [if_neg (by rwa [sub_eq_zero]), ih]
      simp [h]

theorem Finder.run_toAdversary (c : Curve K P Q QP T) (t : Target) (ω : Coins K size k w) (m : K) (A : Finder K) :
    ∀ st : GameState K P Q QP T, (A.toAdversary m).run c t ω true st = A.run c t ω m st := by
  induction A with
  | answer l =>
    intro st
    rw [Bool.eq_iff_iff, Finder.toAdversary, tryAll_run]
    simp [Finder.run]
  | compare q yes no ihy ihn =>
    intro st
    rw [Finder.toAdversary, Finder.run, Adversary.run, ihy, ihn]
  | key p ap next ih =>
    intro st
    rw [Finder.toAdversary, Finder.run, Adversary.run]
    split <;> simp_all
  | challenge gamma next ih =>
    intro st
    rw [Finder.toAdversary, Finder.run, Adversary.run]
    simp only [if_true, known_eval]
    split <;> simp_all

theorem tryAll_count [Fintype K] (c : Curve K P Q QP T) (t : Target) (ω : Coins K size k w) (l : List (Strategy K)) (st : GameState K P Q QP T) :
    (Finset.univ.filter fun m : K => (tryAll m l).run c t ω false st = true).card ≤ l.length := by
  induction l with
  | nil => simp [tryAll, Adversary.run]
  | cons σ l ih =>
    have hsub : (Finset.univ.filter fun m : K => (tryAll m (σ :: l)).run c t ω false st = true) ⊆
        (Finset.univ.filter fun m : K => (tryAll m [σ]).run c t ω false st = true) ∪
          Finset.univ.filter fun m : K => (tryAll m l).run c t ω false st = true := by
      intro m hm
      simp only [Finset.mem_filter, Finset.mem_univ, true_and, tryAll_run, Finset.mem_union] at hm ⊢
      simpa using hm
    refine (Finset.card_le_card hsub).trans ((Finset.card_union_le _ _).trans ?_)
    have h1 : (Finset.univ.filter fun m : K => (tryAll m [σ]).run c t ω false st = true).card ≤ 1 := by
      rw [Finset.card_le_one]
      intro a ha b hb
      simp only [Finset.mem_filter, Finset.mem_univ, true_and, tryAll_run, List.mem_singleton, exists_eq_left] at ha hb
      exact smul_left_injective K c.genT_ne_zero (ha.symm.trans hb)
    rw [List.length_cons]
    omega

/-- When zero is encrypted, few `m` are hit. -/
theorem Finder.run_false [Fintype K] (c : Curve K P Q QP T) (t : Target) (ω : Coins K size k w) (A : Finder K) :
    ∀ st : GameState K P Q QP T, (Finset.univ.filter fun m : K => (A.toAdversary m).run c t ω false st = true).card ≤ A.candidates := by
  induction A with
  | answer l =>
    intro st
    exact tryAll_count c t ω l st
  | compare q yes no ihy ihn =>
    intro st
    simp only [Finder.toAdversary, Finder.candidates, Adversary.run]
    by_cases h : q.Holds c (st.view c)
    · simp only [h, if_true]
      exact (ihy st).trans (le_max_left _ _)
    · simp only [h, if_false]
      exact (ihn st).trans (le_max_right _ _)
  | key p ap next ih =>
    intro st
    simp only [Finder.toAdversary, Finder.candidates, Adversary.run]
    split <;> exact ih _
  | challenge gamma next ih =>
    intro st
    simp only [Finder.toAdversary, Finder.candidates, Adversary.run, Bool.false_eq_true, if_false]
    split <;> exact ih _

theorem tryAll_comparisons (m : K) (l : List (Strategy K)) : (tryAll m l).comparisons = l.length := by
  induction l with
  | nil => rfl
  | cons σ l ih => simp [tryAll, Adversary.comparisons, ih]

theorem Finder.comparisons_toAdversary (m : K) (A : Finder K) : (A.toAdversary m).comparisons ≤ A.comparisons + A.candidates := by
  induction A with
  | answer l => simp [Finder.toAdversary, tryAll_comparisons, Finder.comparisons, Finder.candidates]
  | compare q yes no ihy ihn =>
    simp only [Finder.toAdversary, Adversary.comparisons, Finder.comparisons, Finder.candidates]
    omega
  | key p ap next ih => simpa only [Finder.toAdversary, Adversary.comparisons, Finder.comparisons, Finder.candidates] using ih
  | challenge gamma next ih => simpa only [Finder.toAdversary, Adversary.comparisons, Finder.comparisons, Finder.candidates] using ih

theorem tryAll_legit (m : K) (l : List (Strategy K)) (n : Nat) (users : List (Policy × AccessPolicy)) (target : Option (List UInt32)) :
    (tryAll m l).Legit w n users target := by
  induction l with
  | nil => trivial
  | cons σ l ih => exact ⟨trivial, ih⟩

theorem Finder.legit_toAdversary (m : K) (A : Finder K) : ∀ (n : Nat) (users : List (Policy × AccessPolicy)) (target : Option (List UInt32)),
    A.Legit w n users target → (A.toAdversary m).Legit w n users target := by
  induction A with
  | answer l => exact fun n users target _ => tryAll_legit m l n users target
  | compare q yes no ihy ihn => exact fun n users target h => ⟨ihy n users target h.1, ihn n users target h.2⟩
  | key p ap next ih =>
    intro n users target h
    cases n with
    | zero => exact absurd h (by simp [Finder.Legit])
    | succ n => exact ⟨h.1, h.2.1, h.2.2.1, ih _ _ _ h.2.2.2⟩
  | challenge gamma next ih => exact fun n users target h => ⟨h.1, h.2.1, ih _ _ _ h.2.2⟩

/-- **C78.** A generic attacker none of whose keys is authorised, with `n` comparisons and `l` candidates for the element encapsulated (inputs to the hash
function), finds it with a probability of at most `((n + l) * (size + 2) + l) / q`. -/
theorem C78_encapsulation_one_way [Fintype K] (c : Curve K P Q QP T) (t : Target) (size k w : Nat) (hK : 2 < Fintype.card K) (A : Finder K)
    (hA : A.Legit w k [] none) :
    A.prob c t size k w ≤ ((A.comparisons + A.candidates) * (size + 2) + A.candidates) / Fintype.card K := by
  classical
  have hq : (0 : ℚ) < Fintype.card K := by exact_mod_cast (by omega : 0 < Fintype.card K)
  have hΩ : (0 : ℚ) < Fintype.card (Coins K size k w) := by exact_mod_cast Fintype.card_pos
  have htrue : ∀ (ω : Coins K size k w) (m : K), A.play c t ω m = (A.toAdversary m).play c t ω true := by
    intro ω m
    unfold Finder.play Adversary.play
    generalize generateMasterKey (bls c) size ω.master (ω .y) = r
    cases r <;> simp only [Finder.run_toAdversary]
  -- the count, by the element
  have hsum : ∀ f : K → Coins K size k w → Bool, (Finset.univ.filter fun x : K × Coins K size k w => f x.1 x.2 = true).card =
      ∑ m : K, (Finset.univ.filter fun ω : Coins K size k w => f m ω = true).card := by
    intro f
    simp only [Finset.card_filter]
    exact Fintype.sum_prod_type _
  have hsum' : ∀ f : K → Coins K size k w → Bool, (Finset.univ.filter fun x : K × Coins K size k w => f x.1 x.2 = true).card =
      ∑ ω : Coins K size k w, (Finset.univ.filter fun m : K => f m ω = true).card := by
    intro f
    simp only [Finset.card_filter]
    exact Fintype.sum_prod_type_right _
  have hfalse : (Finset.univ.filter fun x : K × Coins K size k w => (A.toAdversary x.1).play c t x.2 false = true).card ≤
      Fintype.card (Coins K size k w) * A.candidates := by
    rw [hsum' fun m ω => (A.toAdversary m).play c t ω false]
    refine (Finset.sum_le_card_nsmul _ _ A.candidates fun ω _ => ?_).trans (by simp [Finset.card_univ])
    unfold Adversary.play
    split
    · exact Finder.run_false c t ω A _
    · simp
  have hone : ∀ m : K, ((Finset.univ.filter fun ω : Coins K size k w => (A.toAdversary m).play c t ω true = true).card : ℚ) ≤
      (Finset.univ.filter fun ω : Coins K size k w => (A.toAdversary m).play c t ω false = true).card +
        (A.comparisons + A.candidates) * (size + 2) / Fintype.card K * Fintype.card (Coins K size k w) := by
    intro m
    have h := (abs_le.1 (C76_generic_security c t size k w hK _ (Finder.legit_toAdversary m A k [] none hA))).2
    unfold Adversary.prob at h
    have hc : ((A.toAdversary m).comparisons : ℚ) ≤ A.comparisons + A.candidates := by exact_mod_cast Finder.comparisons_toAdversary m A
    have h2 : ((A.toAdversary m).comparisons : ℚ) * (size + 2) / Fintype.card K ≤ (A.comparisons + A.candidates) * (size + 2) / Fintype.card K := by
      gcongr
    have h3 := h.trans h2
    rw [← sub_div, div_le_iff₀ hΩ] at h3
    linarith
  have htotal : ((Finset.univ.filter fun x : K × Coins K size k w => A.play c t x.2 x.1 = true).card : ℚ) ≤
      Fintype.card (Coins K size k w) * A.candidates +
        Fintype.card K * ((A.comparisons + A.candidates) * (size + 2) / Fintype.card K * Fintype.card (Coins K size k w)) := by
    have e1 := hsum fun m ω => (A.toAdversary m).play c t ω true
    have e2 := hsum fun m ω => (A.toAdversary m).play c t ω false
    simp only [htrue]
    rw [e1]
    rw [e2] at hfalse
    push_cast
    calc _ ≤ ∑ m : K, (((Finset.univ.filter fun ω : Coins K size k w => (A.toAdversary m).play c t ω false = true).card : ℚ) +
          (A.comparisons + A.candidates) * (size + 2) / Fintype.card K * Fintype.card (Coins K size k w)) := Finset.sum_le_sum fun m _ => hone m
      _ ≤ _ := by
        rw [Finset.sum_add_distrib, Finset.sum_const, nsmul_eq_mul, Finset.card_univ]
        have : (∑ m : K, ((Finset.univ.filter fun ω : Coins K size k w => (A.toAdversary m).play c t ω false = true).card : ℚ)) ≤
            Fintype.card (Coins K size k w) * A.candidates := by exact_mod_cast hfalse
        linarith
  unfold Finder.prob
  rw [Fintype.card_prod, Nat.cast_mul, div_le_div_iff₀ (by positivity) hq]
  refine (mul_le_mul_of_nonneg_right htotal hq.le).trans (le_of_eq ?_)
  field_simp
  ring

end

namespace Demo

/-- **C78** for an attacker with keys for `High && (HR || MKG)` and `MKG`, and any one candidate for an element encapsulated for `HR`. -/
example (σ : Strategy F) : (Finder.key policy ap (.challenge [4] (.key policy (.attr mkg) (.answer [σ])))).prob curveF .release64 6 2 1 ≤ 9 / 11 := by
  obtain ⟨h1, h2, h3, h4, h5, h6, h7, h8, _⟩ := attacker_legit σ σ σ
  have := C78_encapsulation_one_way curveF .release64 6 2 1 (by rw [ZMod.card]; decide) (.key policy ap (.challenge [4] (.key policy (.attr mkg) (.answer [σ]))))
    ⟨h1, h2, h3, h4, h5, h6, h7, h8, trivial⟩
  rw [ZMod.card] at this
  norm_num [Finder.comparisons, Finder.candidates] at this ⊢
  exact this

end Demo

end Abe
