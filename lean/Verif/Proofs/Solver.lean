import Verif.Proofs.Gauss
import Mathlib.Tactic.LinearCombination

/-! Extraction of the solution and correctness of `spanCoefs`. -/

namespace Abe

open Finset

set_option linter.unusedSectionVars false

variable {K : Type} [Field K] [DecidableEq K]

theorem skipZeros_ok {m : List (List K)} {n i : Nat} (h : Rect m n) (hi : i < n) (t : Nat)
    (ht : t ≤ m.length) (hnz : t < m.length → ent m t i ≠ 0) :
    ∀ (k cur : Nat) (sol : List K), cur + k = m.length → 0 < k → cur ≤ t →
      (∀ j, cur ≤ j → j < t → ent m j i = 0) →
      skipZeros m i k cur sol =
        .ok (if t < m.length then some t else none, sol ++ List.replicate (t - cur) 0) := by
  intro k
  induction k with
  | zero => intro cur sol _ h0; omega
  | succ k ih =>
    intro cur sol hk _ hct hz
    unfold skipZeros
    rw [entry_ok h (by omega) hi]
    simp only [Res.ok_bind]
    by_cases hcur : cur = t
    · subst hcur
      have hlt : cur < m.length := by omega
      rw [if_neg (hnz hlt), if_pos hlt]
      simp
    · have hlt : cur < t := by omega
      rw [if_pos (hz cur le_rfl hlt)]
      have hrep : List.replicate (t - cur) (0 : K) = [0] ++ List.replicate (t - (cur + 1)) 0 := by
        rw [show t - cur = (t - (cur + 1)) + 1 by omega, List.replicate_succ]; rfl
      by_cases hk0 : k = 0
      · rw [if_pos hk0]
        have : t = cur + 1 := by omega
        subst this
        rw [if_neg (by omega)]
        simp
      · rw [if_neg hk0, ih (cur + 1) _ (by omega) (by omega) (by omega)
          (fun j h1 h2 => hz j (by omega) h2), hrep, List.append_assoc]

/-- The solution read off a reduced matrix. -/
def solAt (m : List (List K)) (k : Nat) (p : Nat → Nat) (last : Nat) (j : Nat) : K :=
  ∑ i ∈ range k, if p i = j then ent m last i else 0

theorem solAt_piv {m : List (List K)} {k : Nat} {p : Nat → Nat} {last : Nat}
    (hinj : ∀ i j, i < j → j < k → p i < p j) {i : Nat} (hi : i < k) :
    solAt m k p last (p i) = ent m last i := by
  unfold solAt
  rw [Finset.sum_eq_single i]
  · simp
  · intro j hj hne
    rw [if_neg]
    simp at hj
    rcases Nat.lt_or_gt_of_ne hne with h | h
    · have := hinj j i h hi; omega
    · have := hinj i j h hj; omega
  · intro h; simp at h; omega

theorem solAt_not_piv {m : List (List K)} {k : Nat} {p : Nat → Nat} {last j : Nat}
    (h : ∀ i < k, p i ≠ j) : solAt m k p last j = 0 := by
  unfold solAt
  apply Finset.sum_eq_zero
  intro i hi
  rw [if_neg (h i (by simpa using hi))]

theorem map_range_append_zeros {s : Nat → K} {cur t : Nat} (hct : cur ≤ t)
    (hz : ∀ j, cur ≤ j → j < t → s j = 0) :
    (List.range cur).map s ++ List.replicate (t - cur) 0 = (List.range t).map s := by
  apply List.ext_getElem
  · simp; omega
  · intro i h1 h2
    simp only [List.getElem_append, List.length_map, List.length_range, List.getElem_map, List.getElem_range,
      List.getElem_replicate]
    split
    · rfl
    · simp at h2; rw [hz i (by omega) h2]

theorem extractSol_ok {m0 m : List (List K)} {n k c lastP : Nat} {p : Nat → Nat}
    (hi : GInv m0 m n k c lastP p) (hend : c = m0.length ∨ k = n)
    (hlast : ∀ i < k, p i + 1 < m.length) :
    ∀ (f i : Nat), i + f = n → i ≤ k →
      ∀ cur, (cur = if i = 0 then 0 else p (i - 1) + 1) → cur < m.length →
      ∃ cur', extractSol m m.length (List.range' i f) cur
          ((List.range cur).map (solAt m k p (m.length - 1))) =
          .ok ((List.range cur').map (solAt m k p (m.length - 1))) ∧
          ∀ j, cur' ≤ j → solAt m k p (m.length - 1) j = 0 := by
  intro f
  induction f with
  | zero =>
    intro i hf hik cur hcur hcm
    refine ⟨cur, rfl, ?_⟩
    have hkn : k = i := by have := hi.kn; omega
    intro j hj
    apply solAt_not_piv
    intro i' hi' heq
    by_cases h0 : i = 0
    · omega
    · rw [if_neg h0] at hcur
      by_cases h1 : i' = i - 1
      · subst h1; omega
      · have := hi.mono i' (i - 1) (by omega) (by omega); omega
  | succ f ih =>
    intro i hf hik cur hcur hcm
    rw [List.range'_succ]
    unfold extractSol
    -- pivots strictly between
    have hbetween : ∀ j, cur ≤ j → (∀ i' < k, i ≤ i' → p i' ≠ j) → solAt m k p (m.length - 1) j = 0 := by
      intro j hj hne
      apply solAt_not_piv
      intro i' hi' heq
      by_cases hle : i ≤ i'
      · exact hne i' hi' hle heq
      · rw [if_neg (by omega)] at hcur
        by_cases h1 : i' = i - 1
        · subst h1; omega
        · have := hi.mono i' (i - 1) (by omega) (by omega); omega
    by_cases hlt : i < k
    · have hpi := hlast i hlt
      have hcp : cur ≤ p i := by
        rw [hcur]; split
        · omega
        · have := hi.mono (i - 1) i (by omega) hlt; omega
      have hpiv : ent m (p i) i = 1 := by rw [hi.piv i hlt i (by omega)]; simp
      rw [skipZeros_ok hi.rect (by omega) (p i) (by omega) (by intro _; rw [hpiv]; exact one_ne_zero)
        (m.length - cur) cur _ (by omega) (by omega) hcp (fun j _ h2 => hi.left i hlt j h2)]
      simp only [Res.ok_bind]
      rw [if_pos (by omega)]
      simp only []
      rw [entry_ok hi.rect (by omega) (by omega)]
      simp only [Res.ok_bind]
      rw [if_pos hpiv]
      have hml : 0 < m.length := by omega
      have hgl : m.getLast? = some (m.getD (m.length - 1) []) := by
        rw [List.getLast?_eq_getElem?, getD_lt (by omega), List.getElem?_eq_getElem (by omega)]
      rw [hgl]
      simp only [Res.unwrap, Res.ok_bind]
      have hl := hi.rect.col (j := m.length - 1) (by omega)
      have hidx : (idx (m.getD (m.length - 1) []) i : Out K) = .ok (ent m (m.length - 1) i) := by
        unfold ent; rw [idx_of_lt (by omega), getD_lt (l := m.getD _ _) (by omega)]
      rw [hidx]
      simp only [Res.ok_bind]
      rw [if_neg (by omega)]
      have hz : ∀ j, cur ≤ j → j < p i → solAt m k p (m.length - 1) j = 0 := by
        intro j h1 h2
        apply hbetween j h1
        intro i' hi' hle heq
        by_cases h' : i' = i
        · subst h'; omega
        · have := hi.mono i i' (by omega) hi'; omega
      rw [map_range_append_zeros hcp hz]
      have happ : (List.range (p i)).map (solAt m k p (m.length - 1)) ++ [ent m (m.length - 1) i] =
          (List.range (p i + 1)).map (solAt m k p (m.length - 1)) := by
        rw [List.range_succ, List.map_append]
        simp [solAt_piv hi.mono hlt]
      rw [happ]
      exact ih (i + 1) (by omega) (by omega) (p i + 1) (by simp) hpi
    · have hki : k = i := by omega
      have hcN : c = m.length := by
        rcases hend with h | h
        · rw [h, hi.len]
        · omega
      rw [skipZeros_ok hi.rect (by omega) m.length le_rfl (by intro h; omega)
        (m.length - cur) cur _ (by omega) (by omega) (by omega)
        (fun j _ h2 => hi.below i (by omega) (by omega) j (by omega))]
      simp only [Res.ok_bind]
      rw [if_neg (by omega)]
      refine ⟨m.length, ?_, ?_⟩
      · rw [map_range_append_zeros (by omega)]
        intro j h1 _
        exact hbetween j h1 (fun i' hi' hle => by omega)
      · intro j hj
        exact hbetween j (by omega) (fun i' hi' hle => by omega)

/-- Coefficients `x` combine the rows of `rows` (all of width `n`) into the all-ones vector. -/
def Combines (rows : List (List K)) (n : Nat) (x : Nat → K) : Prop :=
  ∀ r < n, ∑ j ∈ range rows.length, x j * ent rows j r = 1

theorem ent_append_ones {rows : List (List K)} {n j r : Nat} (hr : r < n) :
    ent (rows ++ [List.replicate n 1]) j r =
      if j < rows.length then ent rows j r else if j = rows.length then 1 else 0 := by
  unfold ent
  by_cases h : j < rows.length
  · rw [if_pos h]; congr 1
    rw [List.getD_eq_getElem?_getD, List.getElem?_append_left h, ← List.getD_eq_getElem?_getD]
  · rw [if_neg h]
    by_cases h2 : j = rows.length
    · rw [if_pos h2, h2, List.getD_eq_getElem?_getD (l := rows ++ _)]; simp [hr]
    · rw [if_neg h2, getD_ge (l := rows ++ _) (by simp; omega)]; simp

theorem ker_append_ones {rows : List (List K)} {n : Nat} (y : Nat → K) :
    Ker (rows ++ [List.replicate n 1]) n y ↔
      ∀ r < n, (∑ j ∈ range rows.length, y j * ent rows j r) + y rows.length = 0 := by
  unfold Ker
  apply forall_congr'; intro r
  apply forall_congr'; intro hr
  rw [List.length_append, List.length_singleton, Finset.sum_range_succ]
  rw [Finset.sum_congr rfl (g := fun j => y j * ent rows j r)]
  · rw [ent_append_ones hr]; simp
  · intro j hj
    simp at hj
    rw [ent_append_ones hr, if_pos hj]

theorem combines_iff_ker {rows : List (List K)} {n : Nat} (x : Nat → K) :
    Combines rows n x ↔
      Ker (rows ++ [List.replicate n 1]) n (fun j => if j < rows.length then x j else -1) := by
  rw [ker_append_ones]
  unfold Combines
  apply forall_congr'; intro r
  apply forall_congr'; intro hr
  have hs : ∑ j ∈ range rows.length, (if j < rows.length then x j else -1) * ent rows j r =
      ∑ j ∈ range rows.length, x j * ent rows j r := by
    apply Finset.sum_congr rfl
    intro j hj; simp at hj; simp [hj]
  rw [if_neg (by omega), hs]
  constructor
  · intro h; rw [h]; ring
  · intro h; linear_combination h

/-- Main theorem on the solver: on a non-empty rectangular matrix of positive width it terminates without
panic or error, returns coefficients when the all-ones vector is in the row span, and `None` otherwise. -/
theorem spanCoefs_spec {rows : List (List K)} {n : Nat} (hne : rows ≠ []) (hn : 0 < n) (h : Rect rows n) :
    (∃ a, spanCoefs rows = .ok (some a) ∧ a.length = rows.length ∧ Combines rows n fun j => a.getD j 0) ∨
    (spanCoefs rows = .ok none ∧ ∀ x, ¬ Combines rows n x) := by
  obtain ⟨first, rest, rfl⟩ := List.exists_cons_of_ne_nil hne
  have hfirst : first.length = n := h first (by simp)
  unfold spanCoefs
  simp only []
  rw [if_neg (by intro h'; rw [List.isEmpty_iff] at h'; subst h'; simp at hfirst; omega)]
  rw [hfirst]
  set rows := first :: rest with hrows
  set m0 := rows ++ [List.replicate n (1 : K)] with hm0
  have hlen : m0.length = rows.length + 1 := by simp [hm0]
  have hrl : 0 < rows.length := by simp [hrows]
  have hrect : Rect m0 n := by
    intro col hcol
    rw [hm0, List.mem_append, List.mem_singleton] at hcol
    rcases hcol with h' | h'
    · exact h col h'
    · simp [h']
  have hinit : GInv m0 m0 n 0 0 0 (fun _ => 0) := by
    refine ⟨hrect, rfl, by omega, ?_, by omega, ?_, ?_, ?_, ?_, by simp, ?_, fun y => Iff.rfl⟩ <;>
      (intros; omega)
  obtain ⟨m, k, c, last, p, e1, hi, hend⟩ := gaussLoop_ok m0 n m0.length m0 0 0 0 _ hinit (by omega)
  rw [e1]
  simp only [Res.ok_bind]
  have hml : m.length = rows.length + 1 := by rw [hi.len, hlen]
  by_cases hlast : last = m0.length - 1
  · right
    rw [if_pos hlast]
    refine ⟨rfl, ?_⟩
    intro x hx
    rw [combines_iff_ker, ← hm0, ← hi.ker] at hx
    cases hk : k with
    | zero => have := hi.last0 hk; omega
    | succ k' =>
      have hp := hi.lastk k' hk
      have hkn := hi.kn
      have := hx k' (by omega)
      rw [hml, Finset.sum_range_succ, Finset.sum_eq_zero] at this
      · simp only [] at this
        rw [if_neg (by omega), show rows.length = p k' by omega, hi.piv k' (by omega) k' (by omega)] at this
        simp at this
      · intro j hj
        simp at hj
        rw [hi.left k' (by omega) j (by omega), mul_zero]
  · left
    rw [if_neg hlast]
    have hpl : ∀ i < k, p i + 1 < m.length := by
      intro i hik
      obtain ⟨k', rfl⟩ : ∃ k', k = k' + 1 := ⟨k - 1, by omega⟩
      have h1 := hi.lastk k' rfl
      have h2 := hi.pc k' (by omega)
      have h3 := hi.cm
      have : p i ≤ p k' := by
        by_cases hik' : i = k'
        · rw [hik']
        · exact le_of_lt (hi.mono i k' (by omega) (by omega))
      omega
    obtain ⟨cur', e2, hz⟩ := extractSol_ok hi hend hpl n 0 (by omega) (by omega) 0 (by simp) (by omega)
    rw [hi.len] at e2
    rw [show List.range n = List.range' 0 n by rw [List.range_eq_range']]
    rw [show (List.range 0).map (solAt m k p (m0.length - 1)) = [] by rfl] at e2
    rw [e2]
    simp only [Res.ok_bind]
    refine ⟨_, rfl, ?_, ?_⟩
    · rw [resize_length]; omega
    · have hval : ∀ j < rows.length,
          (resize ((List.range cur').map (solAt m k p (m0.length - 1))) (m0.length - 1) 0).getD j 0 =
            solAt m k p (m0.length - 1) j := by
        intro j hj
        rw [getD_resize, if_pos (by omega)]
        by_cases hjc : j < cur'
        · rw [getD_lt (by simpa using hjc)]; simp
        · rw [getD_ge (by simp; omega)]
          rw [hi.len] at hz
          rw [hz j (by omega)]
      rw [combines_iff_ker, ← hm0, ← hi.ker]
      intro r hr
      rw [hml, Finset.sum_range_succ]
      simp only []
      rw [if_neg (by omega)]
      rw [Finset.sum_congr rfl (g := fun j => solAt m k p (m0.length - 1) j * ent m j r)]
      swap
      · intro j hj; simp at hj; rw [if_pos hj, hval j hj]
      have hsum : ∑ j ∈ range rows.length, solAt m k p (m0.length - 1) j * ent m j r =
          ∑ i ∈ range k, ent m (m0.length - 1) i * ent m (p i) r := by
        unfold solAt
        simp only [Finset.sum_mul]
        rw [Finset.sum_comm]
        apply Finset.sum_congr rfl
        intro i hik
        simp at hik
        rw [Finset.sum_eq_single (p i)]
        · simp
        · intro j _ hne; rw [if_neg (Ne.symm hne), zero_mul]
        · intro h'; simp at h'; have := hpl i hik; omega
      rw [hsum]
      have hpr : ∀ i ∈ range k, ent m (m0.length - 1) i * ent m (p i) r =
          if r = i then ent m (m0.length - 1) i else 0 := by
        intro i hik
        simp at hik
        rw [hi.piv i hik r hr]; split <;> simp
      rw [Finset.sum_congr rfl hpr, Finset.sum_ite_eq]
      rw [show m0.length - 1 = rows.length by omega]
      by_cases hrk : r < k
      · rw [if_pos (by simpa using hrk)]; ring
      · rw [if_neg (by simpa using hrk)]
        have hcN : c = m.length := by
          rcases hend with h' | h'
          · rw [h', hi.len]
          · omega
        rw [hi.below r (by omega) hr rows.length (by omega)]
        ring

end Abe
