import Verif.Proofs.Solver
import Verif.Proofs.Msp
import Mathlib.LinearAlgebra.Basis.VectorSpace
import Mathlib.LinearAlgebra.Pi
import Mathlib.LinearAlgebra.StdBasis
import Mathlib.LinearAlgebra.Finsupp.LinearCombination
import Mathlib.Algebra.BigOperators.Fin

/-! Link between spanning the all-ones vector and satisfying the formula. -/

namespace Abe

open Finset

set_option linter.unusedSectionVars false

variable {K : Type} [Field K] [DecidableEq K]

theorem prodScal_eq_sum (n : Nat) (row u : List K) (h1 : row.length = n) (h2 : u.length = n) :
    prodScal id row u = ∑ r ∈ range n, row.getD r 0 * u.getD r 0 := by
  induction n generalizing row u with
  | zero =>
    rw [List.length_eq_zero_iff] at h1; subst h1; simp [prodScal_nil]
  | succ n ih =>
    cases row with
    | nil => simp at h1
    | cons x row =>
      cases u with
      | nil => simp at h2
      | cons b u =>
        rw [prodScal_cons, Finset.sum_range_succ', ih row u (by simpa using h1) (by simpa using h2)]
        simp; ring

theorem list_sum_eq (n : Nat) (u : List K) (h : u.length = n) : u.sum = ∑ r ∈ range n, u.getD r 0 := by
  induction n generalizing u with
  | zero => rw [List.length_eq_zero_iff] at h; subst h; simp
  | succ n ih =>
    cases u with
    | nil => simp at h
    | cons b u =>
      rw [List.sum_cons, Finset.sum_range_succ', ih u (by simpa using h)]
      simp; ring

/-- Combining the rows also combines their products with any vector. -/
theorem combines_apply {rows : List (List K)} {n : Nat} (hr : Rect rows n) {x : Nat → K}
    (h : Combines rows n x) {u : List K} (hu : u.length = n) :
    ∑ j ∈ range rows.length, x j * prodScal id (rows.getD j []) u = u.sum := by
  rw [list_sum_eq n u hu]
  have : ∀ j ∈ range rows.length, x j * prodScal id (rows.getD j []) u =
      ∑ r ∈ range n, x j * ent rows j r * u.getD r 0 := by
    intro j hj
    simp at hj
    rw [prodScal_eq_sum n _ _ (hr.col hj) hu, Finset.mul_sum]
    apply Finset.sum_congr rfl
    intro r _
    rw [mul_assoc]; rfl
  rw [Finset.sum_congr rfl this, Finset.sum_comm]
  apply Finset.sum_congr rfl
  intro r hr'
  simp at hr'
  rw [← Finset.sum_mul, h r hr', one_mul]

/-- Either the all-ones vector is a combination of the rows, or some vector is orthogonal to all rows but not to it. -/
theorem combines_or_orthogonal {rows : List (List K)} {n : Nat} (hr : Rect rows n) :
    (∃ x, Combines rows n x) ∨
    ∃ u : List K, u.length = n ∧ u.sum ≠ 0 ∧ ∀ row ∈ rows, prodScal id row u = 0 := by
  let v : Fin rows.length → (Fin n → K) := fun j r => ent rows j r
  by_cases hmem : (fun _ => 1 : Fin n → K) ∈ Submodule.span K (Set.range v)
  · left
    rw [Submodule.mem_span_range_iff_exists_fun] at hmem
    obtain ⟨c, hc⟩ := hmem
    refine ⟨fun j => if h : j < rows.length then c ⟨j, h⟩ else 0, ?_⟩
    intro r hr'
    have := congrFun hc ⟨r, hr'⟩
    simp only [Finset.sum_apply, Pi.smul_apply, smul_eq_mul] at this
    rw [Finset.sum_range]
    rw [← this]
    apply Finset.sum_congr rfl
    intro j _
    simp [v]
  · right
    obtain ⟨f, hf1, hf2⟩ := Submodule.exists_le_ker_of_notMem hmem
    have hfe : ∀ w : Fin n → K, f w = ∑ r : Fin n, w r * f (Pi.single r 1) := by
      intro w
      conv_lhs => rw [← Finset.univ_sum_single w]
      rw [map_sum]
      apply Finset.sum_congr rfl
      intro r _
      have : (Pi.single r (w r) : Fin n → K) = w r • Pi.single r 1 := by
        ext i; by_cases h : i = r
        · subst h; simp
        · simp [h]
      rw [this, map_smul, smul_eq_mul]
    let u : List K := List.ofFn fun r : Fin n => f (Pi.single r 1)
    have hu : u.length = n := by simp [u]
    have hget : ∀ r : Fin n, u.getD r 0 = f (Pi.single r 1) := by
      intro r
      rw [getD_lt (by simp [u])]; simp [u]
    refine ⟨u, hu, ?_, ?_⟩
    · rw [list_sum_eq n u hu, Finset.sum_range]
      rw [hfe] at hf1
      simp only [one_mul] at hf1
      simpa only [hget] using hf1
    · intro row hrow
      obtain ⟨j, hj, hjr⟩ := List.getElem_of_mem hrow
      rw [prodScal_eq_sum n row u (hr row hrow) hu, Finset.sum_range]
      have hz : f (v ⟨j, hj⟩) = 0 := by
        have := hf2 (Submodule.subset_span ⟨⟨j, hj⟩, rfl⟩)
        simpa using this
      rw [hfe] at hz
      refine Eq.trans ?_ hz
      apply Finset.sum_congr rfl
      intro r _
      rw [hget]
      congr 1
      simp only [v, ent]
      rw [getD_lt hj, hjr]

/-- The row of attribute `a` (empty when absent). -/
def rowOf (m : Msp Int) (a : UInt32) : List Int :=
  match m.getRowFromAttr a with
  | some i => m.matrix.getD i []
  | none => []

theorem MspFor.row_of_mem {n : Node} {m : Msp Int} (h : MspFor n m) {a : UInt32} (ha : a ∈ n.leaves) :
    ∃ i, m.getRowFromAttr a = some i ∧ m.rowToAttr[i]? = some a ∧ m.matrix[i]? = some (rowOf m a) := by
  have := h.perm.mem_iff.2 ha
  obtain ⟨i, hi, hia⟩ := List.getElem_of_mem this
  have h1 : m.rowToAttr[i]? = some a := by rw [List.getElem?_eq_getElem hi, hia]
  have h2 := (h.lookup a i).2 h1
  refine ⟨i, h2, h1, ?_⟩
  have hi' : i < m.matrix.length := by rw [← h.rta]; exact hi
  unfold rowOf
  rw [h2]
  simp only []
  rw [getD_lt hi', List.getElem?_eq_getElem hi']

theorem MspFor.attr_mem {n : Node} {m : Msp Int} (h : MspFor n m) {a : UInt32} {i : Nat}
    (hi : m.rowToAttr[i]? = some a) : a ∈ n.leaves :=
  h.perm.mem_iff.1 (List.mem_of_getElem? hi)

theorem MspFor.lookup_none {n : Node} {m : Msp Int} (h : MspFor n m) {a : UInt32} :
    m.getRowFromAttr a = none ↔ a ∉ n.leaves := by
  constructor
  · intro hn ha
    obtain ⟨i, h1, _⟩ := h.row_of_mem ha
    rw [hn] at h1; simp at h1
  · intro ha
    cases hg : m.getRowFromAttr a with
    | none => rfl
    | some i => exact absurd (h.attr_mem ((h.lookup a i).1 hg)) ha

theorem MspFor.rowOf_length {n : Node} {m : Msp Int} (h : MspFor n m) {a : UInt32} (ha : a ∈ n.leaves) :
    (rowOf m a).length = m.nbCol := by
  obtain ⟨i, _, _, h3⟩ := h.row_of_mem ha
  exact h.width _ (List.mem_of_getElem? h3)

/-- The shares property, by attribute. -/
theorem MspFor.shares' {n : Node} {m : Msp Int} (h : MspFor n m) (lam : UInt32 → K) (y : K) :
    (∃ u : List K, u.length = m.nbCol ∧ u.sum = y ∧
      ∀ a ∈ n.leaves, prodScal id ((rowOf m a).map fun n : Int => (n : K)) u = lam a) ↔ n.Shares lam y := by
  rw [← h.shares lam y]
  apply exists_congr; intro u
  apply and_congr_right; intro _
  apply and_congr_right; intro _
  constructor
  · intro hs i row a hr ha
    have hmem := h.attr_mem ha
    obtain ⟨i', g1, g2, g3⟩ := h.row_of_mem hmem
    have : i' = i := by
      have := (h.lookup a i).2 ha
      rw [g1] at this; simpa using this
    subst this
    rw [g3] at hr
    simp at hr
    rw [prodScal_map, ← hr]
    exact hs a hmem
  · intro hs a ha
    obtain ⟨i', g1, g2, g3⟩ := h.row_of_mem ha
    rw [← prodScal_map]
    exact hs i' _ a g3 g2

/-- The rows selected by a list of attributes of the formula span the all-ones vector exactly when the formula is
satisfied. -/
theorem MspFor.span_iff {n : Node} {m : Msp Int} (h : MspFor n m) (l : List UInt32)
    (hl : ∀ a ∈ l, a ∈ n.leaves) :
    (∃ x, Combines (l.map fun a => (rowOf m a).map fun n : Int => (n : K)) m.nbCol x) ↔ n.Sat (· ∈ l) := by
  have hrect : Rect (l.map fun a => (rowOf m a).map fun n : Int => (n : K)) m.nbCol := by
    intro col hcol
    obtain ⟨a, ha, rfl⟩ := List.mem_map.1 hcol
    rw [List.length_map, h.rowOf_length (hl a ha)]
  have hd : n.leaves.Nodup := h.perm.nodup_iff.1 h.nodup
  constructor
  · rintro ⟨x, hx⟩
    by_contra hs
    obtain ⟨lam, h0, h1⟩ := shares_unsat (K := K) 1 hd hs
    obtain ⟨u, hu, hsum, hrow⟩ := (h.shares' lam 1).2 h1
    have := combines_apply hrect hx hu
    rw [Finset.sum_eq_zero, hsum] at this
    · exact zero_ne_one this
    · intro j hj
      simp at hj
      rw [getD_lt (by simpa using hj), List.getElem_map, hrow _ (hl _ (List.getElem_mem hj)),
        h0 _ (List.getElem_mem hj), mul_zero]
  · intro hs
    rcases combines_or_orthogonal hrect with hx | ⟨u, hu, hsum, hz⟩
    · exact hx
    · exfalso
      apply hsum
      have hsh := (h.shares' (fun a => prodScal id ((rowOf m a).map fun n : Int => (n : K)) u) u.sum).1
        ⟨u, hu, rfl, fun _ _ => rfl⟩
      exact shares_sat (γ := (· ∈ l)) (fun a ha => hz _ (List.mem_map.2 ⟨a, ha, rfl⟩)) hs hsh

end Abe
