import Verif.Proofs.Span
import Verif.Proofs.Scheme
import Verif.Spec.Matrix
import Mathlib.Algebra.Order.Field.Rat
import Mathlib.Data.ZMod.Basic
import Mathlib.Algebra.Field.ZMod
import Mathlib.Tactic.IntervalCases
import Mathlib.Tactic.NormNum.Prime

/-!
# Span programs and the solver

Properties C03, C04, C05.
-/

namespace Abe

set_option linter.unusedSectionVars false

open Finset

variable {K : Type} [Field K] [DecidableEq K]

theorem combination_eq_sum : ∀ (coefs : List K) (rows : List (List K)) (c : Nat), coefs.length = rows.length →
    combination coefs rows c = ∑ j ∈ range rows.length, coefs.getD j 0 * ent rows j c
  | [], [], c, _ => by simp [combination]
  | [], _ :: _, c, h => by simp at h
  | _ :: _, [], c, h => by simp at h
  | a :: coefs, row :: rows, c, h => by
    have ih := combination_eq_sum coefs rows c (by simpa using h)
    have e : combination (a :: coefs) (row :: rows) c = a * row.getD c 0 + combination coefs rows c := by
      simp [combination]
    rw [e, ih, List.length_cons, Finset.sum_range_succ']
    rw [add_comm]
    congr 1

theorem combinesToOnes_iff {coefs : List K} {rows : List (List K)} {n : Nat} (h : coefs.length = rows.length) :
    CombinesToOnes coefs rows n ↔ Combines rows n fun j => coefs.getD j 0 := by
  unfold CombinesToOnes Combines
  constructor
  · intro hc r hr
    rw [← combination_eq_sum coefs rows r h]; exact hc.2 r hr
  · intro hc
    refine ⟨h, fun c hcn => ?_⟩
    rw [combination_eq_sum coefs rows c h]; exact hc c hcn

theorem combines_list {rows : List (List K)} {n : Nat} {x : Nat → K} (h : Combines rows n x) :
    CombinesToOnes ((List.range rows.length).map x) rows n := by
  rw [combinesToOnes_iff (by simp)]
  intro r hr
  rw [← h r hr]
  apply Finset.sum_congr rfl
  intro j hj
  rw [Finset.mem_range] at hj
  congr 1
  dsimp only
  rw [getD_lt (by simpa using hj)]
  simp

/-- **C04.** The solver is sound, complete and does not crash: on every rectangular matrix (at least one row and one
column) over every field it returns coefficients combining the rows into the all-ones vector if there are any, and
`None` exactly when there are none. -/
theorem C04_solver {rows : List (List K)} {n : Nat} (hne : rows ≠ []) (hn : 0 < n) (h : ∀ row ∈ rows, row.length = n) :
    (∀ a, spanCoefs rows = .ok (some a) → CombinesToOnes a rows n) ∧
    (spanCoefs rows = .ok none ↔ ¬ ∃ a, CombinesToOnes a rows n) ∧
    ((∃ a, CombinesToOnes a rows n) → ∃ a, spanCoefs rows = .ok (some a)) ∧
    (∀ e, spanCoefs rows ≠ .err e) ∧ spanCoefs rows ≠ .panic := by
  rcases spanCoefs_spec hne hn h with ⟨a, h1, h2, h3⟩ | ⟨h1, h2⟩
  · have hc : CombinesToOnes a rows n := (combinesToOnes_iff h2).2 h3
    refine ⟨?_, ?_, fun _ => ⟨a, h1⟩, by simp [h1], by simp [h1]⟩
    · intro b hb
      rw [h1] at hb
      simp only [Res.ok.injEq, Option.some.injEq] at hb
      exact hb ▸ hc
    · rw [h1]
      constructor
      · intro h; simp at h
      · intro h; exact absurd ⟨a, hc⟩ h
  · have hno : ¬ ∃ a, CombinesToOnes a rows n := by
      rintro ⟨a, ha⟩
      exact h2 _ ((combinesToOnes_iff ha.1).1 ha)
    refine ⟨by simp [h1], ⟨fun _ => hno, fun _ => h1⟩, fun h => absurd h hno, by simp [h1], by simp [h1]⟩

/-- On an empty matrix, or one whose rows are empty, the solver returns an error. -/
theorem C04_solver_empty (rows : List (List K)) (h : rows = [] ∨ rows.head? = some []) :
    spanCoefs rows = .err (.internalOperation "empty input matrix") := by
  rcases h with rfl | h
  · rfl
  · cases rows with
    | nil => simp at h
    | cons r rows => simp only [List.head?_cons, Option.some.injEq] at h; subst h; rfl

/-- A matrix whose rows combine into ones, and one whose rows do not. -/
example : (spanCoefs [[(1 : ℚ), 2, 2], [0, -1, 0], [0, 0, -1]] ≠ .ok none) ∧
    spanCoefs [[(1 : ℚ), 2, 2], [0, -1, 0]] = .ok none := by
  constructor
  · intro h
    apply ((C04_solver (by simp) (n := 3) (by omega) (by simp)).2.1.1 h)
    refine ⟨[1, 1, 1], by simp, ?_⟩
    intro c hc
    interval_cases c <;> decide +kernel
  · rw [(C04_solver (by simp) (n := 3) (by omega) (by simp)).2.1]
    rintro ⟨a, h1, h2⟩
    obtain ⟨x, y, rfl⟩ : ∃ x y, a = [x, y] := by
      match a, h1 with
      | [x, y], _ => exact ⟨x, y, rfl⟩
    have e0 := h2 0 (by omega)
    have e2 := h2 2 (by omega)
    simp [combination] at e0 e2
    rw [e0] at e2
    norm_num at e2

/-- **C05.** Compilation fails exactly when an attribute occurs twice; otherwise the matrix has one row per leaf, one
column more than the number of `And` nodes, the labels are the leaves, the lookup inverts the labelling, and all
entries are between -1 and 2. -/
theorem C05_matrix_shape (F : Node) :
    (¬ F.leaves.Nodup → F.toMsp = .err (.deserialization "error deserializing MSP, leaf already inserted")) ∧
    (F.leaves.Nodup → ∃ m, F.toMsp = .ok m ∧
      m.nbRow = F.leaves.length ∧ m.nbCol = F.ands + 1 ∧ m.matrix.length = m.nbRow ∧
      (∀ row ∈ m.matrix, row.length = m.nbCol) ∧
      m.rowToAttr.Perm F.leaves ∧
      (∀ a i, m.getRowFromAttr a = some i ↔ m.rowToAttr[i]? = some a) ∧
      ∀ row ∈ m.matrix, ∀ x ∈ row, -1 ≤ x ∧ x ≤ 2) := by
  rcases toMsp_spec F with ⟨h1, m, h2, h3⟩ | ⟨h1, h2⟩
  · refine ⟨fun h => absurd h1 h, fun _ => ⟨m, h2, ?_, h3.nbCol, h3.nbRow.symm, h3.width, h3.perm, h3.lookup, h3.range⟩⟩
    rw [h3.nbRow, ← h3.rta, h3.perm.length_eq]
  · exact ⟨fun _ => h2, fun h => absurd h h1⟩

/-- `(1 | 2) & (3 & 4)` compiles to a matrix with four rows and three columns; `1 & (2 | 1)` is rejected. -/
example : (∃ m, (Node.and (.or (.leaf 1) (.leaf 2)) (.and (.leaf 3) (.leaf 4))).toMsp = .ok m ∧ m.nbRow = 4 ∧ m.nbCol = 3) ∧
    (Node.and (.leaf 1) (.or (.leaf 2) (.leaf 1))).toMsp = .err (.deserialization "error deserializing MSP, leaf already inserted") := by
  constructor
  · obtain ⟨m, h1, h2, h3, _⟩ := (C05_matrix_shape (.and (.or (.leaf 1) (.leaf 2)) (.and (.leaf 3) (.leaf 4)))).2
      (by decide +kernel)
    exact ⟨m, h1, h2, h3⟩
  · exact (C05_matrix_shape _).1 (by decide +kernel)

/-- **C03.** The matrix realises the formula: the all-ones vector is a combination, over any field, of the rows labelled
by attributes of `γ` exactly when `γ` satisfies the formula. -/
theorem C03_matrix_realises_formula {F : Node} {m : Msp Int} (hm : F.toMsp = .ok m) (γ : UInt32 → Prop) :
    (∃ coefs : List K, CombinesToOnes coefs (m.matrix.map fun row => row.map fun n : Int => (n : K)) m.nbCol ∧
      ∀ (i : Nat) (a : UInt32), m.rowToAttr[i]? = some a → ¬ γ a → coefs[i]? = some 0) ↔ F.Sat γ := by
  classical
  obtain ⟨hnd, h⟩ : F.leaves.Nodup ∧ MspFor F m := by
    rcases toMsp_spec F with ⟨h1, m', h2, h3⟩ | ⟨_, h2⟩
    · rw [hm] at h2; simp only [Res.ok.injEq] at h2; exact ⟨h1, h2 ▸ h3⟩
    · rw [hm] at h2; simp at h2
  set rows : List (List K) := m.matrix.map fun row => row.map fun n : Int => (n : K) with hrows
  have hlen : rows.length = m.matrix.length := by simp [rows]
  have hrect : Rect rows m.nbCol := by
    intro r hr
    obtain ⟨row, hrow, rfl⟩ := List.mem_map.1 hr
    simpa using h.width row hrow
  have hat : ∀ i, i < rows.length → ∃ a row, m.rowToAttr[i]? = some a ∧ m.matrix[i]? = some row ∧
      rows.getD i [] = row.map fun n : Int => (n : K) := by
    intro i hi
    have hi' : i < m.matrix.length := by omega
    have hi'' : i < m.rowToAttr.length := by rw [h.rta]; exact hi'
    refine ⟨m.rowToAttr[i], m.matrix[i], by simp [hi''], by simp [hi'], ?_⟩
    rw [getD_lt hi]
    simp [rows]
  constructor
  · rintro ⟨coefs, hc, hz⟩
    by_contra hns
    obtain ⟨lam, hl0, hl⟩ := shares_unsat (γ := γ) (1 : K) hnd hns
    obtain ⟨u, hul, hus, hrow⟩ := (h.shares lam 1).2 hl
    have hx := combines_apply hrect ((combinesToOnes_iff hc.1).1 hc) hul
    rw [hus] at hx
    have : ∑ j ∈ range rows.length, coefs.getD j 0 * prodScal id (rows.getD j []) u = 0 := by
      apply Finset.sum_eq_zero
      intro j hj
      rw [Finset.mem_range] at hj
      obtain ⟨a, row, h1, h2, h3⟩ := hat j hj
      rw [h3, ← prodScal_map, hrow j row a h2 h1]
      by_cases hg : γ a
      · rw [hl0 a hg, mul_zero]
      · have := hz j a h1 hg
        rw [List.getD_eq_getElem?_getD, this]
        simp
    rw [this] at hx
    exact zero_ne_one hx
  · intro hs
    -- rows outside `γ` replaced by zero rows
    set rows' : List (List K) := (List.range rows.length).map fun i =>
      if (∃ a, m.rowToAttr[i]? = some a ∧ γ a) then rows.getD i [] else List.replicate m.nbCol 0 with hrows'
    have hlen' : rows'.length = rows.length := by simp [rows']
    have hrow' : ∀ i, i < rows.length → rows'.getD i [] =
        if (∃ a, m.rowToAttr[i]? = some a ∧ γ a) then rows.getD i [] else List.replicate m.nbCol 0 := by
      intro i hi
      rw [getD_lt (by rw [hlen']; exact hi)]
      simp [rows']
    have hrect' : Rect rows' m.nbCol := by
      intro r hr
      obtain ⟨i, hi, rfl⟩ := List.mem_map.1 hr
      rw [List.mem_range] at hi
      split
      · rw [getD_lt hi]; exact hrect _ (List.getElem_mem hi)
      · simp
    rcases combines_or_orthogonal hrect' with ⟨x, hx⟩ | ⟨u, hul, hus, hu⟩
    · refine ⟨(List.range rows.length).map fun i => if (∃ a, m.rowToAttr[i]? = some a ∧ γ a) then x i else 0, ?_, ?_⟩
      · apply combines_list
        intro r hr
        rw [← hx r hr, hlen']
        apply Finset.sum_congr rfl
        intro j hj
        rw [Finset.mem_range] at hj
        unfold ent
        rw [hrow' j hj]
        dsimp only
        split
        · rfl
        · rw [zero_mul, getD_lt (by simpa using hr)]; simp
      · intro i a ha hng
        have hi : i < rows.length := by
          rw [hlen, ← h.rta]
          exact (List.getElem?_eq_some_iff.1 ha).1
        rw [List.getElem?_map, List.getElem?_range hi]
        simp only [Option.map_some, Option.some.injEq]
        rw [if_neg]
        rintro ⟨b, hb, hgb⟩
        rw [ha] at hb
        simp only [Option.some.injEq] at hb
        exact hng (hb ▸ hgb)
    · exfalso
      apply hus
      have hsh := h.shareOf_shares hul
      refine shares_sat (lam := fun a => if γ a ∧ a ∉ F.leaves then 0 else shareOf m u a) ?_ hs
        (shares_congr ?_ hsh)
      · intro a hg
        split
        · rfl
        · rename_i hna
          have hal : a ∈ F.leaves := by by_contra hc; exact hna ⟨hg, hc⟩
          obtain ⟨i, _, h2, h3⟩ := h.row_of_mem hal
          have hi : i < rows.length := by
            rw [hlen]; exact (List.getElem?_eq_some_iff.1 h3).1
          rw [← h.shareOf_row u h3 h2]
          obtain ⟨b, row, q1, q2, q3⟩ := hat i hi
          rw [h3] at q2
          simp only [Option.some.injEq] at q2
          have := hu (rows'.getD i []) (by
            rw [getD_lt (by rw [hlen']; exact hi)]; exact List.getElem_mem _)
          rw [hrow' i hi, if_pos ⟨a, h2, hg⟩, q3, ← q2, ← prodScal_map] at this
          exact this
      · intro a ha
        rw [if_neg]
        exact fun h => h.2 ha

instance : Fact (Nat.Prime 7) := ⟨by norm_num⟩

/-- The formula `(1 | 2) & 3` compiles, so the theorem applies to it (for instance to the set `{2, 3}`). -/
example : ∃ m, (Node.and (.or (.leaf 1) (.leaf 2)) (.leaf 3)).toMsp = .ok m ∧
    (∃ coefs : List (ZMod 7), CombinesToOnes coefs (m.matrix.map fun row => row.map fun n : Int => (n : ZMod 7)) m.nbCol ∧
      ∀ (i : Nat) (a : UInt32), m.rowToAttr[i]? = some a → ¬ (a = 2 ∨ a = 3) → coefs[i]? = some 0) ∧
    ¬ ∃ coefs : List (ZMod 7), CombinesToOnes coefs (m.matrix.map fun row => row.map fun n : Int => (n : ZMod 7)) m.nbCol ∧
      ∀ (i : Nat) (a : UInt32), m.rowToAttr[i]? = some a → ¬ (a = 1 ∨ a = 2) → coefs[i]? = some 0 := by
  obtain ⟨m, hm, _⟩ := (C05_matrix_shape (.and (.or (.leaf 1) (.leaf 2)) (.leaf 3))).2 (by decide +kernel)
  refine ⟨m, hm, ?_, ?_⟩
  · rw [C03_matrix_realises_formula hm (fun a => a = 2 ∨ a = 3)]
    simp [Node.Sat]
  · rw [C03_matrix_realises_formula hm (fun a => a = 1 ∨ a = 2)]
    simp only [Node.Sat]
    decide +kernel

end Abe
