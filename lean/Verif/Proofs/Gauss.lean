import Verif.Model.Scheme
import Verif.Proofs.Basic
import Mathlib.Algebra.BigOperators.Intervals
import Mathlib.Algebra.BigOperators.Ring.Finset
import Mathlib.Tactic.Ring
import Mathlib.Tactic.FieldSimp
import Mathlib.Tactic.Linarith

/-! Correctness of the Gauss-Jordan solver `spanCoefs`. -/

namespace Abe

open Finset

set_option linter.unusedSectionVars false

variable {K : Type} [Field K] [DecidableEq K]

theorem getD_lt {α : Type} {l : List α} {j : Nat} {d : α} (h : j < l.length) : l.getD j d = l[j] := by
  rw [List.getD_eq_getElem?_getD, List.getElem?_eq_getElem h]; rfl

theorem getD_ge {α : Type} {l : List α} {j : Nat} {d : α} (h : l.length ≤ j) : l.getD j d = d := by
  rw [List.getD_eq_getElem?_getD, List.getElem?_eq_none h]; rfl

/-- Entry of column `j`, row `r`; zero outside. -/
def ent (m : List (List K)) (j r : Nat) : K := (m.getD j []).getD r 0

/-- All columns have height `n`. -/
def Rect (m : List (List K)) (n : Nat) : Prop := ∀ col ∈ m, col.length = n

theorem Rect.col {m : List (List K)} {n j : Nat} (h : Rect m n) (hj : j < m.length) :
    (m.getD j []).length = n := by
  rw [List.getD_eq_getElem?_getD, List.getElem?_eq_getElem hj]
  exact h _ (List.getElem_mem hj)

theorem entry_ok {m : List (List K)} {n c r : Nat} (h : Rect m n) (hc : c < m.length) (hr : r < n) :
    entry m c r = .ok (ent m c r) := by
  have hl := h.col hc
  unfold entry ent
  rw [idx_of_lt hc]
  simp only [Res.ok_bind]
  rw [getD_lt hc] at hl ⊢
  rw [idx_of_lt (by omega), getD_lt (by omega)]

theorem ent_of_ge {m : List (List K)} {j r : Nat} (hj : m.length ≤ j) : ent m j r = 0 := by
  unfold ent
  rw [getD_ge hj]
  simp

/-! ### `mapSkip` -/

theorem mapSkip_of_ok {α : Type} {f : α → Out α} {g : α → α} {k : Nat} {l : List α}
    (h : ∀ a ∈ l, f a = .ok (g a)) : mapSkip f k l = .ok (l.take k ++ (l.drop k).map g) := by
  induction k generalizing l with
  | zero => simp [mapSkip, mapRes_of_ok h]
  | succ k ih =>
    cases l with
    | nil => rfl
    | cons a l =>
      simp only [mapSkip]
      rw [ih (fun b hb => h b (by simp [hb]))]
      simp

theorem getD_take_append_map {α : Type} (g : α → α) (k : Nat) (l : List α) (d : α) (j : Nat)
    (hj : j < l.length) :
    (l.take k ++ (l.drop k).map g).getD j d = if j < k then l.getD j d else g (l.getD j d) := by
  rw [List.getD_eq_getElem?_getD, List.getElem?_append]
  simp only [List.length_take, List.getD_eq_getElem?_getD]
  by_cases hk : j < k
  · rw [if_pos (by omega), if_pos hk, List.getElem?_take]
    simp [hk]
  · rw [if_neg (by omega), if_neg hk, List.getElem?_map, List.getElem?_drop]
    rw [show k + (j - min k l.length) = j by omega]
    rw [List.getElem?_eq_getElem hj]; simp

theorem rect_mapSkip {g : List K → List K} {k : Nat} {m : List (List K)} {n : Nat} (h : Rect m n)
    (hg : ∀ col, (g col).length = col.length) : Rect (m.take k ++ (m.drop k).map g) n := by
  intro col hcol
  rw [List.mem_append] at hcol
  rcases hcol with hcol | hcol
  · exact h col (List.mem_of_mem_take hcol)
  · rw [List.mem_map] at hcol
    obtain ⟨c, hc, rfl⟩ := hcol
    rw [hg, h c (List.mem_of_mem_drop hc)]

/-- Effect of a per-column update of one row `r`, applied to the columns from `k` on. -/
theorem ent_mapSkip_set {m : List (List K)} {n k r : Nat} (h : Rect m n) (φ : List K → K) (hr : r < n)
    (j r' : Nat) (hj : j < m.length) :
    ent (m.take k ++ (m.drop k).map fun col => col.set r (φ col)) j r' =
      if j < k then ent m j r' else if r' = r then φ (m.getD j []) else ent m j r' := by
  unfold ent
  rw [getD_take_append_map _ _ _ _ _ hj]
  have hl := h.col hj
  by_cases hk : j < k
  · simp [hk]
  · simp only [hk, if_false]
    by_cases hrr : r' = r
    · subst hrr
      rw [if_pos rfl, List.getD_eq_getElem?_getD, List.getElem?_set]
      simp only [if_true]
      rw [if_pos (by omega)]; rfl
    · rw [if_neg hrr, List.getD_eq_getElem?_getD, List.getElem?_set_ne (by omega),
        ← List.getD_eq_getElem?_getD]

/-! ### Pivot search -/

theorem findPivot_spec {m : List (List K)} {n c : Nat} (h : Rect m n) (hc : c < m.length) (l : List Nat)
    (hl : ∀ r ∈ l, r < n) :
    (∃ r, findPivot m c l = .ok (some r) ∧ r ∈ l ∧ ent m c r ≠ 0) ∨
    (findPivot m c l = .ok none ∧ ∀ r ∈ l, ent m c r = 0) := by
  induction l with
  | nil => right; exact ⟨rfl, by simp⟩
  | cons r l ih =>
    unfold findPivot
    rw [entry_ok h hc (hl r (by simp))]
    simp only [Res.ok_bind]
    by_cases hx : ent m c r = 0
    · simp only [hx, ne_eq, not_true_eq_false, if_false]
      rcases ih (fun r' hr' => hl r' (by simp [hr'])) with ⟨r', h1, h2, h3⟩ | ⟨h1, h2⟩
      · left; exact ⟨r', h1, by simp [h2], h3⟩
      · right
        refine ⟨h1, ?_⟩
        intro r' hr'
        rcases List.mem_cons.1 hr' with rfl | hr'
        · exact hx
        · exact h2 r' hr'
    · left
      exact ⟨r, by simp [hx], by simp, hx⟩

/-! ### Swap -/

/-- Exchange of `i` and `j`. -/
def swp (i j r : Nat) : Nat := if r = i then j else if r = j then i else r

theorem swp_lt {n i j r : Nat} (hi : i < n) (hj : j < n) (hr : r < n) : swp i j r < n := by
  unfold swp; split
  · exact hj
  · split
    · exact hi
    · exact hr

theorem swp_swp (i j r : Nat) : swp i j (swp i j r) = r := by
  unfold swp; split <;> split <;> simp_all

theorem swapIdx_ok {l : List K} {i j : Nat} (hi : i < l.length) (hj : j < l.length) :
    swapIdx l i j = .ok ((l.set i (l.getD j 0)).set j (l.getD i 0)) := by
  unfold swapIdx
  rw [idx_of_lt hi, idx_of_lt hj]
  simp only [Res.ok_bind, List.getD_eq_getElem?_getD, List.getElem?_eq_getElem hi,
    List.getElem?_eq_getElem hj, Option.getD_some]

theorem getD_swap {l : List K} {i j r : Nat} (hi : i < l.length) (hj : j < l.length) :
    ((l.set i (l.getD j 0)).set j (l.getD i 0)).getD r 0 = l.getD (swp i j r) 0 := by
  unfold swp
  simp only [List.getD_eq_getElem?_getD, List.getElem?_set, List.length_set]
  by_cases h1 : r = i <;> by_cases h2 : r = j
  · subst h1; subst h2; simp [hi]
  · subst h1; simp [hi, hj, Ne.symm h2]
  · subst h2; simp [hi, hj, h1]
  · simp [h1, h2, Ne.symm h1, Ne.symm h2]

theorem swapAll_ok {m : List (List K)} {n i j : Nat} (h : Rect m n) (hi : i < n) (hj : j < n) :
    ∃ m', mapRes (fun col => swapIdx col i j) m = .ok m' ∧ Rect m' n ∧ m'.length = m.length ∧
      ∀ c r, ent m' c r = ent m c (swp i j r) := by
  refine ⟨m.map fun l => (l.set i (l.getD j 0)).set j (l.getD i 0), ?_, ?_, ?_, ?_⟩
  · apply mapRes_of_ok
    intro col hcol
    have := h col hcol
    exact swapIdx_ok (by omega) (by omega)
  · intro col hcol
    rw [List.mem_map] at hcol
    obtain ⟨c, hc, rfl⟩ := hcol
    simp [h c hc]
  · simp
  · intro c r
    unfold ent
    by_cases hc : c < m.length
    · have hl := h.col hc
      rw [getD_lt (l := m.map _) (by simpa using hc), List.getElem_map]
      rw [getD_lt hc] at hl ⊢
      exact getD_swap (by omega) (by omega)
    · rw [getD_ge (l := m.map _) (by simpa using hc), getD_ge (l := m) (by omega)]
      simp

/-! ### Normalisation of the pivot row -/

theorem divideStep_ok {m : List (List K)} {n c r0 : Nat} (h : Rect m n) (hc : c < m.length) (hr : r0 < n)
    (hp : ent m c r0 ≠ 0) (hz : ∀ j < c, ent m j r0 = 0) :
    ∃ m', divideStep m c r0 = .ok m' ∧ Rect m' n ∧ m'.length = m.length ∧
      ∀ j r, ent m' j r = if r = r0 then ent m j r0 * (ent m c r0)⁻¹ else ent m j r := by
  unfold divideStep
  rw [entry_ok h hc hr]
  simp only [Res.ok_bind]
  by_cases h1 : ent m c r0 = 1
  · rw [if_neg (by simpa using h1)]
    refine ⟨m, rfl, h, rfl, ?_⟩
    intro j r
    split
    · rename_i hrr; subst hrr; simp [h1]
    · rfl
  · rw [if_pos h1, idx_of_lt hc]
    simp only [Res.ok_bind]
    set piv := ent m c r0 with hpiv
    have hset : Rect (m.set c (m[c].set r0 1)) n := by
      intro col hcol
      rcases List.mem_or_eq_of_mem_set hcol with h' | h'
      · exact h col h'
      · rw [h', List.length_set]; exact h _ (List.getElem_mem hc)
    have hent1 : ∀ j r, ent (m.set c (m[c].set r0 1)) j r =
        if j = c ∧ r = r0 then 1 else ent m j r := by
      intro j r
      unfold ent
      simp only [List.getD_eq_getElem?_getD, List.getElem?_set]
      by_cases hjc : j = c
      · subst hjc
        have hl : m[j].length = n := h _ (List.getElem_mem hc)
        simp only [if_true, hc]
        simp only [Option.getD_some, List.getElem?_set]
        by_cases hrr : r = r0
        · subst hrr; simp [hl, hr]
        · simp [hrr, Ne.symm hrr, List.getElem?_eq_getElem hc]
      · simp [hjc, Ne.symm hjc]
    have hmap := mapSkip_of_ok (f := fun col : List K => (do
        let x ← idx col r0
        let y ← sdiv x piv
        Res.ok (col.set r0 y) : Out (List K))) (g := fun col => col.set r0 (col.getD r0 0 * piv⁻¹))
        (k := c + 1) (l := m.set c (m[c].set r0 1)) (by
          intro col hcol
          have hl := hset col hcol
          rw [idx_of_lt (by omega)]
          simp only [Res.ok_bind, sdiv, if_neg hp, List.getD_eq_getElem?_getD]
          rw [List.getElem?_eq_getElem (by omega)]; rfl)
    refine ⟨_, hmap, rect_mapSkip hset (by simp), by simp; omega, ?_⟩
    · intro j r
      by_cases hj : j < m.length
      · rw [ent_mapSkip_set hset (fun col => col.getD r0 0 * piv⁻¹) hr j r (by simpa using hj)]
        have e0 := hent1 j r0
        change (if j < c + 1 then _ else if r = r0 then ent (m.set c (m[c].set r0 1)) j r0 * piv⁻¹ else _) = _
        by_cases hrr : r = r0
        · subst hrr
          simp only [if_true, e0]
          by_cases hjc : j = c
          · subst hjc
            simp [hpiv, mul_inv_cancel₀ (hpiv ▸ hp : ent m j r ≠ 0)]
          · by_cases hlt : j < c + 1
            · simp [hlt, hjc, hz j (by omega)]
            · simp [hlt, hjc]
        · simp [hrr, hent1]
      · rw [ent_of_ge (by simp; omega)]
        simp only [ent_of_ge (Nat.le_of_not_lt hj)]
        simp

/-! ### Elimination -/

theorem elimRow_ok {m : List (List K)} {n c r0 r : Nat} (h : Rect m n) (hc : c < m.length) (hr : r < n)
    (hr0 : r0 < n) (hz : ∀ j < c, ent m j r0 = 0) :
    ∃ m', elimRow c r0 m r = .ok m' ∧ Rect m' n ∧ m'.length = m.length ∧
      ∀ j r', ent m' j r' = if r' = r then ent m j r - ent m c r * ent m j r0 else ent m j r' := by
  unfold elimRow
  rw [entry_ok h hc hr]
  simp only [Res.ok_bind]
  by_cases h1 : ent m c r = 0
  · rw [if_neg (by simpa using h1)]
    refine ⟨m, rfl, h, rfl, ?_⟩
    intro j r'
    split
    · rename_i hrr; subst hrr; simp [h1]
    · rfl
  · rw [if_pos h1]
    set index := ent m c r with hindex
    have hmap := mapSkip_of_ok (f := fun col : List K => (do
        let x ← idx col r
        let p ← idx col r0
        Res.ok (col.set r (x - index * p)) : Out (List K)))
        (g := fun col => col.set r (col.getD r 0 - index * col.getD r0 0)) (k := c) (l := m) (by
          intro col hcol
          have hl := h col hcol
          rw [idx_of_lt (by omega), idx_of_lt (by omega)]
          simp only [Res.ok_bind, List.getD_eq_getElem?_getD]
          rw [List.getElem?_eq_getElem (by omega), List.getElem?_eq_getElem (by omega)]; rfl)
    refine ⟨_, hmap, rect_mapSkip h (by simp), by simp; omega, ?_⟩
    intro j r'
    by_cases hj : j < m.length
    · rw [ent_mapSkip_set h (fun col => col.getD r 0 - index * col.getD r0 0) hr j r' hj]
      change (if j < c then _ else if r' = r then ent m j r - index * ent m j r0 else _) = _
      by_cases hjc : j < c
      · simp only [hjc, if_true]
        split
        · rename_i hrr; subst hrr; simp [hz j hjc]
        · rfl
      · simp only [hjc, if_false]
    · rw [ent_of_ge (by simp; omega)]
      simp only [ent_of_ge (Nat.le_of_not_lt hj)]
      simp

theorem elimFold_ok {m : List (List K)} {n c r0 : Nat} (h : Rect m n) (hc : c < m.length)
    (hr0 : r0 < n) (hz : ∀ j < c, ent m j r0 = 0) (l : List Nat) (hl : ∀ r ∈ l, r < n ∧ r ≠ r0)
    (hnd : l.Nodup) :
    ∃ m', foldRes (elimRow c r0) m l = .ok m' ∧ Rect m' n ∧ m'.length = m.length ∧
      ∀ j r, ent m' j r = if r ∈ l then ent m j r - ent m c r * ent m j r0 else ent m j r := by
  obtain ⟨m', h1, h2⟩ := foldRes_inv' (f := elimRow c r0)
    (fun pre m' => Rect m' n ∧ m'.length = m.length ∧
      ∀ j r, ent m' j r = if r ∈ pre then ent m j r - ent m c r * ent m j r0 else ent m j r) l (b := m)
    ⟨h, rfl, by simp⟩ (by
      rintro pre a post m1 hl' ⟨hrect, hlen, hent⟩
      have ha := hl a (by simp [hl'])
      have hapre : a ∉ pre := by
        rw [hl'] at hnd
        intro hmem
        have := List.nodup_append.1 hnd
        exact this.2.2 a hmem a (by simp) rfl
      have hr0pre : r0 ∉ pre := fun hmem => (hl r0 (by simp [hl', hmem])).2 rfl
      have e0 : ∀ j, ent m1 j r0 = ent m j r0 := fun j => by rw [hent]; simp [hr0pre]
      obtain ⟨m2, g1, g2, g3, g4⟩ := elimRow_ok (c := c) (r := a) hrect (by omega) ha.1 hr0
        (fun j hj => by rw [e0]; exact hz j hj)
      refine ⟨m2, g1, g2, by omega, ?_⟩
      intro j r
      rw [g4, e0]
      by_cases hra : r = a
      · subst hra; simp [hent, hapre]
      · simp only [hra, if_false, hent, List.mem_append, List.mem_singleton, or_false])
  exact ⟨m', h1, h2.1, h2.2.1, h2.2.2⟩

theorem pivotStep_ok {m : List (List K)} {n c r0 row : Nat} (h : Rect m n) (hc : c < m.length)
    (hr0 : r0 < n) (hrow : row < n) (hle : r0 ≤ row) (hp : ent m c row ≠ 0)
    (hz : ∀ j < c, ∀ r, r0 ≤ r → r < n → ent m j r = 0) :
    ∃ m', pivotStep m n c r0 row = .ok m' ∧ Rect m' n ∧ m'.length = m.length ∧
      (∀ j, ent m' j r0 = ent m j row * (ent m c row)⁻¹) ∧
      (∀ j r, r < n → r ≠ r0 → ent m' j r = ent m j (swp r0 row r) -
        ent m c (swp r0 row r) * (ent m j row * (ent m c row)⁻¹)) := by
  unfold pivotStep
  obtain ⟨m1, a1, a2, a3, a4⟩ := swapAll_ok h hr0 hrow
  have s0 : swp r0 row r0 = row := by simp [swp]
  rw [a1]
  simp only [Res.ok_bind]
  obtain ⟨m2, b1, b2, b3, b4⟩ := divideStep_ok a2 (c := c) (r0 := r0) (by omega) hr0
    (by rw [a4, s0]; exact hp) (fun j hj => by rw [a4, s0]; exact hz j hj row hle hrow)
  rw [b1]
  simp only [Res.ok_bind]
  have e2 : ∀ j, ent m2 j r0 = ent m j row * (ent m c row)⁻¹ := by
    intro j; rw [b4, if_pos rfl, a4, a4, s0]
  have z2 : ∀ j < c, ent m2 j r0 = 0 := by
    intro j hj; rw [e2, hz j hj row hle hrow, zero_mul]
  obtain ⟨m3, c1, c2, c3, c4⟩ := elimFold_ok b2 (c := c) (r0 := r0) (by omega) hr0 z2
    (List.range' (r0 + 1) (n - (r0 + 1))) (by intro r hr; simp at hr; omega) (List.nodup_range' )
  rw [c1]
  simp only [Res.ok_bind]
  have e3 : ∀ j, ent m3 j r0 = ent m2 j r0 := by
    intro j; rw [c4, if_neg (by simp)]
  obtain ⟨m4, d1, d2, d3, d4⟩ := elimFold_ok c2 (c := c) (r0 := r0) (by omega) hr0
    (fun j hj => by rw [e3]; exact z2 j hj)
    (List.range r0) (by intro r hr; simp at hr; omega) List.nodup_range
  refine ⟨m4, d1, d2, by omega, ?_, ?_⟩
  · intro j
    rw [d4, if_neg (by simp), e3, e2]
  · intro j r hr hne
    have hm2 : ∀ j, ent m2 j r = ent m j (swp r0 row r) := by
      intro j; rw [b4, if_neg hne, a4]
    rw [d4]
    by_cases hlt : r < r0
    · rw [if_pos (by simpa using hlt), e3, e2, c4, if_neg (by simp; omega), c4, if_neg (by simp; omega), hm2, hm2]
    · rw [if_neg (by simpa using hlt), c4, if_pos (by simp; omega), e2, hm2, hm2]

/-! ### The kernel of the system -/

/-- `y` is a linear relation between the columns. -/
def Ker (m : List (List K)) (n : Nat) (y : Nat → K) : Prop :=
  ∀ r < n, ∑ j ∈ range m.length, y j * ent m j r = 0

theorem ker_pivot {m m' : List (List K)} {n c r0 row : Nat} (hlen : m'.length = m.length)
    (hr0 : r0 < n) (hrow : row < n) (hp : ent m c row ≠ 0)
    (h0 : ∀ j, ent m' j r0 = ent m j row * (ent m c row)⁻¹)
    (h1 : ∀ j r, r < n → r ≠ r0 → ent m' j r = ent m j (swp r0 row r) -
        ent m c (swp r0 row r) * (ent m j row * (ent m c row)⁻¹)) (y : Nat → K) :
    Ker m' n y ↔ Ker m n y := by
  have s0 : swp r0 row row = r0 := by unfold swp; split <;> simp_all
  have s0' : swp r0 row r0 = row := by simp [swp]
  have sum0 : ∑ j ∈ range m.length, y j * ent m' j r0 =
      (∑ j ∈ range m.length, y j * ent m j row) * (ent m c row)⁻¹ := by
    rw [Finset.sum_mul]; apply Finset.sum_congr rfl; intro j _; rw [h0]; ring
  have sum1 : ∀ r, r < n → r ≠ r0 → ∑ j ∈ range m.length, y j * ent m' j r =
      (∑ j ∈ range m.length, y j * ent m j (swp r0 row r)) -
      ent m c (swp r0 row r) * ((∑ j ∈ range m.length, y j * ent m j row) * (ent m c row)⁻¹) := by
    intro r hr hne
    rw [Finset.sum_mul, Finset.mul_sum, ← Finset.sum_sub_distrib]
    apply Finset.sum_congr rfl; intro j _; rw [h1 j r hr hne]; ring
  unfold Ker
  rw [hlen]
  constructor
  · intro hk
    have hrow0 : ∑ j ∈ range m.length, y j * ent m j row = 0 := by
      have := hk r0 hr0
      rw [sum0] at this
      rcases mul_eq_zero.1 this with h' | h'
      · exact h'
      · exact absurd h' (inv_ne_zero hp)
    intro r hr
    by_cases hrr : r = row
    · rw [hrr]; exact hrow0
    · have hne : swp r0 row r ≠ r0 := by
        intro h'
        have h2 := swp_swp r0 row r
        rw [h', s0'] at h2
        exact hrr h2.symm
      have := hk (swp r0 row r) (swp_lt hr0 hrow hr)
      rw [sum1 _ (swp_lt hr0 hrow hr) hne, swp_swp, hrow0] at this
      simpa using this
  · intro hk r hr
    by_cases hrr : r = r0
    · rw [hrr, sum0, hk row hrow, zero_mul]
    · rw [sum1 r hr hrr, hk row hrow, hk _ (swp_lt hr0 hrow hr)]
      ring

/-! ### Invariant of the elimination loop -/

/-- `k` pivots in columns `p 0 < ... < p (k-1) < c`; everything left of them is reduced. -/
structure GInv (m0 m : List (List K)) (n k c last : Nat) (p : Nat → Nat) : Prop where
  rect : Rect m n
  len : m.length = m0.length
  kn : k ≤ n
  pc : ∀ i < k, p i < c
  cm : c ≤ m.length
  mono : ∀ i j, i < j → j < k → p i < p j
  piv : ∀ i < k, ∀ r < n, ent m (p i) r = if r = i then 1 else 0
  left : ∀ i < k, ∀ j < p i, ent m j i = 0
  below : ∀ r, k ≤ r → r < n → ∀ j < c, ent m j r = 0
  last0 : k = 0 → last = 0
  lastk : ∀ k', k = k' + 1 → last = p k'
  ker : ∀ y, Ker m n y ↔ Ker m0 n y

theorem gaussLoop_ok (m0 : List (List K)) (n : Nat) (f : Nat) :
    ∀ (m : List (List K)) (k c last : Nat) (p : Nat → Nat), GInv m0 m n k c last p →
      c + f = m.length →
      ∃ m' k' c' last' p', gaussLoop n f m k c last = .ok (m', last') ∧ GInv m0 m' n k' c' last' p' ∧
        (c' = m0.length ∨ k' = n) := by
  induction f with
  | zero =>
    intro m k c last p hi hf
    exact ⟨m, k, c, last, p, rfl, hi, Or.inl (by have := hi.len; omega)⟩
  | succ f ih =>
    intro m k c last p hi hf
    unfold gaussLoop
    by_cases hkn : k = n
    · rw [if_pos hkn]
      exact ⟨m, k, c, last, p, rfl, hi, Or.inr hkn⟩
    · rw [if_neg hkn]
      have hkn' : k < n := lt_of_le_of_ne hi.kn hkn
      have hc : c < m.length := by omega
      rcases findPivot_spec hi.rect hc (List.range' k (n - k)) (by intro r hr; simp at hr; omega) with
        ⟨row, h1, h2, h3⟩ | ⟨h1, h2⟩
      · rw [h1]
        simp only [Res.ok_bind]
        simp at h2
        obtain ⟨m', g1, g2, g3, g4, g5⟩ := pivotStep_ok hi.rect hc hkn' (row := row) (by omega) (by omega) h3
          (fun j hj r hr hr' => hi.below r hr hr' j hj)
        rw [g1]
        simp only [Res.ok_bind]
        have hrow : row < n := by omega
        have swlt : ∀ i < k, swp k row i = i := by
          intro i hi'; unfold swp; rw [if_neg (by omega), if_neg (by omega)]
        have zrow : ∀ j < c, ent m j row = 0 := hi.below row (by omega) hrow
        -- columns left of `c` are unchanged on rows above `k` and zero from `k` on
        have colOld : ∀ j < c, ∀ r < n, ent m' j r = if r < k then ent m j r else 0 := by
          intro j hj r hr
          by_cases hrk : r = k
          · subst hrk; rw [g4, zrow j hj]; simp
          · rw [g5 j r hr hrk, zrow j hj]
            by_cases hlt : r < k
            · rw [swlt r hlt, if_pos hlt]; ring
            · rw [if_neg hlt]
              have : ent m j (swp k row r) = 0 := by
                apply hi.below _ _ (swp_lt hkn' hrow hr) j hj
                unfold swp; split
                · omega
                · split <;> omega
              rw [this]; ring
        have colPiv : ∀ r < n, ent m' c r = if r = k then 1 else 0 := by
          intro r hr
          by_cases hrk : r = k
          · subst hrk; rw [g4, if_pos rfl, mul_inv_cancel₀ h3]
          · rw [if_neg hrk, g5 c r hr hrk, mul_inv_cancel₀ h3]; ring
        have hinv : GInv m0 m' n (k + 1) (c + 1) c (fun i => if i = k then c else p i) := by
          refine ⟨g2, by rw [g3, hi.len], by omega, ?_, by omega, ?_, ?_, ?_, ?_, by omega, ?_, ?_⟩
          · intro i hik
            by_cases hik' : i = k
            · simp [hik']
            · simp only [hik', if_false]; have := hi.pc i (by omega); omega
          · intro i j hij hj
            have hik : i ≠ k := by omega
            simp only [hik, if_false]
            by_cases hjk : j = k
            · simp only [hjk, if_true]; exact hi.pc i (by omega)
            · simp only [hjk, if_false]; exact hi.mono i j hij (by omega)
          · intro i hik r hr
            by_cases hik' : i = k
            · simp only [hik', if_true]; exact colPiv r hr
            · simp only [hik', if_false]
              have hlt : i < k := by omega
              rw [colOld (p i) (hi.pc i hlt) r hr]
              rw [hi.piv i hlt r hr]
              by_cases hrk : r < k
              · rw [if_pos hrk]
              · rw [if_neg hrk, if_neg (by omega)]
          · intro i hik j hj
            by_cases hik' : i = k
            · simp only [hik', if_true] at hj ⊢
              rw [colOld j hj k hkn', if_neg (by omega)]
            · simp only [hik', if_false] at hj
              have hlt : i < k := by omega
              have := hi.pc i hlt
              rw [colOld j (by omega) i (by omega), if_pos hlt]
              exact hi.left i hlt j hj
          · intro r hr hr' j hj
            by_cases hjc : j = c
            · rw [hjc, colPiv r hr', if_neg (by omega)]
            · rw [colOld j (by omega) r hr', if_neg (by omega)]
          · intro k' hk'
            have : k' = k := by omega
            simp [this]
          · intro y
            rw [ker_pivot g3 hkn' hrow h3 g4 g5, hi.ker]
        exact ih m' (k + 1) (c + 1) c _ hinv (by omega)
      · rw [h1]
        simp only [Res.ok_bind]
        have hinv : GInv m0 m n k (c + 1) last p := by
          refine ⟨hi.rect, hi.len, hi.kn, ?_, by omega, hi.mono, hi.piv, hi.left, ?_, hi.last0, hi.lastk, hi.ker⟩
          · intro i hik; have := hi.pc i hik; omega
          · intro r hr hr' j hj
            by_cases hjc : j = c
            · rw [hjc]; exact h2 r (by simp; omega)
            · exact hi.below r hr hr' j (by omega)
        exact ih m k (c + 1) last p hinv (by omega)

end Abe
