import Verif.Spec.Trace
import Verif.Props.Size
import Verif.Props.Mixed

/-!
# The pairings computed by a decryption

Property C94.
-/

namespace Abe

open Finset

set_option linter.unusedSectionVars false

variable {K G1 G2 G3 Gt P Q QP T : Type} [Field K] [DecidableEq K] [AddCommGroup P] [Module K P] [AddCommGroup Q] [Module K Q]
  [AddCommGroup T] [Module K T]

/-! ### The solver -/

/-- The coefficients are the only ones at the rows where they are not 0. -/
theorem spanCoefs_unique {rows : List (List K)} {n : Nat} (hne : rows ≠ []) (hn : 0 < n) (h : Rect rows n) {a : List K}
    (hs : spanCoefs rows = .ok (some a)) {x : Nat → K} (hx : Combines rows n x) (hsup : ∀ j < rows.length, a.getD j 0 = 0 → x j = 0) :
    ∀ j < rows.length, x j = a.getD j 0 := by
  have hcomb : Combines rows n fun j => a.getD j 0 := by
    rcases spanCoefs_spec hne hn h with ⟨b, h1, _, h3⟩ | ⟨h1, _⟩
    · rw [hs] at h1
      obtain rfl : a = b := by simpa using h1
      exact h3
    · rw [hs] at h1; simp at h1
  obtain ⟨first, rest, rfl⟩ := List.exists_cons_of_ne_nil hne
  have hfirst : first.length = n := h first (by simp)
  unfold spanCoefs at hs
  simp only [] at hs
  rw [if_neg (by intro h'; rw [List.isEmpty_iff] at h'; subst h'; simp at hfirst; omega), hfirst] at hs
  set rows := first :: rest with hrows
  set m0 := rows ++ [List.replicate n (1 : K)] with hm0
  have hlen : m0.length = rows.length + 1 := by simp [hm0]
  have hrl : 0 < rows.length := by simp [hrows]
  have hrect : Rect m0 n := by
    intro col hcol
    rw [hm0, List.mem_append, List.mem_singleton] at hcol
    rcases hcol with h' | h'
    · exact h col h'
    · simp [h']
  have hinit : GInv m0 m0 n 0 0 0 (fun _ => 0) := by
    refine ⟨hrect, rfl, by omega, ?_, by omega, ?_, ?_, ?_, ?_, by simp, ?_, fun y => Iff.rfl⟩ <;>
      (intros; omega)
  obtain ⟨m, k, c, last, p, e1, hi, hend⟩ := gaussLoop_ok m0 n m0.length m0 0 0 0 _ hinit (by omega)
  rw [e1] at hs
  simp only [Res.ok_bind] at hs
  have hml : m.length = rows.length + 1 := by rw [hi.len, hlen]
  split at hs
  · simp at hs
  rename_i hlast
  have hpl : ∀ i < k, p i + 1 < m.length := by
    intro i hik
    obtain ⟨k', rfl⟩ : ∃ k', k = k' + 1 := ⟨k - 1, by omega⟩
    have h1 := hi.lastk k' rfl
    have h2 := hi.pc k' (by omega)
    have h3 := hi.cm
    have : p i ≤ p k' := by
      by_cases hik' : i = k'
      · rw [hik']
      · exact le_of_lt (hi.mono i k' (by omega) (by omega))
    omega
  obtain ⟨cur', e2, hz⟩ := extractSol_ok hi hend hpl n 0 (by omega) (by omega) 0 (by simp) (by omega)
  rw [hi.len] at e2
  rw [show List.range n = List.range' 0 n by rw [List.range_eq_range']] at hs
  rw [show (List.range 0).map (solAt m k p (m0.length - 1)) = [] by rfl] at e2
  rw [e2] at hs
  simp only [Res.ok_bind, Res.ok.injEq, Option.some.injEq] at hs
  have hval : ∀ j < rows.length, a.getD j 0 = solAt m k p (m0.length - 1) j := by
    intro j hj
    rw [← hs, getD_resize, if_pos (by omega)]
    by_cases hjc : j < cur'
    · rw [getD_lt (by simpa using hjc)]; simp
    · rw [getD_ge (by simp; omega)]
      rw [hi.len] at hz
      rw [hz j (by omega)]
  have kx := (hi.ker _).2 ((combines_iff_ker x).1 hx)
  have ka := (hi.ker _).2 ((combines_iff_ker _).1 hcomb)
  intro j hj
  by_cases haj : a.getD j 0 = 0
  · rw [haj]; exact hsup j hj haj
  obtain ⟨i, hik, hpi⟩ : ∃ i < k, p i = j := by
    by_contra hno
    refine haj ?_
    rw [hval j hj]
    exact solAt_not_piv fun i hik hp => hno ⟨i, hik, hp⟩
  have hin : i < n := lt_of_lt_of_le hik hi.kn
  have hd : ∑ j' ∈ range rows.length, (x j' - a.getD j' 0) * ent m j' i = 0 := by
    have h1 := kx i hin
    have h2 := ka i hin
    rw [hml, Finset.sum_range_succ] at h1 h2
    simp only [lt_irrefl, if_false] at h1 h2
    have e : ∀ f : Nat → K, ∑ j' ∈ range rows.length, (if j' < rows.length then f j' else -1) * ent m j' i = ∑ j' ∈ range rows.length, f j' * ent m j' i := by
      intro f
      refine Finset.sum_congr rfl fun j' hj' => ?_
      rw [if_pos (by simpa using hj')]
    rw [e] at h1 h2
    simp only [sub_mul, Finset.sum_sub_distrib]
    linear_combination h1 - h2
  rw [Finset.sum_eq_single j] at hd
  · rw [← hpi, hi.piv i hik i hin, if_pos rfl, mul_one, hpi] at hd
    exact sub_eq_zero.1 hd
  · intro j' hj' hne'
    have hj' : j' < rows.length := by simpa using hj'
    by_cases h0 : a.getD j' 0 = 0
    · rw [hsup j' hj' h0, h0, sub_zero, zero_mul]
    · obtain ⟨i', hik', hpi'⟩ : ∃ i < k, p i = j' := by
        by_contra hno
        refine h0 ?_
        rw [hval j' hj']
        exact solAt_not_piv fun i hik hp => hno ⟨i, hik, hp⟩
      rw [← hpi', hi.piv i' hik' i hin, if_neg (by rintro rfl; exact hne' (hpi'.symm.trans hpi)), mul_zero]
  · intro h'; exact absurd (by simpa using hj) h'

theorem skipZeros_nz (m : List (List K)) (i : Nat) : ∀ (k cur : Nat) (sol : List K) {r : Option Nat × List K}, skipZeros m i k cur sol = .ok r →
    r.2.filter (· ≠ 0) = sol.filter (· ≠ 0)
  | 0, _, _, _, h => by simp [skipZeros] at h
  | k + 1, cur, sol, r, h => by
    unfold skipZeros at h
    obtain ⟨x, _, h⟩ := Res.bind_eq_ok.1 h
    split at h
    · split at h
      · cases h; simp
      · rw [skipZeros_nz m i k _ _ h]; simp
    · cases h; rfl

/-- Each row gives one coefficient that is not 0 at most. -/
theorem extractSol_nz (m : List (List K)) (nbCol : Nat) : ∀ (is : List Nat) (cur : Nat) (sol : List K) {r : List K}, extractSol m nbCol is cur sol = .ok r →
    (r.filter (· ≠ 0)).length ≤ (sol.filter (· ≠ 0)).length + is.length
  | [], _, _, _, h => by simp only [extractSol, Res.ok.injEq] at h; subst h; simp
  | i :: is, cur, sol, r, h => by
    unfold extractSol at h
    obtain ⟨⟨c, sol'⟩, h1, h⟩ := Res.bind_eq_ok.1 h
    have hs := skipZeros_nz m i _ _ _ h1
    dsimp only at h hs
    cases c with
    | none =>
      simp only [Res.ok.injEq] at h
      subst h
      rw [hs]; omega
    | some cur' =>
      obtain ⟨x, _, h⟩ := Res.bind_eq_ok.1 h
      split at h
      · obtain ⟨l, _, h⟩ := Res.bind_eq_ok.1 h
        obtain ⟨v, _, h⟩ := Res.bind_eq_ok.1 h
        have hv : ((sol' ++ [v]).filter (· ≠ 0)).length ≤ (sol.filter (· ≠ 0)).length + 1 := by
          rw [List.filter_append, hs, List.length_append]
          have := List.length_filter_le (· ≠ 0) [v]
          simp only [List.length_singleton] at this
          omega
        split at h
        · simp only [Res.ok.injEq] at h
          subst h
          simp only [List.length_cons]
          omega
        · have := extractSol_nz m nbCol is _ _ h
          simp only [List.length_cons]
          omega
      · simp at h

theorem resize_nz {l : List K} (n : Nat) : ((resize l n 0).filter (· ≠ 0)).length ≤ (l.filter (· ≠ 0)).length := by
  unfold resize
  rw [List.filter_append, List.length_append]
  have := ((List.take_sublist n l).filter (· ≠ 0)).length_le
  have h0 : (List.replicate (n - l.length) (0 : K)).filter (· ≠ 0) = [] := by simp
  rw [h0]
  simpa using this

theorem spanCoefs_nz {rows : List (List K)} {a : List K} (h : spanCoefs rows = .ok (some a)) :
    (∀ first ∈ rows.head?, (a.filter (· ≠ 0)).length ≤ first.length) ∧ (a.filter (· ≠ 0)).length ≤ rows.length := by
  unfold spanCoefs at h
  cases rows with
  | nil => simp at h
  | cons first rest =>
    dsimp only at h
    split at h
    · simp at h
    · obtain ⟨⟨m, last⟩, _, h⟩ := Res.bind_eq_ok.1 h
      dsimp only at h
      split at h
      · simp at h
      · obtain ⟨sol, h1, h⟩ := Res.bind_eq_ok.1 h
        simp only [Res.ok.injEq, Option.some.injEq] at h
        have h2 := extractSol_nz _ _ _ _ _ h1
        simp only [List.filter_nil, List.length_nil, List.length_range, Nat.zero_add] at h2
        subst h
        refine ⟨?_, ?_⟩
        · rintro f ⟨⟩
          exact le_trans (resize_nz _) h2
        · refine le_trans (List.length_filter_le _ _) ?_
          rw [resize_length]
          simp

/-! ### Decryption -/

theorem selectRows_untraced (key : DecryptionKey K G1 G3) (ct : CipherText G2 Gt) :
    ∀ (l : List UInt32) (i : Nat), selectRows key (ct.untraced (G1 := G1) (K := K)) l i = selectRows key ct l i
  | [], _ => rfl
  | a :: l, i => by
    unfold selectRows
    rw [selectRows_untraced key ct l (i + 1)]
    rfl

theorem spanCoefs_length {rows : List (List K)} {a : List K} (h : spanCoefs rows = .ok (some a)) : a.length = rows.length := by
  unfold spanCoefs at h
  cases rows with
  | nil => simp at h
  | cons first rest =>
    dsimp only at h
    split at h
    · simp at h
    · obtain ⟨⟨m, last⟩, _, h⟩ := Res.bind_eq_ok.1 h
      dsimp only at h
      split at h
      · simp at h
      · obtain ⟨sol, h1, h⟩ := Res.bind_eq_ok.1 h
        simp only [Res.ok.injEq, Option.some.injEq] at h
        rw [← h, resize_length]
        simp

/-- The pairs at the coefficients that are not 0. -/
def usedPairs (sel : List (List K × G1 × G2)) (a : List K) : List (G1 × G2 × K) :=
  ((sel.zip a).filter fun x => x.2 ≠ 0).map fun x => (x.1.2.1, x.1.2.2, x.2)

theorem decrypt_unfold (bm : BilinearMap K G1 G2 G3 Gt) (ct : CipherText G2 Gt) (key : DecryptionKey K G1 G3) {sel : List (List K × G1 × G2)}
    (hsel : selectRows key ct ct.gamma 0 = .ok sel) :
    decrypt (traced bm) ct.untraced key = (spanCoefs (sel.map fun p => p.1) >>= fun coefs => match coefs with
      | none => .ok none
      | some a => .ok (some (bm.gtDiv ct.ePrime (bm.prodGtExp ((usedPairs sel a).map fun x => x.1) ((usedPairs sel a).map fun x => x.2.1)
          ((usedPairs sel a).map fun x => x.2.2)), usedPairs sel a))) ∧
    decrypt bm ct key = (spanCoefs (sel.map fun p => p.1) >>= fun coefs => match coefs with
      | none => .ok none
      | some a => .ok (some (bm.gtDiv ct.ePrime (bm.prodGtExp ((usedPairs sel a).map fun x => x.1) ((usedPairs sel a).map fun x => x.2.1)
          ((usedPairs sel a).map fun x => x.2.2))))) := by
  have key1 : ∀ a, spanCoefs (sel.map fun p => p.1) = .ok (some a) →
      keepNonZero a (sel.map fun p => p.2.1) 0 = .ok ((usedPairs sel a).map fun x => x.1) ∧
      keepNonZero a (sel.map fun p => p.2.2) 0 = .ok ((usedPairs sel a).map fun x => x.2.1) ∧
      (a.filter fun ai => ai ≠ 0) = (usedPairs sel a).map fun x => x.2.2 := by
    intro a ha
    have hl : a.length = sel.length := by rw [spanCoefs_length ha, List.length_map]
    refine ⟨?_, ?_, ?_⟩
    · rw [keepNonZero_ok _ a sel 0 (by omega), usedPairs, List.map_map, List.drop_zero]; rfl
    · rw [keepNonZero_ok _ a sel 0 (by omega), usedPairs, List.map_map, List.drop_zero]; rfl
    · rw [filter_zip_snd sel a hl, usedPairs, List.map_map]; rfl
  constructor
  · unfold decrypt
    rw [selectRows_untraced, show ct.untraced.gamma = ct.gamma from rfl, hsel, Res.ok_bind]
    cases ha : spanCoefs (sel.map fun p => p.1) with
    | err x => rfl
    | panic => rfl
    | ok coefs =>
      cases coefs with
      | none => rfl
      | some a =>
        obtain ⟨h1, h2, h3⟩ := key1 a ha
        simp only [Res.ok_bind, h1, h2, h3]
        have hz : ((usedPairs sel a).map fun x => x.1).zip (((usedPairs sel a).map fun x => x.2.1).zip ((usedPairs sel a).map fun x => x.2.2)) = usedPairs sel a := by
          rw [List.zip_map', List.zip_map']
          exact List.map_id _
        simp only [traced, CipherText.untraced, hz, List.nil_append]
  · unfold decrypt
    rw [hsel, Res.ok_bind]
    cases ha : spanCoefs (sel.map fun p => p.1) with
    | err x => rfl
    | panic => rfl
    | ok coefs =>
      cases coefs with
      | none => rfl
      | some a =>
        obtain ⟨h1, h2, h3⟩ := key1 a ha
        simp only [Res.ok_bind, h1, h2, h3]

/-- **C94**, recording does not change results. -/
theorem C94_results (bm : BilinearMap K G1 G2 G3 Gt) (ct : CipherText G2 Gt) (key : DecryptionKey K G1 G3) :
    (decrypt (traced bm) ct.untraced key >>= fun r => .ok (r.map Prod.fst)) = decrypt bm ct key := by
  cases hsel : selectRows key ct ct.gamma 0 with
  | err x =>
    unfold decrypt
    rw [selectRows_untraced, show ct.untraced.gamma = ct.gamma from rfl, hsel]
    rfl
  | panic =>
    unfold decrypt
    rw [selectRows_untraced, show ct.untraced.gamma = ct.gamma from rfl, hsel]
    rfl
  | ok sel =>
    obtain ⟨h1, h2⟩ := decrypt_unfold bm ct key hsel
    rw [h1, h2]
    cases spanCoefs (sel.map fun p => p.1) with
    | err x => rfl
    | panic => rfl
    | ok coefs => cases coefs <;> rfl

theorem trace_inv {bm : BilinearMap K G1 G2 G3 Gt} {ct : CipherText G2 Gt} {key : DecryptionKey K G1 G3} {m : Gt} {tr : List (G1 × G2 × K)}
    (h : decrypt (traced bm) ct.untraced key = .ok (some (m, tr))) :
    ∃ sel a, selectRows key ct ct.gamma 0 = .ok sel ∧ spanCoefs (sel.map fun p => p.1) = .ok (some a) ∧ tr = usedPairs sel a ∧
      tr.length = (a.filter (· ≠ 0)).length := by
  have h0 := h
  unfold decrypt at h
  obtain ⟨sel, hsel, _⟩ := Res.bind_eq_ok.1 h
  rw [selectRows_untraced] at hsel
  have hsel : selectRows key ct ct.gamma 0 = .ok sel := hsel
  rw [(decrypt_unfold bm ct key hsel).1] at h0
  obtain ⟨coefs, hc, h0⟩ := Res.bind_eq_ok.1 h0
  cases coefs with
  | none => simp at h0
  | some a =>
    simp only [Res.ok.injEq, Option.some.injEq, Prod.mk.injEq] at h0
    refine ⟨sel, a, hsel, hc, h0.2.symm, ?_⟩
    rw [← h0.2, filter_zip_snd sel a (by rw [spanCoefs_length hc, List.length_map]), usedPairs, List.length_map, List.length_map]

theorem selectRows_rows (key : DecryptionKey K G1 G3) (enc : CipherText G2 Gt) : ∀ (l : List UInt32) (i : Nat) {sel : List (List K × G1 × G2)},
    selectRows key enc l i = .ok sel → sel.length ≤ l.length ∧ ∀ x ∈ sel, x.1 ∈ key.msp.matrix
  | [], _, _, h => by simp only [selectRows, Res.ok.injEq] at h; subst h; simp
  | a :: l, i, sel, h => by
    unfold selectRows at h
    split at h
    · rename_i row _
      obtain ⟨r, h1, h⟩ := Res.bind_eq_ok.1 h
      obtain ⟨d, _, h⟩ := Res.bind_eq_ok.1 h
      obtain ⟨e, _, h⟩ := Res.bind_eq_ok.1 h
      obtain ⟨rest, h2, h⟩ := Res.bind_eq_ok.1 h
      simp only [Res.ok.injEq] at h
      obtain ⟨g1, g2⟩ := selectRows_rows key enc l (i + 1) h2
      subst h
      refine ⟨by simp only [List.length_cons]; omega, ?_⟩
      rintro x (_ | ⟨_, hx⟩)
      · exact List.mem_of_getElem? (idx_eq_ok.1 h1)
      · exact g2 x hx
    · obtain ⟨g1, g2⟩ := selectRows_rows key enc l (i + 1) h
      exact ⟨by simp only [List.length_cons]; omega, g2⟩

/-- **C94**, for every key and ciphertext, also decoded from arbitrary bytes: at most one pairing for each label of the ciphertext, and no more than the matrix has
columns; none with exponent 0. -/
theorem C94_any (bm : BilinearMap K G1 G2 G3 Gt) {ct : CipherText G2 Gt} {key : DecryptionKey K G1 G3} {m : Gt} {tr : List (G1 × G2 × K)}
    (h : decrypt (traced bm) ct.untraced key = .ok (some (m, tr))) :
    tr.length ≤ ct.gamma.length ∧ (∀ n, (∀ row ∈ key.msp.matrix, row.length ≤ n) → tr.length ≤ n) ∧ ∀ x ∈ tr, x.2.2 ≠ 0 := by
  obtain ⟨sel, a, h1, h2, h3, h4⟩ := trace_inv h
  obtain ⟨g1, g2⟩ := selectRows_rows key ct _ _ h1
  obtain ⟨k1, k2⟩ := spanCoefs_nz h2
  rw [h4]
  refine ⟨?_, ?_, ?_⟩
  · rw [List.length_map] at k2; omega
  · intro n hn
    cases sel with
    | nil => simp [spanCoefs] at h2
    | cons x sel => exact le_trans (k1 x.1 (by simp)) (hn _ (g2 x (by simp)))
  · intro x hx
    rw [h3] at hx
    obtain ⟨z, hz, rfl⟩ := List.mem_map.1 hx
    simpa using (List.mem_filter.1 hz).2

theorem selectRows_keyOf (c : Curve K P Q QP T) {F : Node} {msp : Msp Int} (h : MspFor F msp) (tI : List K) (lam : UInt32 → K) (enc : CipherText P T) :
    ∀ (l : List UInt32) (i : Nat) {sel : List (List K × QP × P)}, selectRows (keyOf c tI msp lam) enc l i = .ok sel →
      (sel.map fun x => x.1) = (l.filter (· ∈ F.leaves)).map fun a => (rowOf msp a).map fun n : Int => (n : K)
  | [], _, _, hs => by simp only [selectRows, Res.ok.injEq] at hs; subst hs; rfl
  | a :: l, i, sel, hs => by
    unfold selectRows at hs
    rw [show (keyOf c tI msp lam).msp.getRowFromAttr a = msp.getRowFromAttr a from rfl] at hs
    by_cases ha : a ∈ F.leaves
    · obtain ⟨j, h1, _, h3⟩ := h.row_of_mem ha
      rw [h1] at hs
      obtain ⟨r, g1, hs⟩ := Res.bind_eq_ok.1 hs
      obtain ⟨d, _, hs⟩ := Res.bind_eq_ok.1 hs
      obtain ⟨e, _, hs⟩ := Res.bind_eq_ok.1 hs
      obtain ⟨rest, g2, hs⟩ := Res.bind_eq_ok.1 hs
      simp only [Res.ok.injEq] at hs
      subst hs
      rw [List.filter_cons_of_pos (by simpa using ha), List.map_cons, List.map_cons, selectRows_keyOf c h tI lam enc l (i + 1) g2]
      congr 1
      have g1 := idx_eq_ok.1 g1
      simp only [keyOf, Msp.convert, List.getElem?_map, h3, Option.map_some, Option.some.injEq] at g1
      rw [← g1, convert_fun]
    · rw [h.lookup_none.2 ha] at hs
      rw [List.filter_cons_of_neg (by simpa using ha)]
      exact selectRows_keyOf c h tI lam enc l (i + 1) hs

/-- Coefficients of rows at labels in `S` only: `S` satisfies the formula. -/
theorem sat_of_support {F : Node} {msp : Msp Int} (h : MspFor F msp) (lF : List UInt32) (hlF : ∀ a ∈ lF, a ∈ F.leaves) {x : Nat → K}
    (hx : Combines (lF.map fun a => (rowOf msp a).map fun n : Int => (n : K)) msp.nbCol x) {S : UInt32 → Prop}
    (hsup : ∀ j (hj : j < lF.length), x j ≠ 0 → S lF[j]) : F.Sat S := by
  by_contra hns
  have hnd : F.leaves.Nodup := h.perm.nodup_iff.1 h.nodup
  obtain ⟨δ, h0, hδ⟩ := shares_unsat (γ := S) (1 : K) hnd hns
  obtain ⟨u, hul, hus, hrow⟩ := (h.shares' δ 1).2 hδ
  have hrect : Rect (lF.map fun a => (rowOf msp a).map fun n : Int => (n : K)) msp.nbCol := by
    intro col hcol
    obtain ⟨a, ha, rfl⟩ := List.mem_map.1 hcol
    rw [List.length_map, h.rowOf_length (hlF a ha)]
  have happ := combines_apply hrect hx hul
  rw [List.length_map, hus, Finset.sum_eq_zero] at happ
  · exact zero_ne_one happ
  · intro j hj
    have hj : j < lF.length := by simpa using hj
    rw [getD_lt (l := lF.map _) (by simpa using hj), List.getElem_map, hrow _ (hlF _ (List.getElem_mem hj))]
    by_cases hxj : x j = 0
    · rw [hxj, zero_mul]
    · rw [h0 _ (hsup j hj hxj), mul_zero]

/-- All rows with a coefficient are found again when the coefficients are rebuilt from labels that are sufficient. -/
theorem used_rows {F : Node} {msp : Msp Int} (h : MspFor F msp) (lF : List UInt32) (hlF : ∀ a ∈ lF, a ∈ F.leaves) {a : List K}
    (ha : spanCoefs (lF.map fun a => (rowOf msp a).map fun n : Int => (n : K)) = .ok (some a)) {l' : List UInt32} (hs : F.Sat (· ∈ l')) {pos : UInt32 → Nat}
    (hpos : ∀ v ∈ l', pos v < lF.length ∧ a.getD (pos v) 0 ≠ 0 ∧ lF.getD (pos v) 0 = v) :
    ∀ j < lF.length, a.getD j 0 ≠ 0 → ∃ v ∈ l', pos v = j := by
  have hrect : Rect (lF.map fun a => (rowOf msp a).map fun n : Int => (n : K)) msp.nbCol := by
    intro col hcol
    obtain ⟨a, ha, rfl⟩ := List.mem_map.1 hcol
    rw [List.length_map, h.rowOf_length (hlF a ha)]
  have hne : (lF.map fun a => (rowOf msp a).map fun n : Int => (n : K)) ≠ [] := by
    intro h0
    rw [h0] at ha
    simp [spanCoefs] at ha
  have hl'F : ∀ v ∈ l', v ∈ F.leaves := by
    intro v hv
    obtain ⟨g1, _, g3⟩ := hpos v hv
    rw [getD_lt g1] at g3
    rw [← g3]
    exact hlF _ (List.getElem_mem g1)
  obtain ⟨x', hx'⟩ := (h.span_iff (K := K) l' hl'F).2 hs
  let x : Nat → K := fun j => ∑ i ∈ range l'.length, if pos (l'.getD i 0) = j then x' i else 0
  have hx : Combines (lF.map fun a => (rowOf msp a).map fun n : Int => (n : K)) msp.nbCol x := by
    intro r hr
    rw [← hx' r hr, List.length_map, List.length_map]
    simp only [x, Finset.sum_mul]
    rw [Finset.sum_comm]
    refine Finset.sum_congr rfl fun i hi => ?_
    have hi : i < l'.length := by simpa using hi
    obtain ⟨g1, _, g3⟩ := hpos (l'.getD i 0) (by rw [getD_lt hi]; exact List.getElem_mem hi)
    rw [Finset.sum_eq_single (pos (l'.getD i 0))]
    · rw [if_pos rfl]
      congr 1
      unfold ent
      rw [getD_lt (l := lF.map _) (by simpa using g1), List.getElem_map, getD_lt (l := l'.map _) (by simpa using hi), List.getElem_map]
      rw [getD_lt g1] at g3
      rw [g3, getD_lt hi]
    · intro j _ hj
      rw [if_neg (Ne.symm hj), zero_mul]
    · intro hno
      exact absurd (by simpa using g1) hno
  have hu := spanCoefs_unique hne h.nbCol_pos hrect ha hx (fun j hj h0 => by
    refine Finset.sum_eq_zero fun i hi => ?_
    have hi : i < l'.length := by simpa using hi
    obtain ⟨_, g2, _⟩ := hpos (l'.getD i 0) (by rw [getD_lt hi]; exact List.getElem_mem hi)
    rw [if_neg (by rintro rfl; exact g2 h0)])
  intro j hj hja
  rw [← hu j (by simpa using hj)] at hja
  obtain ⟨i, hi, hne'⟩ := Finset.exists_ne_zero_of_sum_ne_zero hja
  have hi : i < l'.length := by simpa using hi
  refine ⟨l'.getD i 0, by rw [getD_lt hi]; exact List.getElem_mem hi, ?_⟩
  by_contra hp
  exact hne' (if_neg hp)

/-- The labels at the coefficients that are not 0. -/
def usedLabels (lF : List UInt32) (a : List K) : List UInt32 := ((List.range lF.length).filter fun j => a.getD j 0 ≠ 0).map fun j => lF.getD j 0

theorem range_map_getD {α : Type} (l : List α) (d : α) : (List.range l.length).map (fun j => l.getD j d) = l := by
  apply List.ext_getElem
  · simp
  · intro i h1 h2
    simp [List.getElem?_eq_getElem h2]

theorem usedLabels_spec {F : Node} {msp : Msp Int} (h : MspFor F msp) (lF : List UInt32) (hlF : ∀ a ∈ lF, a ∈ F.leaves) {a : List K}
    (ha : spanCoefs (lF.map fun a => (rowOf msp a).map fun n : Int => (n : K)) = .ok (some a)) :
    (usedLabels lF a).Sublist lF ∧ (usedLabels lF a).Nodup ∧ F.Sat (· ∈ usedLabels lF a) ∧ (∀ v ∈ usedLabels lF a, ¬ F.Sat fun w => w ∈ usedLabels lF a ∧ w ≠ v) ∧
      (usedLabels lF a).length = (a.filter (· ≠ 0)).length := by
  have hlen : a.length = lF.length := by rw [spanCoefs_length ha, List.length_map]
  have hmem : ∀ v, v ∈ usedLabels lF a ↔ ∃ j < lF.length, a.getD j 0 ≠ 0 ∧ lF.getD j 0 = v := by
    intro v
    simp only [usedLabels, List.mem_map, List.mem_filter, List.mem_range, decide_eq_true_eq]
    constructor
    · rintro ⟨j, ⟨h1, h2⟩, h3⟩; exact ⟨j, h1, h2, h3⟩
    · rintro ⟨j, h1, h2, h3⟩; exact ⟨j, ⟨h1, h2⟩, h3⟩
  have hrect : Rect (lF.map fun a => (rowOf msp a).map fun n : Int => (n : K)) msp.nbCol := by
    intro col hcol
    obtain ⟨a, ha, rfl⟩ := List.mem_map.1 hcol
    rw [List.length_map, h.rowOf_length (hlF a ha)]
  have hne : (lF.map fun a => (rowOf msp a).map fun n : Int => (n : K)) ≠ [] := by
    intro h0
    rw [h0] at ha
    simp [spanCoefs] at ha
  have hsat : F.Sat (· ∈ usedLabels lF a) := by
    rcases spanCoefs_spec hne h.nbCol_pos hrect with ⟨b, h1, _, h3⟩ | ⟨h1, _⟩
    · obtain rfl : a = b := by rw [ha] at h1; simpa using h1
      refine sat_of_support h lF hlF h3 fun j hj h0 => ?_
      exact (hmem _).2 ⟨j, hj, h0, getD_lt hj⟩
    · rw [ha] at h1; simp at h1
  have hpos0 : ∀ v, ∃ j, v ∈ usedLabels lF a → j < lF.length ∧ a.getD j 0 ≠ 0 ∧ lF.getD j 0 = v := by
    intro v
    by_cases hv : v ∈ usedLabels lF a
    · obtain ⟨j, g⟩ := (hmem v).1 hv
      exact ⟨j, fun _ => g⟩
    · exact ⟨0, fun hv' => absurd hv' hv⟩
  choose pos hpos using hpos0
  have hall := used_rows h lF hlF ha hsat hpos
  refine ⟨?_, ?_, hsat, ?_, ?_⟩
  · have := (List.filter_sublist (p := fun j => a.getD j 0 ≠ 0) (l := List.range lF.length)).map fun j => lF.getD j 0
    rwa [range_map_getD] at this
  · refine List.Nodup.map_on ?_ (List.nodup_range.filter _)
    intro j hj j' hj' heq
    simp only [List.mem_filter, List.mem_range, decide_eq_true_eq] at hj hj'
    obtain ⟨v, hv, rfl⟩ := hall j hj.1 hj.2
    obtain ⟨v', hv', rfl⟩ := hall j' hj'.1 hj'.2
    rw [(hpos v hv).2.2, (hpos v' hv').2.2] at heq
    rw [heq]
  · intro v hv hno
    obtain ⟨j, hj, h0, hjv⟩ := (hmem v).1 hv
    have hno' : F.Sat (· ∈ (usedLabels lF a).filter (· ≠ v)) := by simpa using hno
    obtain ⟨w, hw, hwj⟩ := used_rows h lF hlF ha hno' (pos := pos) (fun w hw => hpos w (List.mem_filter.1 hw).1) j hj h0
    obtain ⟨hw1, hw2⟩ := List.mem_filter.1 hw
    have := (hpos w hw1).2.2
    rw [hwj, hjv] at this
    simp [this] at hw2
  · unfold usedLabels
    rw [List.length_map]
    conv_rhs => rw [← range_map_getD a 0, List.filter_map, List.length_map, hlen]
    rfl

theorem usedLabels_zip {lF : List UInt32} {a : List K} (h : a.length = lF.length) : usedLabels lF a = ((lF.zip a).filter fun x => x.2 ≠ 0).map Prod.fst := by
  unfold usedLabels
  conv_rhs => rw [← range_map_getD lF 0, ← range_map_getD a 0, h, List.zip_map', List.filter_map, List.map_map]
  rfl

theorem used_forall {lF : List UInt32} {sel : List (List K × G1 × G2)} {R : UInt32 → G1 × G2 → Prop} (h : List.Forall₂ (fun v x => R v x.2) lF sel) :
    ∀ a : List K, List.Forall₂ (fun v x => R v (x.1, x.2.1)) (((lF.zip a).filter fun x => x.2 ≠ 0).map Prod.fst) (usedPairs sel a) := by
  induction h with
  | nil => intro a; exact .nil
  | cons h1 _ ih =>
    intro a
    cases a with
    | nil => exact .nil
    | cons z a =>
      unfold usedPairs
      by_cases hz : z = 0
      · have := ih a
        unfold usedPairs at this
        simpa [hz] using this
      · have := ih a
        unfold usedPairs at this
        simpa [hz] using ⟨h1, by simpa using this⟩

theorem selectRows_forall {key : DecryptionKey K G1 G3} {enc : CipherText G2 Gt} {D : UInt32 → Prop} [DecidablePred D] (hD : ∀ a, D a ↔ key.msp.getRowFromAttr a ≠ none) :
    ∀ (l : List UInt32) (i : Nat) {sel : List (List K × G1 × G2)}, selectRows key enc l i = .ok sel →
      List.Forall₂ (fun v x => (∃ row, key.msp.getRowFromAttr v = some row ∧ key.dI[row]? = some x.2.1) ∧ ∃ j : Nat, l[j]? = some v ∧ enc.eI[i + j]? = some x.2.2)
        (l.filter (D ·)) sel
  | [], _, _, hs => by simp only [selectRows, Res.ok.injEq] at hs; subst hs; exact .nil
  | a :: l, i, sel, hs => by
    have step : ∀ {sel'}, selectRows key enc l (i + 1) = .ok sel' →
        List.Forall₂ (fun v x => (∃ row, key.msp.getRowFromAttr v = some row ∧ key.dI[row]? = some x.2.1) ∧ ∃ j : Nat, (a :: l)[j]? = some v ∧ enc.eI[i + j]? = some x.2.2)
          (l.filter (D ·)) sel' := by
      intro sel' hs'
      refine (selectRows_forall hD l (i + 1) hs').imp ?_
      rintro v x ⟨h1, j, h2, h3⟩
      exact ⟨h1, j + 1, by simpa using h2, by rwa [show i + (j + 1) = i + 1 + j by omega]⟩
    unfold selectRows at hs
    cases hr : key.msp.getRowFromAttr a with
    | none =>
      rw [hr] at hs
      rw [List.filter_cons_of_neg (by simpa [hD] using hr)]
      exact step hs
    | some row =>
      rw [hr] at hs
      obtain ⟨r, _, hs⟩ := Res.bind_eq_ok.1 hs
      obtain ⟨d, g1, hs⟩ := Res.bind_eq_ok.1 hs
      obtain ⟨e, g2, hs⟩ := Res.bind_eq_ok.1 hs
      obtain ⟨rest, g3, hs⟩ := Res.bind_eq_ok.1 hs
      simp only [Res.ok.injEq] at hs
      subst hs
      rw [List.filter_cons_of_pos (by simp [hD, hr])]
      exact .cons ⟨⟨row, hr, idx_eq_ok.1 g1⟩, 0, rfl, idx_eq_ok.1 g2⟩ (step g3)

/-- **C94**, for user keys: there is one pairing for each of some distinct labels of the ciphertext that satisfy the access policy and of which none could be left
out; there are at most as many as the access policy has `&&`, plus one. -/
theorem C94_minimal (c : Curve K P Q QP T) {p : Policy} (hw : p.WF) {rnd : Nat → K} {y : K} {mk : MasterKey K P Q T}
    (hmk : engineGenerateMasterKey (bls c) p rnd y = .ok mk) {ap : AccessPolicy} {key : DecryptionKey K QP Q} (hkey : UserKey c p mk ap key)
    {ct : CipherText P T} {m : T} {tr : List (QP × P × K)} (h : engineDecrypt (traced (bls c)) ct.untraced key = .ok (some (m, tr))) :
    ∃ l : List UInt32, l.Sublist ct.gamma ∧ l.Nodup ∧ ap.Needs p l ∧ List.Forall₂ (PairingFor key ct) l tr ∧ tr.length ≤ ap.ands + 1 := by
  obtain ⟨tI, _, hnz, rfl⟩ := generateMasterKey_inv c hmk
  obtain ⟨F, msp, lam, hk⟩ := userKey_ok c hw hnz hkey
  obtain ⟨sel, a, h1, h2, h3, h4⟩ := trace_inv h
  have hb := (C94_any _ h).2.1 (ap.ands + 1) (by
    rw [hk.key_eq]
    intro row hrow
    simp only [keyOf, Msp.convert, List.mem_map] at hrow
    obtain ⟨r, hr, rfl⟩ := hrow
    rw [List.length_map, hk.mspFor.width r hr, policyToMsp_cols hk.compiled])
  have hf := selectRows_forall (D := (· ∈ F.leaves)) (fun a => by
    rw [hk.key_eq, show (keyOf c tI msp lam).msp.getRowFromAttr a = msp.getRowFromAttr a from rfl, ne_eq, hk.mspFor.lookup_none, not_not]) _ _ h1
  rw [hk.key_eq] at h1
  rw [selectRows_keyOf c hk.mspFor tI lam ct _ _ h1] at h2
  obtain ⟨g1, g2, g3, g4, g5⟩ := usedLabels_spec hk.mspFor (ct.gamma.filter (· ∈ F.leaves)) (fun a ha => by simpa using (List.mem_filter.1 ha).2) h2
  refine ⟨_, g1.trans (List.filter_sublist), g2, ⟨(hk.form.sat _).1 g3, fun v hv hs => g4 v hv ((hk.form.sat _).2 hs)⟩, ?_, hb⟩
  rw [usedLabels_zip (by rw [spanCoefs_length h2, List.length_map]), h3]
  refine used_forall (R := fun v x => (∃ row, key.msp.getRowFromAttr v = some row ∧ key.dI[row]? = some x.1) ∧
    ∃ j : Nat, ct.gamma[j]? = some v ∧ ct.eI[j]? = some x.2) ?_ a
  simpa using hf

namespace Demo

/-- The key for `High && (HR || MKG)` opens the ciphertext for `Low`, `HR` and `MKG` with two pairings. -/
example : ∃ key ct m tr, UserKey curveF policy mkF ap key ∧ engineEncrypt (bls curveF) .debug64 policy mkF.pubKey [low, hr, mkg] 5 7 = .ok ct ∧
    engineDecrypt (traced (bls curveF)) ct.untraced key = .ok (some (m, tr)) ∧ tr.length = 2 ∧
    ∃ l : List UInt32, l.Sublist ct.gamma ∧ l.Nodup ∧ ap.Needs policy l ∧ List.Forall₂ (PairingFor key ct) l tr ∧ tr.length ≤ ap.ands + 1 := by
  have hrun : (match engineGenerateUserKey (bls curveF) policy mkF.privKey ap drawsF, engineEncrypt (bls curveF) .debug64 policy mkF.pubKey [low, hr, mkg] 5 7 with
    | .ok key, .ok ct => (match engineDecrypt (traced (bls curveF)) ct.untraced key with
      | .ok (some r) => r.2.length == 2
      | _ => false)
    | _, _ => false) = true := by decide +kernel
  obtain ⟨key, hkey⟩ := keyF_exists
  rw [hkey] at hrun
  cases hct : engineEncrypt (bls curveF) .debug64 policy mkF.pubKey [low, hr, mkg] 5 7 with
  | err x => simp [hct] at hrun
  | panic => simp [hct] at hrun
  | ok ct =>
    simp only [hct] at hrun
    split at hrun
    · rename_i r hr
      obtain ⟨m, tr⟩ := r
      exact ⟨key, ct, m, tr, .generate _ hkey, rfl, hr, by simpa using hrun, C94_minimal curveF (reachable_wf policy_reachable) mkF_eq (.generate _ hkey) hr⟩
    · simp at hrun

end Demo

end Abe
