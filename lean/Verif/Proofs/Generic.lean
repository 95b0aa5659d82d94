import Verif.Spec.Generic
import Verif.Props.Attack
import Mathlib.Algebra.MvPolynomial.SchwartzZippel
import Mathlib.Algebra.MvPolynomial.Rename
import Mathlib.Algebra.MvPolynomial.CommRing

/-! Polynomials of the elements seen by a generic attacker. -/

namespace Abe

open MvPolynomial

set_option linter.unusedSectionVars false

variable {K P Q QP T : Type} [Field K] [DecidableEq K] [AddCommGroup P] [Module K P] [AddCommGroup Q] [Module K Q]
  [AddCommGroup T] [Module K T]

/-! ### Zeros of a polynomial -/

theorem zeros_bound {ι : Type} [Fintype ι] [DecidableEq ι] [Fintype K] {f : MvPolynomial ι K} (hf : f ≠ 0) {d : Nat} (hd : f.totalDegree ≤ d) :
    (Finset.univ.filter fun ω : ι → K => eval ω f = 0).card * Fintype.card K ≤ d * Fintype.card (ι → K) := by
  let e := Fintype.equivFin ι
  have hg : rename e f ≠ 0 := fun h => hf (rename_injective _ e.injective (by rw [h, map_zero]))
  have hdeg : (rename e f).totalDegree ≤ d := (totalDegree_rename_le _ _).trans hd
  have hsz := schwartz_zippel_totalDegree hg (Finset.univ : Finset K)
  have hcard : (Finset.univ.filter fun ω : ι → K => eval ω f = 0).card =
      ((Fintype.piFinset fun _ : Fin (Fintype.card ι) => (Finset.univ : Finset K)).filter fun x => eval x (rename e f) = 0).card := by
    refine Finset.card_bij' (fun ω _ => ω ∘ e.symm) (fun x _ => x ∘ e) ?_ ?_ ?_ ?_
    · intro ω h
      simp only [Finset.mem_filter, Finset.mem_univ, true_and] at h
      simp only [Finset.mem_filter, Fintype.mem_piFinset, Finset.mem_univ, implies_true, true_and, eval_rename]
      rw [Function.comp_assoc, Equiv.symm_comp_self]
      exact h
    · intro x h
      simp only [Finset.mem_filter, eval_rename] at h
      simp only [Finset.mem_filter, Finset.mem_univ, true_and]
      exact h.2
    · intro ω _
      simp [Function.comp_assoc]
    · intro x _
      simp [Function.comp_assoc]
  rw [← hcard] at hsz
  have hq : 0 < Fintype.card K := Fintype.card_pos
  rw [Finset.card_univ, div_le_div_iff₀ (by positivity) (by positivity)] at hsz
  have hsz' : (Finset.univ.filter fun ω : ι → K => eval ω f = 0).card * Fintype.card K ≤
      (rename e f).totalDegree * Fintype.card K ^ Fintype.card ι := by exact_mod_cast hsz
  rw [Fintype.card_fun]
  exact hsz'.trans (Nat.mul_le_mul_right _ hdeg)

/-! ### Polynomials -/

section
variable {size k w : Nat}

/-- Private scalar of a slot. -/
noncomputable def tX (i : Nat) : MvPolynomial (Coin size k w) K := if h : i < size then X (.t ⟨i, h⟩) else 0

/-- Draw number `i` of user key number `j`. -/
noncomputable def rX (j i : Nat) : MvPolynomial (Coin size k w) K := if h : j < k ∧ i < w then X (.r ⟨j, h.1⟩ ⟨i, h.2⟩) else 0

/-- Product of the private scalars. -/
noncomputable def allT : MvPolynomial (Coin size k w) K := ∏ i : Fin size, X (.t i)

/-- Product of the other private scalars. -/
noncomputable def coT (i : Nat) : MvPolynomial (Coin size k w) K := ∏ j ∈ Finset.univ.filter (fun j : Fin size => j.1 ≠ i), X (.t j)

/-- No private scalar is zero. -/
def Coins.Good (ω : Coins K size k w) : Prop := ∀ i, ω (.t i) ≠ 0

/-- The private scalars. -/
def Coins.tI (ω : Coins K size k w) : List K := genScalars ω.master size

theorem eval_tX (ω : Coins K size k w) (i : Nat) : eval ω (tX i) = ω.master i := by
  unfold tX Coins.master
  split <;> simp

theorem eval_rX (ω : Coins K size k w) (j i : Nat) : eval ω (rX j i) = ω.key j i := by
  unfold rX Coins.key
  split <;> simp

theorem allT_eq {i : Nat} (h : i < size) : (allT : MvPolynomial (Coin size k w) K) = coT i * tX i := by
  unfold allT coT tX
  rw [dif_pos h, mul_comm, ← Finset.mul_prod_erase Finset.univ _ (Finset.mem_univ ⟨i, h⟩)]
  congr 1
  refine Finset.prod_congr ?_ fun _ _ => rfl
  ext j
  simp [Fin.ext_iff]

theorem eval_allT {ω : Coins K size k w} (h : ω.Good) : eval ω (allT : MvPolynomial (Coin size k w) K) ≠ 0 := by
  unfold allT
  rw [map_prod]
  refine Finset.prod_ne_zero_iff.2 fun i _ => ?_
  rw [eval_X]
  exact h i

theorem Coins.master_ne {ω : Coins K size k w} (h : ω.Good) {i : Nat} (hi : i < size) : ω.master i ≠ 0 := by
  unfold Coins.master
  rw [dif_pos hi]
  exact h _

theorem eval_coT {ω : Coins K size k w} (h : ω.Good) {i : Nat} (hi : i < size) :
    eval ω (coT i) / eval ω (allT : MvPolynomial (Coin size k w) K) = (ω.master i)⁻¹ := by
  have h1 := ω.master_ne h hi
  have h2 := eval_allT h
  rw [allT_eq hi, map_mul, eval_tX] at h2 ⊢
  have h3 := left_ne_zero_of_mul h2
  field_simp

theorem Coins.tI_length (ω : Coins K size k w) : ω.tI.length = size := by simp [Coins.tI, genScalars]

theorem Coins.tOf {ω : Coins K size k w} {a : UInt32} (h : a.toNat < size) : tOf ω.tI a = ω.master a.toNat := by
  unfold Abe.tOf Coins.tI genScalars
  rw [List.getD_eq_getElem?_getD, List.getElem?_map, List.getElem?_range h]
  rfl

theorem Coins.tI_ne {ω : Coins K size k w} (h : ω.Good) : ∀ t ∈ ω.tI, t ≠ 0 := by
  intro t ht
  unfold Coins.tI genScalars at ht
  obtain ⟨i, hi, rfl⟩ := List.mem_map.1 ht
  exact Coins.master_ne h (List.mem_range.1 hi)

/-- The sharing vector. -/
noncomputable def vecX (j cols : Nat) : List (MvPolynomial (Coin size k w) K) :=
  (List.range (cols - 1)).map (rX j) ++ [X .y - ((List.range (cols - 1)).map (rX j)).sum]

/-- The sharing vector of key generation. -/
def vecK (r : Nat → K) (y : K) (cols : Nat) : List K := genScalars r (cols - 1) ++ [y - (genScalars r (cols - 1)).sum]

theorem sharingVector_vecK {cols : Nat} (h : 0 < cols) (y : K) (r : Nat → K) : sharingVector cols y r = .ok (vecK r y cols) := by
  match cols, h with
  | 1, _ => simp [sharingVector, vecK, genScalars]
  | x + 2, _ => simp [sharingVector, vecK, foldl_add_eq]

theorem vecK_congr {r r' : Nat → K} {y : K} {cols : Nat} (h : ∀ i < cols - 1, r i = r' i) : vecK r y cols = vecK r' y cols := by
  unfold vecK
  have : genScalars r (cols - 1) = genScalars r' (cols - 1) := List.map_congr_left fun i hi => h i (List.mem_range.1 hi)
  rw [this]

theorem eval_vecX (ω : Coins K size k w) (j cols : Nat) : (vecX j cols).map (eval ω) = vecK (ω.key j) (ω .y) cols := by
  unfold vecX vecK genScalars
  have : ((List.range (cols - 1)).map (rX (K := K) (size := size) (k := k) (w := w) j)).map (eval ω) = (List.range (cols - 1)).map (ω.key j) := by
    rw [List.map_map]
    exact List.map_congr_left fun i _ => eval_rX ω j i
  rw [List.map_append, this, List.map_singleton, map_sub, eval_X, map_list_sum, this]

/-- A row applied to a vector. -/
noncomputable def rowX (row : List Int) (u : List (MvPolynomial (Coin size k w) K)) : MvPolynomial (Coin size k w) K :=
  ((row.zip u).map fun p => C (p.1 : K) * p.2).sum

theorem eval_rowX (ω : Coins K size k w) (row : List Int) (u : List (MvPolynomial (Coin size k w) K)) :
    eval ω (rowX row u) = prodScal id (row.map fun n : Int => (n : K)) (u.map (eval ω)) := by
  unfold rowX prodScal
  rw [reduceAdd_eq, map_list_sum, List.map_map, List.zip_map, List.map_map]
  congr 1
  refine List.map_congr_left fun x _ => ?_
  simp

/-- The share of a value in user key number `j`. -/
noncomputable def shareX (j : Nat) (m : Msp Int) (a : UInt32) : MvPolynomial (Coin size k w) K := rowX (rowOf m a) (vecX j m.nbCol)

theorem eval_shareX (ω : Coins K size k w) (j : Nat) (m : Msp Int) (a : UInt32) :
    eval ω (shareX j m a) = shareOf m (vecK (ω.key j) (ω .y) m.nbCol) a := by
  unfold shareX shareOf
  rw [eval_rowX, eval_vecX]

/-- Elements of the first group. -/
noncomputable def pX (g : Option (List UInt32)) : List (MvPolynomial (Coin size k w) K) :=
  1 :: (List.range size).map tX ++ g.toList.flatMap fun γ => γ.map fun a => X .s * tX a.toNat

/-- Elements of the second group, multiplied by the private scalars. -/
noncomputable def qX (ms : List (Msp Int)) : List (MvPolynomial (Coin size k w) K) :=
  allT :: (List.range size).map coT ++ ms.zipIdx.flatMap fun m => m.1.rowToAttr.map fun a => shareX m.2 m.1 a * coT a.toNat

/-- The polynomial of a strategy. -/
noncomputable def Strategy.poly (σ : Strategy K) (v : View (MvPolynomial (Coin size k w) K) (MvPolynomial (Coin size k w) K) (MvPolynomial (Coin size k w) K)) :
    MvPolynomial (Coin size k w) K :=
  (v.p.zipIdx.map fun x => (v.q.zipIdx.map fun z => C (σ.pairs x.2 z.2) * (x.1 * z.1)).sum).sum +
    (v.t.zipIdx.map fun x => C (σ.direct x.2) * x.1).sum

/-- `v` is described by polynomials. -/
structure Rep (c : Curve K P Q QP T) (ω : Coins K size k w) (v : View P Q T)
    (pv : View (MvPolynomial (Coin size k w) K) (MvPolynomial (Coin size k w) K) (MvPolynomial (Coin size k w) K)) : Prop where
  p : v.p = pv.p.map fun f => eval ω f • c.genP
  q : v.q = pv.q.map fun f => (eval ω f / eval ω (allT : MvPolynomial (Coin size k w) K)) • c.genQ
  t : v.t = pv.t.map fun f => (eval ω f / eval ω (allT : MvPolynomial (Coin size k w) K)) • c.genT

theorem Rep.eval {c : Curve K P Q QP T} {ω : Coins K size k w} {v : View P Q T}
    {pv : View (MvPolynomial (Coin size k w) K) (MvPolynomial (Coin size k w) K) (MvPolynomial (Coin size k w) K)} (h : Rep c ω v pv)
    (σ : Strategy K) : σ.eval c v = (MvPolynomial.eval ω (σ.poly pv) / MvPolynomial.eval ω (allT : MvPolynomial (Coin size k w) K)) • c.genT := by
  unfold Strategy.eval Strategy.poly
  rw [h.p, h.q, h.t, eval_pairs, map_add, add_div, add_smul]
  congr 1
  · unfold formSum
    rw [map_list_sum, List.map_map, div_eq_mul_inv, ← List.sum_map_mul_right]
    congr 2
    refine List.map_congr_left fun x _ => ?_
    simp only [Function.comp]
    rw [map_list_sum, List.map_map, ← List.sum_map_mul_right]
    congr 1
    refine List.map_congr_left fun z _ => ?_
    simp only [Function.comp, map_mul, eval_C]
    ring
  · rw [zipIdx_map', List.map_map, map_list_sum, List.map_map, div_eq_mul_inv, ← List.sum_map_mul_right, ← sum_map_smul_right]
    congr 1
    refine List.map_congr_left fun x _ => ?_
    simp only [Function.comp, map_mul, eval_C, smul_smul]
    congr 1
    ring

/-! ### Degrees -/

theorem totalDegree_sum_le {l : List (MvPolynomial (Coin size k w) K)} {d : Nat} (h : ∀ f ∈ l, f.totalDegree ≤ d) : l.sum.totalDegree ≤ d := by
  induction l with
  | nil => simp
  | cons f l ih =>
    rw [List.sum_cons]
    exact (totalDegree_add _ _).trans (max_le (h f (by simp)) (ih fun g hg => h g (by simp [hg])))

theorem totalDegree_tX (i : Nat) : (tX i : MvPolynomial (Coin size k w) K).totalDegree ≤ 1 := by
  unfold tX
  split
  · rw [totalDegree_X]
  · simp

theorem totalDegree_rX (j i : Nat) : (rX j i : MvPolynomial (Coin size k w) K).totalDegree ≤ 1 := by
  unfold rX
  split
  · rw [totalDegree_X]
  · simp

theorem totalDegree_allT : (allT : MvPolynomial (Coin size k w) K).totalDegree ≤ size := by
  unfold allT
  refine (totalDegree_finsetProd _ _).trans ?_
  simp

theorem totalDegree_coT {i : Nat} (h : i < size) : (coT i : MvPolynomial (Coin size k w) K).totalDegree + 1 ≤ size := by
  unfold coT
  refine Nat.succ_le_of_lt (lt_of_le_of_lt (totalDegree_finsetProd _ _) ?_)
  simp only [totalDegree_X, Finset.sum_const, smul_eq_mul, mul_one]
  have : (Finset.univ.filter fun j : Fin size => j.1 ≠ i) ⊂ Finset.univ := by
    rw [Finset.ssubset_univ_iff]
    intro he
    have := Finset.mem_univ (⟨i, h⟩ : Fin size)
    rw [← he] at this
    simp at this
  simpa using Finset.card_lt_card this

theorem totalDegree_vecX {j cols : Nat} {f : MvPolynomial (Coin size k w) K} (h : f ∈ vecX j cols) : f.totalDegree ≤ 1 := by
  unfold vecX at h
  rcases List.mem_append.1 h with h | h
  · obtain ⟨i, _, rfl⟩ := List.mem_map.1 h
    exact totalDegree_rX j i
  · rw [List.mem_singleton.1 h]
    refine (totalDegree_sub _ _).trans (max_le (by rw [totalDegree_X]) (totalDegree_sum_le fun g hg => ?_))
    obtain ⟨i, _, rfl⟩ := List.mem_map.1 hg
    exact totalDegree_rX j i

theorem totalDegree_C_mul (x : K) (f : MvPolynomial (Coin size k w) K) : (C x * f).totalDegree ≤ f.totalDegree := by
  refine (totalDegree_mul _ _).trans ?_
  rw [totalDegree_C, Nat.zero_add]

theorem totalDegree_shareX (j : Nat) (m : Msp Int) (a : UInt32) : (shareX j m a : MvPolynomial (Coin size k w) K).totalDegree ≤ 1 := by
  unfold shareX rowX
  refine totalDegree_sum_le fun f hf => ?_
  obtain ⟨x, hx, rfl⟩ := List.mem_map.1 hf
  exact (totalDegree_C_mul _ _).trans (totalDegree_vecX (List.of_mem_zip hx).2)

theorem totalDegree_pX {g : Option (List UInt32)} {f : MvPolynomial (Coin size k w) K} (h : f ∈ pX g) : f.totalDegree ≤ 2 := by
  unfold pX at h
  rcases List.mem_append.1 h with h | h
  · rcases List.mem_cons.1 h with rfl | h
    · simp
    · obtain ⟨i, _, rfl⟩ := List.mem_map.1 h
      exact (totalDegree_tX i).trans (by omega)
  · obtain ⟨γ, _, h⟩ := List.mem_flatMap.1 h
    obtain ⟨a, _, rfl⟩ := List.mem_map.1 h
    refine (totalDegree_mul _ _).trans ?_
    have := totalDegree_tX (K := K) (size := size) (k := k) (w := w) a.toNat
    rw [totalDegree_X]
    omega

theorem totalDegree_qX {ms : List (Msp Int)} (hms : ∀ m ∈ ms, ∀ a ∈ m.rowToAttr, a.toNat < size) {f : MvPolynomial (Coin size k w) K} (h : f ∈ qX ms) :
    f.totalDegree ≤ size := by
  unfold qX at h
  rcases List.mem_append.1 h with h | h
  · rcases List.mem_cons.1 h with rfl | h
    · exact totalDegree_allT
    · obtain ⟨i, hi, rfl⟩ := List.mem_map.1 h
      have := totalDegree_coT (K := K) (k := k) (w := w) (List.mem_range.1 hi)
      omega
  · obtain ⟨m, hm, h⟩ := List.mem_flatMap.1 h
    obtain ⟨a, ha, rfl⟩ := List.mem_map.1 h
    have h1 := totalDegree_coT (K := K) (k := k) (w := w) (hms m.1 (List.fst_mem_of_mem_zipIdx hm) a ha)
    have h2 := totalDegree_shareX (K := K) (size := size) (k := k) (w := w) m.2 m.1 a
    refine (totalDegree_mul _ _).trans ?_
    omega

theorem totalDegree_poly {v : View (MvPolynomial (Coin size k w) K) (MvPolynomial (Coin size k w) K) (MvPolynomial (Coin size k w) K)}
    (hp : ∀ f ∈ v.p, f.totalDegree ≤ 2) (hq : ∀ f ∈ v.q, f.totalDegree ≤ size) (ht : ∀ f ∈ v.t, f.totalDegree ≤ size + 2) (σ : Strategy K) :
    (σ.poly v).totalDegree ≤ size + 2 := by
  unfold Strategy.poly
  refine (totalDegree_add _ _).trans (max_le (totalDegree_sum_le fun f hf => ?_) (totalDegree_sum_le fun f hf => ?_))
  · obtain ⟨x, hx, rfl⟩ := List.mem_map.1 hf
    refine totalDegree_sum_le fun f hf => ?_
    obtain ⟨z, hz, rfl⟩ := List.mem_map.1 hf
    refine (totalDegree_C_mul _ _).trans ((totalDegree_mul _ _).trans ?_)
    have h1 := hp x.1 (List.fst_mem_of_mem_zipIdx hx)
    have h2 := hq z.1 (List.fst_mem_of_mem_zipIdx hz)
    omega
  · obtain ⟨x, hx, rfl⟩ := List.mem_map.1 hf
    exact (totalDegree_C_mul _ _).trans (ht x.1 (List.fst_mem_of_mem_zipIdx hx))

/-! ### The state of the game -/

/-- The span programs of the keys handed out, and the challenge with the number of keys handed out before. -/
structure Sym (K : Type) where
  msps : List (Msp Int)
  chal : Option (List UInt32 × (Bool → Strategy K) × Nat)

/-- The master key. -/
def Coins.masterKey (c : Curve K P Q QP T) (ω : Coins K size k w) : MasterKey K P Q T := ⟨⟨ω.tI, ω .y⟩, pubOf c ω.tI (ω .y), delOf c ω.tI⟩

/-- The user keys. -/
def keysOf (c : Curve K P Q QP T) (ω : Coins K size k w) (ms : List (Msp Int)) : List (DecryptionKey K QP Q) :=
  ms.zipIdx.map fun m => keyOf c ω.tI m.1 (shareOf m.1 (vecK (ω.key m.2) (ω .y) m.1.nbCol))

/-- The message encrypted. -/
def Sym.msg (S : Sym K) (c : Curve K P Q QP T) (ω : Coins K size k w) (x : List UInt32 × (Bool → Strategy K) × Nat) (b : Bool) : T :=
  (x.2.1 b).eval c (GameState.view c ⟨ω.masterKey c, keysOf c ω (S.msps.take x.2.2), none⟩)

/-- The state. -/
def Sym.state (S : Sym K) (c : Curve K P Q QP T) (ω : Coins K size k w) (b : Bool) : GameState K P Q QP T :=
  ⟨ω.masterKey c, keysOf c ω S.msps, S.chal.map fun x => ctOf c ω.tI (ω .y) (ω .s) (S.msg c ω x b) x.1⟩

/-- The polynomial of the message. -/
noncomputable def Sym.msgX (S : Sym K) (x : List UInt32 × (Bool → Strategy K) × Nat) (b : Bool) : MvPolynomial (Coin size k w) K :=
  (x.2.1 b).poly ⟨pX none, qX (S.msps.take x.2.2), [allT, allT * X .y]⟩

/-- The polynomials of the view. -/
noncomputable def Sym.view (S : Sym K) (b : Bool) :
    View (MvPolynomial (Coin size k w) K) (MvPolynomial (Coin size k w) K) (MvPolynomial (Coin size k w) K) where
  p := pX (S.chal.map fun x => x.1)
  q := qX S.msps
  t := allT :: (allT * X .y) :: S.chal.toList.map fun x => S.msgX x b + allT * (X .s * X .y)

theorem keys_rep (c : Curve K P Q QP T) {ω : Coins K size k w} (hω : ω.Good) {ms : List (Msp Int)}
    (hms : ∀ m ∈ ms, ∀ a ∈ m.rowToAttr, a.toNat < size) :
    c.genQ :: (ω.masterKey c).delKey.invTI ++ (keysOf c ω ms).flatMap (fun x => x.rawDI) =
      (qX ms).map fun f => (eval ω f / eval ω (allT : MvPolynomial (Coin size k w) K)) • c.genQ := by
  unfold qX keysOf Coins.masterKey delOf
  rw [List.map_append, List.map_cons, List.map_map, List.map_flatMap, List.flatMap_map, div_self (eval_allT hω), one_smul]
  congr 1
  · congr 1
    unfold Coins.tI genScalars
    rw [List.map_map]
    refine List.map_congr_left fun i hi => ?_
    simp only [Function.comp]
    rw [eval_coT hω (List.mem_range.1 hi)]
  · refine List.flatMap_congr fun m hm => ?_
    unfold keyOf
    simp only [List.map_map]
    refine List.map_congr_left fun a ha => ?_
    have hlt := hms m.1 (List.fst_mem_of_mem_zipIdx hm) a ha
    simp only [Function.comp, map_mul]
    rw [mul_div_assoc, eval_coT hω hlt, eval_shareX, Coins.tOf hlt]

theorem pX_rep (c : Curve K P Q QP T) (ω : Coins K size k w) {g : Option (List UInt32)} (hg : ∀ γ, g = some γ → ∀ a ∈ γ, a.toNat < size)
    {f : List UInt32 → T} :
    c.genP :: (ω.masterKey c).pubKey.tI ++ ((g.map fun γ => ctOf c ω.tI (ω .y) (ω .s) (f γ) γ).toList.flatMap fun x => x.eI) =
      (pX g).map fun f => eval ω f • c.genP := by
  unfold pX Coins.masterKey pubOf
  rw [List.map_append, List.map_cons, List.map_map, map_one, one_smul]
  congr 1
  · congr 1
    unfold Coins.tI genScalars
    rw [List.map_map]
    refine List.map_congr_left fun i hi => ?_
    simp only [Function.comp]
    rw [eval_tX]
  · cases g with
    | none => rfl
    | some γ =>
      simp only [Option.map_some, Option.toList_some, List.flatMap_cons, List.flatMap_nil, List.append_nil, ctOf, List.map_map]
      refine List.map_congr_left fun a ha => ?_
      simp only [Function.comp, map_mul, eval_X]
      rw [eval_tX, Coins.tOf (hg γ rfl a ha)]

/-- What the symbolic state must satisfy. -/
structure Sym.Ok (S : Sym K) (size : Nat) : Prop where
  msps : ∀ m ∈ S.msps, ∀ a ∈ m.rowToAttr, a.toNat < size
  len : ∀ x, S.chal = some x → x.1.length < size
  chal : ∀ x, S.chal = some x → ∀ a ∈ x.1, a.toNat < size

theorem Sym.early_rep {S : Sym K} (c : Curve K P Q QP T) {ω : Coins K size k w} (hω : ω.Good) (hS : S.Ok size) (n : Nat) :
    Rep c ω (GameState.view c ⟨ω.masterKey c, keysOf c ω (S.msps.take n), none⟩) ⟨pX none, qX (S.msps.take n), [allT, allT * X .y]⟩ where
  p := pX_rep c ω (g := none) (f := fun _ => 0) (by simp)
  q := keys_rep c hω fun m hm => hS.msps m (List.mem_of_mem_take hm)
  t := by
    simp only [GameState.view, Coins.masterKey, pubOf, Option.toList_none, List.map_nil, List.map_cons]
    rw [div_self (eval_allT hω), one_smul, map_mul, mul_div_cancel_left₀ _ (eval_allT hω), eval_X]

theorem Sym.rep {S : Sym K} (c : Curve K P Q QP T) {ω : Coins K size k w} (hω : ω.Good) (hS : S.Ok size) (b : Bool) :
    Rep c ω ((S.state c ω b).view c) (S.view b) where
  p := by
    have h := pX_rep c ω (g := S.chal.map fun x => x.1) (f := fun γ => match S.chal with | some x => S.msg c ω x b | none => 0) (by
      intro γ hγ
      obtain ⟨x, hx, rfl⟩ := Option.map_eq_some_iff.1 hγ
      exact hS.chal x hx)
    unfold Sym.state Sym.view GameState.view
    rw [← h]
    cases hc : S.chal with
    | none => rfl
    | some x => rfl
  q := keys_rep c hω hS.msps
  t := by
    unfold Sym.state Sym.view GameState.view
    simp only [List.map_cons, Coins.masterKey, pubOf]
    rw [div_self (eval_allT hω), one_smul, map_mul, mul_div_cancel_left₀ _ (eval_allT hω), eval_X]
    cases hc : S.chal with
    | none => rfl
    | some x =>
      simp only [Option.map_some, Option.toList_some, List.map_cons, List.map_nil, ctOf]
      unfold Sym.msg Sym.msgX
      rw [(Sym.early_rep c hω hS x.2.2).eval, map_add, add_div, add_smul, map_mul, mul_div_cancel_left₀ _ (eval_allT hω), map_mul, eval_X, eval_X]

theorem Sym.degree {S : Sym K} (hS : S.Ok size) (b : Bool) (σ : Strategy K) :
    (σ.poly (S.view b) : MvPolynomial (Coin size k w) K).totalDegree ≤ size + 2 := by
  have ht : ∀ f ∈ [(allT : MvPolynomial (Coin size k w) K), allT * X .y], f.totalDegree ≤ size + 2 := by
    intro f hf
    have := totalDegree_allT (K := K) (size := size) (k := k) (w := w)
    rcases List.mem_cons.1 hf with rfl | hf
    · omega
    · rw [List.mem_singleton.1 hf]
      refine (totalDegree_mul _ _).trans ?_
      rw [totalDegree_X]
      omega
  refine totalDegree_poly (fun f hf => totalDegree_pX hf) (fun f hf => totalDegree_qX hS.msps hf) (fun f hf => ?_) σ
  unfold Sym.view at hf
  rcases List.mem_append.1 (show f ∈ [allT, allT * X .y] ++ S.chal.toList.map fun x => S.msgX x b + allT * (X .s * X .y) from hf) with hf | hf
  · exact ht f hf
  · obtain ⟨x, _, rfl⟩ := List.mem_map.1 hf
    refine (totalDegree_add _ _).trans (max_le ?_ ?_)
    · exact totalDegree_poly (fun f hf => totalDegree_pX hf) (fun f hf => totalDegree_qX (fun m hm => hS.msps m (List.mem_of_mem_take hm)) hf) ht _
    · have := totalDegree_allT (K := K) (size := size) (k := k) (w := w)
      refine (totalDegree_mul _ _).trans ?_
      have h2 : (X .s * X .y : MvPolynomial (Coin size k w) K).totalDegree ≤ 2 := by
        refine (totalDegree_mul _ _).trans ?_
        rw [totalDegree_X, totalDegree_X]
      omega

/-! ### Operations on strategies -/

/-- A linear combination of strategies. -/
def Strategy.comb (a : K) (σ τ : Strategy K) : Strategy K :=
  ⟨fun i j => a * σ.pairs i j + τ.pairs i j, fun i => a * σ.direct i + τ.direct i⟩

theorem sum_map_smul_left {α : Type} (l : List α) (f : α → T) (a : K) : (l.map fun x => a • f x).sum = a • (l.map f).sum := by
  induction l with
  | nil => simp
  | cons x l ih => simp [ih]

theorem Strategy.eval_comb (c : Curve K P Q QP T) (a : K) (σ τ : Strategy K) (v : View P Q T) :
    (Strategy.comb a σ τ).eval c v = a • σ.eval c v + τ.eval c v := by
  unfold Strategy.eval Strategy.comb
  simp only [add_smul, mul_smul, List.sum_map_add, sum_map_smul_left, smul_add]
  abel

/-- A strategy restricted to the first positions. -/
def Strategy.trunc (np nq nt : Nat) (τ : Strategy K) : Strategy K :=
  ⟨fun i j => if i < np ∧ j < nq then τ.pairs i j else 0, fun i => if i < nt then τ.direct i else 0⟩

theorem sum_zipIdx_append {α : Type} (l1 l2 : List α) (f : α × Nat → T) (h : ∀ x, l1.length ≤ x.2 → f x = 0) :
    ((l1 ++ l2).zipIdx.map f).sum = (l1.zipIdx.map f).sum := by
  rw [List.zipIdx_append, List.map_append, List.sum_append, Nat.zero_add]
  have : ((l2.zipIdx l1.length).map f).sum = 0 := by
    apply List.sum_eq_zero
    intro x hx
    obtain ⟨z, hz, rfl⟩ := List.mem_map.1 hx
    exact h z (List.le_snd_of_mem_zipIdx hz)
  rw [this, add_zero]

theorem Strategy.eval_trunc (c : Curve K P Q QP T) (τ : Strategy K) (p1 p2 : List P) (q1 q2 : List Q) (t1 t2 : List T) :
    (τ.trunc p1.length q1.length t1.length).eval c ⟨p1 ++ p2, q1 ++ q2, t1 ++ t2⟩ = τ.eval c ⟨p1, q1, t1⟩ := by
  unfold Strategy.eval Strategy.trunc
  simp only []
  rw [sum_zipIdx_append p1 p2, sum_zipIdx_append t1 t2]
  · congr 1
    · congr 1
      refine List.map_congr_left fun x hx => ?_
      have hx' : x.2 < p1.length := by simpa using List.snd_lt_of_mem_zipIdx hx
      rw [sum_zipIdx_append q1 q2]
      · congr 1
        refine List.map_congr_left fun z hz => ?_
        have hz' : z.2 < q1.length := by simpa using List.snd_lt_of_mem_zipIdx hz
        rw [if_pos ⟨hx', hz'⟩]
      · intro z hz
        rw [if_neg (by omega), zero_smul]
    · congr 1
      refine List.map_congr_left fun x hx => ?_
      have hx' : x.2 < t1.length := by simpa using List.snd_lt_of_mem_zipIdx hx
      rw [if_pos hx']
  · intro x hx
    rw [if_neg (by omega), zero_smul]
  · intro x hx
    apply List.sum_eq_zero
    intro y hy
    obtain ⟨z, _, rfl⟩ := List.mem_map.1 hy
    rw [if_neg (by omega), zero_smul]

/-! ### A comparison that always succeeds does not involve the challenge -/

/-- A user to whom a key is handed out. -/
structure UserOk (size w : Nat) (u : Policy × AccessPolicy) (m : Msp Int) : Prop where
  wf : u.1.WF
  valid : u.2.Valid u.1
  range : ∀ b v, u.2.Grants u.1 b → u.1.HasValue b v → v.toNat < size
  msp : policyToMsp u.1 u.2 = .ok m
  draws : m.nbCol ≤ w + 1

theorem UserOk.spec {u : Policy × AccessPolicy} {m : Msp Int} (h : UserOk size w u m) : ∃ F, MspFor F m ∧ ∀ a ∈ F.leaves, a.toNat < size := by
  rcases policyToMsp_spec h.wf u.2 with ⟨_, m', F, h1, h2, h3⟩ | ⟨hnv, _⟩
  · rw [h.msp, Res.ok.injEq] at h1
    subst h1
    refine ⟨F, h2, fun a ha => ?_⟩
    obtain ⟨b, hb, hv⟩ := (h3.leaves a).1 ha
    exact h.range b a hb hv
  · exact absurd h.valid hnv

theorem UserOk.rows {u : Policy × AccessPolicy} {m : Msp Int} (h : UserOk size w u m) : ∀ a ∈ m.rowToAttr, a.toNat < size := by
  obtain ⟨F, h1, h2⟩ := h.spec
  exact fun a ha => h2 a (h1.perm.mem_iff.1 ha)

/-- The key handed out. -/
theorem UserOk.key {u : Policy × AccessPolicy} {m : Msp Int} (h : UserOk size w u m) (c : Curve K P Q QP T) {tI : List K} (hl : tI.length = size)
    (hnz : ∀ t ∈ tI, t ≠ 0) (y : K) (r : Nat → K) :
    engineGenerateUserKey (bls c) u.1 ⟨tI, y⟩ u.2 r = .ok (keyOf c tI m (shareOf m (vecK r y m.nbCol))) := by
  obtain ⟨F, h1, h2⟩ := h.spec
  unfold engineGenerateUserKey
  rw [h.msp]
  exact keyGeneration_ok c h1 tI y r (fun a ha => ⟨by rw [hl]; exact h2 a ha, tOf_ne_zero hnz (by rw [hl]; exact h2 a ha)⟩)
    (sharingVector_vecK h1.nbCol_pos y r)

theorem forall₂_choose {α β γ : Type} [Inhabited γ] {R : α → β → γ → Prop} {l : List α} {m : List β} (h : List.Forall₂ (fun a b => ∃ x, R a b x) l m) :
    ∃ f : Nat → γ, ∀ (i : Nat) (a : α) (b : β), l[i]? = some a → m[i]? = some b → R a b (f i) := by
  induction h with
  | nil => exact ⟨fun _ => default, by simp⟩
  | cons h1 _ ih =>
    obtain ⟨x, hx⟩ := h1
    obtain ⟨f, hf⟩ := ih
    refine ⟨fun | 0 => x | i + 1 => f i, fun i a b ha hb => ?_⟩
    cases i with
    | zero => simp at ha hb; subst ha hb; exact hx
    | succ i => exact hf i a b (by simpa using ha) (by simpa using hb)

theorem forall₂_get {α β : Type} {R : α → β → Prop} {l : List α} {m : List β} (h : List.Forall₂ R l m) {i : Nat} {b : β} (hb : m[i]? = some b) :
    ∃ a, l[i]? = some a ∧ R a b := by
  induction h generalizing i with
  | nil => simp at hb
  | cons h1 _ ih =>
    cases i with
    | zero => simp at hb; subst hb; exact ⟨_, rfl, h1⟩
    | succ i => simpa using ih (by simpa using hb)

theorem keysOf_take (c : Curve K P Q QP T) (ω : Coins K size k w) (ms : List (Msp Int)) (n : Nat) :
    keysOf c ω (ms.take n) = (keysOf c ω ms).take n := by
  unfold keysOf
  apply List.ext_getElem?
  intro i
  simp only [List.getElem?_map, List.getElem?_zipIdx, List.getElem?_take]
  split <;> simp

theorem Sym.trivial {S : Sym K} (c : Curve K P Q QP T) (t : Target) (hS : S.Ok size) (hK : ∃ m : K, m ≠ 0 ∧ m ≠ 1)
    {users : List (Policy × AccessPolicy)} (hu : List.Forall₂ (UserOk size w) users S.msps) (hk : users.length ≤ k)
    {x : List UInt32 × (Bool → Strategy K) × Nat} (hx : S.chal = some x)
    (hno : ∀ u ∈ users, ¬ u.2.Sat u.1 fun b => ∃ v, u.1.HasValue b v ∧ v ∈ x.1) {σ : Strategy K} {b : Bool}
    (h0 : (σ.poly (S.view b) : MvPolynomial (Coin size k w) K) = 0) : σ.direct 2 = 0 := by
  by_contra hd
  have hopen : (Strategy.comb (σ.direct 2)⁻¹ σ ((x.2.1 b).trunc (1 + size)
      (qX (S.msps.take x.2.2) : List (MvPolynomial (Coin size k w) K)).length 2)).Opens c t size users x.1 [] := by
    intro rnd y mk hmk keys hkeys s msg ct hct cts hcts
    cases hcts
    have hnz : ∀ i < size, rnd i ≠ 0 := by
      intro i hi h
      rw [generateMasterKey_panic c size rnd y ⟨i, hi, h⟩] at hmk
      simp at hmk
    rw [generateMasterKey_ok c size rnd y hnz, Res.ok.injEq] at hmk
    subst hmk
    have : Inhabited (Nat → K) := ⟨fun _ => 0⟩
    obtain ⟨rs, hrs⟩ := forall₂_choose hkeys
    let ω : Coins K size k w := fun
      | .t i => rnd i
      | .y => y
      | .r j i => rs j i
      | .s => s
    have hω : ω.Good := fun i => hnz i i.2
    have htI : ω.tI = genScalars rnd size := by
      unfold Coins.tI genScalars
      refine List.map_congr_left fun i hi => ?_
      unfold Coins.master
      rw [dif_pos (List.mem_range.1 hi)]
    have hl : (genScalars rnd size).length = size := by simp [genScalars]
    have hne : ∀ t ∈ genScalars rnd size, t ≠ 0 := htI ▸ Coins.tI_ne hω
    have hkeysEq : keys = keysOf c ω S.msps := by
      apply List.ext_getElem?
      intro j
      unfold keysOf
      rw [List.getElem?_map, List.getElem?_zipIdx]
      cases hm : S.msps[j]? with
      | none =>
        have : keys.length ≤ j := by
          rw [← hkeys.length_eq, hu.length_eq]
          exact List.getElem?_eq_none_iff.1 hm
        simpa using this
      | some m =>
        obtain ⟨u, hu1, hu2⟩ := forall₂_get hu hm
        have hj : j < keys.length := by
          rw [← hkeys.length_eq]
          exact (List.getElem?_eq_some_iff.1 hu1).1
        have hj' : j < k := by
          have := (List.getElem?_eq_some_iff.1 hu1).1
          omega
        have hg := hrs j u keys[j] hu1 (List.getElem?_eq_getElem hj)
        rw [hu2.key c hl hne y (rs j), Res.ok.injEq] at hg
        rw [List.getElem?_eq_getElem hj, ← hg]
        simp only [Option.map_some, Option.some.injEq, Nat.zero_add, htI]
        have hv : vecK (rs j) y m.nbCol = vecK (ω.key j) (ω .y) m.nbCol := by
          apply vecK_congr
          intro i hi
          have := hu2.draws
          unfold Coins.key
          rw [dif_pos ⟨hj', by omega⟩]
        rw [hv]
    rw [encrypt_ok c t _ y s msg x.1 (by rw [hl]; exact hS.len x hx) (by rw [hl]; exact hS.chal x hx), Res.ok.injEq] at hct
    subst hct hkeysEq
    have hσ := (Sym.rep c hω hS b).eval σ
    rw [h0, map_zero, zero_div, zero_smul] at hσ
    -- the message of the game
    have hearly := Sym.early_rep c hω hS x.2.2
    set mb := S.msg c ω x b with hmb
    rw [Strategy.eval_comb]
    have h1 : σ.eval c (View.of c ⟨⟨genScalars rnd size, y⟩, pubOf c (genScalars rnd size) y, delOf c (genScalars rnd size)⟩ (keysOf c ω S.msps)
        (ctOf c (genScalars rnd size) y s msg x.1) []) = σ.direct 2 • (msg - mb) := by
      have : ∀ v : View P Q T, σ.eval c v = σ.eval c v - σ.eval c ((S.state c ω b).view c) := by intro v; rw [hσ, sub_zero]
      rw [this]
      unfold Strategy.eval View.of GameState.view Sym.state Coins.masterKey
      rw [hx, htI]
      simp only [Option.map_some, Option.toList_some, List.flatMap_cons, List.flatMap_nil, List.map_cons, List.map_nil, ctOf, List.zipIdx_cons,
        List.zipIdx_nil, List.sum_cons, List.sum_nil, ← hmb, pubOf]
      have hy : ω .y = y := rfl
      have hs : ω .s = s := rfl
      rw [hy, hs]
      module
    have h2 : ((x.2.1 b).trunc (1 + size) (qX (S.msps.take x.2.2) : List (MvPolynomial (Coin size k w) K)).length 2).eval c
        (View.of c ⟨⟨genScalars rnd size, y⟩, pubOf c (genScalars rnd size) y, delOf c (genScalars rnd size)⟩ (keysOf c ω S.msps)
        (ctOf c (genScalars rnd size) y s msg x.1) []) = mb := by
      have hsplit : keysOf c ω S.msps = keysOf c ω (S.msps.take x.2.2) ++ (keysOf c ω S.msps).drop x.2.2 := by
        rw [keysOf_take, List.take_append_drop]
      have hq := congrArg List.length hearly.q
      rw [List.length_map] at hq
      rw [← hq]
      have := Strategy.eval_trunc c (x.2.1 b) (c.genP :: (pubOf c (genScalars rnd size) y).tI) (ctOf c (genScalars rnd size) y s msg x.1).eI
        (GameState.view c ⟨ω.masterKey c, keysOf c ω (S.msps.take x.2.2), none⟩).q
        (((keysOf c ω S.msps).drop x.2.2).flatMap fun x => x.rawDI) [c.genT, y • c.genT] [(ctOf c (genScalars rnd size) y s msg x.1).ePrime]
      have hlen : (c.genP :: (pubOf c (genScalars rnd size) y).tI).length = 1 + size := by
        simp [pubOf, genScalars]; omega
      rw [hlen] at this
      have e1 : View.of c ⟨⟨genScalars rnd size, y⟩, pubOf c (genScalars rnd size) y, delOf c (genScalars rnd size)⟩ (keysOf c ω S.msps)
          (ctOf c (genScalars rnd size) y s msg x.1) [] =
          ⟨(c.genP :: (pubOf c (genScalars rnd size) y).tI) ++ (ctOf c (genScalars rnd size) y s msg x.1).eI,
            (GameState.view c ⟨ω.masterKey c, keysOf c ω (S.msps.take x.2.2), none⟩).q ++
              (((keysOf c ω S.msps).drop x.2.2).flatMap fun x => x.rawDI),
            [c.genT, y • c.genT] ++ [(ctOf c (genScalars rnd size) y s msg x.1).ePrime]⟩ := by
        conv_lhs => rw [hsplit]
        unfold View.of GameState.view Coins.masterKey
        rw [htI]
        simp [List.flatMap_append, pubOf]
      rw [e1]
      refine this.trans ?_
      rw [hmb]
      unfold Sym.msg
      congr 1
      unfold GameState.view Coins.masterKey
      rw [htI]
      simp only [Option.toList_none, List.flatMap_nil, List.append_nil, List.map_nil, pubOf]
      rfl
    rw [h1, h2, smul_smul, inv_mul_cancel₀ hd, one_smul, sub_add_cancel]
  obtain ⟨u, hu1, hu2⟩ := C61_no_pairing_attack c t hK (users := users) (gamma := x.1) (others := [])
    (fun u hum => by
      obtain ⟨m, hm⟩ : ∃ m, UserOk size w u m := by
        obtain ⟨i, hi, rfl⟩ := List.getElem_of_mem hum
        have hi' : i < S.msps.length := hu.length_eq ▸ hi
        exact ⟨_, hu.get hi hi'⟩
      exact ⟨hm.wf, hm.valid, hm.range⟩)
    (fun g hg => by
      obtain rfl := List.mem_singleton.1 hg
      exact ⟨hS.len x hx, hS.chal x hx⟩) hopen
  exact hno u hu1 hu2

end

end Abe
