import Verif.Props.Size
import Verif.Props.Distribution
import Mathlib.LinearAlgebra.FiniteDimensional.Lemmas
import Mathlib.LinearAlgebra.Pi
import Mathlib.Data.Set.Card
import Mathlib.SetTheory.Cardinal.Finite
import Verif.Props.Generic

set_option linter.unusedSectionVars false

/-!
# How much randomness is in a user key

Property C87.
-/

namespace Abe

variable {K P Q QP T : Type} [Field K] [DecidableEq K] [AddCommGroup P] [Module K P] [AddCommGroup Q] [Module K Q]
  [AddCommGroup T] [Module K T]

/-! ### The sharing matrix has independent columns -/

/-- The value shared by a node, read off the leaves below. -/
def Node.val : Node → (UInt32 → K) →ₗ[K] K
  | .leaf a => LinearMap.proj a
  | .or l _ => l.val
  | .and l r => l.val + r.val

/-- The values of the left children of the `And` nodes, numbered in preorder. -/
def Node.lefts : Node → Nat → (UInt32 → K) →ₗ[K] K
  | .leaf _, _ => 0
  | .or l r, j => if j < l.ands then l.lefts j else r.lefts (j - l.ands)
  | .and l _, 0 => l.val
  | .and l r, j + 1 => if j < l.ands then l.lefts j else r.lefts (j - l.ands)

theorem Node.val_shares {lam : UInt32 → K} : ∀ {n : Node} {y : K}, n.Shares lam y → n.val lam = y
  | .leaf a, y, h => h
  | .or l r, y, h => Node.val_shares (n := l) h.1
  | .and l r, y, h => by
    obtain ⟨y1, y2, h0, h1, h2⟩ := h
    rw [Node.val, LinearMap.add_apply, Node.val_shares h1, Node.val_shares h2, h0]

theorem Node.val_congr {lam lam' : UInt32 → K} : ∀ {n : Node}, (∀ a ∈ n.leaves, lam a = lam' a) → n.val lam = n.val lam'
  | .leaf a, h => h a (by simp [Node.leaves])
  | .or l r, h => Node.val_congr (n := l) fun a ha => h a (by simp [Node.leaves, ha])
  | .and l r, h => by
    rw [Node.val, LinearMap.add_apply, LinearMap.add_apply, Node.val_congr (n := l) fun a ha => h a (by simp [Node.leaves, ha]),
      Node.val_congr (n := r) fun a ha => h a (by simp [Node.leaves, ha])]

theorem Node.lefts_congr {lam lam' : UInt32 → K} : ∀ {n : Node} (j : Nat), (∀ a ∈ n.leaves, lam a = lam' a) → n.lefts j lam = n.lefts j lam'
  | .leaf a, j, _ => rfl
  | .or l r, j, h => by
    rw [Node.lefts]
    split
    · exact Node.lefts_congr (n := l) _ fun a ha => h a (by simp [Node.leaves, ha])
    · exact Node.lefts_congr (n := r) _ fun a ha => h a (by simp [Node.leaves, ha])
  | .and l r, 0, h => Node.val_congr (n := l) fun a ha => h a (by simp [Node.leaves, ha])
  | .and l r, j + 1, h => by
    rw [Node.lefts]
    split
    · exact Node.lefts_congr (n := l) _ fun a ha => h a (by simp [Node.leaves, ha])
    · exact Node.lefts_congr (n := r) _ fun a ha => h a (by simp [Node.leaves, ha])

/-- The values of the left children can be prescribed. -/
theorem Node.lefts_exists : ∀ {n : Node}, n.leaves.Nodup → ∀ (y : K) (t : Nat → K), ∃ lam : UInt32 → K, n.Shares lam y ∧ ∀ j < n.ands, n.lefts j lam = t j
  | .leaf a, _, y, t => ⟨fun _ => y, rfl, fun j hj => absurd hj (by simp [Node.ands])⟩
  | .or l r, hd, y, t => by
    rw [Node.leaves, List.nodup_append] at hd
    obtain ⟨f, hf, hf'⟩ := Node.lefts_exists hd.1 y t
    obtain ⟨g, hg, hg'⟩ := Node.lefts_exists hd.2.1 y fun j => t (j + l.ands)
    have h1 : ∀ a ∈ l.leaves, f a = (fun a => if a ∈ l.leaves then f a else g a) a := fun a ha => by simp [ha]
    have h2 : ∀ a ∈ r.leaves, g a = (fun a => if a ∈ l.leaves then f a else g a) a := fun a ha => by
      dsimp only; rw [if_neg]; intro h'; exact hd.2.2 a h' a ha rfl
    refine ⟨fun a => if a ∈ l.leaves then f a else g a, ⟨shares_congr h1 hf, shares_congr h2 hg⟩, fun j hj => ?_⟩
    rw [Node.lefts]
    split
    · rename_i hlt
      rw [← Node.lefts_congr j h1, hf' j hlt]
    · rename_i hge
      rw [Node.ands] at hj
      rw [← Node.lefts_congr _ h2, hg' _ (by omega)]
      congr 1
      omega
  | .and l r, hd, y, t => by
    rw [Node.leaves, List.nodup_append] at hd
    obtain ⟨f, hf, hf'⟩ := Node.lefts_exists hd.1 (t 0) fun j => t (j + 1)
    obtain ⟨g, hg, hg'⟩ := Node.lefts_exists hd.2.1 (y - t 0) fun j => t (j + l.ands + 1)
    have h1 : ∀ a ∈ l.leaves, f a = (fun a => if a ∈ l.leaves then f a else g a) a := fun a ha => by simp [ha]
    have h2 : ∀ a ∈ r.leaves, g a = (fun a => if a ∈ l.leaves then f a else g a) a := fun a ha => by
      dsimp only; rw [if_neg]; intro h'; exact hd.2.2 a h' a ha rfl
    refine ⟨fun a => if a ∈ l.leaves then f a else g a, ⟨t 0, y - t 0, by ring, shares_congr h1 hf, shares_congr h2 hg⟩, fun j hj => ?_⟩
    cases j with
    | zero =>
      rw [Node.lefts, ← Node.val_congr h1, Node.val_shares hf]
    | succ j =>
      rw [Node.lefts]
      split
      · rename_i hlt
        rw [← Node.lefts_congr j h1, hf' j hlt]
      · rename_i hge
        rw [Node.ands] at hj
        rw [← Node.lefts_congr _ h2, hg' _ (by omega)]
        congr 1
        omega

theorem vecK_length {r : Nat → K} {y : K} {cols : Nat} (h : 0 < cols) : (vecK r y cols).length = cols := by
  unfold vecK genScalars
  simp
  omega

theorem vecK_sum (r : Nat → K) (y : K) (cols : Nat) : (vecK r y cols).sum = y := by
  unfold vecK
  simp

theorem vecK_get {r : Nat → K} {y : K} {cols i : Nat} (h : i < cols - 1) : (vecK r y cols).getD i 0 = r i := by
  unfold vecK genScalars
  rw [List.getD_eq_getElem?_getD, List.getElem?_append_left (by simpa using h)]
  simp [h]

/-- Shares for the sum of two draws. -/
theorem shareOf_add (m : Msp Int) (hc : 0 < m.nbCol) (r r' : Nat → K) (y : K) (a : UInt32) :
    shareOf m (vecK (fun i => r i + r' i) y m.nbCol) a = shareOf m (vecK r y m.nbCol) a + shareOf m (vecK r' 0 m.nbCol) a := by
  have : vecK (fun i => r i + r' i) y m.nbCol = List.zipWith (· + ·) (vecK r y m.nbCol) (vecK r' 0 m.nbCol) := by
    rw [← vecK_add hc (vecK_length hc) (vecK_sum r y m.nbCol)]
    exact vecK_congr fun i hi => by rw [vecK_get hi, add_comm]
  unfold shareOf
  rw [this, prodScal_add _ _ _ _ (by rw [vecK_length hc, vecK_length hc])]

theorem prodScal_smul {I : Type} (conv : I → K) (s : K) : ∀ (row : List I) (u : List K), prodScal conv row (u.map (s * ·)) = s * prodScal conv row u := by
  intro row u
  induction row generalizing u with
  | nil => simp [prodScal_nil]
  | cons x row ih =>
    cases u with
    | nil => simp [prodScal, reduceAdd]
    | cons b u => rw [List.map_cons, prodScal_cons, prodScal_cons, ih]; ring

theorem shareOf_smul (m : Msp Int) (s : K) (r : Nat → K) (a : UInt32) :
    shareOf m (vecK (fun i => s * r i) 0 m.nbCol) a = s * shareOf m (vecK r 0 m.nbCol) a := by
  have : vecK (fun i => s * r i) 0 m.nbCol = (vecK r 0 m.nbCol).map (s * ·) := by
    unfold vecK genScalars
    simp [List.sum_map_mul_left, Function.comp_def]
  unfold shareOf
  rw [this, prodScal_smul]

/-- The shares of zero as a linear function of the draws. -/
def shareL (m : Msp Int) (hc : 0 < m.nbCol) : (Nat → K) →ₗ[K] UInt32 → K where
  toFun r := shareOf m (vecK r 0 m.nbCol)
  map_add' r r' := funext fun a => shareOf_add m hc r r' 0 a
  map_smul' s r := funext fun a => shareOf_smul m s r a

/-- Only the zero draws share zero trivially. -/
theorem shareL_inj {F : Node} {m : Msp Int} (h : MspFor F m) {r : Nat → K} (hr : ∀ a ∈ F.leaves, shareOf m (vecK r 0 m.nbCol) a = 0) :
    ∀ i < F.ands, r i = 0 := by
  have hcols : m.nbCol - 1 = F.ands := by rw [h.nbCol]; rfl
  let φ : (Fin F.ands → K) →ₗ[K] (Fin F.ands → K) :=
    (LinearMap.pi fun j : Fin F.ands => F.lefts (K := K) j.1) ∘ₗ shareL m h.nbCol_pos ∘ₗ Function.ExtendByZero.linearMap K (Fin.val : Fin F.ands → Nat)
  have hext : ∀ (s : Nat → K) (i : Nat), i < F.ands → Function.ExtendByZero.linearMap K (Fin.val : Fin F.ands → Nat) (fun j => s j.1) i = s i := by
    intro s i hi
    exact Fin.val_injective.extend_apply (fun j : Fin F.ands => s j.1) 0 ⟨i, hi⟩
  have hvec : ∀ s : Nat → K, vecK (Function.ExtendByZero.linearMap K (Fin.val : Fin F.ands → Nat) (fun j => s j.1)) 0 m.nbCol = vecK s 0 m.nbCol :=
    fun s => vecK_congr fun i hi => hext s i (by omega)
  have hφ : ∀ (s : Nat → K) (j : Fin F.ands), φ (fun j => s j.1) j = F.lefts j.1 (shareOf m (vecK s 0 m.nbCol)) := by
    intro s j
    change F.lefts j.1 (shareOf m (vecK _ 0 m.nbCol)) = _
    rw [hvec]
  have hsurj : Function.Surjective φ := by
    intro t
    obtain ⟨lam, hl, ht⟩ := Node.lefts_exists (h.perm.nodup_iff.1 h.nodup) (0 : K) (fun j => if hj : j < F.ands then t ⟨j, hj⟩ else 0)
    obtain ⟨u, hul, hus, hrow⟩ := (h.shares' lam 0).2 hl
    have hu : u = vecK (fun i => u.getD i 0) 0 m.nbCol := by
      have h1 := sharingVector_surj h.nbCol_pos hul hus
      rw [sharingVector_vecK h.nbCol_pos] at h1
      exact (Res.ok.inj h1).symm
    refine ⟨fun j => u.getD j.1 0, funext fun j => ?_⟩
    refine (hφ (fun i => u.getD i 0) j).trans ?_
    rw [← hu, Node.lefts_congr (lam' := lam) _ fun a ha => ?_, ht j.1 j.2, dif_pos j.2]
    exact hrow a ha
  have hinj := LinearMap.injective_iff_surjective.2 hsurj
  have hz : (fun j : Fin F.ands => r j.1) = 0 := by
    apply hinj
    funext j
    refine (hφ r j).trans ?_
    rw [map_zero, Node.lefts_congr (lam' := 0) _ fun a ha => hr a ha, map_zero]
    rfl
  intro i hi
  exact congrFun hz ⟨i, hi⟩

theorem keyOf_inj (c : Curve K P Q QP T) {F : Node} {m : Msp Int} (h : MspFor F m) {tI : List K} (hcov : Covers tI F) {lam lam' : UInt32 → K}
    (he : keyOf c tI m lam = keyOf c tI m lam') : ∀ a ∈ F.leaves, lam a = lam' a := by
  intro a ha
  have h1 : (keyOf c tI m lam).rawDI = (keyOf c tI m lam').rawDI := by rw [he]
  have h2 := List.map_inj_left.1 h1 a (h.perm.mem_iff.2 ha)
  have h3 := smul_left_injective K c.genQ_ne_zero h2
  exact mul_right_cancel₀ (inv_ne_zero (hcov a ha).2) h3

theorem KeyOk.ands {c : Curve K P Q QP T} {p : Policy} {tI : List K} {y : K} {ap : AccessPolicy} {F : Node} {msp : Msp Int} {lam : UInt32 → K}
    {key : DecryptionKey K QP Q} (hk : KeyOk c p tI y ap F msp lam key) : F.ands = ap.ands := by
  have h1 := policyToMsp_cols hk.compiled
  have h2 := hk.mspFor.nbCol
  omega

/-- The key generated from given draws. -/
theorem KeyOk.generate {c : Curve K P Q QP T} {p : Policy} {tI : List K} {y : K} {ap : AccessPolicy} {F : Node} {msp : Msp Int} {lam : UInt32 → K}
    {key : DecryptionKey K QP Q} (hk : KeyOk c p tI y ap F msp lam key) (r : Nat → K) :
    engineGenerateUserKey (bls c) p ⟨tI, y⟩ ap r = .ok (keyOf c tI msp (shareOf msp (vecK r y msp.nbCol))) := by
  unfold engineGenerateUserKey
  rw [hk.compiled, Res.ok_bind, keyGeneration_ok c hk.mspFor tI y r hk.covers (sharingVector_vecK hk.mspFor.nbCol_pos y r)]

/-- Two draws give the same key exactly if the draws used are the same. -/
theorem KeyOk.draws {c : Curve K P Q QP T} {p : Policy} {tI : List K} {y : K} {ap : AccessPolicy} {F : Node} {msp : Msp Int} {lam : UInt32 → K}
    {key : DecryptionKey K QP Q} (hk : KeyOk c p tI y ap F msp lam key) (r r' : Nat → K) :
    keyOf c tI msp (shareOf msp (vecK r y msp.nbCol)) = keyOf c tI msp (shareOf msp (vecK r' y msp.nbCol)) ↔ ∀ i < ap.ands, r i = r' i := by
  rw [← hk.ands]
  constructor
  · intro he i hi
    have h0 : ∀ a ∈ F.leaves, shareOf msp (vecK (fun i => r i - r' i) 0 msp.nbCol) a = 0 := by
      intro a ha
      have h1 := keyOf_inj c hk.mspFor hk.covers he a ha
      have h2 := shareOf_add msp hk.mspFor.nbCol_pos r' (fun i => r i - r' i) y a
      rw [show (fun i => r' i + (r i - r' i)) = r from funext fun i => by ring, h1] at h2
      exact left_eq_add.1 h2
    exact sub_eq_zero.1 (shareL_inj hk.mspFor h0 i hi)
  · intro h
    rw [vecK_congr fun i hi => h i (by have := hk.mspFor.nbCol; omega)]

/-- **C87.** A user key is determined by as many draws as there are `And` in the access policy, and determines them. -/
theorem C87_draws (c : Curve K P Q QP T) {size : Nat} {rnd : Nat → K} {y : K} {mk : MasterKey K P Q T}
    (hmk : generateMasterKey (bls c) size rnd y = .ok mk) {p : Policy} (hp : p.Reachable) {ap : AccessPolicy} {r r' : Nat → K} {key key' : DecryptionKey K QP Q}
    (h : engineGenerateUserKey (bls c) p mk.privKey ap r = .ok key) (h' : engineGenerateUserKey (bls c) p mk.privKey ap r' = .ok key') :
    key = key' ↔ ∀ i < ap.ands, r i = r' i := by
  obtain ⟨tI, _, hnz, rfl⟩ := generateMasterKey_inv c hmk
  obtain ⟨F, msp, lam, hk⟩ := userKey_gen c (reachable_wf hp) hnz h
  rw [hk.generate r, Res.ok.injEq] at h
  rw [hk.generate r', Res.ok.injEq] at h'
  rw [← h, ← h', hk.draws]

/-- **C87.** Randomising a key gives the same key exactly if all draws used are zero; without `And` it always does. -/
theorem C87_randomised (c : Curve K P Q QP T) {size : Nat} {rnd : Nat → K} {y : K} {mk : MasterKey K P Q T}
    (hmk : generateMasterKey (bls c) size rnd y = .ok mk) {p q : Policy} {ap : AccessPolicy} {key key' : DecryptionKey K QP Q} (hk : Issued c mk p ap key)
    {r : Nat → K} (h : engineDelegateUserKey (bls c) q mk.delKey key .all r = .ok key') : key' = key ↔ ∀ i < ap.ands, r i = 0 := by
  obtain ⟨tI, _, hnz, rfl⟩ := generateMasterKey_inv c hmk
  obtain ⟨hp, F, msp, lam, hk⟩ := issued_ok c hnz hk
  have he : key' = keyOf c tI msp fun a => lam a + shareOf msp (vecK r 0 msp.nbCol) a := by
    rw [hk.key_eq] at h
    unfold engineDelegateUserKey abeKeyDelegation at h
    simp only [Res.ok_bind] at h
    rw [keyRandomization_ok c hk.mspFor tI lam r (fun a ha => (hk.covers a ha).1) (sharingVector_vecK hk.mspFor.nbCol_pos 0 r), Res.ok.injEq] at h
    exact h.symm
  rw [← hk.ands, he, hk.key_eq]
  constructor
  · intro he
    refine shareL_inj hk.mspFor fun a ha => ?_
    exact add_eq_left.1 (keyOf_inj c hk.mspFor hk.covers he a ha)
  · intro h0
    refine keyOf_congr c tI hk.mspFor fun a ha => ?_
    have hz : vecK r 0 msp.nbCol = vecK (fun _ => 0 * 0) 0 msp.nbCol := vecK_congr fun i hi => by
      rw [h0 i (by have := hk.mspFor.nbCol; omega), zero_mul]
    rw [hz, shareOf_smul msp 0 (fun _ => 0), zero_mul, add_zero]

/-- **C87.** The number of different keys for an access policy with `k` times `And`, over all ways to obtain one, is `q ^ k`. -/
theorem C87_number_of_keys (c : Curve K P Q QP T) [Finite K] {size : Nat} {rnd : Nat → K} {y : K} {mk : MasterKey K P Q T}
    (hmk : generateMasterKey (bls c) size rnd y = .ok mk) {p : Policy} {ap : AccessPolicy} (hk : ∃ key, Issued c mk p ap key) :
    {key | Issued c mk p ap key}.ncard = Nat.card K ^ ap.ands := by
  obtain ⟨tI, _, hnz, rfl⟩ := generateMasterKey_inv c hmk
  obtain ⟨key, hk⟩ := hk
  obtain ⟨hp, F, msp, lam, hk⟩ := issued_ok c hnz hk
  let ext : (Fin ap.ands → K) → Nat → K := fun s i => if h : i < ap.ands then s ⟨i, h⟩ else 0
  let f : (Fin ap.ands → K) → DecryptionKey K QP Q := fun s => keyOf c tI msp (shareOf msp (vecK (ext s) y msp.nbCol))
  have hinj : Function.Injective f := by
    intro s s' he
    have := (hk.draws (ext s) (ext s')).1 he
    funext i
    simpa [ext] using this i.1 i.2
  have hrange : {key | Issued c ⟨⟨tI, y⟩, pubOf c tI y, delOf c tI⟩ p ap key} = Set.range f := by
    ext key'
    constructor
    · intro hk'
      obtain ⟨_, F', msp', lam', hk'⟩ := issued_ok c hnz hk'
      obtain rfl : msp = msp' := Res.ok.inj (hk.compiled.symm.trans hk'.compiled)
      obtain ⟨u, hul, hus, hrow⟩ := (hk'.mspFor.shares' lam' y).2 hk'.shares
      have hu : u = vecK (fun i => u.getD i 0) y msp.nbCol := by
        have h1 := sharingVector_surj hk'.mspFor.nbCol_pos hul hus
        rw [sharingVector_vecK hk'.mspFor.nbCol_pos] at h1
        exact (Res.ok.inj h1).symm
      refine ⟨fun i => u.getD i.1 0, ?_⟩
      have he : vecK (ext fun i => u.getD i.1 0) y msp.nbCol = u := by
        conv_rhs => rw [hu]
        refine vecK_congr fun i hi => ?_
        have : i < ap.ands := by have := hk'.mspFor.nbCol; have := hk'.ands; omega
        simp [ext, this]
      change keyOf c tI msp (shareOf msp (vecK (ext fun i => u.getD i.1 0) y msp.nbCol)) = key'
      rw [he, hk'.key_eq]
      exact keyOf_congr c tI hk'.mspFor hrow
    · rintro ⟨s, rfl⟩
      exact .generate (ext s) hp (hk.generate (ext s))
  rw [hrange, ← Set.image_univ, Set.ncard_image_of_injective _ hinj, Set.ncard_univ, Nat.card_fun, Nat.card_eq_fintype_card (α := Fin ap.ands), Fintype.card_fin]

/-- **C87.** All keys for an access policy without `And` are the same, whoever has them and however they were obtained. -/
theorem C87_without_and (c : Curve K P Q QP T) {size : Nat} {rnd : Nat → K} {y : K} {mk : MasterKey K P Q T}
    (hmk : generateMasterKey (bls c) size rnd y = .ok mk) {p : Policy} {ap : AccessPolicy} (h0 : ap.ands = 0) {key key' : DecryptionKey K QP Q}
    (h : Issued c mk p ap key) (h' : Issued c mk p ap key') : key = key' := by
  obtain ⟨tI, _, hnz, rfl⟩ := generateMasterKey_inv c hmk
  have one : ∀ {key}, Issued c ⟨⟨tI, y⟩, pubOf c tI y, delOf c tI⟩ p ap key → ∃ msp, policyToMsp p ap = .ok msp ∧ key = keyOf c tI msp fun _ => y := by
    intro key h
    obtain ⟨_, F, msp, lam, hk⟩ := issued_ok c hnz h
    refine ⟨msp, hk.compiled, hk.key_eq.trans (keyOf_congr c tI hk.mspFor ?_)⟩
    have flat : ∀ {n : Node}, n.ands = 0 → n.Shares lam y → ∀ a ∈ n.leaves, lam a = y := by
      intro n
      induction n with
      | leaf b => intro _ hs a ha; simp [Node.leaves] at ha; subst ha; exact hs
      | and l r _ _ => intro h; simp [Node.ands] at h
      | or l r ihl ihr =>
        intro h hs a ha
        simp only [Node.ands, Nat.add_eq_zero_iff] at h
        simp only [Node.leaves, List.mem_append] at ha
        exact ha.elim (ihl h.1 hs.1 a) (ihr h.2 hs.2 a)
    exact flat (hk.ands.trans h0) hk.shares
  obtain ⟨m, hm, rfl⟩ := one h
  obtain ⟨m', hm', rfl⟩ := one h'
  rw [Res.ok.inj (hm.symm.trans hm')]

namespace Demo

/-- There are eleven keys for `High && (HR || MKG)` over the field with eleven elements. -/
example : {key | Issued curveF mkF policy ap key}.ncard = 11 := by
  obtain ⟨key, hkey⟩ := keyF_exists
  rw [C87_number_of_keys curveF (size := 8) mkF_eq ⟨key, .generate _ policy_reachable hkey⟩, Nat.card_zmod]
  rfl

/-- Draws 2 and 3 give different keys for `High && (HR || MKG)`. -/
example : ∃ key key', engineGenerateUserKey (bls curveF) policy mkF.privKey ap (fun _ => 2) = .ok key ∧
    engineGenerateUserKey (bls curveF) policy mkF.privKey ap (fun _ => 3) = .ok key' ∧ key ≠ key' := by
  obtain ⟨key, h⟩ : ∃ key, engineGenerateUserKey (bls curveF) policy mkF.privKey ap (fun _ => 2) = .ok key := exists_of_isOk (by decide +kernel)
  obtain ⟨key', h'⟩ : ∃ key, engineGenerateUserKey (bls curveF) policy mkF.privKey ap (fun _ => 3) = .ok key := exists_of_isOk (by decide +kernel)
  exact ⟨key, key', h, h', fun he => absurd ((C87_draws curveF (size := 8) mkF_eq policy_reachable h h').1 he 0 (by decide)) (by decide)⟩

/-- Two users with `HR || MKG` have the same key, and randomising it changes nothing. -/
example : ∃ key, (∀ r, engineGenerateUserKey (bls curveF) policy mkF.privKey (.or (.attr hr) (.attr mkg)) r = .ok key) ∧
    ∀ r, engineDelegateUserKey (bls curveF) policy mkF.delKey key .all r = .ok key := by
  obtain ⟨tI, _, hnz, hmk⟩ := generateMasterKey_inv curveF (size := 8) mkF_eq
  obtain ⟨key, hkey⟩ : ∃ key, engineGenerateUserKey (bls curveF) policy mkF.privKey (.or (.attr hr) (.attr mkg)) drawsF = .ok key :=
    exists_of_isOk (by decide +kernel)
  have hk : Issued curveF mkF policy (.or (.attr hr) (.attr mkg)) key := .generate _ policy_reachable hkey
  refine ⟨key, fun r => ?_, fun r => ?_⟩
  · have hk2 := hk
    rw [hmk] at hk2 hkey ⊢
    obtain ⟨_, F, msp, lam, hok⟩ := issued_ok curveF hnz hk2
    have h2 := hok.generate r
    rw [h2]
    have := C87_draws curveF (size := 8) (by rw [← hmk]; exact mkF_eq) policy_reachable hkey h2
    rw [this.2 (by intro i hi; exact absurd hi (Nat.not_lt_zero i))]
  · obtain ⟨key', h'⟩ : ∃ key', engineDelegateUserKey (bls curveF) policy mkF.delKey key .all r = .ok key' := by
      have hk2 := hk
      rw [hmk] at hk2 ⊢
      obtain ⟨_, F, msp, lam, hok⟩ := issued_ok curveF hnz hk2
      obtain ⟨w, hw⟩ := randomised_shift curveF hok policy
      exact ⟨_, (hw r).trans (hok.generate _)⟩
    rw [h', (C87_randomised curveF (size := 8) mkF_eq hk h').2 (by intro i hi; exact absurd hi (Nat.not_lt_zero i))]

end Demo

end Abe
