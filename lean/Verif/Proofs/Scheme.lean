import Verif.Proofs.Span

/-! Behaviour of the scheme algorithms on keys of known shape. -/

namespace Abe

open Finset

set_option linter.unusedSectionVars false

variable {K P Q QP T : Type} [Field K] [DecidableEq K] [AddCommGroup P] [Module K P] [AddCommGroup Q] [Module K Q]
  [AddCommGroup T] [Module K T]

theorem Node.sat_congr {γ γ' : UInt32 → Prop} : ∀ {n : Node}, (∀ a ∈ n.leaves, γ a ↔ γ' a) → (n.Sat γ ↔ n.Sat γ')
  | .leaf a, h => h a (by simp [Node.leaves])
  | .or l r, h => or_congr (Node.sat_congr fun a ha => h a (by simp [Node.leaves, ha]))
      (Node.sat_congr fun a ha => h a (by simp [Node.leaves, ha]))
  | .and l r, h => and_congr (Node.sat_congr fun a ha => h a (by simp [Node.leaves, ha]))
      (Node.sat_congr fun a ha => h a (by simp [Node.leaves, ha]))

theorem Node.sat_mono {γ γ' : UInt32 → Prop} (h : ∀ a, γ a → γ' a) : ∀ {n : Node}, n.Sat γ → n.Sat γ'
  | .leaf a, hs => h a hs
  | .or _ _, hs => hs.imp (Node.sat_mono h) (Node.sat_mono h)
  | .and _ _, hs => hs.imp (Node.sat_mono h) (Node.sat_mono h)

theorem Node.sat_leaf {γ : UInt32 → Prop} : ∀ {n : Node}, n.Sat γ → ∃ a ∈ n.leaves, γ a
  | .leaf a, hs => ⟨a, by simp [Node.leaves], hs⟩
  | .or _ _, hs => by
    rcases hs with hs | hs
    · obtain ⟨a, h1, h2⟩ := Node.sat_leaf hs; exact ⟨a, by simp [Node.leaves, h1], h2⟩
    · obtain ⟨a, h1, h2⟩ := Node.sat_leaf hs; exact ⟨a, by simp [Node.leaves, h1], h2⟩
  | .and _ _, hs => by
    obtain ⟨a, h1, h2⟩ := Node.sat_leaf hs.1; exact ⟨a, by simp [Node.leaves, h1], h2⟩

theorem Node.leaves_ne_nil : ∀ n : Node, n.leaves ≠ []
  | .leaf _ => by simp [Node.leaves]
  | .or l _ => by simp [Node.leaves, Node.leaves_ne_nil l]
  | .and l _ => by simp [Node.leaves, Node.leaves_ne_nil l]

/-- Private scalar of attribute `a`. -/
def tOf (tI : List K) (a : UInt32) : K := tI.getD a.toNat 0

/-! ### The sharing vector -/

theorem sharingVector_ok {cols : Nat} (hc : 0 < cols) (total : K) (rnd : Nat → K) :
    ∃ u, sharingVector cols total rnd = .ok u ∧ u.length = cols ∧ u.sum = total := by
  match cols, hc with
  | 1, _ => exact ⟨[total], rfl, rfl, by simp⟩
  | x + 2, _ =>
    refine ⟨_, rfl, ?_, ?_⟩
    · simp [genScalars]
    · rw [List.sum_append, foldl_add_eq]; simp

theorem sharingVector_surj {cols : Nat} (hc : 0 < cols) {total : K} {u : List K} (hl : u.length = cols)
    (hs : u.sum = total) : sharingVector cols total (fun i => u.getD i 0) = .ok u := by
  match cols, hc with
  | 1, _ =>
    obtain ⟨a, rfl⟩ := List.length_eq_one_iff.1 hl
    simp at hs
    simp [sharingVector, hs]
  | x + 2, _ =>
    have hne : u ≠ [] := by intro h; subst h; simp at hl
    have hu : u = u.dropLast ++ [u.getLast hne] := (List.dropLast_append_getLast hne).symm
    have hgen : genScalars (fun i => u.getD i 0) (x + 1) = u.dropLast := by
      apply List.ext_getElem
      · simp [genScalars, hl]
      · intro i h1 h2
        simp [genScalars] at h1
        simp only [genScalars, List.getElem_map, List.getElem_range, List.getElem_dropLast]
        rw [getD_lt (by omega)]
    unfold sharingVector
    simp only []
    rw [hgen, foldl_add_eq, zero_add]
    have : total - u.dropLast.sum = u.getLast hne := by
      rw [← hs]; conv_lhs => rw [hu]
      simp
    rw [this, ← hu]

/-! ### Loops over the rows -/

theorem mapRes_zipIdx {I β : Type} {mat : List (List I)} {rta : List UInt32} {f : List I × Nat → Out β}
    {g : UInt32 → β} (hl : rta.length = mat.length)
    (h : ∀ i row a, mat[i]? = some row → rta[i]? = some a → f (row, i) = .ok (g a)) :
    mapRes f mat.zipIdx = .ok (rta.map g) := by
  rw [mapRes_of_ok (g := fun p => g (rta.getD p.2 0))]
  · congr 1
    apply List.ext_getElem
    · simp [hl]
    · intro i h1 h2
      simp at h1 h2
      simp only [List.getElem_map, List.getElem_zipIdx, Nat.zero_add]
      rw [getD_lt h2]
  · intro p hp
    have hp' : mat[p.2]? = some p.1 := by simpa [List.mem_zipIdx_iff_getElem?] using hp
    obtain ⟨hi, _⟩ := List.getElem?_eq_some_iff.1 hp'
    have := h p.2 p.1 (rta.getD p.2 0) hp' (by rw [getD_lt (by omega), List.getElem?_eq_getElem (by omega)])
    exact this

/-- The key whose component for attribute `a` is `lam a / t a` in the exponent. -/
def keyOf (c : Curve K P Q QP T) (tI : List K) (msp : Msp Int) (lam : UInt32 → K) : DecryptionKey K QP Q where
  rawDI := msp.rowToAttr.map fun a => (lam a * (tOf tI a)⁻¹) • c.genQ
  dI := msp.rowToAttr.map fun a => c.prepare ((lam a * (tOf tI a)⁻¹) • c.genQ)
  msp := msp.convert scalarFromI32

/-- Share of attribute `a` for the sharing vector `u`. -/
def shareOf (msp : Msp Int) (u : List K) (a : UInt32) : K :=
  prodScal id ((rowOf msp a).map fun n : Int => (n : K)) u

/-- All attributes of the formula have a non-zero private scalar. -/
def Covers (tI : List K) (F : Node) : Prop := ∀ a ∈ F.leaves, a.toNat < tI.length ∧ tOf tI a ≠ 0

theorem convert_fun : (scalarFromI32 : Int → K) = fun n : Int => (n : K) := by
  funext n; exact scalarFromI32_eq n

theorem MspFor.nbCol_pos {F : Node} {msp : Msp Int} (h : MspFor F msp) : 0 < msp.nbCol := by
  rw [h.nbCol]; omega

theorem MspFor.shareOf_row {F : Node} {msp : Msp Int} (h : MspFor F msp) (u : List K) {i : Nat} {row : List Int}
    {a : UInt32} (hr : msp.matrix[i]? = some row) (ha : msp.rowToAttr[i]? = some a) :
    prodScal (fun n : Int => (n : K)) row u = shareOf msp u a := by
  have hmem := h.attr_mem ha
  obtain ⟨i', g1, g2, g3⟩ := h.row_of_mem hmem
  have hii : i' = i := by
    have := (h.lookup a i).2 ha
    rw [g1] at this; simpa using this
  subst hii
  rw [hr] at g3
  simp at g3
  unfold shareOf
  rw [← prodScal_map, g3]

theorem MspFor.shareOf_shares {F : Node} {msp : Msp Int} (h : MspFor F msp) {u : List K} (hl : u.length = msp.nbCol) :
    F.Shares (shareOf msp u) u.sum :=
  (h.shares' _ _).1 ⟨u, hl, rfl, fun _ _ => rfl⟩

theorem tOf_eq {tI : List K} {a : UInt32} (h : a.toNat < tI.length) : tI[a.toNat] = tOf tI a := by
  unfold tOf; rw [getD_lt h]

theorem keyGenRow_ok (c : Curve K P Q QP T) {F : Node} {msp : Msp Int} (h : MspFor F msp) (tI : List K) (y : K)
    (u : List K) {i : Nat} {row : List Int} {a : UInt32} (hr : msp.matrix[i]? = some row)
    (ha : msp.rowToAttr[i]? = some a) :
    keyGenRow (bls c) msp ⟨tI, y⟩ u (row, i) =
      if a.toNat ≥ tI.length then
        .err (.internalOperation "Monotone Span Program is invalid: msp-row larger than private-key-t_i")
      else if tOf tI a = 0 then .panic
      else .ok (c.prepare ((shareOf msp u a * (tOf tI a)⁻¹) • c.genQ), (shareOf msp u a * (tOf tI a)⁻¹) • c.genQ) := by
  unfold keyGenRow Msp.getAttrFromRow
  simp only []
  rw [idx_eq_ok.2 ha]
  simp only [Res.ok_bind]
  by_cases hb : a.toNat ≥ tI.length
  · rw [if_pos hb, if_pos hb]
  · rw [if_neg hb, if_neg hb, idx_of_lt (by omega)]
    simp only [Res.ok_bind]
    rw [tOf_eq (by omega)]
    unfold sdiv
    by_cases hz : tOf tI a = 0
    · rw [if_pos hz, if_pos hz]; rfl
    · rw [if_neg hz, if_neg hz]
      simp only [Res.ok_bind]
      have hl : prodScal (bls c).fromI32 row u = shareOf msp u a := by
        rw [← h.shareOf_row u hr ha]; simp only [bls]; rw [convert_fun]
      rw [hl]
      rfl

theorem keyGeneration_ok (c : Curve K P Q QP T) {F : Node} {msp : Msp Int} (h : MspFor F msp) (tI : List K) (y : K)
    (rnd : Nat → K) (hb : Covers tI F) {u : List K} (hu : sharingVector msp.nbCol y rnd = .ok u) :
    keyGeneration (bls c) msp ⟨tI, y⟩ rnd = .ok (keyOf c tI msp (shareOf msp u)) := by
  have hmap : mapRes (keyGenRow (bls c) msp ⟨tI, y⟩ u) msp.matrix.zipIdx = .ok (msp.rowToAttr.map fun a =>
      (c.prepare ((shareOf msp u a * (tOf tI a)⁻¹) • c.genQ), (shareOf msp u a * (tOf tI a)⁻¹) • c.genQ)) := by
    apply mapRes_zipIdx h.rta
    intro i row a hr ha
    obtain ⟨hb1, hb2⟩ := hb a (h.attr_mem ha)
    rw [keyGenRow_ok c h tI y u hr ha, if_neg (by omega), if_neg hb2]
  unfold keyGeneration keyOf
  simp only []
  rw [hu]
  simp only [Res.ok_bind]
  rw [hmap]
  simp only [Res.ok_bind, List.map_map, Function.comp_def]
  rfl

/-- Key generation yields a key for some sharing of `y`. -/
theorem keyGeneration_shares (c : Curve K P Q QP T) {F : Node} {msp : Msp Int} (h : MspFor F msp) (tI : List K) (y : K)
    (rnd : Nat → K) (hb : Covers tI F) :
    ∃ lam, keyGeneration (bls c) msp ⟨tI, y⟩ rnd = .ok (keyOf c tI msp lam) ∧ F.Shares lam y := by
  obtain ⟨u, hu, hul, hus⟩ := sharingVector_ok h.nbCol_pos y rnd
  exact ⟨_, keyGeneration_ok c h tI y rnd hb hu, hus ▸ h.shareOf_shares hul⟩

theorem keyOf_congr (c : Curve K P Q QP T) (tI : List K) {F : Node} {msp : Msp Int} (h : MspFor F msp)
    {lam lam' : UInt32 → K} (hl : ∀ a ∈ F.leaves, lam a = lam' a) : keyOf c tI msp lam = keyOf c tI msp lam' := by
  unfold keyOf
  have : ∀ a ∈ msp.rowToAttr, lam a = lam' a := fun a ha => hl a (h.perm.mem_iff.1 ha)
  congr 1
  · apply List.map_congr_left; intro a ha; rw [this a ha]
  · apply List.map_congr_left; intro a ha; rw [this a ha]

/-- Every sharing of `y` is produced by key generation with suitable randomness. -/
theorem keyGeneration_surj (c : Curve K P Q QP T) {F : Node} {msp : Msp Int} (h : MspFor F msp) (tI : List K) (y : K)
    (hb : Covers tI F) {lam : UInt32 → K} (hs : F.Shares lam y) :
    ∃ rnd, keyGeneration (bls c) msp ⟨tI, y⟩ rnd = .ok (keyOf c tI msp lam) := by
  obtain ⟨u, hul, hus, hrow⟩ := (h.shares' lam y).2 hs
  refine ⟨fun i => u.getD i 0, ?_⟩
  rw [keyGeneration_ok c h tI y _ hb (sharingVector_surj h.nbCol_pos hul hus)]
  congr 1
  exact keyOf_congr c tI h hrow

/-- Key generation never panics when the private scalars are non-zero, and fails exactly when a value is out of
range. -/
theorem keyGeneration_cases (c : Curve K P Q QP T) {F : Node} {msp : Msp Int} (h : MspFor F msp) (tI : List K) (y : K)
    (rnd : Nat → K) (hnz : ∀ t ∈ tI, t ≠ 0) :
    (∀ a ∈ F.leaves, a.toNat < tI.length) ∧ (∃ key, keyGeneration (bls c) msp ⟨tI, y⟩ rnd = .ok key) ∨
    (∃ a ∈ F.leaves, tI.length ≤ a.toNat) ∧ ∃ e, keyGeneration (bls c) msp ⟨tI, y⟩ rnd = .err e := by
  by_cases hb : ∀ a ∈ F.leaves, a.toNat < tI.length
  · left
    obtain ⟨lam, h1, _⟩ := keyGeneration_shares c h tI y rnd (fun a ha => ⟨hb a ha, by
      rw [← tOf_eq (hb a ha)]; exact hnz _ (List.getElem_mem _)⟩)
    exact ⟨hb, _, h1⟩
  · right
    push Not at hb
    obtain ⟨a, ha, hab⟩ := hb
    refine ⟨⟨a, ha, hab⟩, ?_⟩
    obtain ⟨u, hu, hul, hus⟩ := sharingVector_ok h.nbCol_pos y rnd
    have hrow : ∀ p ∈ msp.matrix.zipIdx, ∃ a, msp.matrix[p.2]? = some p.1 ∧ msp.rowToAttr[p.2]? = some a := by
      intro p hp
      have hp' : msp.matrix[p.2]? = some p.1 := by simpa [List.mem_zipIdx_iff_getElem?] using hp
      obtain ⟨hi, _⟩ := List.getElem?_eq_some_iff.1 hp'
      exact ⟨_, hp', List.getElem?_eq_getElem (by rw [h.rta]; exact hi)⟩
    have hnp : mapRes (keyGenRow (bls c) msp ⟨tI, y⟩ u) msp.matrix.zipIdx ≠ .panic := by
      apply mapRes_ne_panic
      intro p hp
      obtain ⟨b, g1, g2⟩ := hrow p hp
      have := keyGenRow_ok c h tI y u g1 g2
      rw [show (p.1, p.2) = p from rfl] at this
      rw [this]
      by_cases hbl : b.toNat ≥ tI.length
      · rw [if_pos hbl]; simp
      · rw [if_neg hbl, if_neg]
        · simp
        · rw [← tOf_eq (by omega)]; exact hnz _ (List.getElem_mem _)
    unfold keyGeneration
    simp only []
    rw [hu]
    simp only [Res.ok_bind]
    cases hm : mapRes (keyGenRow (bls c) msp ⟨tI, y⟩ u) msp.matrix.zipIdx with
    | panic => exact absurd hm hnp
    | err e => exact ⟨e, rfl⟩
    | ok ds =>
      exfalso
      rw [mapRes_eq_ok] at hm
      obtain ⟨i, _, g2, g3⟩ := h.row_of_mem ha
      obtain ⟨hi, hi2⟩ := List.getElem?_eq_some_iff.1 g3
      have hlen := hm.length_eq
      have hz : (msp.matrix.zipIdx)[i]'(by simpa using hi) = (rowOf msp a, i) := by simp [hi2]
      have := hm.get (i := i) (by simpa using hi) (by rw [← hlen]; simpa using hi)
      simp only [List.get_eq_getElem] at this
      rw [hz, keyGenRow_ok c h tI y u g3 g2, if_pos hab] at this
      simp at this

/-! ### Delegation and randomisation -/

/-- The delegation key for private scalars `tI`. -/
def delOf (c : Curve K P Q QP T) (tI : List K) : DelegationKey Q := ⟨tI.map fun t => t⁻¹ • c.genQ⟩

theorem convert_lookup (msp : Msp Int) (a : UInt32) :
    (msp.convert (scalarFromI32 : Int → K)).getRowFromAttr a = msp.getRowFromAttr a := rfl

/-- The delegation step for one row. -/
theorem delegateRow_ok {I : Type} (c : Curve K P Q QP T) (conv : I → K) (msp' : Msp I) {F : Node} {msp : Msp Int}
    (h : MspFor F msp) (tI : List K) (lam : UInt32 → K) (u : List K) {i : Nat} {row : List I} {a : UInt32}
    (ha : msp'.rowToAttr[i]? = some a) :
    delegateRow (bls c) conv msp' (keyOf c tI msp lam) (delOf c tI) u (row, i) =
      if tI.length ≤ a.toNat then .panic
      else if a ∈ F.leaves then
        .ok (c.prepare (((lam a + prodScal conv row u) * (tOf tI a)⁻¹) • c.genQ),
          ((lam a + prodScal conv row u) * (tOf tI a)⁻¹) • c.genQ)
      else .err (.internalOperation "new attribute is not allowed") := by
  unfold delegateRow Msp.getAttrFromRow
  simp only []
  rw [idx_eq_ok.2 ha]
  simp only [Res.ok_bind]
  by_cases hb : tI.length ≤ a.toNat
  · rw [if_pos hb, idx_eq_panic.2 (by simpa [delOf] using hb)]; rfl
  · rw [if_neg hb, idx_of_lt (by simpa [delOf] using hb)]
    simp only [Res.ok_bind]
    rw [show (keyOf c tI msp lam).msp.getRowFromAttr a = msp.getRowFromAttr a from rfl]
    by_cases hm : a ∈ F.leaves
    · rw [if_pos hm]
      obtain ⟨j, g1, g2, _⟩ := h.row_of_mem hm
      rw [g1]
      simp only []
      have hraw : (idx (keyOf c tI msp lam).rawDI j : Out Q) = .ok ((lam a * (tOf tI a)⁻¹) • c.genQ) := by
        rw [idx_eq_ok]; simp [keyOf, g2]
      rw [hraw]
      simp only [Res.ok_bind]
      have : (delOf c tI).invTI[a.toNat]'(by simpa [delOf] using hb) = (tOf tI a)⁻¹ • c.genQ := by
        simp [delOf, tOf_eq (Nat.lt_of_not_le hb)]
      rw [this]
      simp only [bls]
      rw [smul_smul, ← add_smul, ← add_mul]
    · rw [if_neg hm, h.lookup_none.2 hm]

theorem keyDelegation_ok (c : Curve K P Q QP T) {F F' : Node} {msp msp' : Msp Int} (h : MspFor F msp)
    (h' : MspFor F' msp') (tI : List K) (lam : UInt32 → K) (rnd : Nat → K)
    (hb : ∀ a ∈ F'.leaves, a.toNat < tI.length) (hsub : ∀ a ∈ F'.leaves, a ∈ F.leaves) {u : List K}
    (hu : sharingVector msp'.nbCol 0 rnd = .ok u) :
    keyDelegation (bls c) msp' (keyOf c tI msp lam) (delOf c tI) rnd =
      .ok (keyOf c tI msp' fun a => lam a + shareOf msp' u a) := by
  have hmap : mapRes (delegateRow (bls c) (bls c).fromI32 msp' (keyOf c tI msp lam) (delOf c tI) u)
      msp'.matrix.zipIdx = .ok (msp'.rowToAttr.map fun a =>
      (c.prepare (((lam a + shareOf msp' u a) * (tOf tI a)⁻¹) • c.genQ),
        ((lam a + shareOf msp' u a) * (tOf tI a)⁻¹) • c.genQ)) := by
    apply mapRes_zipIdx h'.rta
    intro i row a hr ha
    have hm := h'.attr_mem ha
    rw [delegateRow_ok c _ msp' h tI lam u ha, if_neg (by have := hb a hm; omega), if_pos (hsub a hm)]
    have : prodScal (bls c).fromI32 row u = shareOf msp' u a := by
      rw [← h'.shareOf_row u hr ha]; simp only [bls]; rw [convert_fun]
    rw [this]
  unfold keyDelegation
  rw [hu]
  simp only [Res.ok_bind]
  rw [hmap]
  simp only [Res.ok_bind, List.map_map, Function.comp_def]
  rfl

theorem keyRandomization_ok (c : Curve K P Q QP T) {F : Node} {msp : Msp Int} (h : MspFor F msp) (tI : List K)
    (lam : UInt32 → K) (rnd : Nat → K) (hb : ∀ a ∈ F.leaves, a.toNat < tI.length) {u : List K}
    (hu : sharingVector msp.nbCol 0 rnd = .ok u) :
    keyRandomization (bls c) (keyOf c tI msp lam) (delOf c tI) rnd =
      .ok (keyOf c tI msp fun a => lam a + shareOf msp u a) := by
  have hmap : mapRes (delegateRow (bls c) id (keyOf c tI msp lam).msp (keyOf c tI msp lam) (delOf c tI) u)
      (keyOf c tI msp lam).msp.matrix.zipIdx = .ok (msp.rowToAttr.map fun a =>
      (c.prepare (((lam a + shareOf msp u a) * (tOf tI a)⁻¹) • c.genQ),
        ((lam a + shareOf msp u a) * (tOf tI a)⁻¹) • c.genQ)) := by
    apply mapRes_zipIdx
    · simp [keyOf, Msp.convert, h.rta]
    intro i row a hr ha
    have ha' : msp.rowToAttr[i]? = some a := ha
    have hm := h.attr_mem ha'
    rw [delegateRow_ok c _ (keyOf c tI msp lam).msp h tI lam u ha, if_neg (by have := hb a hm; omega), if_pos hm]
    have : prodScal id row u = shareOf msp u a := by
      simp only [keyOf, Msp.convert, List.getElem?_map, Option.map_eq_some_iff] at hr
      obtain ⟨row', hr', rfl⟩ := hr
      rw [← h.shareOf_row u hr' ha', ← prodScal_map, convert_fun]
    rw [this]
  unfold keyRandomization
  simp only []
  rw [show (keyOf c tI msp lam).msp.nbCol = msp.nbCol from rfl, hu]
  simp only [Res.ok_bind]
  rw [hmap]
  simp only [Res.ok_bind, List.map_map, Function.comp_def]
  rfl

/-! ### Encryption -/

/-- The public key for private scalars `tI` and secret `y`. -/
def pubOf (c : Curve K P Q QP T) (tI : List K) (y : K) : MasterPublicKey P T := ⟨tI.map fun t => t • c.genP, y • c.genT⟩

/-- The ciphertext of `msg` with randomness `s`. -/
def ctOf (c : Curve K P Q QP T) (tI : List K) (y s : K) (msg : T) (gamma : List UInt32) : CipherText P T where
  gamma := gamma
  ePrime := msg + (s * y) • c.genT
  eI := gamma.map fun a => (s * tOf tI a) • c.genP

theorem encrypt_ok (c : Curve K P Q QP T) (t : Target) (tI : List K) (y s : K) (msg : T) (gamma : List UInt32)
    (hl : gamma.length < tI.length) (hb : ∀ a ∈ gamma, a.toNat < tI.length) :
    encrypt (bls c) t msg gamma (pubOf c tI y) s = .ok (ctOf c tI y s msg gamma) := by
  unfold encrypt
  rw [if_neg (by simp [pubOf]; omega)]
  have : mapRes (fun i : UInt32 => (do
      let ti ← idx (pubOf c tI y).tI i.toNat
      .ok ((bls c).g2Exp ti s) : Out P)) gamma = .ok (gamma.map fun a => (s * tOf tI a) • c.genP) := by
    apply mapRes_of_ok
    intro a ha
    rw [idx_of_lt (by simpa [pubOf] using hb a ha)]
    simp only [Res.ok_bind, bls, pubOf, List.getElem_map]
    rw [tOf_eq (hb a ha), smul_smul]
  rw [this]
  simp only [Res.ok_bind, bls, pubOf, ctOf, smul_smul]

/-! ### Decryption -/

theorem selectRows_ok (c : Curve K P Q QP T) {F : Node} {msp : Msp Int} (h : MspFor F msp) (tI : List K)
    (lam : UInt32 → K) (enc : CipherText P T) (E : UInt32 → P) :
    ∀ (l : List UInt32) (i : Nat), (∀ j a, l[j]? = some a → enc.eI[i + j]? = some (E a)) →
      selectRows (keyOf c tI msp lam) enc l i = .ok ((l.filter (· ∈ F.leaves)).map fun a =>
        ((rowOf msp a).map fun n : Int => (n : K), c.prepare ((lam a * (tOf tI a)⁻¹) • c.genQ), E a))
  | [], i, _ => rfl
  | a :: l, i, hE => by
    have hrec := selectRows_ok c h tI lam enc E l (i + 1) (fun j b hb => by
      have := hE (j + 1) b (by simpa using hb)
      rw [show i + 1 + j = i + (j + 1) by omega]; exact this)
    unfold selectRows
    rw [show (keyOf c tI msp lam).msp.getRowFromAttr a = msp.getRowFromAttr a from rfl]
    by_cases hm : a ∈ F.leaves
    · obtain ⟨j, g1, g2, g3⟩ := h.row_of_mem hm
      rw [g1, List.filter_cons_of_pos (by simpa using hm)]
      simp only []
      have e1 : (keyOf c tI msp lam).msp.getRow j =
          (.ok ((rowOf msp a).map fun n : Int => (n : K)) : Out (List K)) := by
        unfold Msp.getRow
        rw [idx_eq_ok]
        simp [keyOf, Msp.convert, g3, convert_fun]
      have e2 : (idx (keyOf c tI msp lam).dI j : Out QP) = .ok (c.prepare ((lam a * (tOf tI a)⁻¹) • c.genQ)) := by
        rw [idx_eq_ok]
        simp [keyOf, g2]
      have e3 : (idx enc.eI i : Out P) = .ok (E a) := by
        rw [idx_eq_ok]; exact hE 0 a rfl
      rw [e1, e2, e3]
      simp only [Res.ok_bind]
      rw [hrec]
      rfl
    · rw [h.lookup_none.2 hm, List.filter_cons_of_neg (by simpa using hm)]
      exact hrec

theorem keepNonZero_ok {α β : Type} (f : α → β) (a : List K) : ∀ (l : List α) (i : Nat), i + l.length ≤ a.length →
    keepNonZero a (l.map f) i =
      .ok (((l.zip (a.drop i)).filter fun p => p.2 ≠ 0).map fun p => f p.1)
  | [], i, _ => rfl
  | x :: l, i, h => by
    simp only [List.length_cons] at h
    have hrec := keepNonZero_ok f a l (i + 1) (by omega)
    rw [List.map_cons]
    unfold keepNonZero
    rw [idx_of_lt (by omega)]
    simp only [Res.ok_bind]
    rw [hrec]
    simp only [Res.ok_bind]
    have hd : a.drop i = a[i] :: a.drop (i + 1) := List.drop_eq_getElem_cons (by omega)
    rw [hd, List.zip_cons_cons]
    by_cases hz : a[i] = 0
    · rw [if_pos hz, List.filter_cons_of_neg (by simpa using hz)]
    · rw [if_neg hz, List.filter_cons_of_pos (by simpa using hz)]
      rfl

theorem filter_zip_snd {α : Type} : ∀ (l : List α) (a : List K), a.length = l.length →
    a.filter (fun x => x ≠ 0) = ((l.zip a).filter fun p => p.2 ≠ 0).map Prod.snd
  | [], a, h => by simp at h; subst h; rfl
  | x :: l, [], h => by simp at h
  | x :: l, y :: a, h => by
    have := filter_zip_snd l a (by simpa using h)
    rw [List.zip_cons_cons]
    by_cases hz : y = 0
    · rw [List.filter_cons_of_neg (by simpa using hz), List.filter_cons_of_neg (by simpa using hz), this]
    · rw [List.filter_cons_of_pos (by simpa using hz), List.filter_cons_of_pos (by simpa using hz), this]
      rfl

/-- The product of pairings over a list of (attribute, coefficient). -/
theorem prodGtExp_ok (c : Curve K P Q QP T) (D : UInt32 → Q) (E : UInt32 → P) (z : List (UInt32 × K)) :
    (bls c).prodGtExp (z.map fun p => c.prepare (D p.1)) (z.map fun p => E p.1) (z.map Prod.snd) =
      (z.map fun p => p.2 • c.pair (E p.1) (D p.1)).sum := by
  simp only [bls]
  have : ((List.map (fun p : P × K => p.2 • p.1) ((z.map fun p => E p.1).zip (z.map Prod.snd))).zip
      (z.map fun p => c.prepare (D p.1))) =
      (z.map fun p => (p.2 • E p.1, D p.1)).map fun pq => (pq.1, c.prepare pq.2) := by
    induction z with
    | nil => rfl
    | cons p z ih => simp [ih]
  rw [this, c.multiPairing_prepare, List.map_map]
  congr 1
  apply List.map_congr_left
  intro p _
  simp

theorem sum_filter_ne_zero (z : List (UInt32 × K)) (f : UInt32 → T) :
    ((z.filter fun p => p.2 ≠ 0).map fun p => p.2 • f p.1).sum = (z.map fun p => p.2 • f p.1).sum := by
  induction z with
  | nil => rfl
  | cons p z ih =>
    by_cases hz : p.2 = 0
    · rw [List.filter_cons_of_neg (by simpa using hz), ih]; simp [hz]
    · rw [List.filter_cons_of_pos (by simpa using hz), List.map_cons, List.map_cons, List.sum_cons, List.sum_cons, ih]

theorem sum_zip_eq (l : List UInt32) (a : List K) (h : a.length = l.length) (g : UInt32 → K) :
    ((l.zip a).map fun p => p.2 * g p.1).sum = ∑ j ∈ range l.length, a.getD j 0 * g (l.getD j 0) := by
  induction l generalizing a with
  | nil => simp
  | cons x l ih =>
    cases a with
    | nil => simp at h
    | cons y a =>
      rw [List.zip_cons_cons, List.map_cons, List.sum_cons, ih a (by simpa using h), List.length_cons,
        Finset.sum_range_succ']
      simp; ring

/-- Decryption of an honest ciphertext with a key holding shares `lam` of secret `y'`. -/
theorem decrypt_keyOf (c : Curve K P Q QP T) {F : Node} {msp : Msp Int} (h : MspFor F msp) (tI : List K)
    (hb : Covers tI F) (lam : UInt32 → K) {y' : K} (hs : F.Shares lam y') (y s : K) (msg : T) (gamma : List UInt32) :
    ((∀ a ∈ gamma, a ∉ F.leaves) →
      decrypt (bls c) (ctOf c tI y s msg gamma) (keyOf c tI msp lam) =
        .err (.internalOperation "empty input matrix")) ∧
    ((∃ a ∈ gamma, a ∈ F.leaves) → ¬ F.Sat (· ∈ gamma) →
      decrypt (bls c) (ctOf c tI y s msg gamma) (keyOf c tI msp lam) = .ok none) ∧
    (F.Sat (· ∈ gamma) →
      decrypt (bls c) (ctOf c tI y s msg gamma) (keyOf c tI msp lam) =
        .ok (some (msg + (s * y) • c.genT - (s * y') • c.genT))) := by
  have hsel := selectRows_ok c h tI lam (ctOf c tI y s msg gamma) (fun a => (s * tOf tI a) • c.genP) gamma 0 (by
    intro j a hj; simp [ctOf, hj])
  set l := gamma.filter (· ∈ F.leaves) with hl
  have hlF : ∀ a ∈ l, a ∈ F.leaves := by intro a ha; simp [hl] at ha; exact ha.2
  have hsat : F.Sat (· ∈ l) ↔ F.Sat (· ∈ gamma) := by
    apply Node.sat_congr; intro a ha; simp [hl, ha]
  have hdec : decrypt (bls c) (ctOf c tI y s msg gamma) (keyOf c tI msp lam) = (do
      let coefs ← spanCoefs (l.map fun a => (rowOf msp a).map fun n : Int => (n : K))
      match coefs with
      | none => .ok none
      | some a => do
        let d ← keepNonZero a (l.map fun a => c.prepare ((lam a * (tOf tI a)⁻¹) • c.genQ)) 0
        let e ← keepNonZero a (l.map fun a => (s * tOf tI a) • c.genP) 0
        let a' := a.filter fun ai => ai ≠ 0
        let prod := (bls c).prodGtExp d e a'
        .ok (some (msg + (s * y) • c.genT - prod)) : Out (Option T)) := by
    unfold decrypt
    rw [show (ctOf c tI y s msg gamma).gamma = gamma from rfl, hsel]
    simp only [Res.ok_bind, List.map_map, Function.comp_def]
    rfl
  have hrect : Rect (l.map fun a => (rowOf msp a).map fun n : Int => (n : K)) msp.nbCol := by
    intro col hcol
    obtain ⟨a, ha, rfl⟩ := List.mem_map.1 hcol
    rw [List.length_map, h.rowOf_length (hlF a ha)]
  refine ⟨?_, ?_, ?_⟩
  · intro hno
    have hnil : l = [] := by
      rw [hl, List.filter_eq_nil_iff]; intro a ha; simpa using hno a ha
    rw [hdec, hnil]
    rfl
  · rintro ⟨a, ha1, ha2⟩ hns
    have hne : (l.map fun a => (rowOf msp a).map fun n : Int => (n : K)) ≠ [] := by
      intro h0
      rw [List.map_eq_nil_iff] at h0
      have : a ∈ l := by simp [hl, ha1, ha2]
      rw [h0] at this; simp at this
    rcases spanCoefs_spec hne h.nbCol_pos hrect with ⟨x, h1, h2, h3⟩ | ⟨h1, h2⟩
    · exfalso
      exact hns (hsat.1 ((h.span_iff l hlF).1 ⟨_, h3⟩))
    · rw [hdec, h1]; rfl
  · intro hS
    have hS' := hsat.2 hS
    obtain ⟨x0, hx0⟩ := (h.span_iff (K := K) l hlF).2 hS'
    have hne : (l.map fun a => (rowOf msp a).map fun n : Int => (n : K)) ≠ [] := by
      intro h0
      rw [List.map_eq_nil_iff] at h0
      obtain ⟨a, _, h2⟩ := Node.sat_leaf hS'
      rw [h0] at h2; simp at h2
    rcases spanCoefs_spec hne h.nbCol_pos hrect with ⟨x, h1, h2, h3⟩ | ⟨h1, h2⟩
    · rw [List.length_map] at h2
      rw [hdec, h1]
      simp only [Res.ok_bind]
      rw [keepNonZero_ok _ x l 0 (by omega), keepNonZero_ok _ x l 0 (by omega)]
      simp only [Res.ok_bind, List.drop_zero]
      rw [filter_zip_snd l x h2, prodGtExp_ok c (fun a => (lam a * (tOf tI a)⁻¹) • c.genQ)
        (fun a => (s * tOf tI a) • c.genP), sum_filter_ne_zero (l.zip x)
        (fun a => c.pair ((s * tOf tI a) • c.genP) ((lam a * (tOf tI a)⁻¹) • c.genQ))]
      have hterm : ((l.zip x).map fun p => p.2 • c.pair ((s * tOf tI p.1) • c.genP)
          ((lam p.1 * (tOf tI p.1)⁻¹) • c.genQ)) =
          (l.zip x).map fun p => (s * (p.2 * lam p.1)) • c.genT := by
        apply List.map_congr_left
        intro p hp
        have hpl : p.1 ∈ l := (List.of_mem_zip hp).1
        have ht := (hb p.1 (hlF _ hpl)).2
        rw [map_smul, map_smul, LinearMap.smul_apply, ← c.genT_eq, smul_smul, smul_smul]
        congr 1
        field_simp
      rw [hterm]
      have hfac : ((l.zip x).map fun p => (s * (p.2 * lam p.1)) • c.genT).sum =
          (s * ((l.zip x).map fun p => p.2 * lam p.1).sum) • c.genT := by
        generalize l.zip x = z
        induction z with
        | nil => simp
        | cons p z ih => rw [List.map_cons, List.map_cons, List.sum_cons, List.sum_cons, ih, ← add_smul, mul_add]
      rw [hfac, sum_zip_eq l x h2]
      obtain ⟨u, hul, hus, hrow⟩ := (h.shares' lam y').2 hs
      have happ := combines_apply hrect h3 hul
      rw [List.length_map, hus] at happ
      have : ∑ j ∈ range l.length, x.getD j 0 * lam (l.getD j 0) = y' := by
        rw [← happ]
        apply Finset.sum_congr rfl
        intro j hj
        simp at hj
        rw [getD_lt (l := l) hj, getD_lt (l := l.map _) (by simpa using hj), List.getElem_map,
          hrow _ (hlF _ (List.getElem_mem hj))]
      rw [this]
    · exact absurd hx0 (h2 x0)

end Abe
