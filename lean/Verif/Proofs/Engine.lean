import Verif.Spec.Keys
import Verif.Proofs.PolicyWf

/-! Engine operations in terms of the explicit keys and ciphertexts of `Verif.Proofs.Scheme`. -/

namespace Abe

set_option linter.unusedSectionVars false

variable {K P Q QP T : Type} [Field K] [DecidableEq K] [AddCommGroup P] [Module K P] [AddCommGroup Q] [Module K Q]
  [AddCommGroup T] [Module K T]

theorem generateMasterKey_ok (c : Curve K P Q QP T) (size : Nat) (rnd : Nat → K) (y : K)
    (h : ∀ i < size, rnd i ≠ 0) :
    generateMasterKey (bls c) size rnd y =
      .ok ⟨⟨genScalars rnd size, y⟩, pubOf c (genScalars rnd size) y, delOf c (genScalars rnd size)⟩ := by
  have hm : mapRes (fun ti : K => sdiv 1 ti) (genScalars rnd size) = .ok ((genScalars rnd size).map fun t => t⁻¹) := by
    apply mapRes_of_ok
    intro t ht
    unfold genScalars at ht
    rw [List.mem_map] at ht
    obtain ⟨i, hi, rfl⟩ := ht
    rw [List.mem_range] at hi
    unfold sdiv
    rw [if_neg (h i hi), one_mul]
  unfold generateMasterKey
  simp only [hm, Res.ok_bind]
  simp only [BilinearMap.g3GenExpVector, BilinearMap.g2GenExpVector, bls, pubOf, delOf, List.map_map, Function.comp_def]

theorem generateMasterKey_panic (c : Curve K P Q QP T) (size : Nat) (rnd : Nat → K) (y : K)
    (h : ∃ i < size, rnd i = 0) : generateMasterKey (bls c) size rnd y = .panic := by
  have hm : mapRes (fun ti : K => sdiv 1 ti) (genScalars rnd size) = .panic := by
    obtain ⟨i, hi, h0⟩ := h
    have hmem : (0 : K) ∈ genScalars rnd size := by
      unfold genScalars
      exact List.mem_map.2 ⟨i, List.mem_range.2 hi, h0⟩
    generalize genScalars rnd size = l at hmem
    clear hi h0
    induction l with
    | nil => simp at hmem
    | cons t l ih =>
      rw [mapRes_cons]
      by_cases ht : t = 0
      · simp [sdiv, ht, Res.panic_bind]
      · have hm' : (0 : K) ∈ l := by
          rcases List.mem_cons.1 hmem with h | h
          · exact absurd h.symm ht
          · exact h
        rw [ih hm']
        simp [sdiv, ht, Res.ok_bind, Res.panic_bind]
  unfold generateMasterKey
  simp only [hm]
  rfl

/-- A successful set-up. -/
theorem generateMasterKey_inv (c : Curve K P Q QP T) {size : Nat} {rnd : Nat → K} {y : K} {mk : MasterKey K P Q T}
    (h : generateMasterKey (bls c) size rnd y = .ok mk) :
    ∃ tI : List K, tI.length = size ∧ (∀ t ∈ tI, t ≠ 0) ∧
      mk = ⟨⟨tI, y⟩, pubOf c tI y, delOf c tI⟩ := by
  by_cases hz : ∃ i < size, rnd i = 0
  · rw [generateMasterKey_panic c size rnd y hz] at h; simp at h
  · push Not at hz
    rw [generateMasterKey_ok c size rnd y hz] at h
    simp only [Res.ok.injEq] at h
    refine ⟨genScalars rnd size, by simp [genScalars], ?_, h.symm⟩
    intro t ht
    unfold genScalars at ht
    rw [List.mem_map] at ht
    obtain ⟨i, hi, rfl⟩ := ht
    exact hz i (List.mem_range.1 hi)

theorem tOf_ne_zero {tI : List K} (hnz : ∀ t ∈ tI, t ≠ 0) {a : UInt32} (ha : a.toNat < tI.length) : tOf tI a ≠ 0 := by
  rw [← tOf_eq ha]; exact hnz _ (List.getElem_mem ha)

/-- What is known of a user key for access policy `ap`. -/
structure KeyOk (c : Curve K P Q QP T) (p : Policy) (tI : List K) (y : K) (ap : AccessPolicy) (F : Node) (msp : Msp Int)
    (lam : UInt32 → K) (key : DecryptionKey K QP Q) : Prop where
  mspFor : MspFor F msp
  form : FormOf p ap F
  key_eq : key = keyOf c tI msp lam
  shares : F.Shares lam y
  covers : Covers tI F
  compiled : policyToMsp p ap = .ok msp

theorem userKey_gen (c : Curve K P Q QP T) {p : Policy} (hw : p.WF) {tI : List K} (hnz : ∀ t ∈ tI, t ≠ 0) {y : K}
    {ap : AccessPolicy} {rnd : Nat → K} {key : DecryptionKey K QP Q}
    (h : engineGenerateUserKey (bls c) p ⟨tI, y⟩ ap rnd = .ok key) :
    ∃ F msp lam, KeyOk c p tI y ap F msp lam key := by
  unfold engineGenerateUserKey at h
  rcases policyToMsp_spec hw ap with ⟨_, m, F, h1, h2, h3⟩ | ⟨_, e, h1⟩
  · rw [h1] at h
    simp only [Res.ok_bind] at h
    rcases keyGeneration_cases c h2 tI y rnd hnz with ⟨g1, _⟩ | ⟨_, e, g2⟩
    · have hcov : Covers tI F := fun a ha => ⟨g1 a ha, tOf_ne_zero hnz (g1 a ha)⟩
      obtain ⟨lam, e1, e2⟩ := keyGeneration_shares c h2 tI y rnd hcov
      rw [e1] at h
      simp only [Res.ok.injEq] at h
      exact ⟨F, m, lam, h2, h3, h.symm, e2, hcov, h1⟩
    · rw [g2] at h; simp at h
  · rw [h1] at h; simp [Res.err_bind] at h

theorem Policy.Covers.trans {p : Policy} (hw : p.WF) {a b b' : Attribute} (hab : p.Covers a b) (hb' : p.Covers b b') :
    p.Covers a b' := by
  obtain ⟨s, t, h, h1, h2, h3, h4⟩ := hab
  obtain ⟨s', t', h', g1, g2, g3, g4⟩ := hb'
  refine ⟨s, t, h, h1, h2, g3.trans h3, ?_⟩
  rw [h3, h1] at g1
  simp only [Option.some.injEq, Prod.mk.injEq] at g1
  obtain ⟨g1, rfl⟩ := g1
  have hnd := hw.namesNodup _ _ _ h1
  rcases h4 with h4 | ⟨h4, h5⟩
  · rw [h4] at g1 g2 g4
    have hs' : s' = s := by
      rw [List.append_eq_append_iff] at g1
      rcases g1 with ⟨as, q1, q2⟩ | ⟨as, q1, q2⟩
      · cases as with
        | nil => simpa using q1
        | cons x as =>
          simp only [List.cons_append, List.cons.injEq] at q2
          exfalso; apply g2; rw [q1, q2.1]; simp
      · cases as with
        | nil => simpa using q1.symm
        | cons x as =>
          simp only [List.cons_append, List.cons.injEq] at q2
          exfalso; apply h2; rw [q1, q2.1]; simp
    subst hs'
    rcases g4 with g4 | ⟨g4, g5⟩
    · exact Or.inl g4
    · exact Or.inr ⟨g4, g5⟩
  · right
    refine ⟨h4, ?_⟩
    -- `b` is below `a`, so everything up to `b` is below `a`
    have hpre : s' ++ [b.name] <+: s := by
      have hsn : b.name ∉ a.name :: t := by
        intro hm
        exact (List.nodup_append.1 hnd).2.2 _ h5 _ hm rfl
      rw [List.append_eq_append_iff] at g1
      rcases g1 with ⟨as, q1, q2⟩ | ⟨as, q1, q2⟩
      · exfalso
        apply hsn
        rw [q2]; simp
      · cases as with
        | nil =>
          simp only [List.nil_append, List.cons.injEq] at q2
          exfalso; apply hsn; rw [q2.1]; simp
        | cons x as =>
          simp only [List.cons_append, List.cons.injEq] at q2
          rw [q1, q2.1]
          exact ⟨as, by simp⟩
    rcases g4 with g4 | ⟨_, g4⟩
    · rw [g4]; exact hpre.subset (by simp)
    · exact hpre.subset (by simp [g4])

theorem AccessPolicy.shares_restrict {p : Policy} {lam : UInt32 → K} {ap ap' : AccessPolicy}
    (h : ap.Restricts p ap') (hw : p.WF) : ∀ {y : K}, ap.Shares p lam y → ap'.Shares p lam y := by
  induction h with
  | refl => exact fun h => h
  | attr hab =>
    intro y hs b' hb' v hv
    exact hs b' (hab.trans hw hb') v hv
  | all _ =>
    intro y hs b' _ v hv
    exact hs b' v hv
  | orLeft _ ih => exact fun hs => ih hs.1
  | orRight _ ih => exact fun hs => ih hs.2
  | or _ _ ih1 ih2 => exact fun hs => ⟨ih1 hs, ih2 hs⟩
  | and _ _ ih1 ih2 =>
    rintro y ⟨y1, y2, h0, h1, h2⟩
    exact ⟨y1, y2, h0, ih1 h1, ih2 h2⟩
  | andSwap _ _ ih1 ih2 =>
    rintro y ⟨y1, y2, h0, h1, h2⟩
    exact ⟨y2, y1, by rw [add_comm]; exact h0, ih2 h2, ih1 h1⟩

theorem AccessPolicy.Grants.known {p : Policy} {b : Attribute} : ∀ {ap : AccessPolicy}, ap.Grants p b → p.Known b
  | .attr _, h => Policy.Covers.known h |>.2
  | .and _ _, h => h.elim AccessPolicy.Grants.known AccessPolicy.Grants.known
  | .or _ _, h => h.elim AccessPolicy.Grants.known AccessPolicy.Grants.known
  | .all, h => h

theorem AccessPolicy.grants_restrict {p : Policy} {ap ap' : AccessPolicy} (h : ap.Restricts p ap') (hw : p.WF)
    {b : Attribute} : ap'.Grants p b → ap.Grants p b := by
  induction h with
  | refl => exact fun h => h
  | attr hab => exact fun h => hab.trans hw h
  | all _ => exact fun h => AccessPolicy.Grants.known h
  | orLeft _ ih => exact fun h => Or.inl (ih h)
  | orRight _ ih => exact fun h => Or.inr (ih h)
  | or _ _ ih1 ih2 => exact fun h => h.elim ih1 ih2
  | and _ _ ih1 ih2 => exact fun h => h.imp ih1 ih2
  | andSwap _ _ ih1 ih2 => exact fun h => (h.imp ih2 ih1).symm

/-- Randomising a key. -/
theorem engineRandomise_ok (c : Curve K P Q QP T) {p p' : Policy} {tI : List K} {y : K} {ap : AccessPolicy} {F : Node}
    {msp : Msp Int} {lam : UInt32 → K} {key : DecryptionKey K QP Q} (h : KeyOk c p tI y ap F msp lam key) (rnd : Nat → K) :
    ∃ lam' key', engineDelegateUserKey (bls c) p' (delOf c tI) key .all rnd = .ok key' ∧
      KeyOk c p tI y ap F msp lam' key' := by
  obtain ⟨u, hu, hul, hus⟩ := sharingVector_ok h.mspFor.nbCol_pos (0 : K) rnd
  have hs := h.mspFor.shareOf_shares hul
  rw [hus] at hs
  refine ⟨fun a => lam a + shareOf msp u a, _, ?_, ⟨h.mspFor, h.form, rfl, by simpa using shares_add h.shares hs, h.covers, h.compiled⟩⟩
  rw [h.key_eq]
  unfold engineDelegateUserKey abeKeyDelegation
  simp only [Res.ok_bind]
  exact keyRandomization_ok c h.mspFor tI lam rnd (fun a ha => (h.covers a ha).1) hu

/-- Delegating a key to a restriction. -/
theorem engineDelegate_ok (c : Curve K P Q QP T) {p : Policy} (hw : p.WF) {tI : List K} {y : K}
    {ap ap' : AccessPolicy} {F : Node} {msp : Msp Int} {lam : UInt32 → K} {key : DecryptionKey K QP Q}
    (h : KeyOk c p tI y ap F msp lam key) (hr : ap.Restricts p ap') (hne : ap' ≠ .all) (hv : ap'.Valid p) (rnd : Nat → K) :
    ∃ F' msp' lam' key', engineDelegateUserKey (bls c) p (delOf c tI) key ap' rnd = .ok key' ∧
      KeyOk c p tI y ap' F' msp' lam' key' := by
  rcases policyToMsp_spec hw ap' with ⟨_, m, F', h1, h2, h3⟩ | ⟨hnv, _⟩
  · obtain ⟨u, hu, hul, hus⟩ := sharingVector_ok h2.nbCol_pos (0 : K) rnd
    have hs := h2.shareOf_shares hul
    rw [hus] at hs
    have hsub : ∀ a ∈ F'.leaves, a ∈ F.leaves := by
      intro v hv
      obtain ⟨b, hb, hbv⟩ := (h3.leaves v).1 hv
      exact (h.form.leaves v).2 ⟨b, AccessPolicy.grants_restrict hr hw hb, hbv⟩
    refine ⟨F', m, fun a => lam a + shareOf m u a, _, ?_, ⟨h2, h3, rfl, ?_, fun a ha => h.covers a (hsub a ha), h1⟩⟩
    · rw [h.key_eq]
      have hk := keyDelegation_ok c h.mspFor h2 tI lam rnd (fun a ha => (h.covers a (hsub a ha)).1) hsub hu
      cases ap' with
      | all => exact absurd rfl hne
      | attr a =>
        unfold engineDelegateUserKey abeKeyDelegation
        simp only [h1, Res.ok_bind]; exact hk
      | and l r =>
        unfold engineDelegateUserKey abeKeyDelegation
        simp only [h1, Res.ok_bind]; exact hk
      | or l r =>
        unfold engineDelegateUserKey abeKeyDelegation
        simp only [h1, Res.ok_bind]; exact hk
    · have h0 : F'.Shares lam y :=
        (h3.shares lam y).2 (AccessPolicy.shares_restrict hr hw ((h.form.shares lam y).1 h.shares))
      simpa using shares_add h0 hs
  · exact absurd hv hnv

theorem engineDelegate_valid (c : Curve K P Q QP T) {p : Policy} (hw : p.WF) {tI : List K}
    {ap' : AccessPolicy} {key key' : DecryptionKey K QP Q} (hne : ap' ≠ .all) {rnd : Nat → K}
    (h : engineDelegateUserKey (bls c) p (delOf c tI) key ap' rnd = .ok key') : ap'.Valid p := by
  by_contra hv
  rcases policyToMsp_spec hw ap' with ⟨h1, _⟩ | ⟨_, e, he⟩
  · exact hv h1
  · unfold engineDelegateUserKey at h
    cases ap' with
    | all => exact absurd rfl hne
    | attr a => simp [he, Res.err_bind] at h
    | and l r => simp [he, Res.err_bind] at h
    | or l r => simp [he, Res.err_bind] at h

/-- Every user key has the expected form. -/
theorem userKey_ok (c : Curve K P Q QP T) {p : Policy} (hw : p.WF) {tI : List K} (hnz : ∀ t ∈ tI, t ≠ 0) {y : K}
    {ap : AccessPolicy} {key : DecryptionKey K QP Q}
    (h : UserKey c p ⟨⟨tI, y⟩, pubOf c tI y, delOf c tI⟩ ap key) :
    ∃ F msp lam, KeyOk c p tI y ap F msp lam key := by
  induction h with
  | generate rnd h => exact userKey_gen c hw hnz h
  | randomise rnd _ h ih =>
    obtain ⟨F, msp, lam, ih⟩ := ih
    obtain ⟨lam', key', e1, e2⟩ := engineRandomise_ok c (p' := p) ih rnd
    simp only [] at h
    rw [e1] at h
    simp only [Res.ok.injEq] at h
    exact ⟨F, msp, lam', h ▸ e2⟩
  | delegate rnd _ hr hne h ih =>
    obtain ⟨F, msp, lam, ih⟩ := ih
    simp only [] at h
    obtain ⟨F', msp', lam', key', e1, e2⟩ := engineDelegate_ok c hw ih hr hne (engineDelegate_valid c hw hne h) rnd
    rw [e1] at h
    simp only [Res.ok.injEq] at h
    exact ⟨F', msp', lam', h ▸ e2⟩

/-- When encryption succeeds, and what it produces. -/
theorem encrypt_cases (c : Curve K P Q QP T) (t : Target) (tI : List K) (y s : K) (msg : T) (gamma : List UInt32) :
    (tI.length ≤ gamma.length ∧ 0 < tI.length ∧
      encrypt (bls c) t msg gamma (pubOf c tI y) s =
        .err (.internalOperation ("invalid attributes: gamma value incorrect (value: " ++ toString gamma.length ++ ", max expected size: " ++ toString (tI.length - 1) ++ ")"))) ∨
    (tI.length = 0) ∨
    (gamma.length < tI.length ∧ (∀ a ∈ gamma, a.toNat < tI.length) ∧
      encrypt (bls c) t msg gamma (pubOf c tI y) s = .ok (ctOf c tI y s msg gamma)) ∨
    (gamma.length < tI.length ∧ (∃ a ∈ gamma, tI.length ≤ a.toNat) ∧
      encrypt (bls c) t msg gamma (pubOf c tI y) s = .panic) := by
  have hlen : (pubOf c tI y).tI.length = tI.length := by simp [pubOf]
  by_cases h0 : tI.length = 0
  · right; left; exact h0
  · by_cases hl : tI.length ≤ gamma.length
    · left
      refine ⟨hl, by omega, ?_⟩
      unfold encrypt
      rw [hlen, if_pos hl]
      unfold Target.usub
      rw [if_pos (by omega)]
      rfl
    · right; right
      by_cases hb : ∀ a ∈ gamma, a.toNat < tI.length
      · left; exact ⟨by omega, hb, encrypt_ok c t tI y s msg gamma (by omega) hb⟩
      · right
        push Not at hb
        refine ⟨by omega, hb, ?_⟩
        unfold encrypt
        rw [hlen, if_neg hl]
        have hm : mapRes (fun i : UInt32 => (do
            let ti ← idx (pubOf c tI y).tI i.toNat
            .ok ((bls c).g2Exp ti s) : Out P)) gamma = .panic := by
          clear hl
          induction gamma with
          | nil => simp at hb
          | cons a gamma ih =>
            rw [mapRes_cons]
            by_cases ha : tI.length ≤ a.toNat
            · rw [idx_eq_panic.2 (by rw [hlen]; exact ha)]; rfl
            · have : ∃ b ∈ gamma, tI.length ≤ b.toNat := by
                obtain ⟨b, hb, hb'⟩ := hb
                rcases List.mem_cons.1 hb with rfl | hb
                · exact absurd hb' ha
                · exact ⟨b, hb, hb'⟩
              rw [ih this, idx_of_lt (by rw [hlen]; omega)]
              rfl
        simp only [hm]
        rfl

/-- A successful encryption. -/
theorem engineEncrypt_inv (c : Curve K P Q QP T) {t : Target} {p : Policy} (hw : p.WF) {tI : List K} {y s : K}
    {atts : List Attribute} {msg : T} {enc : CipherText P T}
    (h : engineEncrypt (bls c) t p (pubOf c tI y) atts msg s = .ok enc) :
    ∃ vs, p.attributesValues atts = .ok vs ∧ (∀ v, v ∈ vs ↔ ∃ a ∈ atts, p.currentValue a = some v) ∧
      (∀ a ∈ atts, p.Known a) ∧ vs.length = atts.length ∧ vs.length < tI.length ∧ (∀ v ∈ vs, v.toNat < tI.length) ∧
      enc = ctOf c tI y s msg vs := by
  unfold engineEncrypt at h
  rcases attributesValues_cases hw atts with ⟨h1, vs, h2, h3, h4, _⟩ | ⟨_, h2⟩
  · rw [h2] at h
    simp only [Res.ok_bind] at h
    rcases encrypt_cases c t tI y s msg vs with ⟨_, _, g⟩ | g | ⟨g1, g2, g⟩ | ⟨_, _, g⟩
    · rw [g] at h; simp at h
    · exfalso
      unfold encrypt at h
      rw [if_pos (by simp [pubOf, g])] at h
      unfold Target.usub at h
      simp only [pubOf, List.length_map, g] at h
      split at h
      · omega
      · split at h
        · simp at h
        · simp at h
    · rw [g] at h
      simp only [Res.ok.injEq] at h
      exact ⟨vs, h2, h4, h1, h3, g1, g2, h.symm⟩
    · rw [g] at h; simp at h
  · rw [h2] at h; simp [Res.err_bind] at h

/-- Exact outcome of decryption, for a key of policy `p` and a ciphertext with values `vs`. -/
theorem decrypt_exact (c : Curve K P Q QP T) {p : Policy} {tI : List K} {y : K} {ap : AccessPolicy} {F : Node}
    {msp : Msp Int} {lam : UInt32 → K} {key : DecryptionKey K QP Q} (hk : KeyOk c p tI y ap F msp lam key)
    (s : K) (msg : T) (vs : List UInt32) :
    (ap.Sat p (fun b => ∃ v, p.HasValue b v ∧ v ∈ vs) →
      engineDecrypt (bls c) (ctOf c tI y s msg vs) key = .ok (some msg)) ∧
    (¬ ap.Sat p (fun b => ∃ v, p.HasValue b v ∧ v ∈ vs) →
      (∃ b, ap.Grants p b ∧ ∃ v, p.HasValue b v ∧ v ∈ vs) →
      engineDecrypt (bls c) (ctOf c tI y s msg vs) key = .ok none) ∧
    (¬ (∃ b, ap.Grants p b ∧ ∃ v, p.HasValue b v ∧ v ∈ vs) →
      engineDecrypt (bls c) (ctOf c tI y s msg vs) key = .err (.internalOperation "empty input matrix")) := by
  obtain ⟨h1, h2, h3⟩ := decrypt_keyOf c hk.mspFor tI hk.covers lam hk.shares y s msg vs
  unfold engineDecrypt
  rw [hk.key_eq]
  refine ⟨?_, ?_, ?_⟩
  · intro hs
    rw [h3 ((hk.form.sat _).2 hs)]
    simp
  · intro hs hg
    apply h2
    · obtain ⟨b, hb, v, hv, hm⟩ := hg
      exact ⟨v, hm, (hk.form.leaves v).2 ⟨b, hb, hv⟩⟩
    · intro hc
      exact hs ((hk.form.sat _).1 hc)
  · intro hg
    apply h1
    intro v hv hl
    obtain ⟨b, hb, hbv⟩ := (hk.form.leaves v).1 hl
    exact hg ⟨b, hb, v, hbv, hv⟩

end Abe
