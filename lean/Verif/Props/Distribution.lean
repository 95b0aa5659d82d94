import Verif.Proofs.Generic
import Verif.Props.Delegation
import Verif.Props.DemoBytes

/-!
# Distribution of randomised and delegated keys

Property C77, and a part of C18.
-/

namespace Abe

set_option linter.unusedSectionVars false

variable {K P Q QP T : Type} [Field K] [DecidableEq K] [AddCommGroup P] [Module K P] [AddCommGroup Q] [Module K Q]
  [AddCommGroup T] [Module K T]

theorem prodScal_add {I : Type} (conv : I → K) : ∀ (row : List I) (u v : List K), u.length = v.length →
    prodScal conv row (List.zipWith (· + ·) u v) = prodScal conv row u + prodScal conv row v := by
  intro row u v h
  induction row generalizing u v with
  | nil => simp [prodScal_nil]
  | cons a row ih =>
    match u, v, h with
    | [], [], _ => simp [prodScal, reduceAdd]
    | x :: u, z :: v, h =>
      simp only [List.zipWith_cons_cons, prodScal_cons, ih u v (by simpa using h)]
      ring

theorem vecK_add {cols : Nat} (hc : 0 < cols) {u : List K} (hl : u.length = cols) {y : K} (hs : u.sum = y) (r : Nat → K) :
    vecK (fun i => r i + u.getD i 0) y cols = List.zipWith (· + ·) u (vecK r 0 cols) := by
  obtain ⟨n, rfl⟩ : ∃ n, cols = n + 1 := ⟨cols - 1, by omega⟩
  have hu : u = vecK (fun i => u.getD i 0) y (n + 1) := by
    have h1 := sharingVector_surj hc hl hs
    rw [sharingVector_vecK hc] at h1
    exact (Res.ok.inj h1).symm
  unfold vecK at hu ⊢
  simp only [Nat.add_sub_cancel] at hu ⊢
  have hlen : (genScalars (fun i => u.getD i 0) n).length = (genScalars r n).length := by simp [genScalars]
  have hsum : ∀ f g : Nat → K, (genScalars (fun i => f i + g i) n).sum = (genScalars f n).sum + (genScalars g n).sum := by
    intro f g
    unfold genScalars
    exact List.sum_map_add
  conv_rhs => rw [hu]
  rw [List.zipWith_append hlen, hsum]
  congr 1
  · unfold genScalars
    rw [List.zipWith_map_left, List.zipWith_map_right, List.zipWith_self]
    exact List.map_congr_left fun i _ => add_comm _ _
  · simp only [List.zipWith_cons_cons, List.zipWith_nil_left]
    congr 1
    ring

/-- A sharing of zero added to shares of `y`, as a shift of the randomness of generation. -/
theorem shift_shares (c : Curve K P Q QP T) {F : Node} {m : Msp Int} (h : MspFor F m) (tI : List K) {lam : UInt32 → K} {y : K} (hs : F.Shares lam y)
    (hcov : Covers tI F) : ∃ w : Nat → K, ∀ r : Nat → K,
      keyGeneration (bls c) m ⟨tI, y⟩ (fun i => r i + w i) = .ok (keyOf c tI m fun a => lam a + shareOf m (vecK r 0 m.nbCol) a) := by
  obtain ⟨u, hul, hus, hrow⟩ := (h.shares' lam y).2 hs
  refine ⟨fun i => u.getD i 0, fun r => ?_⟩
  rw [keyGeneration_ok c h tI y _ hcov (sharingVector_vecK h.nbCol_pos y _), vecK_add h.nbCol_pos hul hus]
  congr 1
  apply keyOf_congr c tI h
  intro a ha
  unfold shareOf
  have hv : (vecK r 0 m.nbCol).length = m.nbCol := by
    have := h.nbCol_pos
    unfold vecK genScalars
    simp
    omega
  rw [prodScal_add _ _ _ _ (by rw [hul, hv]), hrow a ha]

/-- Randomisation as a shift of the randomness of generation. -/
theorem randomised_shift (c : Curve K P Q QP T) {p : Policy} {tI : List K} {y : K} {ap : AccessPolicy} {F : Node} {msp : Msp Int} {lam : UInt32 → K}
    {key : DecryptionKey K QP Q} (hk : KeyOk c p tI y ap F msp lam key) (anyPolicy : Policy) :
    ∃ w : Nat → K, ∀ r, engineDelegateUserKey (bls c) anyPolicy (delOf c tI) key .all r = engineGenerateUserKey (bls c) p ⟨tI, y⟩ ap fun i => r i + w i := by
  obtain ⟨w, hw'⟩ := shift_shares c hk.mspFor tI hk.shares hk.covers
  refine ⟨w, fun r => ?_⟩
  unfold engineGenerateUserKey
  rw [hk.compiled, Res.ok_bind, hw' r, hk.key_eq]
  unfold engineDelegateUserKey abeKeyDelegation
  simp only [Res.ok_bind]
  exact keyRandomization_ok c hk.mspFor tI lam r (fun a ha => (hk.covers a ha).1) (sharingVector_vecK hk.mspFor.nbCol_pos 0 r)

/-- Delegation to a restriction as a shift of the randomness of generation. -/
theorem delegated_shift (c : Curve K P Q QP T) {p : Policy} (hw : p.WF) {tI : List K} {y : K} {ap ap' : AccessPolicy} {F : Node} {msp : Msp Int}
    {lam : UInt32 → K} {key : DecryptionKey K QP Q} (hk : KeyOk c p tI y ap F msp lam key) (hr : ap.Restricts p ap') (hne : ap' ≠ .all) (hv : ap'.Valid p) :
    ∃ w : Nat → K, ∀ r, engineDelegateUserKey (bls c) p (delOf c tI) key ap' r = engineGenerateUserKey (bls c) p ⟨tI, y⟩ ap' fun i => r i + w i := by
  rcases policyToMsp_spec hw ap' with ⟨_, m, F', h1, h2, h3⟩ | ⟨hnv, _⟩
  swap
  · exact absurd hv hnv
  have hsub : ∀ a ∈ F'.leaves, a ∈ F.leaves := by
    intro v hv
    obtain ⟨b, hb, hbv⟩ := (h3.leaves v).1 hv
    exact (hk.form.leaves v).2 ⟨b, AccessPolicy.grants_restrict hr hw hb, hbv⟩
  have h0 : F'.Shares lam y := (h3.shares lam y).2 (AccessPolicy.shares_restrict hr hw ((hk.form.shares lam y).1 hk.shares))
  obtain ⟨w, hw'⟩ := shift_shares c h2 tI h0 fun a ha => hk.covers a (hsub a ha)
  refine ⟨w, fun r => ?_⟩
  unfold engineGenerateUserKey
  rw [h1, Res.ok_bind, hw' r, hk.key_eq]
  have hd := keyDelegation_ok c hk.mspFor h2 tI lam r (fun a ha => (hk.covers a (hsub a ha)).1) hsub (sharingVector_vecK h2.nbCol_pos 0 r)
  cases ap' with
  | all => exact absurd rfl hne
  | attr a =>
    unfold engineDelegateUserKey abeKeyDelegation
    simp only [h1, Res.ok_bind]; exact hd
  | and l r =>
    unfold engineDelegateUserKey abeKeyDelegation
    simp only [h1, Res.ok_bind]; exact hd
  | or l r =>
    unfold engineDelegateUserKey abeKeyDelegation
    simp only [h1, Res.ok_bind]; exact hd

/-- **C77.** Randomised keys are distributed as fresh keys: for each key there is a shift of the random draws which turns randomisation into generation. -/
theorem C77_randomised_as_fresh (c : Curve K P Q QP T) {p : Policy} (hw : p.WF) {rnd : Nat → K} {y : K} {mk : MasterKey K P Q T}
    (hmk : engineGenerateMasterKey (bls c) p rnd y = .ok mk) {ap : AccessPolicy} {key : DecryptionKey K QP Q} (hkey : UserKey c p mk ap key)
    (anyPolicy : Policy) :
    ∃ w : Nat → K, ∀ r, engineDelegateUserKey (bls c) anyPolicy mk.delKey key .all r = engineGenerateUserKey (bls c) p mk.privKey ap fun i => r i + w i := by
  obtain ⟨tI, _, hnz, rfl⟩ := generateMasterKey_inv c hmk
  obtain ⟨F, msp, lam, hk⟩ := userKey_ok c hw hnz hkey
  exact randomised_shift c hk anyPolicy

/-- **C77.** So are keys delegated to a restriction: nothing of the parent key remains visible. -/
theorem C77_delegated_as_fresh (c : Curve K P Q QP T) {p : Policy} (hw : p.WF) {rnd : Nat → K} {y : K} {mk : MasterKey K P Q T}
    (hmk : engineGenerateMasterKey (bls c) p rnd y = .ok mk) {ap ap' : AccessPolicy} {key : DecryptionKey K QP Q} (hkey : UserKey c p mk ap key)
    (hr : ap.Restricts p ap') (hne : ap' ≠ .all) (hv : ap'.Valid p) :
    ∃ w : Nat → K, ∀ r, engineDelegateUserKey (bls c) p mk.delKey key ap' r = engineGenerateUserKey (bls c) p mk.privKey ap' fun i => r i + w i := by
  obtain ⟨tI, _, hnz, rfl⟩ := generateMasterKey_inv c hmk
  obtain ⟨F, msp, lam, hk⟩ := userKey_ok c hw hnz hkey
  exact delegated_shift c hw hk hr hne hv

/-- **C77.** Delegated keys do not reveal their origin: two keys, possibly for different access policies, delegated to a common restriction (or randomised, when
they are for the same access policy), give keys which differ by a shift of the random draws only. -/
theorem C77_unlinkable (c : Curve K P Q QP T) {p : Policy} (hw : p.WF) {rnd : Nat → K} {y : K} {mk : MasterKey K P Q T}
    (hmk : engineGenerateMasterKey (bls c) p rnd y = .ok mk) {ap1 ap2 ap' : AccessPolicy} {key1 key2 : DecryptionKey K QP Q}
    (hkey1 : UserKey c p mk ap1 key1) (hkey2 : UserKey c p mk ap2 key2) (hr1 : ap1.Restricts p ap') (hr2 : ap2.Restricts p ap') (hne : ap' ≠ .all)
    (hv : ap'.Valid p) :
    ∃ w : Nat → K, ∀ r, engineDelegateUserKey (bls c) p mk.delKey key1 ap' r = engineDelegateUserKey (bls c) p mk.delKey key2 ap' fun i => r i + w i := by
  obtain ⟨w1, h1⟩ := C77_delegated_as_fresh c hw hmk hkey1 hr1 hne hv
  obtain ⟨w2, h2⟩ := C77_delegated_as_fresh c hw hmk hkey2 hr2 hne hv
  refine ⟨fun i => w1 i - w2 i, fun r => ?_⟩
  rw [h1, h2]
  congr 1
  funext i
  ring

/-- Draws of which the first `n` count. -/
def ext {n : Nat} (r : Fin n → K) (i : Nat) : K := if h : i < n then r ⟨i, h⟩ else 0

/-- A shift of the draws does not change how many of them give a result. -/
theorem count_shift [Fintype K] {α : Type} (n : Nat) {f g : (Nat → K) → α} (hg : ∀ r r' : Nat → K, (∀ i < n, r i = r' i) → g r = g r') {w : Nat → K}
    (h : ∀ r, f r = g fun i => r i + w i) (S : α → Prop) [DecidablePred S] :
    (Finset.univ.filter fun r : Fin n → K => S (f (ext r))).card = (Finset.univ.filter fun r : Fin n → K => S (g (ext r))).card := by
  refine Finset.card_bij (fun r _ i => r i + w i) ?_ ?_ ?_
  · intro r hr
    rw [Finset.mem_filter] at hr ⊢
    refine ⟨Finset.mem_univ _, ?_⟩
    rw [h] at hr
    rw [hg _ (fun i => ext r i + w i)]
    · exact hr.2
    · intro i hi
      simp [ext, hi]
  · intro r _ r' _ he
    funext i
    exact add_right_cancel (congrFun he i)
  · intro r hr
    rw [Finset.mem_filter] at hr
    refine ⟨fun i => r i - w i, ?_, by funext i; simp⟩
    rw [Finset.mem_filter]
    refine ⟨Finset.mem_univ _, ?_⟩
    rw [h, hg _ (ext r)]
    · exact hr.2
    · intro i hi
      simp [ext, hi]

/-- **C77.** In numbers: of the random draws for a delegation (of which the first `n` count), as many give a key in any set of keys as of the draws for the
generation of a key for the same access policy. -/
theorem C77_same_probabilities [Fintype K] (c : Curve K P Q QP T) {p : Policy} (hw : p.WF) {rnd : Nat → K} {y : K} {mk : MasterKey K P Q T}
    (hmk : engineGenerateMasterKey (bls c) p rnd y = .ok mk) {ap ap' : AccessPolicy} {key : DecryptionKey K QP Q} (hkey : UserKey c p mk ap key)
    (hr : ap.Restricts p ap') (hne : ap' ≠ .all) (hv : ap'.Valid p) {n : Nat} (hn : ∀ m, policyToMsp p ap' = .ok m → m.nbCol ≤ n + 1)
    (S : Out (DecryptionKey K QP Q) → Prop) [DecidablePred S] :
    (Finset.univ.filter fun r : Fin n → K => S (engineDelegateUserKey (bls c) p mk.delKey key ap' (ext r))).card =
      (Finset.univ.filter fun r : Fin n → K => S (engineGenerateUserKey (bls c) p mk.privKey ap' (ext r))).card := by
  obtain ⟨w, hw'⟩ := C77_delegated_as_fresh c hw hmk hkey hr hne hv
  refine count_shift n (fun r r' h => ?_) hw' S
  unfold engineGenerateUserKey
  cases hm : policyToMsp p ap' with
  | ok m =>
    simp only [Res.ok_bind]
    have hsv : sharingVector m.nbCol mk.privKey.y r = sharingVector m.nbCol mk.privKey.y r' := by
      rcases Nat.eq_zero_or_pos m.nbCol with h0 | h0
      · rw [h0]; rfl
      · rw [sharingVector_vecK h0, sharingVector_vecK h0, vecK_congr fun i hi => h i (by have := hn m hm; omega)]
    unfold keyGeneration
    rw [hsv]
  | err e => rfl
  | panic => rfl

open Classical in
/-- **C18.** Of the `q ^ size` possible draws of the scalars of a master key, exactly `(q - 1) ^ size` give a master key; the others make the code panic. -/
theorem C18_count [Fintype K] (c : Curve K P Q QP T) (size : Nat) (y : K) :
    (Finset.univ.filter fun r : Fin size → K => ∃ mk, generateMasterKey (bls c) size (ext r) y = .ok mk).card = (Fintype.card K - 1) ^ size ∧
    (Finset.univ.filter fun r : Fin size → K => generateMasterKey (bls c) size (ext r) y = .panic).card =
      Fintype.card K ^ size - (Fintype.card K - 1) ^ size := by
  have hok : ∀ r : Fin size → K, (∃ mk, generateMasterKey (bls c) size (ext r) y = .ok mk) ↔ ∀ i, r i ≠ 0 := by
    intro r
    constructor
    · rintro ⟨mk, h⟩ i hi
      rw [generateMasterKey_panic c size (ext r) y ⟨i, i.2, by simpa [ext] using hi⟩] at h
      simp at h
    · intro h
      exact ⟨_, generateMasterKey_ok c size (ext r) y fun i hi => by simpa [ext, hi] using h ⟨i, hi⟩⟩
  have hpanic : ∀ r : Fin size → K, generateMasterKey (bls c) size (ext r) y = .panic ↔ ¬ ∃ mk, generateMasterKey (bls c) size (ext r) y = .ok mk := by
    intro r
    constructor
    · rintro h ⟨mk, h'⟩
      rw [h] at h'
      simp at h'
    · intro h
      rw [hok] at h
      push Not at h
      obtain ⟨i, hi⟩ := h
      exact generateMasterKey_panic c size (ext r) y ⟨i, i.2, by simpa [ext] using hi⟩
  have h1 : (Finset.univ.filter fun r : Fin size → K => ∃ mk, generateMasterKey (bls c) size (ext r) y = .ok mk).card = (Fintype.card K - 1) ^ size := by
    rw [show (Finset.univ.filter fun r : Fin size → K => ∃ mk, generateMasterKey (bls c) size (ext r) y = .ok mk) =
      Fintype.piFinset fun _ : Fin size => Finset.univ.erase (0 : K) by
        ext r
        simp [hok r, Fintype.mem_piFinset]]
    rw [Fintype.card_piFinset_const, Finset.card_erase_of_mem (Finset.mem_univ _), Finset.card_univ]
  refine ⟨h1, ?_⟩
  simp only [hpanic]
  rw [← Finset.compl_filter, Finset.card_compl, h1, Fintype.card_fun, Fintype.card_fin]

open Classical in
/-- With 11 scalars and a master key of size 2, 100 of 121 draws give a master key. -/
example (y : Demo.F) : (Finset.univ.filter fun r : Fin 2 → Demo.F => generateMasterKey (bls Demo.curveF) 2 (ext r) y = .panic).card = 21 := by
  have := (C18_count Demo.curveF 2 y).2
  rw [ZMod.card] at this
  exact this.trans (by decide)

namespace Demo

/-- `Low && HR` is a valid restriction of `High && (HR || MKG)`. -/
theorem lowHr_restricts : ap.Restricts policy (.and (.attr low) (.attr hr)) := .and (.attr covers_high_low) (.orLeft (.refl _))

theorem lowHr_valid : (AccessPolicy.and (.attr low) (.attr hr)).Valid policy :=
  ⟨⟨trivial, trivial⟩, by
    rintro a (h | h)
    · exact known a (by simp [show a = low from h])
    · exact known a (by simp [show a = hr from h]), trivial, trivial, by
    rintro b ⟨h1, h2⟩
    have h2 := covers_hr.1 h2
    subst h2
    obtain ⟨_, _, _, _, _, h, _⟩ := h1
    exact absurd h (by decide +kernel)⟩

/-- **C77** for two keys, one of them randomised, delegated to `Low && HR`, and for the randomisation. -/
example : ∃ key1 key2, UserKey curveF policy mkF ap key1 ∧ UserKey curveF policy mkF ap key2 ∧
    (∃ w : Nat → F, ∀ r, engineDelegateUserKey (bls curveF) policy mkF.delKey key1 .all r = engineGenerateUserKey (bls curveF) policy mkF.privKey ap
      fun i => r i + w i) ∧
    ∃ w : Nat → F, ∀ r, engineDelegateUserKey (bls curveF) policy mkF.delKey key1 (.and (.attr low) (.attr hr)) r =
      engineDelegateUserKey (bls curveF) policy mkF.delKey key2 (.and (.attr low) (.attr hr)) fun i => r i + w i := by
  have hw := reachable_wf policy_reachable
  obtain ⟨key1, h1⟩ := keyF_exists
  have hk1 : UserKey curveF policy mkF ap key1 := .generate _ h1
  obtain ⟨w, hr⟩ := C77_randomised_as_fresh curveF hw mkF_eq hk1 policy
  obtain ⟨key2, h2⟩ := ((C11_randomisation curveF hw mkF_eq hk1 policy).1 fun _ => 5)
  have hk2 : UserKey curveF policy mkF ap key2 := .randomise _ hk1 h2.1
  exact ⟨key1, key2, hk1, hk2, ⟨w, hr⟩, C77_unlinkable curveF hw mkF_eq hk1 hk2 lowHr_restricts lowHr_restricts (by simp) lowHr_valid⟩

/-- Every key for `Low && HR` comes from as many of the 11 draws of a delegation as of a generation. -/
example (key : DecryptionKey F F F) (hk : UserKey curveF policy mkF ap key) (S : Out (DecryptionKey F F F) → Prop) [DecidablePred S] :
    (Finset.univ.filter fun r : Fin 1 → F => S (engineDelegateUserKey (bls curveF) policy mkF.delKey key (.and (.attr low) (.attr hr)) (ext r))).card =
      (Finset.univ.filter fun r : Fin 1 → F => S (engineGenerateUserKey (bls curveF) policy mkF.privKey (.and (.attr low) (.attr hr)) (ext r))).card := by
  refine C77_same_probabilities curveF (reachable_wf policy_reachable) mkF_eq hk lowHr_restricts (by simp) lowHr_valid (fun m hm => ?_) S
  have : (match policyToMsp policy (.and (.attr low) (.attr hr)) with | .ok m => decide (m.nbCol ≤ 1 + 1) | _ => true) = true := by decide +kernel
  rw [hm] at this
  simpa using this

end Demo

end Abe
