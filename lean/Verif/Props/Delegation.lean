import Verif.Props.Access

/-!
# Randomisation, delegation, privacy of key parts, collusion

Properties C11–C16.
-/

namespace Abe

set_option linter.unusedSectionVars false

open Finset

variable {K P Q QP T : Type} [Field K] [DecidableEq K] [AddCommGroup P] [Module K P] [AddCommGroup Q] [Module K Q]
  [AddCommGroup T] [Module K T]

theorem shares_sub {lam lam' : UInt32 → K} {n : Node} {y y' : K} (h : n.Shares lam y) (h' : n.Shares lam' y') :
    n.Shares (fun a => lam a - lam' a) (y - y') := by
  have := shares_add h (shares_smul (-1) h')
  simpa [sub_eq_add_neg] using this

/-- **C11.** Randomising a user key (delegation with access policy `All`, whatever policy is passed) always succeeds; the
result has the same span program, decrypts every ciphertext as the original does, and is a key that generation could
have produced; conversely every key that generation can produce for this access policy is reached by some randomness. -/
theorem C11_randomisation (c : Curve K P Q QP T) {p : Policy} (hw : p.WF) {rnd : Nat → K} {y : K}
    {mk : MasterKey K P Q T} (hmk : engineGenerateMasterKey (bls c) p rnd y = .ok mk)
    {ap : AccessPolicy} {key : DecryptionKey K QP Q} (hkey : UserKey c p mk ap key) (anyPolicy : Policy) :
    (∀ r, ∃ key', engineDelegateUserKey (bls c) anyPolicy mk.delKey key .all r = .ok key' ∧ key'.msp = key.msp ∧
      (∀ (t : Target) (gamma : List UInt32) (msg : T) (s : K) (enc : CipherText P T),
        encrypt (bls c) t msg gamma mk.pubKey s = .ok enc →
        engineDecrypt (bls c) enc key' = engineDecrypt (bls c) enc key) ∧
      ∃ r', engineGenerateUserKey (bls c) p mk.privKey ap r' = .ok key') ∧
    (∀ r' key', engineGenerateUserKey (bls c) p mk.privKey ap r' = .ok key' →
      ∃ r, engineDelegateUserKey (bls c) anyPolicy mk.delKey key .all r = .ok key') := by
  obtain ⟨tI, _, hnz, rfl⟩ := generateMasterKey_inv c hmk
  obtain ⟨F, msp, lam, hk⟩ := userKey_ok c hw hnz hkey
  constructor
  · intro r
    obtain ⟨lam', key', h1, hk'⟩ := engineRandomise_ok c (p' := anyPolicy) hk r
    refine ⟨key', h1, by rw [hk'.key_eq, hk.key_eq]; rfl, ?_, ?_⟩
    · intro t gamma msg s enc henc
      rcases encrypt_cases c t tI y s msg gamma with ⟨_, _, g⟩ | g | ⟨_, _, g⟩ | ⟨_, _, g⟩
      · rw [g] at henc; simp at henc
      · exfalso
        obtain ⟨a, ha⟩ := List.exists_mem_of_ne_nil _ F.leaves_ne_nil
        have := (hk.covers a ha).1
        omega
      · rw [g] at henc
        simp only [Res.ok.injEq] at henc
        subst henc
        obtain ⟨h1, h2, h3⟩ := decrypt_exact c hk s msg gamma
        obtain ⟨h1', h2', h3'⟩ := decrypt_exact c hk' s msg gamma
        by_cases hs : ap.Sat p fun b => ∃ v, p.HasValue b v ∧ v ∈ gamma
        · rw [h1 hs, h1' hs]
        · by_cases hg : ∃ b, ap.Grants p b ∧ ∃ v, p.HasValue b v ∧ v ∈ gamma
          · rw [h2 hs hg, h2' hs hg]
          · rw [h3 hg, h3' hg]
      · rw [g] at henc; simp at henc
    · obtain ⟨r', hr'⟩ := keyGeneration_surj c hk'.mspFor tI y hk'.covers hk'.shares
      refine ⟨r', ?_⟩
      unfold engineGenerateUserKey
      rw [hk'.compiled, Res.ok_bind, hr', hk'.key_eq]
  · intro r' key' hgen
    obtain ⟨F2, msp2, lam2, hk2⟩ := userKey_gen c hw hnz hgen
    have hmsp : msp2 = msp := by
      have := hk2.compiled
      rw [hk.compiled] at this
      simpa using this.symm
    subst hmsp
    have hl : ∀ a, a ∈ F.leaves ↔ a ∈ F2.leaves := fun a => by
      rw [← hk.mspFor.perm.mem_iff, ← hk2.mspFor.perm.mem_iff]
    have hsh : F.Shares lam2 y := (hk.mspFor.shares lam2 y).1 ((hk2.mspFor.shares lam2 y).2 hk2.shares)
    have hd := shares_sub hsh hk.shares
    rw [sub_self] at hd
    obtain ⟨u, hul, hus, hrow⟩ := (hk.mspFor.shares' _ _).2 hd
    refine ⟨fun i => u.getD i 0, ?_⟩
    rw [hk.key_eq, hk2.key_eq]
    unfold engineDelegateUserKey abeKeyDelegation
    simp only [Res.ok_bind]
    rw [keyRandomization_ok c hk.mspFor tI lam _ (fun a ha => (hk.covers a ha).1)
      (sharingVector_surj hk.mspFor.nbCol_pos hul hus)]
    congr 1
    apply keyOf_congr c tI hk.mspFor
    intro a ha
    have hrow' := hrow a ha
    obtain ⟨i, _, q2, q3⟩ := hk.mspFor.row_of_mem ha
    rw [← prodScal_map, hk.mspFor.shareOf_row u q3 q2] at hrow'
    rw [hrow']; ring

/-- The demo key can be randomised. -/
example : ∃ key key', UserKey Demo.curve Demo.policy Demo.mk Demo.ap key ∧
    engineDelegateUserKey (bls Demo.curve) Demo.policy Demo.mk.delKey key .all Demo.draws = .ok key' := by
  obtain ⟨key, hkey⟩ := Demo.key_exists
  obtain ⟨key', h, _⟩ := (C11_randomisation Demo.curve (reachable_wf Demo.policy_reachable) Demo.mk_eq (.generate _ hkey)
    Demo.policy).1 Demo.draws
  exact ⟨key, key', .generate _ hkey, h⟩

/-- **C12.** Delegation to a (valid) restriction always succeeds; the delegated key opens exactly the ciphertexts whose
attributes satisfy the new access policy, and is again a user key (so it can be delegated further). -/
theorem C12_delegation_to_restriction (c : Curve K P Q QP T) {p : Policy} (hw : p.WF) {rnd : Nat → K} {y : K}
    {mk : MasterKey K P Q T} (hmk : engineGenerateMasterKey (bls c) p rnd y = .ok mk)
    {ap ap' : AccessPolicy} {key : DecryptionKey K QP Q} (hkey : UserKey c p mk ap key)
    (hr : ap.Restricts p ap') (hne : ap' ≠ .all) (hv : ap'.Valid p) (r : Nat → K) :
    ∃ key', engineDelegateUserKey (bls c) p mk.delKey key ap' r = .ok key' ∧ UserKey c p mk ap' key' ∧
      ∀ (t : Target) (atts : List Attribute) (msg : T) (s : K) (enc : CipherText P T),
        engineEncrypt (bls c) t p mk.pubKey atts msg s = .ok enc →
        (engineDecrypt (bls c) enc key' = .ok (some msg) ↔ ap'.Sat p (· ∈ atts)) ∧
        ∀ m, engineDecrypt (bls c) enc key' = .ok (some m) → m = msg := by
  have hmk' := hmk
  obtain ⟨tI, _, hnz, rfl⟩ := generateMasterKey_inv c hmk
  obtain ⟨F, msp, lam, hk⟩ := userKey_ok c hw hnz hkey
  obtain ⟨F', msp', lam', key', h1, _⟩ := engineDelegate_ok c hw hk hr hne hv r
  have huser := UserKey.delegate r hkey hr hne h1
  refine ⟨key', h1, huser, ?_⟩
  intro t atts msg s enc henc
  by_cases hs : ap'.Sat p (· ∈ atts)
  · have := C01_authorised_decryption c hw hmk' huser henc hs
    refine ⟨⟨fun _ => hs, fun _ => this⟩, fun m hm => ?_⟩
    rw [this] at hm
    simpa using hm.symm
  · obtain ⟨g1, g2⟩ := C02_unauthorised_decryption c hw hmk' huser henc hs
    by_cases hg : ∃ b ∈ atts, ap'.Grants p b
    · rw [g1 hg]
      exact ⟨⟨fun h => by simp at h, fun h => absurd h hs⟩, fun m hm => by simp at hm⟩
    · push Not at hg
      rw [g2 hg]
      exact ⟨⟨fun h => by simp at h, fun h => absurd h hs⟩, fun m hm => by simp at hm⟩

theorem Demo.covers_high_low : Demo.policy.Covers Demo.high Demo.low :=
  ⟨["Low"], [], true, by decide +kernel, by decide +kernel, rfl, Or.inr ⟨rfl, by decide +kernel⟩⟩

theorem Demo.covers_hr {b : Attribute} : Demo.policy.Covers Demo.hr b ↔ b = Demo.hr := by
  have hh : hget Demo.policy.axes Demo.hr.axis = some (["RnD", "HR", "MKG"], false) := by decide +kernel
  constructor
  · rintro ⟨s, t, h, h0, _, h1, h2⟩
    rw [hh] at h0
    simp only [Option.some.injEq, Prod.mk.injEq] at h0
    rcases h2 with h2 | ⟨rfl, _⟩
    · cases b; simp_all [Demo.hr]
    · simp at h0
  · rintro rfl
    exact ⟨["RnD"], ["MKG"], false, by decide +kernel, by decide +kernel, rfl, Or.inl rfl⟩

theorem Demo.covers_mkg {b : Attribute} : Demo.policy.Covers Demo.mkg b ↔ b = Demo.mkg := by
  have hh : hget Demo.policy.axes Demo.mkg.axis = some (["RnD", "HR", "MKG"], false) := by decide +kernel
  constructor
  · rintro ⟨s, t, h, h0, _, h1, h2⟩
    rw [hh] at h0
    simp only [Option.some.injEq, Prod.mk.injEq] at h0
    rcases h2 with h2 | ⟨rfl, _⟩
    · cases b; simp_all [Demo.mkg]
    · simp at h0
  · rintro rfl
    exact ⟨["RnD", "HR"], [], false, by decide +kernel, by decide +kernel, rfl, Or.inl rfl⟩

theorem Demo.known (a : Attribute) (h : a ∈ [Demo.low, Demo.high, Demo.hr, Demo.mkg, Demo.rnd']) : Demo.policy.Known a := by
  simp only [List.mem_cons, List.not_mem_nil, or_false] at h
  rcases h with rfl | rfl | rfl | rfl | rfl
  · exact ⟨["Low", "High"], true, by decide +kernel, by decide +kernel⟩
  · exact ⟨["Low", "High"], true, by decide +kernel, by decide +kernel⟩
  · exact ⟨["RnD", "HR", "MKG"], false, by decide +kernel, by decide +kernel⟩
  · exact ⟨["RnD", "HR", "MKG"], false, by decide +kernel, by decide +kernel⟩
  · exact ⟨["RnD", "HR", "MKG"], false, by decide +kernel, by decide +kernel⟩

/-- From `High && (HR || MKG)` to `Low && HR`. -/
example : ∃ key key', UserKey Demo.curve Demo.policy Demo.mk Demo.ap key ∧
    engineDelegateUserKey (bls Demo.curve) Demo.policy Demo.mk.delKey key (.and (.attr Demo.low) (.attr Demo.hr)) Demo.draws
      = .ok key' := by
  obtain ⟨key, hkey⟩ := Demo.key_exists
  obtain ⟨key', h, _⟩ := C12_delegation_to_restriction Demo.curve (reachable_wf Demo.policy_reachable) Demo.mk_eq
    (.generate _ hkey) (ap' := .and (.attr Demo.low) (.attr Demo.hr))
    (.and (.attr Demo.covers_high_low) (.orLeft (.refl _))) (by simp)
    ⟨⟨trivial, trivial⟩, by
      rintro a (h | h)
      · exact Demo.known a (by simp [show a = Demo.low from h])
      · exact Demo.known a (by simp [show a = Demo.hr from h]), trivial, trivial, by
      rintro b ⟨h1, h2⟩
      have h2 := Demo.covers_hr.1 h2
      subst h2
      obtain ⟨_, _, _, _, _, h, _⟩ := h1
      exact absurd h (by decide +kernel)⟩ Demo.draws
  exact ⟨key, key', .generate _ hkey, h⟩

/-- **C13.** Delegation that introduces an `And` is accepted but yields broken keys.  Let `l` and `r` be restrictions of the
access policy of a key (for instance the two sides of an `Or`, as the documentation at /repo/src/core/engine.rs:63-71
allows, or any two attributes for an `All` key).  Delegation to `l && r` succeeds, and every ciphertext satisfying
`l && r` is then decrypted to the message shifted by the mask `(s * y) • genT`, which is a wrong message unless the
master secret or the encryption randomness is zero. -/
theorem C13_delegation_to_and_broken (c : Curve K P Q QP T) {p : Policy} (hw : p.WF) {rnd : Nat → K} {y : K}
    {mk : MasterKey K P Q T} (hmk : engineGenerateMasterKey (bls c) p rnd y = .ok mk)
    {ap l r : AccessPolicy} {key : DecryptionKey K QP Q} (hkey : UserKey c p mk ap key)
    (hl : ap.Restricts p l) (hr : ap.Restricts p r) (hv : (AccessPolicy.and l r).Valid p) (rand : Nat → K) :
    ∃ key', engineDelegateUserKey (bls c) p mk.delKey key (.and l r) rand = .ok key' ∧
      ∀ (t : Target) (atts : List Attribute) (msg : T) (s : K) (enc : CipherText P T),
        engineEncrypt (bls c) t p mk.pubKey atts msg s = .ok enc →
        l.Sat p (· ∈ atts) → r.Sat p (· ∈ atts) →
        engineDecrypt (bls c) enc key' = .ok (some (msg - (s * y) • c.genT)) ∧
        (s ≠ 0 → y ≠ 0 → engineDecrypt (bls c) enc key' ≠ .ok (some msg)) := by
  obtain ⟨tI, _, hnz, rfl⟩ := generateMasterKey_inv c hmk
  obtain ⟨F, msp, lam, hk⟩ := userKey_ok c hw hnz hkey
  rcases policyToMsp_spec hw (.and l r) with ⟨_, m, F', h1, h2, h3⟩ | ⟨hnv, _⟩
  · obtain ⟨u, hu, hul, hus⟩ := sharingVector_ok h2.nbCol_pos (0 : K) rand
    have hs := h2.shareOf_shares hul
    rw [hus] at hs
    have hsub : ∀ a ∈ F'.leaves, a ∈ F.leaves := by
      intro v hv
      obtain ⟨b, hb, hbv⟩ := (h3.leaves v).1 hv
      refine (hk.form.leaves v).2 ⟨b, ?_, hbv⟩
      rcases hb with hb | hb
      · exact AccessPolicy.grants_restrict hl hw hb
      · exact AccessPolicy.grants_restrict hr hw hb
    have hshare : F'.Shares (fun a => lam a + shareOf m u a) (y + y) := by
      have hap := (hk.form.shares lam y).1 hk.shares
      have h0 : F'.Shares lam (y + y) := (h3.shares lam (y + y)).2
        ⟨y, y, rfl, AccessPolicy.shares_restrict hl hw hap, AccessPolicy.shares_restrict hr hw hap⟩
      simpa using shares_add h0 hs
    refine ⟨keyOf c tI m fun a => lam a + shareOf m u a, ?_, ?_⟩
    · rw [hk.key_eq]
      unfold engineDelegateUserKey abeKeyDelegation
      simp only [h1, Res.ok_bind]
      exact keyDelegation_ok c hk.mspFor h2 tI lam rand (fun a ha => (hk.covers a (hsub a ha)).1) hsub hu
    · intro t atts msg s enc henc hsl hsr
      obtain ⟨vs, _, hvs, _, _, _, _, rfl⟩ := engineEncrypt_inv c hw henc
      have hsat : F'.Sat (· ∈ vs) := by
        rw [h3.sat]
        exact (AccessPolicy.sat_congr (fun b hb => hasValue_same hw hvs hb) (.and l r)).2 ⟨hsl, hsr⟩
      have hdec := (decrypt_keyOf c h2 tI (fun a ha => hk.covers a (hsub a ha)) _ hshare y s msg vs).2.2 hsat
      have heq : msg + (s * y) • c.genT - (s * (y + y)) • c.genT = msg - (s * y) • c.genT := by
        rw [mul_add, add_smul]; abel
      rw [heq] at hdec
      unfold engineDecrypt
      refine ⟨hdec, fun hs0 hy0 h => ?_⟩
      rw [hdec] at h
      simp only [Res.ok.injEq, Option.some.injEq, sub_eq_self, smul_eq_zero, mul_eq_zero, hs0, hy0, or_self,
        false_or] at h
      exact c.genT_ne_zero h
  · exact absurd hv hnv

/-- A key for `HR || MKG` delegated to `HR && MKG` decrypts the message 5 to 5 − 11·3 = −28. -/
example : ∃ key key' enc,
    engineGenerateUserKey (bls Demo.curve) Demo.policy Demo.mk.privKey (.or (.attr Demo.hr) (.attr Demo.mkg)) Demo.draws = .ok key ∧
    engineDelegateUserKey (bls Demo.curve) Demo.policy Demo.mk.delKey key (.and (.attr Demo.hr) (.attr Demo.mkg)) Demo.draws
      = .ok key' ∧
    engineEncrypt (bls Demo.curve) .debug64 Demo.policy Demo.mk.pubKey [Demo.hr, Demo.mkg] 5 11 = .ok enc ∧
    engineDecrypt (bls Demo.curve) enc key' = .ok (some (-28)) := by
  obtain ⟨key, hkey⟩ : ∃ key, engineGenerateUserKey (bls Demo.curve) Demo.policy Demo.mk.privKey
    (.or (.attr Demo.hr) (.attr Demo.mkg)) Demo.draws = .ok key := Demo.exists_of_isOk (by decide +kernel)
  obtain ⟨enc, henc⟩ : ∃ enc, engineEncrypt (bls Demo.curve) .debug64 Demo.policy Demo.mk.pubKey
    [Demo.hr, Demo.mkg] 5 11 = .ok enc := Demo.exists_of_isOk (by decide +kernel)
  obtain ⟨key', h, h'⟩ := C13_delegation_to_and_broken Demo.curve (reachable_wf Demo.policy_reachable) Demo.mk_eq
    (.generate _ hkey) (l := .attr Demo.hr) (r := .attr Demo.mkg) (.orLeft (.refl _)) (.orRight (.refl _))
    ⟨⟨trivial, trivial⟩, by
      rintro a (h | h)
      · exact Demo.known a (by simp [show a = Demo.hr from h])
      · exact Demo.known a (by simp [show a = Demo.mkg from h]), trivial, trivial, by
      rintro b ⟨h1, h2⟩
      have h2 := Demo.covers_mkg.1 h2
      have h1 := Demo.covers_hr.1 h1
      rw [h1] at h2
      exact absurd h2 (by decide +kernel)⟩ Demo.draws
  refine ⟨key, key', enc, hkey, h, henc, ?_⟩
  rw [(h' _ _ _ _ _ henc ⟨Demo.hr, Demo.covers_hr.2 rfl, by simp⟩ ⟨Demo.mkg, Demo.covers_mkg.2 rfl, by simp⟩).1]
  norm_num [Demo.curve]

/-- Delegation to anything but `All`. -/
theorem engineDelegate_red (c : Curve K P Q QP T) (p' : Policy) (del : DelegationKey Q) (k : DecryptionKey K QP Q)
    {ap' : AccessPolicy} (hne : ap' ≠ .all) (r : Nat → K) :
    engineDelegateUserKey (bls c) p' del k ap' r =
      (do let m ← policyToMsp p' ap'; keyDelegation (bls c) m k del r) := by
  cases ap' with
  | all => exact absurd rfl hne
  | attr a =>
    unfold engineDelegateUserKey abeKeyDelegation
    cases h : policyToMsp p' (.attr a) <;> simp only [h, Res.ok_bind, Res.err_bind, Res.panic_bind]
  | and l r =>
    unfold engineDelegateUserKey abeKeyDelegation
    cases h : policyToMsp p' (.and l r) <;> simp only [h, Res.ok_bind, Res.err_bind, Res.panic_bind]
  | or l r =>
    unfold engineDelegateUserKey abeKeyDelegation
    cases h : policyToMsp p' (.or l r) <;> simp only [h, Res.ok_bind, Res.err_bind, Res.panic_bind]

/-- **C14**, first part: delegating to an access policy that grants a value the parent key lacks is an error (when every
granted value is within the delegation key; otherwise the code indexes out of bounds and panics). -/
theorem C14_delegation_new_attribute_refused (c : Curve K P Q QP T) {p p' : Policy} (hw : p.WF) (hw' : p'.WF)
    {rnd : Nat → K} {y : K} {mk : MasterKey K P Q T} (hmk : engineGenerateMasterKey (bls c) p rnd y = .ok mk)
    {ap ap' : AccessPolicy} {key : DecryptionKey K QP Q} (hkey : UserKey c p mk ap key)
    (hne : ap' ≠ .all) {b : Attribute} {v : UInt32} (hg : ap'.Grants p' b) (hbv : p'.HasValue b v)
    (hlack : ∀ b', ap.Grants p b' → ¬ p.HasValue b' v)
    (hrange : ∀ b v, ap'.Grants p' b → p'.HasValue b v → v.toNat < p.maxAttributeCreations.toNat) (r : Nat → K) :
    ∃ e, engineDelegateUserKey (bls c) p' mk.delKey key ap' r = .err e := by
  obtain ⟨tI, hlen, hnz, rfl⟩ := generateMasterKey_inv c hmk
  obtain ⟨F, msp, lam, hk⟩ := userKey_ok c hw hnz hkey
  simp only []
  rw [engineDelegate_red c p' _ key hne r]
  rcases policyToMsp_spec hw' ap' with ⟨_, m, F', h1, h2, h3⟩ | ⟨_, e, h1⟩
  · rw [h1, Res.ok_bind]
    unfold keyDelegation
    obtain ⟨u, hu, _⟩ := sharingVector_ok h2.nbCol_pos (0 : K) r
    rw [hu, Res.ok_bind, hk.key_eq]
    have hvF : v ∉ F.leaves := by
      intro hm
      obtain ⟨b', hb', hbv'⟩ := (hk.form.leaves v).1 hm
      exact hlack b' hb' hbv'
    -- every row is fine or an error, and the row of `v` is an error
    have hrowv : ∀ (i : Nat) (row : List Int) (a : UInt32), m.matrix[i]? = some row → m.rowToAttr[i]? = some a →
        delegateRow (bls c) (bls c).fromI32 m (keyOf c tI msp lam) (delOf c tI) u (row, i) ≠ .panic ∧
        (a = v → delegateRow (bls c) (bls c).fromI32 m (keyOf c tI msp lam) (delOf c tI) u (row, i) =
          .err (.internalOperation "new attribute is not allowed")) := by
      intro i row a hr ha
      have ha' : a ∈ F'.leaves := h2.attr_mem ha
      obtain ⟨b', hb', hbv'⟩ := (h3.leaves a).1 ha'
      have hlt := hrange b' a hb' hbv'
      rw [delegateRow_ok c _ m hk.mspFor tI lam u ha, if_neg (by omega)]
      constructor
      · split <;> simp
      · rintro rfl
        rw [if_neg hvF]
    have hmem : v ∈ m.rowToAttr := h2.perm.mem_iff.2 ((h3.leaves v).2 ⟨b, hg, hbv⟩)
    have hloop : ∀ (rows : List (List Int)) (k : Nat), (∀ j row, rows[j]? = some row → m.matrix[k + j]? = some row) →
        (∃ j, j < rows.length ∧ m.rowToAttr[k + j]? = some v) →
        ∃ e, mapRes (delegateRow (bls c) (bls c).fromI32 m (keyOf c tI msp lam) (delOf c tI) u) (rows.zipIdx k) = .err e := by
      intro rows
      induction rows with
      | nil => rintro k _ ⟨j, hj, _⟩; simp at hj
      | cons row rows ih =>
        intro k hm hex
        have hm0 : m.matrix[k]? = some row := by simpa using hm 0 row (by simp)
        have hka : ∃ a, m.rowToAttr[k]? = some a := by
          have : k < m.rowToAttr.length := by rw [h2.rta]; exact (List.getElem?_eq_some_iff.1 hm0).1
          exact ⟨_, List.getElem?_eq_getElem this⟩
        obtain ⟨a, ha⟩ := hka
        obtain ⟨g1, g2⟩ := hrowv k row a hm0 ha
        rw [List.zipIdx_cons, mapRes_cons]
        cases hd : delegateRow (bls c) (bls c).fromI32 m (keyOf c tI msp lam) (delOf c tI) u (row, k) with
        | panic => exact absurd hd g1
        | err e => exact ⟨e, rfl⟩
        | ok x =>
          have hav : a ≠ v := by
            intro h; rw [g2 h] at hd; simp at hd
          obtain ⟨e, he⟩ := ih (k + 1) (fun j row' hj => by
            have := hm (j + 1) row' (by simpa using hj)
            rwa [show k + (j + 1) = k + 1 + j by omega] at this) (by
            obtain ⟨j, hj, hjv⟩ := hex
            cases j with
            | zero => rw [Nat.add_zero, ha] at hjv; simp at hjv; exact absurd hjv hav
            | succ j => exact ⟨j, by simpa using hj, by rwa [show k + 1 + j = k + (j + 1) by omega]⟩)
          exact ⟨e, by rw [Res.ok_bind, he]; rfl⟩
    obtain ⟨i, hi, hiv⟩ := List.getElem_of_mem hmem
    obtain ⟨e, he⟩ := hloop m.matrix 0 (by simp) ⟨i, by rw [← h2.rta]; exact hi, by
      rw [Nat.zero_add, List.getElem?_eq_getElem hi, hiv]⟩
    refine ⟨e, ?_⟩
    rw [he]; rfl
  · rw [h1]; exact ⟨e, rfl⟩

/-- A key for `HR` delegated to `MKG`. -/
example : ∃ key e, UserKey Demo.curve Demo.policy Demo.mk (.attr Demo.hr) key ∧
    engineDelegateUserKey (bls Demo.curve) Demo.policy Demo.mk.delKey key (.attr Demo.mkg) Demo.draws = .err e := by
  have hw := reachable_wf Demo.policy_reachable
  obtain ⟨key, hkey⟩ : ∃ key, engineGenerateUserKey (bls Demo.curve) Demo.policy Demo.mk.privKey (.attr Demo.hr) Demo.draws
    = .ok key := Demo.exists_of_isOk (by decide +kernel)
  obtain ⟨e, he⟩ := C14_delegation_new_attribute_refused Demo.curve hw hw Demo.mk_eq (.generate _ hkey)
    (ap' := .attr Demo.mkg) (b := Demo.mkg) (v := 5) (by simp) (Demo.covers_mkg.2 rfl) ⟨[5], by decide +kernel, by simp⟩
    (by
      intro b' hb'
      have := Demo.covers_hr.1 hb'
      subst this
      rintro ⟨heap, h1, h2⟩
      have : hget Demo.policy.attributeToInt Demo.hr = some [4] := by decide +kernel
      rw [this] at h1
      simp only [Option.some.injEq] at h1
      subst h1
      exact absurd h2 (by decide))
    (by
      intro b v hb hbv
      have := Demo.covers_mkg.1 hb
      subst this
      obtain ⟨heap, h1, h2⟩ := hbv
      have : hget Demo.policy.attributeToInt Demo.mkg = some [5] := by decide +kernel
      rw [this] at h1
      simp only [Option.some.injEq] at h1
      subst h1
      simp only [List.mem_singleton] at h2
      subst h2
      decide) Demo.draws
  exact ⟨key, e, .generate _ hkey, he⟩

/-- The translation of the randomness that changes the secret without changing the shares of an unauthorised set. -/
theorem keyGeneration_translate (c : Curve K P Q QP T) {F : Node} {msp : Msp Int} (h : MspFor F msp) (tI : List K)
    (hb : Covers tI F) {γ : UInt32 → Prop} (hns : ¬ F.Sat γ) (y y' : K) :
    ∃ w : Nat → K, ∀ rnd, ∃ lam lam', keyGeneration (bls c) msp ⟨tI, y⟩ rnd = .ok (keyOf c tI msp lam) ∧
      keyGeneration (bls c) msp ⟨tI, y'⟩ (fun i => rnd i + w i) = .ok (keyOf c tI msp lam') ∧
      ∀ a ∈ F.leaves, γ a → lam a = lam' a := by
  have hnd : F.leaves.Nodup := h.perm.nodup_iff.1 h.nodup
  obtain ⟨δ, hδ0, hδ⟩ := shares_unsat (γ := γ) (y' - y) hnd hns
  obtain ⟨w, hwl, hws, hrow⟩ := (h.shares' δ (y' - y)).2 hδ
  refine ⟨fun i => w.getD i 0, fun rnd => ?_⟩
  obtain ⟨u, hu, hul, hus⟩ := sharingVector_ok h.nbCol_pos y rnd
  obtain ⟨u', hu', hul', hus'⟩ := sharingVector_ok h.nbCol_pos y' fun i => rnd i + w.getD i 0
  -- the second sharing vector is the first one plus `w`
  have huw : ∀ i < msp.nbCol, u'.getD i 0 = u.getD i 0 + w.getD i 0 := by
    have hinit : ∀ i, i + 1 < msp.nbCol → u'.getD i 0 = u.getD i 0 + w.getD i 0 := by
      intro i hi
      match hcol : msp.nbCol, hi with
      | x + 2, hi =>
        rw [hcol] at hu hu'
        simp only [sharingVector, Res.ok.injEq] at hu hu'
        subst hu; subst hu'
        rw [getD_lt (by simp [genScalars]; omega), getD_lt (l := genScalars rnd (x + 1) ++ _) (by simp [genScalars]; omega)]
        rw [List.getElem_append_left (by simp [genScalars]; omega), List.getElem_append_left (by simp [genScalars]; omega)]
        simp [genScalars]
    have hsum : ∑ i ∈ range msp.nbCol, u'.getD i 0 = ∑ i ∈ range msp.nbCol, (u.getD i 0 + w.getD i 0) := by
      rw [Finset.sum_add_distrib, ← list_sum_eq _ u' hul', ← list_sum_eq _ u hul, ← list_sum_eq _ w hwl, hus, hus', hws]
      ring
    intro i hi
    by_cases hlast : i + 1 < msp.nbCol
    · exact hinit i hlast
    · obtain ⟨n, hn⟩ : ∃ n, msp.nbCol = n + 1 := ⟨msp.nbCol - 1, by omega⟩
      have hin : i = n := by omega
      rw [hn, Finset.sum_range_succ, Finset.sum_range_succ] at hsum
      rw [Finset.sum_congr rfl (fun j hj => hinit j (by rw [Finset.mem_range] at hj; omega))] at hsum
      rw [hin]
      exact add_left_cancel hsum
  refine ⟨shareOf msp u, shareOf msp u', keyGeneration_ok c h tI y rnd hb hu, keyGeneration_ok c h tI y' _ hb hu', ?_⟩
  intro a ha hg
  obtain ⟨i, _, q2, q3⟩ := h.row_of_mem ha
  rw [← h.shareOf_row u q3 q2, ← h.shareOf_row u' q3 q2]
  have hwid : (rowOf msp a).length = msp.nbCol := h.rowOf_length ha
  rw [prodScal_map, prodScal_map _ _ u', prodScal_eq_sum msp.nbCol _ _ (by simpa using hwid) hul,
    prodScal_eq_sum msp.nbCol _ _ (by simpa using hwid) hul']
  have hz : ∑ r ∈ range msp.nbCol, ((rowOf msp a).map fun n : Int => (n : K)).getD r 0 * w.getD r 0 = 0 := by
    rw [← prodScal_eq_sum msp.nbCol _ _ (by simpa using hwid) hwl, hrow a ha, hδ0 a hg]
  have : ∀ r ∈ range msp.nbCol, ((rowOf msp a).map fun n : Int => (n : K)).getD r 0 * u'.getD r 0 =
      ((rowOf msp a).map fun n : Int => (n : K)).getD r 0 * u.getD r 0 +
      ((rowOf msp a).map fun n : Int => (n : K)).getD r 0 * w.getD r 0 := by
    intro r hr
    rw [huw r (Finset.mem_range.1 hr)]; ring
  rw [Finset.sum_congr rfl this, Finset.sum_add_distrib, hz, add_zero]

/-- The components of a key for the attributes of `γ` agree. -/
def SameParts (γ : UInt32 → Prop) (k k' : DecryptionKey K QP Q) : Prop :=
  k.msp = k'.msp ∧ k.rawDI.length = k'.rawDI.length ∧ k.dI.length = k'.dI.length ∧
  ∀ (i : Nat) (a : UInt32), k.msp.rowToAttr[i]? = some a → γ a → k.rawDI[i]? = k'.rawDI[i]? ∧ k.dI[i]? = k'.dI[i]?

theorem keyOf_sameParts (c : Curve K P Q QP T) (tI : List K) {F : Node} {msp : Msp Int} (h : MspFor F msp)
    {γ : UInt32 → Prop} {lam lam' : UInt32 → K} (hl : ∀ a ∈ F.leaves, γ a → lam a = lam' a) :
    SameParts γ (keyOf c tI msp lam) (keyOf c tI msp lam') := by
  refine ⟨rfl, by simp [keyOf], by simp [keyOf], ?_⟩
  intro i a ha hg
  have ha' : msp.rowToAttr[i]? = some a := ha
  have := hl a (h.attr_mem ha') hg
  simp only [keyOf, List.getElem?_map, ha', Option.map_some, this, and_self]

/-- **C15.** For a set of values `γ` that does not satisfy the access policy, the key components for `γ` are distributed
alike whatever the master secret: a fixed translation `w` of the randomness turns every key made with secret `y` into a
key made with secret `y'` having the same components for `γ`. -/
theorem C15_unauthorised_parts_independent (c : Curve K P Q QP T) {p : Policy} (hw : p.WF) {tI : List K}
    (hnz : ∀ t ∈ tI, t ≠ 0) (y y' : K) {ap : AccessPolicy} (hv : ap.Valid p)
    (hrange : ∀ b v, ap.Grants p b → p.HasValue b v → v.toNat < tI.length) {γ : UInt32 → Prop}
    (hns : ¬ ap.Sat p fun b => ∃ v, p.HasValue b v ∧ γ v) :
    ∃ w : Nat → K, ∀ rnd, ∃ key key',
      engineGenerateUserKey (bls c) p ⟨tI, y⟩ ap rnd = .ok key ∧
      engineGenerateUserKey (bls c) p ⟨tI, y'⟩ ap (fun i => rnd i + w i) = .ok key' ∧ SameParts γ key key' := by
  rcases policyToMsp_spec hw ap with ⟨_, m, F, h1, h2, h3⟩ | ⟨hnv, _⟩
  · have hcov : Covers tI F := by
      intro a ha
      obtain ⟨b, hb, hbv⟩ := (h3.leaves a).1 ha
      have := hrange b a hb hbv
      exact ⟨this, tOf_ne_zero hnz this⟩
    obtain ⟨w, hw'⟩ := keyGeneration_translate c h2 tI hcov (γ := γ) (fun h => hns ((h3.sat γ).1 h)) y y'
    refine ⟨w, fun rnd => ?_⟩
    obtain ⟨lam, lam', e1, e2, e3⟩ := hw' rnd
    refine ⟨_, _, ?_, ?_, keyOf_sameParts c tI h2 e3⟩
    · unfold engineGenerateUserKey; rw [h1]; exact e1
    · unfold engineGenerateUserKey; rw [h1]; exact e2
  · exact absurd hv hnv

/-- Value 4 (`HR`) alone does not satisfy `High && (HR || MKG)`. -/
example : ¬ Demo.ap.Sat Demo.policy fun b => ∃ v, Demo.policy.HasValue b v ∧ v = 4 := by
  rintro ⟨⟨b, h1, v, h2, rfl⟩, _⟩
  have hb : b = Demo.hr := h2.inj (reachable_wf Demo.policy_reachable) ⟨[4], by decide +kernel, by simp⟩
  subst hb
  obtain ⟨_, _, _, _, _, h, _⟩ := h1
  exact absurd h (by decide +kernel)

/-- **C14**, second part: delegation does not leak either.  For a set `γ` that does not satisfy the access policy of the
parent key, whatever the policy and access policy asked for, the components for `γ` of the delegated key do not depend
on the master secret, in the sense of C15 (the randomness of the delegation is the same). -/
theorem C14_delegated_parts_independent (c : Curve K P Q QP T) {p p' : Policy} (hw : p.WF) (hw' : p'.WF) {tI : List K}
    (hnz : ∀ t ∈ tI, t ≠ 0) (y y' : K) {ap ap' : AccessPolicy} (hv : ap.Valid p)
    (hrange : ∀ b v, ap.Grants p b → p.HasValue b v → v.toNat < tI.length) {γ : UInt32 → Prop}
    (hns : ¬ ap.Sat p fun b => ∃ v, p.HasValue b v ∧ γ v) :
    ∃ w : Nat → K, ∀ rnd, ∃ key key',
      engineGenerateUserKey (bls c) p ⟨tI, y⟩ ap rnd = .ok key ∧
      engineGenerateUserKey (bls c) p ⟨tI, y'⟩ ap (fun i => rnd i + w i) = .ok key' ∧
      ∀ (del : DelegationKey Q) (_ : del = ⟨tI.map fun t => t⁻¹ • c.genQ⟩) (r : Nat → K) (dkey : DecryptionKey K QP Q),
        engineDelegateUserKey (bls c) p' del key ap' r = .ok dkey →
        ∃ dkey', engineDelegateUserKey (bls c) p' del key' ap' r = .ok dkey' ∧ SameParts γ dkey dkey' := by
  rcases policyToMsp_spec hw ap with ⟨_, m, F, h1, h2, h3⟩ | ⟨hnv, _⟩
  · have hcov : Covers tI F := by
      intro a ha
      obtain ⟨b, hb, hbv⟩ := (h3.leaves a).1 ha
      have := hrange b a hb hbv
      exact ⟨this, tOf_ne_zero hnz this⟩
    obtain ⟨w, hw''⟩ := keyGeneration_translate c h2 tI hcov (γ := γ) (fun h => hns ((h3.sat γ).1 h)) y y'
    refine ⟨w, fun rnd => ?_⟩
    obtain ⟨lam, lam', e1, e2, e3⟩ := hw'' rnd
    refine ⟨keyOf c tI m lam, keyOf c tI m lam', ?_, ?_, ?_⟩
    · unfold engineGenerateUserKey; rw [h1]; exact e1
    · unfold engineGenerateUserKey; rw [h1]; exact e2
    · intro del hdel r dkey hd
      have hdel' : del = delOf c tI := hdel
      rw [hdel'] at hd ⊢
      by_cases hall : ap' = .all
      · subst hall
        unfold engineDelegateUserKey abeKeyDelegation at hd ⊢
        simp only [Res.ok_bind] at hd ⊢
        obtain ⟨u, hu, _⟩ := sharingVector_ok h2.nbCol_pos (0 : K) r
        rw [keyRandomization_ok c h2 tI lam r (fun a ha => (hcov a ha).1) hu] at hd
        simp only [Res.ok.injEq] at hd
        refine ⟨_, keyRandomization_ok c h2 tI lam' r (fun a ha => (hcov a ha).1) hu, ?_⟩
        rw [← hd]
        apply keyOf_sameParts c tI h2
        intro a ha hg
        rw [e3 a ha hg]
      · rw [engineDelegate_red c p' _ _ hall r] at hd ⊢
        rcases policyToMsp_spec hw' ap' with ⟨_, m', F', g1, g2, g3⟩ | ⟨_, e, g1⟩
        · rw [g1, Res.ok_bind] at hd ⊢
          obtain ⟨u, hu, _⟩ := sharingVector_ok g2.nbCol_pos (0 : K) r
          -- a successful delegation only uses attributes of the parent
          have hsub : ∀ a ∈ F'.leaves, a.toNat < tI.length ∧ a ∈ F.leaves := by
            intro a ha
            obtain ⟨i, _, q2, q3⟩ := g2.row_of_mem ha
            unfold keyDelegation at hd
            rw [hu, Res.ok_bind] at hd
            obtain ⟨ds, hds, -⟩ := Res.bind_eq_ok.1 hd
            rw [mapRes_eq_ok] at hds
            have hmem : (rowOf m' a, i) ∈ m'.matrix.zipIdx := by
              rw [List.mem_zipIdx_iff_getElem?]; exact q3
            obtain ⟨x, hx⟩ : ∃ x, delegateRow (bls c) (bls c).fromI32 m' (keyOf c tI m lam) (delOf c tI) u (rowOf m' a, i) = .ok x := by
              clear hd
              generalize m'.matrix.zipIdx = rows at hds hmem
              induction hds with
              | nil => simp at hmem
              | cons h _ ih =>
                rcases List.mem_cons.1 hmem with h' | h'
                · exact ⟨_, h' ▸ h⟩
                · exact ih h'
            rw [delegateRow_ok c _ m' h2 tI lam u q2] at hx
            split at hx
            · simp at hx
            · split at hx
              · exact ⟨by omega, by assumption⟩
              · simp at hx
          rw [keyDelegation_ok c h2 g2 tI lam r (fun a ha => (hsub a ha).1) (fun a ha => (hsub a ha).2) hu] at hd
          simp only [Res.ok.injEq] at hd
          refine ⟨_, keyDelegation_ok c h2 g2 tI lam' r (fun a ha => (hsub a ha).1) (fun a ha => (hsub a ha).2) hu, ?_⟩
          rw [← hd]
          apply keyOf_sameParts c tI g2
          intro a ha hg
          rw [e3 a (hsub a ha).2 hg]
        · rw [g1] at hd; simp [Res.err_bind] at hd
  · exact absurd hv hnv

/-- The hypotheses are met by the demo key and the set of values `{4}` (see above). -/
example : Demo.ap.Valid Demo.policy ∧ ∀ t ∈ Demo.mk.privKey.tI, t ≠ 0 := by
  refine ⟨?_, by decide +kernel⟩
  by_contra hn
  have hw := reachable_wf Demo.policy_reachable
  obtain ⟨key, hk⟩ := Demo.key_exists
  rcases policyToMsp_spec hw Demo.ap with ⟨h, _⟩ | ⟨_, e, he⟩
  · exact hn h
  · unfold engineGenerateUserKey at hk
    rw [he] at hk; simp [Res.err_bind] at hk

/-- What is obtained by pairing the components of a key for attributes of `γ` with those of a ciphertext of randomness
`s`, with coefficients `x` per row. -/
noncomputable def pooled (c : Curve K P Q QP T) (tI : List K) (s : K) (γ : UInt32 → Prop) (key : DecryptionKey K QP Q) (x : Nat → K) : T :=
  open Classical in
  ((key.msp.rowToAttr.zip key.rawDI).zipIdx.map fun q =>
    if γ q.1.1 then x q.2 • c.pair (s • (tI.getD q.1.1.toNat 0) • c.genP) q.1.2 else 0).sum

/-- **C16.** No linear pooling: if fixed coefficients combine, for every secret and every randomness, the components of
several keys (for the attributes of a ciphertext with randomness `s ≠ 0`) into the mask of the ciphertext, then one of
the access policies is satisfied by the attributes of the ciphertext. -/
theorem C16_no_linear_collusion (c : Curve K P Q QP T) {p : Policy} (hw : p.WF) {tI : List K} (hnz : ∀ t ∈ tI, t ≠ 0)
    (aps : List AccessPolicy) {γ : UInt32 → Prop}
    (hok : ∀ ap ∈ aps, ap.Valid p ∧ ∀ b v, ap.Grants p b → p.HasValue b v → v.toNat < tI.length)
    (s : K) (hs : s ≠ 0) (coefs : Nat → Nat → K)
    (hpool : ∀ (y : K) (keys : List (DecryptionKey K QP Q)),
      List.Forall₂ (fun ap key => ∃ rnd, engineGenerateUserKey (bls c) p ⟨tI, y⟩ ap rnd = .ok key) aps keys →
      (keys.zipIdx.map fun q => pooled c tI s γ q.1 (coefs q.2)).sum = (s * y) • c.genT) :
    ∃ ap ∈ aps, ap.Sat p fun b => ∃ v, p.HasValue b v ∧ γ v := by
  by_contra hno
  push Not at hno
  -- keys for the secret 1 whose components for `γ` vanish
  have hkeys : ∀ l : List AccessPolicy, (∀ ap ∈ l, ap ∈ aps) → ∃ keys : List (DecryptionKey K QP Q),
      List.Forall₂ (fun ap key => ∃ rnd, engineGenerateUserKey (bls c) p ⟨tI, 1⟩ ap rnd = .ok key) l keys ∧
      ∀ key ∈ keys, ∀ x, pooled c tI s γ key x = 0 := by
    intro l
    induction l with
    | nil => exact fun _ => ⟨[], .nil, by simp⟩
    | cons ap l ih =>
      intro hl
      obtain ⟨keys, hk1, hk2⟩ := ih fun a ha => hl a (by simp [ha])
      obtain ⟨hv, hrange⟩ := hok ap (hl ap (by simp))
      rcases policyToMsp_spec hw ap with ⟨_, m, F, h1, h2, h3⟩ | ⟨hnv, _⟩
      · have hcov : Covers tI F := by
          intro a ha
          obtain ⟨b, hb, hbv⟩ := (h3.leaves a).1 ha
          have := hrange b a hb hbv
          exact ⟨this, tOf_ne_zero hnz this⟩
        have hns : ¬ F.Sat γ := fun h => hno ap (hl ap (by simp)) ((h3.sat γ).1 h)
        obtain ⟨lam, hl0, hlam⟩ := shares_unsat (γ := γ) (1 : K) (h2.perm.nodup_iff.1 h2.nodup) hns
        obtain ⟨rnd, hrnd⟩ := keyGeneration_surj c h2 tI 1 hcov hlam
        refine ⟨keyOf c tI m lam :: keys, .cons ⟨rnd, ?_⟩ hk1, ?_⟩
        · unfold engineGenerateUserKey; rw [h1]; exact hrnd
        · intro key hkey x
          rcases List.mem_cons.1 hkey with rfl | hkey
          · unfold pooled
            apply List.sum_eq_zero
            intro z hz
            obtain ⟨⟨⟨a, d⟩, i⟩, hq, rfl⟩ := List.mem_map.1 hz
            dsimp only
            split
            · rename_i hg
              rw [List.mem_zipIdx_iff_getElem?] at hq
              have hd : d = (lam a * (tOf tI a)⁻¹) • c.genQ := by
                have hq' : (a, d) ∈ (keyOf c tI m lam).msp.rowToAttr.zip (keyOf c tI m lam).rawDI :=
                  List.mem_of_getElem? hq
                have : (keyOf c tI m lam).msp.rowToAttr = m.rowToAttr := rfl
                rw [this] at hq'
                simp only [keyOf] at hq'
                rw [List.zip_map_right] at hq'
                obtain ⟨⟨a1, a2⟩, hm, he⟩ := List.mem_map.1 hq'
                have hEq : a1 = a2 := by
                  rw [List.zip, List.zipWith_self] at hm
                  obtain ⟨z, _, hz⟩ := List.mem_map.1 hm
                  simp only [Prod.mk.injEq] at hz
                  rw [← hz.1, ← hz.2]
                simp only [Prod.map, Prod.mk.injEq, id_eq] at he
                rw [← he.2, ← hEq, he.1]
              rw [hd, hl0 a hg, zero_mul, zero_smul, map_zero, smul_zero]
            · rfl
          · exact hk2 key hkey x
      · exact absurd hv hnv
  obtain ⟨keys, hk1, hk2⟩ := hkeys aps fun _ h => h
  have := hpool 1 keys hk1
  rw [mul_one, List.sum_eq_zero] at this
  · exact (smul_ne_zero hs c.genT_ne_zero) this.symm
  · intro z hz
    obtain ⟨⟨k, i⟩, hq, rfl⟩ := List.mem_map.1 hz
    rw [List.mem_zipIdx_iff_getElem?] at hq
    exact hk2 k (List.mem_of_getElem? hq) _

/-- The pooling hypothesis holds for a single key of access policy `HR` and a ciphertext for `HR`. -/
example (s : ℚ) (y : ℚ) (keys : List (DecryptionKey ℚ ℚ ℚ))
    (h : List.Forall₂ (fun ap key => ∃ rnd,
      engineGenerateUserKey (bls Demo.curve) Demo.policy ⟨Demo.mk.privKey.tI, y⟩ ap rnd = .ok key) [.attr Demo.hr] keys) :
    (keys.zipIdx.map fun q => pooled Demo.curve Demo.mk.privKey.tI s (· = 4) q.1 fun _ => 1).sum = (s * y) • Demo.curve.genT := by
  have hm : policyToMsp Demo.policy (.attr Demo.hr) = .ok ⟨1, 1, [[1]], [(4, 0)], [4]⟩ := by decide +kernel
  cases h with
  | cons h1 h2 =>
    cases h2
    obtain ⟨rnd, hr⟩ := h1
    obtain ⟨F, msp, lam, hk⟩ := userKey_gen Demo.curve (reachable_wf Demo.policy_reachable) (by decide +kernel) hr
    obtain rfl : msp = ⟨1, 1, [[1]], [(4, 0)], [4]⟩ := by
      have := hk.compiled
      rw [hm] at this
      simpa using this.symm
    have h4 : (4 : UInt32) ∈ F.leaves := hk.mspFor.perm.mem_iff.1 (by simp)
    obtain ⟨u, hul, hus, hrow⟩ := (hk.mspFor.shares' lam y).2 hk.shares
    obtain ⟨x, rfl⟩ := List.length_eq_one_iff.1 hul
    have hlam : lam 4 = y := by
      rw [← hrow 4 h4, ← hus]
      have : rowOf (⟨1, 1, [[1]], [(4, 0)], [4]⟩ : Msp Int) 4 = [1] := by decide +kernel
      rw [this]
      simp [prodScal, reduceAdd]
    rw [hk.key_eq]
    simp [pooled, keyOf, Msp.convert, hlam, Demo.curve, tOf, Demo.mk]
    ring

end Abe
