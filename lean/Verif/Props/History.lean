import Verif.Proofs.History
import Verif.Props.Delegation

/-!
# Keys and ciphertexts in the course of time

Properties C71 and C72: policies change by rotations and new axes; keys are generated, randomised and delegated, and ciphertexts are made, each
under the policy of some moment.
-/

namespace Abe

set_option linter.unusedSectionVars false

variable {K P Q QP T : Type} [Field K] [DecidableEq K] [AddCommGroup P] [Module K P] [AddCommGroup Q] [Module K Q]
  [AddCommGroup T] [Module K T]

/-- The demo policy after rotating `HR` and adding an axis. -/
def Demo.grown : Policy :=
  ⟨7, 8, [("Cty", (["FR"], false)), ("Dpt", (["RnD", "HR", "MKG"], false)), ("Lvl", (["Low", "High"], true))],
    [(⟨"Cty", "FR"⟩, [7]), (⟨"Dpt", "MKG"⟩, [5]), (⟨"Dpt", "HR"⟩, [6, 4]), (⟨"Dpt", "RnD"⟩, [3]), (⟨"Lvl", "High"⟩, [2]), (⟨"Lvl", "Low"⟩, [1])]⟩

def Demo.changes : List Change := [.rotate Demo.hr, .addAxis ⟨"Cty", ["FR"], false⟩]

theorem Demo.evolves : Demo.policy.Evolves Demo.changes Demo.grown :=
  .cons (p1 := Demo.rotated) (by decide +kernel) (.cons (p1 := Demo.grown) (by decide +kernel) (.nil _))

theorem Demo.grown_reachable : Demo.grown.Reachable := evolves_reachable Demo.evolves Demo.policy_reachable

theorem Demo.mk_eq' : generateMasterKey (bls Demo.curve) 8 Demo.draws 3 = .ok Demo.mk := Demo.mk_eq

theorem Demo.not_rotated {b : Attribute} (h : b ≠ Demo.hr) : ¬ Rotated Demo.changes b := by
  intro hr
  simp only [Rotated, Demo.changes, List.mem_cons, Change.rotate.injEq, List.not_mem_nil, or_false] at hr
  rcases hr with hr | hr
  · exact h hr
  · cases hr

/-- **C71.** A key opens a ciphertext made later exactly when the attributes of the ciphertext that were not rotated in between satisfy its access
policy; attributes of axes added in between do not count, since the policy of the key does not know them. -/
theorem C71_later_ciphertext (c : Curve K P Q QP T) {size : Nat} {rnd : Nat → K} {y : K} {mk : MasterKey K P Q T}
    (hmk : generateMasterKey (bls c) size rnd y = .ok mk) {p p' : Policy} {ap : AccessPolicy} {key : DecryptionKey K QP Q} (hk : Issued c mk p ap key)
    {l : List Change} (he : p.Evolves l p') {t : Target} {atts : List Attribute} {msg : T} {s : K} {enc : CipherText P T}
    (henc : engineEncrypt (bls c) t p' mk.pubKey atts msg s = .ok enc) :
    (ap.Sat p (fun b => b ∈ atts ∧ ¬ Rotated l b) → engineDecrypt (bls c) enc key = .ok (some msg)) ∧
    (¬ ap.Sat p (fun b => b ∈ atts ∧ ¬ Rotated l b) →
      ((∃ b ∈ atts, ¬ Rotated l b ∧ ap.Grants p b) → engineDecrypt (bls c) enc key = .ok none) ∧
      ((∀ b ∈ atts, ¬ Rotated l b → ¬ ap.Grants p b) → engineDecrypt (bls c) enc key = .err (.internalOperation "empty input matrix"))) := by
  obtain ⟨tI, _, hnz, rfl⟩ := generateMasterKey_inv c hmk
  obtain ⟨hp, F, msp, lam, hk⟩ := issued_ok c hnz hk
  have hw := reachable_wf hp
  have hl := evolves_later he hw
  obtain ⟨vs, _, hvs, _, _, _, _, rfl⟩ := engineEncrypt_inv c hl.wf henc
  obtain ⟨h1, h2, h3⟩ := decrypt_exact c hk s msg vs
  rw [AccessPolicy.sat_congr (fun b hb => hl.hasValue_later hw hvs hb) ap] at h1 h2
  refine ⟨h1, fun hn => ⟨?_, fun hg => h3 ?_⟩⟩
  · rintro ⟨b, hb, hr, hg⟩
    exact h2 hn ⟨b, hg, (hl.hasValue_later hw hvs hg.known).2 ⟨hb, hr⟩⟩
  · rintro ⟨b, hb, hv⟩
    obtain ⟨hm, hr⟩ := (hl.hasValue_later hw hvs hb.known).1 hv
    exact hg b hm hr hb

/-- A key for `High && (HR || MKG)` opens what is encrypted for `Low`, `MKG`, `FR` after the rotation of `HR`, and does not open what is encrypted for `Low`, `HR`, `FR`. -/
example : ∃ key enc enc', Issued Demo.curve Demo.mk Demo.policy Demo.ap key ∧
    engineEncrypt (bls Demo.curve) .debug64 Demo.grown Demo.mk.pubKey [Demo.low, Demo.mkg, ⟨"Cty", "FR"⟩] 5 11 = .ok enc ∧
    engineEncrypt (bls Demo.curve) .debug64 Demo.grown Demo.mk.pubKey [Demo.low, Demo.hr, ⟨"Cty", "FR"⟩] 5 11 = .ok enc' ∧
    engineDecrypt (bls Demo.curve) enc key = .ok (some 5) ∧ engineDecrypt (bls Demo.curve) enc' key = .ok none := by
  obtain ⟨key, hkey⟩ := Demo.key_exists
  have hk : Issued Demo.curve Demo.mk Demo.policy Demo.ap key := .generate _ Demo.policy_reachable hkey
  obtain ⟨enc, henc⟩ : ∃ enc, engineEncrypt (bls Demo.curve) .debug64 Demo.grown Demo.mk.pubKey [Demo.low, Demo.mkg, ⟨"Cty", "FR"⟩] 5 11 = .ok enc :=
    Demo.exists_of_isOk (by decide +kernel)
  obtain ⟨enc', henc'⟩ : ∃ enc, engineEncrypt (bls Demo.curve) .debug64 Demo.grown Demo.mk.pubKey [Demo.low, Demo.hr, ⟨"Cty", "FR"⟩] 5 11 = .ok enc :=
    Demo.exists_of_isOk (by decide +kernel)
  refine ⟨key, enc, enc', hk, henc, henc', ?_, ?_⟩
  · refine (C71_later_ciphertext Demo.curve Demo.mk_eq' hk Demo.evolves henc).1 ⟨⟨Demo.low, Demo.covers_high_low, by simp, Demo.not_rotated (by decide)⟩, Or.inr ?_⟩
    exact ⟨Demo.mkg, Demo.covers_mkg.2 rfl, by simp, Demo.not_rotated (by decide)⟩
  · have hns : ¬ Demo.ap.Sat Demo.policy (fun b => b ∈ [Demo.low, Demo.hr, ⟨"Cty", "FR"⟩] ∧ ¬ Rotated Demo.changes b) := by
      rintro ⟨_, ⟨b, hb, _, hr⟩ | ⟨b, hb, hm, _⟩⟩
      · rw [Demo.covers_hr.1 hb] at hr
        exact hr (by simp [Rotated, Demo.changes])
      · rw [Demo.covers_mkg.1 hb] at hm
        exact absurd hm (by decide)
    exact ((C71_later_ciphertext Demo.curve Demo.mk_eq' hk Demo.evolves henc').2 hns).1
      ⟨Demo.low, by simp, Demo.not_rotated (by decide), Or.inl Demo.covers_high_low⟩

/-- **C71.** A key opens a ciphertext made earlier exactly when the attributes of the ciphertext satisfy its access policy. -/
theorem C71_earlier_ciphertext (c : Curve K P Q QP T) {size : Nat} {rnd : Nat → K} {y : K} {mk : MasterKey K P Q T}
    (hmk : generateMasterKey (bls c) size rnd y = .ok mk) {p p' : Policy} {ap : AccessPolicy} {key : DecryptionKey K QP Q} (hk : Issued c mk p ap key)
    {l : List Change} (hp' : p'.Reachable) (he : p'.Evolves l p) {t : Target} {atts : List Attribute} {msg : T} {s : K} {enc : CipherText P T}
    (henc : engineEncrypt (bls c) t p' mk.pubKey atts msg s = .ok enc) :
    (ap.Sat p (· ∈ atts) → engineDecrypt (bls c) enc key = .ok (some msg)) ∧
    (¬ ap.Sat p (· ∈ atts) →
      ((∃ b ∈ atts, ap.Grants p b) → engineDecrypt (bls c) enc key = .ok none) ∧
      ((∀ b ∈ atts, ¬ ap.Grants p b) → engineDecrypt (bls c) enc key = .err (.internalOperation "empty input matrix"))) := by
  obtain ⟨tI, _, hnz, rfl⟩ := generateMasterKey_inv c hmk
  obtain ⟨hp, F, msp, lam, hk⟩ := issued_ok c hnz hk
  have hw' := reachable_wf hp'
  have hl := evolves_later he hw'
  obtain ⟨vs, _, hvs, hkn, _, _, _, rfl⟩ := engineEncrypt_inv c hw' henc
  obtain ⟨h1, h2, h3⟩ := decrypt_exact c hk s msg vs
  rw [AccessPolicy.sat_congr (fun b _ => hl.hasValue_earlier hw' hvs hkn) ap] at h1 h2
  refine ⟨h1, fun hn => ⟨?_, fun hg => h3 ?_⟩⟩
  · rintro ⟨b, hb, hg⟩
    exact h2 hn ⟨b, hg, (hl.hasValue_earlier hw' hvs hkn).2 hb⟩
  · rintro ⟨b, hb, hv⟩
    exact hg b ((hl.hasValue_earlier hw' hvs hkn).1 hv) hb

/-- A key made after the rotation opens what was encrypted for `Low`, `HR` before it. -/
example : ∃ key enc, Issued Demo.curve Demo.mk Demo.grown (.attr Demo.hr) key ∧
    engineEncrypt (bls Demo.curve) .debug64 Demo.policy Demo.mk.pubKey [Demo.low, Demo.hr] 5 11 = .ok enc ∧
    engineDecrypt (bls Demo.curve) enc key = .ok (some 5) := by
  obtain ⟨key, hkey⟩ : ∃ key, engineGenerateUserKey (bls Demo.curve) Demo.grown Demo.mk.privKey (.attr Demo.hr) Demo.draws = .ok key :=
    Demo.exists_of_isOk (by decide +kernel)
  have hk : Issued Demo.curve Demo.mk Demo.grown (.attr Demo.hr) key := .generate _ Demo.grown_reachable hkey
  obtain ⟨enc, henc⟩ := Demo.enc_exists
  refine ⟨key, enc, hk, henc, (C71_earlier_ciphertext Demo.curve Demo.mk_eq' hk Demo.policy_reachable Demo.evolves henc).1 ?_⟩
  exact ⟨Demo.hr, ⟨["RnD"], ["MKG"], false, by decide +kernel, by decide +kernel, rfl, Or.inl rfl⟩, by simp⟩

/-- **C72.** Delegation after changes of the policy: if no attribute granted by the new access policy was rotated since, the call succeeds and does
what it would have done before the changes; otherwise it fails, so that delegation cannot refresh a key. -/
theorem C72_delegation_later (c : Curve K P Q QP T) {size : Nat} {rnd : Nat → K} {y : K} {mk : MasterKey K P Q T}
    (hmk : generateMasterKey (bls c) size rnd y = .ok mk) {p q : Policy} {ap ap' : AccessPolicy} {key : DecryptionKey K QP Q} (hk : Issued c mk p ap key)
    {l : List Change} (he : p.Evolves l q) (hr : ap.Restricts p ap') (hne : ap' ≠ .all) (hv : ap'.Valid p) (r : Nat → K) :
    ((∀ b, ap'.Grants p b → ¬ Rotated l b) →
      engineDelegateUserKey (bls c) q mk.delKey key ap' r = engineDelegateUserKey (bls c) p mk.delKey key ap' r ∧
      ∃ key', engineDelegateUserKey (bls c) q mk.delKey key ap' r = .ok key' ∧ Issued c mk p ap' key') ∧
    ((∃ b, ap'.Grants p b ∧ Rotated l b) → ∀ key', engineDelegateUserKey (bls c) q mk.delKey key ap' r ≠ .ok key') := by
  have hk0 := hk
  obtain ⟨tI, _, hnz, rfl⟩ := generateMasterKey_inv c hmk
  obtain ⟨hp, F, msp, lam, hk⟩ := issued_ok c hnz hk
  have hw := reachable_wf hp
  have hl := evolves_later he hw
  constructor
  · intro hg
    have heq : engineDelegateUserKey (bls c) q (delOf c tI) key ap' r = engineDelegateUserKey (bls c) p (delOf c tI) key ap' r := by
      rw [engineDelegate_msp c q _ _ hne, hl.policyToMsp hw hne hv hg, ← engineDelegate_msp c p _ _ hne]
    obtain ⟨_, _, _, key', e1, _⟩ := engineDelegate_ok c hw hk hr hne hv r
    refine ⟨heq, key', heq.trans e1, .delegateLater r hk0 he hr hne (heq.trans e1)⟩
  · rintro ⟨b, hb, hrot⟩ key' hd
    exact (delegate_later c hl hw hk hne hd).2 b hb hrot

theorem Demo.valid_attr {p : Policy} {a : Attribute} (h : p.Known a) : (AccessPolicy.attr a).Valid p :=
  ⟨trivial, fun b hb => (show b = a from hb) ▸ h, trivial⟩

/-- After the rotation of `HR` a key for `HR || MKG` can be delegated to `MKG`, not to `HR`. -/
example : ∃ key, Issued Demo.curve Demo.mk Demo.policy (.or (.attr Demo.hr) (.attr Demo.mkg)) key ∧
    (∃ key', engineDelegateUserKey (bls Demo.curve) Demo.grown Demo.mk.delKey key (.attr Demo.mkg) Demo.draws = .ok key') ∧
    ∀ key', engineDelegateUserKey (bls Demo.curve) Demo.grown Demo.mk.delKey key (.attr Demo.hr) Demo.draws ≠ .ok key' := by
  obtain ⟨key, hkey⟩ : ∃ key, engineGenerateUserKey (bls Demo.curve) Demo.policy Demo.mk.privKey (.or (.attr Demo.hr) (.attr Demo.mkg)) Demo.draws = .ok key :=
    Demo.exists_of_isOk (by decide +kernel)
  have hk : Issued Demo.curve Demo.mk Demo.policy (.or (.attr Demo.hr) (.attr Demo.mkg)) key := .generate _ Demo.policy_reachable hkey
  refine ⟨key, hk, ?_, ?_⟩
  · obtain ⟨_, key', h, _⟩ := (C72_delegation_later Demo.curve Demo.mk_eq' hk Demo.evolves (.orRight (.refl _)) (by simp)
      (Demo.valid_attr (Demo.known Demo.mkg (by simp))) Demo.draws).1 (fun b hb => by
        rw [Demo.covers_mkg.1 hb]; exact Demo.not_rotated (by decide))
    exact ⟨key', h⟩
  · exact (C72_delegation_later Demo.curve Demo.mk_eq' hk Demo.evolves (.orLeft (.refl _)) (by simp)
      (Demo.valid_attr (Demo.known Demo.hr (by simp))) Demo.draws).2 ⟨Demo.hr, Demo.covers_hr.2 rfl, by simp [Rotated, Demo.changes]⟩

/-- **C72.** Delegation under an earlier policy succeeds; the new key is one for the earlier policy: it does not open what was encrypted for attributes
rotated since. -/
theorem C72_delegation_earlier (c : Curve K P Q QP T) {size : Nat} {rnd : Nat → K} {y : K} {mk : MasterKey K P Q T}
    (hmk : generateMasterKey (bls c) size rnd y = .ok mk) {p q : Policy} {ap ap' : AccessPolicy} {key : DecryptionKey K QP Q} (hk : Issued c mk p ap key)
    {l : List Change} (hq : q.Reachable) (he : q.Evolves l p) (hr : ap.Restricts q ap') (hne : ap' ≠ .all) (hv : ap'.Valid q) (r : Nat → K) :
    ∃ key', engineDelegateUserKey (bls c) q mk.delKey key ap' r = .ok key' ∧
      ∀ (t : Target) (atts : List Attribute) (msg : T) (s : K) (enc : CipherText P T),
        engineEncrypt (bls c) t p mk.pubKey atts msg s = .ok enc →
        (engineDecrypt (bls c) enc key' = .ok (some msg) ↔ ap'.Sat q (fun b => b ∈ atts ∧ ¬ Rotated l b)) ∧
        ∀ m, engineDecrypt (bls c) enc key' = .ok (some m) → m = msg := by
  have hk0 := hk
  have hmk' := hmk
  obtain ⟨tI, _, hnz, rfl⟩ := generateMasterKey_inv c hmk
  obtain ⟨hp, F, msp, lam, hk⟩ := issued_ok c hnz hk
  have hw := reachable_wf hq
  obtain ⟨_, _, _, key', e1, _⟩ := delegate_earlier c (evolves_later he hw) hw hk hr hne hv r
  refine ⟨key', e1, fun t atts msg s enc henc => ?_⟩
  obtain ⟨g1, g2⟩ := C71_later_ciphertext c hmk' (.delegateEarlier r hk0 hq he hr hne e1) he henc
  by_cases hs : ap'.Sat q (fun b => b ∈ atts ∧ ¬ Rotated l b)
  · refine ⟨⟨fun _ => hs, fun _ => g1 hs⟩, fun m hm => ?_⟩
    rw [g1 hs] at hm
    simp only [Res.ok.injEq, Option.some.injEq] at hm
    exact hm.symm
  · have g3 : ∀ m, engineDecrypt (bls c) enc key' ≠ .ok (some m) := by
      intro m hm
      by_cases hg : ∃ b ∈ atts, ¬ Rotated l b ∧ ap'.Grants q b
      · rw [(g2 hs).1 hg] at hm; simp at hm
      · rw [(g2 hs).2 fun b hb hr hg' => hg ⟨b, hb, hr, hg'⟩] at hm; simp at hm
    exact ⟨⟨fun h => absurd h (g3 _), fun h => absurd h hs⟩, fun m hm => absurd hm (g3 _)⟩

/-- A key made after the rotation of `HR`, delegated under the policy before it: the new key does not open what is encrypted for `HR` after the rotation. -/
example : ∃ key key' enc, Issued Demo.curve Demo.mk Demo.grown (.or (.attr Demo.hr) (.attr Demo.mkg)) key ∧
    engineDelegateUserKey (bls Demo.curve) Demo.policy Demo.mk.delKey key (.attr Demo.hr) Demo.draws = .ok key' ∧
    engineEncrypt (bls Demo.curve) .debug64 Demo.grown Demo.mk.pubKey [Demo.hr] 5 11 = .ok enc ∧
    engineDecrypt (bls Demo.curve) enc key = .ok (some 5) ∧ engineDecrypt (bls Demo.curve) enc key' ≠ .ok (some 5) := by
  obtain ⟨key, hkey⟩ : ∃ key, engineGenerateUserKey (bls Demo.curve) Demo.grown Demo.mk.privKey (.or (.attr Demo.hr) (.attr Demo.mkg)) Demo.draws = .ok key :=
    Demo.exists_of_isOk (by decide +kernel)
  have hk : Issued Demo.curve Demo.mk Demo.grown (.or (.attr Demo.hr) (.attr Demo.mkg)) key := .generate _ Demo.grown_reachable hkey
  obtain ⟨enc, henc⟩ : ∃ enc, engineEncrypt (bls Demo.curve) .debug64 Demo.grown Demo.mk.pubKey [Demo.hr] 5 11 = .ok enc :=
    Demo.exists_of_isOk (by decide +kernel)
  obtain ⟨key', hd, h⟩ := C72_delegation_earlier Demo.curve Demo.mk_eq' hk Demo.policy_reachable Demo.evolves (.orLeft (.refl _)) (by simp)
    (Demo.valid_attr (Demo.known Demo.hr (by simp))) Demo.draws
  refine ⟨key, key', enc, hk, hd, henc, ?_, ?_⟩
  · refine (C71_earlier_ciphertext Demo.curve Demo.mk_eq' hk Demo.grown_reachable (.nil _) henc).1 (Or.inl ⟨Demo.hr, ?_, by simp⟩)
    exact ⟨["RnD"], ["MKG"], false, by decide +kernel, by decide +kernel, rfl, Or.inl rfl⟩
  · intro hd'
    obtain ⟨b, hb, hm, hr⟩ := (h _ _ _ _ _ henc).1.1 hd'
    rw [Demo.covers_hr.1 hb] at hr
    exact hr (by simp [Rotated, Demo.changes])

/-- **C14**, exact outcome of a delegation, under any policy.  With `V` the values granted by the new access policy: success exactly when `V` consists
of values of the parent key; if not, the error "new attribute is not allowed" when `V` is within the delegation key, and an out of bounds
access when `V` leaves the delegation key and is otherwise within the parent key. -/
theorem C14_delegation_outcome (c : Curve K P Q QP T) {size : Nat} {rnd : Nat → K} {y : K} {mk : MasterKey K P Q T}
    (hmk : generateMasterKey (bls c) size rnd y = .ok mk) {p q : Policy} {ap ap' : AccessPolicy} {key : DecryptionKey K QP Q} (hk : Issued c mk p ap key)
    (hq : q.WF) (hne : ap' ≠ .all) (hv : ap'.Valid q) (r : Nat → K) :
    ((∃ key', engineDelegateUserKey (bls c) q mk.delKey key ap' r = .ok key') ↔
      ∀ b v, ap'.Grants q b → q.HasValue b v → ∃ b', ap.Grants p b' ∧ p.HasValue b' v) ∧
    ((∀ b v, ap'.Grants q b → q.HasValue b v → v.toNat < size) →
      (∃ b v, ap'.Grants q b ∧ q.HasValue b v ∧ ∀ b', ap.Grants p b' → ¬ p.HasValue b' v) →
      engineDelegateUserKey (bls c) q mk.delKey key ap' r = .err (.internalOperation "new attribute is not allowed")) ∧
    ((∃ b v, ap'.Grants q b ∧ q.HasValue b v ∧ size ≤ v.toNat) →
      (∀ b v, ap'.Grants q b → q.HasValue b v → v.toNat < size → ∃ b', ap.Grants p b' ∧ p.HasValue b' v) →
      engineDelegateUserKey (bls c) q mk.delKey key ap' r = .panic) := by
  obtain ⟨tI, hlen, hnz, rfl⟩ := generateMasterKey_inv c hmk
  obtain ⟨hp, F, msp, lam, hk⟩ := issued_ok c hnz hk
  rcases policyToMsp_spec hq ap' with ⟨_, m, F', h1, h2, h3⟩ | ⟨hnv, _⟩
  · simp only [engineDelegate_msp c q _ _ hne, h1, Res.ok_bind]
    rw [hk.key_eq]
    obtain ⟨f1, f2⟩ := keyDelegation_fail c hk.mspFor h2 (tI := tI) (lam := lam) r
    obtain ⟨u, hu, _, _⟩ := sharingVector_ok h2.nbCol_pos (0 : K) r
    refine ⟨⟨?_, ?_⟩, ?_, ?_⟩
    · rintro ⟨key', hd⟩ b v hb hbv
      exact (hk.form.leaves v).1 (keyDelegation_sub c hk.mspFor h2 hd v ((h3.leaves v).2 ⟨b, hb, hbv⟩)).2
    · intro hg
      have hsub : ∀ a ∈ F'.leaves, a ∈ F.leaves := by
        intro v hv
        obtain ⟨b, hb, hbv⟩ := (h3.leaves v).1 hv
        exact (hk.form.leaves v).2 (hg b v hb hbv)
      exact ⟨_, keyDelegation_ok c hk.mspFor h2 tI lam r (fun a ha => (hk.covers a (hsub a ha)).1) hsub hu⟩
    · rintro hr ⟨b, v, hb, hbv, hno⟩
      refine f1 ?_ ⟨v, (h3.leaves v).2 ⟨b, hb, hbv⟩, fun hF => ?_⟩
      · intro a ha
        obtain ⟨b, hb, hbv⟩ := (h3.leaves a).1 ha
        rw [hlen]; exact hr b a hb hbv
      · obtain ⟨b', hb', hbv'⟩ := (hk.form.leaves v).1 hF
        exact hno b' hb' hbv'
    · rintro ⟨b, v, hb, hbv, hle⟩ hr
      refine f2 ⟨v, (h3.leaves v).2 ⟨b, hb, hbv⟩, by rw [hlen]; exact hle⟩ ?_
      intro a ha hlt
      obtain ⟨b, hb, hbv⟩ := (h3.leaves a).1 ha
      exact (hk.form.leaves a).2 (hr b a hb hbv (by rw [← hlen]; exact hlt))
  · exact absurd hv hnv

/-- The demo policy after two rotations of `HR`. -/
def Demo.nearly : Policy :=
  ⟨7, 8, [("Dpt", (["RnD", "HR", "MKG"], false)), ("Lvl", (["Low", "High"], true))],
    [(⟨"Dpt", "MKG"⟩, [5]), (⟨"Dpt", "HR"⟩, [7, 4, 6]), (⟨"Dpt", "RnD"⟩, [3]), (⟨"Lvl", "High"⟩, [2]), (⟨"Lvl", "Low"⟩, [1])]⟩

/-- The demo policy after three rotations of `HR`: its last value 8 is outside of the master key, which has 8 slots. -/
def Demo.spent : Policy :=
  ⟨8, 8, [("Dpt", (["RnD", "HR", "MKG"], false)), ("Lvl", (["Low", "High"], true))],
    [(⟨"Dpt", "MKG"⟩, [5]), (⟨"Dpt", "HR"⟩, [8, 7, 6, 4]), (⟨"Dpt", "RnD"⟩, [3]), (⟨"Lvl", "High"⟩, [2]), (⟨"Lvl", "Low"⟩, [1])]⟩

theorem Demo.nearly_evolves : Demo.policy.Evolves [.rotate Demo.hr, .rotate Demo.hr] Demo.nearly :=
  .cons (p1 := Demo.rotated) (by decide +kernel) (.cons (p1 := Demo.nearly) (by decide +kernel) (.nil _))

theorem Demo.spent_evolves : Demo.nearly.Evolves [.rotate Demo.hr] Demo.spent :=
  .cons (p1 := Demo.spent) (by decide +kernel) (.nil _)

/-- A key for `HR` after two rotations: delegation to `HR` succeeds under its policy and runs out of bounds after one more rotation; delegation to `MKG` is
refused. -/
example : ∃ key, Issued Demo.curve Demo.mk Demo.nearly (.attr Demo.hr) key ∧
    (∃ key', engineDelegateUserKey (bls Demo.curve) Demo.nearly Demo.mk.delKey key (.attr Demo.hr) Demo.draws = .ok key') ∧
    engineDelegateUserKey (bls Demo.curve) Demo.spent Demo.mk.delKey key (.attr Demo.hr) Demo.draws = .panic ∧
    engineDelegateUserKey (bls Demo.curve) Demo.policy Demo.mk.delKey key (.attr Demo.mkg) Demo.draws =
      .err (.internalOperation "new attribute is not allowed") := by
  have hrn := evolves_reachable Demo.nearly_evolves Demo.policy_reachable
  have hrf := evolves_reachable Demo.spent_evolves hrn
  obtain ⟨key, hkey⟩ : ∃ key, engineGenerateUserKey (bls Demo.curve) Demo.nearly Demo.mk.privKey (.attr Demo.hr) Demo.draws = .ok key :=
    Demo.exists_of_isOk (by decide +kernel)
  have hk : Issued Demo.curve Demo.mk Demo.nearly (.attr Demo.hr) key := .generate _ hrn hkey
  have hkn : Demo.nearly.Known Demo.hr := ⟨["RnD", "HR", "MKG"], false, by decide +kernel, by decide +kernel⟩
  have hkf : Demo.spent.Known Demo.hr := ⟨["RnD", "HR", "MKG"], false, by decide +kernel, by decide +kernel⟩
  have hcn : ∀ b, Demo.nearly.Covers Demo.hr b ↔ b = Demo.hr := fun b => Demo.covers_hr (b := b)
  have hcf : ∀ b, Demo.spent.Covers Demo.hr b ↔ b = Demo.hr := fun b => Demo.covers_hr (b := b)
  have hvn : ∀ v, Demo.nearly.HasValue Demo.hr v ↔ v ∈ [7, 4, 6] := fun v =>
    ⟨fun ⟨l, h, hv⟩ => by rw [show hget Demo.nearly.attributeToInt Demo.hr = some [7, 4, 6] by decide +kernel, Option.some.injEq] at h; rwa [← h] at hv,
      fun hv => ⟨_, by decide +kernel, hv⟩⟩
  have hvf : ∀ v, Demo.spent.HasValue Demo.hr v ↔ v ∈ [8, 7, 6, 4] := fun v =>
    ⟨fun ⟨l, h, hv⟩ => by rw [show hget Demo.spent.attributeToInt Demo.hr = some [8, 7, 6, 4] by decide +kernel, Option.some.injEq] at h; rwa [← h] at hv,
      fun hv => ⟨_, by decide +kernel, hv⟩⟩
  have hvm : ∀ v, Demo.policy.HasValue Demo.mkg v ↔ v ∈ [5] := fun v =>
    ⟨fun ⟨l, h, hv⟩ => by rw [show hget Demo.policy.attributeToInt Demo.mkg = some [5] by decide +kernel, Option.some.injEq] at h; rwa [← h] at hv,
      fun hv => ⟨_, by decide +kernel, hv⟩⟩
  refine ⟨key, hk, ?_, ?_, ?_⟩
  · exact (C14_delegation_outcome Demo.curve Demo.mk_eq' hk (reachable_wf hrn) (by simp) (Demo.valid_attr hkn) Demo.draws).1.2
      (fun b v hb hv => ⟨b, hb, hv⟩)
  · refine (C14_delegation_outcome Demo.curve Demo.mk_eq' hk (reachable_wf hrf) (by simp) (Demo.valid_attr hkf) Demo.draws).2.2
      ⟨Demo.hr, 8, (hcf _).2 rfl, (hvf 8).2 (by decide), by decide⟩ ?_
    intro b v hb hv hlt
    rw [(hcf b).1 hb] at hv
    refine ⟨Demo.hr, (hcn _).2 rfl, (hvn v).2 ?_⟩
    rcases List.mem_cons.1 ((hvf v).1 hv) with rfl | h
    · exact absurd hlt (by decide)
    · exact (by decide : ∀ v ∈ ([7, 6, 4] : List UInt32), v ∈ [7, 4, 6]) v h
  · refine (C14_delegation_outcome Demo.curve Demo.mk_eq' hk (reachable_wf Demo.policy_reachable) (by simp)
      (Demo.valid_attr (Demo.known Demo.mkg (by simp))) Demo.draws).2.1 ?_ ⟨Demo.mkg, 5, Demo.covers_mkg.2 rfl, (hvm 5).2 (by decide), ?_⟩
    · intro b v hb hv
      rw [Demo.covers_mkg.1 hb] at hv
      have := (hvm v).1 hv
      simp only [List.mem_singleton] at this
      subst this
      decide
    · intro b' hb' hv
      rw [(hcn b').1 hb'] at hv
      exact absurd ((hvn 5).1 hv) (by decide)

end Abe
