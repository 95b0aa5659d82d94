import Verif.Proofs.Engine
import Verif.Props.Demo

/-!
# Access control through the engine

Properties C01, C02, C06–C10, C17–C20, C53.  The scheme is the one of `bls12_381.rs` over an arbitrary curve satisfying
the laws recorded in `Curve`.  `rnd`, `y`, `s` are the values drawn by the random generator.
-/

namespace Abe

set_option linter.unusedSectionVars false

variable {K P Q QP T : Type} [Field K] [DecidableEq K] [AddCommGroup P] [Module K P] [AddCommGroup Q] [Module K Q]
  [AddCommGroup T] [Module K T]

/-- With the policy unchanged, the values of the ciphertext attributes are those of `atts`. -/
theorem hasValue_same {p : Policy} (hw : p.WF) {atts : List Attribute} {vs : List UInt32}
    (hvs : ∀ v, v ∈ vs ↔ ∃ a ∈ atts, p.currentValue a = some v) {b : Attribute} (hb : p.Known b) :
    (∃ v, p.HasValue b v ∧ v ∈ vs) ↔ b ∈ atts :=
  hasValue_earlier (.nil p) hw hvs hb

/-- **C01.** Authorised decryption returns the exact message. -/
theorem C01_authorised_decryption (c : Curve K P Q QP T) {p : Policy} (hw : p.WF) {rnd : Nat → K} {y : K}
    {mk : MasterKey K P Q T} (hmk : engineGenerateMasterKey (bls c) p rnd y = .ok mk)
    {ap : AccessPolicy} {key : DecryptionKey K QP Q} (hkey : UserKey c p mk ap key)
    {t : Target} {atts : List Attribute} {msg : T} {s : K} {enc : CipherText P T}
    (henc : engineEncrypt (bls c) t p mk.pubKey atts msg s = .ok enc)
    (hsat : ap.Sat p (· ∈ atts)) :
    engineDecrypt (bls c) enc key = .ok (some msg) := by
  obtain ⟨tI, _, hnz, rfl⟩ := generateMasterKey_inv c hmk
  obtain ⟨F, msp, lam, hk⟩ := userKey_ok c hw hnz hkey
  obtain ⟨vs, _, hvs, _, _, _, _, rfl⟩ := engineEncrypt_inv c hw henc
  apply (decrypt_exact c hk s msg vs).1
  exact (AccessPolicy.sat_congr (fun b hb => hasValue_same hw hvs hb) ap).2 hsat

/-- The key `Lvl::High && (Dpt::HR || Dpt::MKG)` opens a ciphertext for `Lvl::Low`, `Dpt::HR`. -/
example : ∃ key enc, engineGenerateUserKey (bls Demo.curve) Demo.policy Demo.mk.privKey Demo.ap Demo.draws = .ok key ∧
    engineEncrypt (bls Demo.curve) .debug64 Demo.policy Demo.mk.pubKey [Demo.low, Demo.hr] 5 11 = .ok enc ∧
    engineDecrypt (bls Demo.curve) enc key = .ok (some 5) := by
  obtain ⟨key, hkey⟩ := Demo.key_exists
  obtain ⟨enc, henc⟩ := Demo.enc_exists
  exact ⟨key, enc, hkey, henc, C01_authorised_decryption Demo.curve (reachable_wf Demo.policy_reachable) Demo.mk_eq
    (.generate _ hkey) henc Demo.ap_sat⟩

/-- **C02.** Unauthorised decryption never returns a message: `Ok(None)` when the ciphertext carries an attribute
granted by some leaf of the access policy, an error otherwise. -/
theorem C02_unauthorised_decryption (c : Curve K P Q QP T) {p : Policy} (hw : p.WF) {rnd : Nat → K} {y : K}
    {mk : MasterKey K P Q T} (hmk : engineGenerateMasterKey (bls c) p rnd y = .ok mk)
    {ap : AccessPolicy} {key : DecryptionKey K QP Q} (hkey : UserKey c p mk ap key)
    {t : Target} {atts : List Attribute} {msg : T} {s : K} {enc : CipherText P T}
    (henc : engineEncrypt (bls c) t p mk.pubKey atts msg s = .ok enc)
    (hsat : ¬ ap.Sat p (· ∈ atts)) :
    ((∃ b ∈ atts, ap.Grants p b) → engineDecrypt (bls c) enc key = .ok none) ∧
    ((∀ b ∈ atts, ¬ ap.Grants p b) →
      engineDecrypt (bls c) enc key = .err (.internalOperation "empty input matrix")) := by
  obtain ⟨tI, _, hnz, rfl⟩ := generateMasterKey_inv c hmk
  obtain ⟨F, msp, lam, hk⟩ := userKey_ok c hw hnz hkey
  obtain ⟨vs, _, hvs, _, _, _, _, rfl⟩ := engineEncrypt_inv c hw henc
  obtain ⟨_, h2, h3⟩ := decrypt_exact c hk s msg vs
  constructor
  · rintro ⟨b, hb, hg⟩
    apply h2
    · exact fun h => hsat ((AccessPolicy.sat_congr (fun b hb => hasValue_same hw hvs hb) ap).1 h)
    · exact ⟨b, hg, (hasValue_same hw hvs hg.known).2 hb⟩
  · intro hno
    apply h3
    rintro ⟨b, hg, hv⟩
    exact hno b ((hasValue_same hw hvs hg.known).1 hv) hg

theorem Demo.enc_exists' : ∃ enc, engineEncrypt (bls Demo.curve) .debug64 Demo.policy Demo.mk.pubKey [Demo.low, Demo.rnd'] 5 11 = .ok enc :=
  Demo.exists_of_isOk (by decide +kernel)

/-- The same key does not open a ciphertext for `Lvl::Low`, `Dpt::RnD`. -/
example : ∃ key enc, engineGenerateUserKey (bls Demo.curve) Demo.policy Demo.mk.privKey Demo.ap Demo.draws = .ok key ∧
    engineEncrypt (bls Demo.curve) .debug64 Demo.policy Demo.mk.pubKey [Demo.low, Demo.rnd'] 5 11 = .ok enc ∧
    engineDecrypt (bls Demo.curve) enc key = .ok none := by
  obtain ⟨key, hkey⟩ := Demo.key_exists
  obtain ⟨enc, henc⟩ := Demo.enc_exists'
  refine ⟨key, enc, hkey, henc, (C02_unauthorised_decryption Demo.curve (reachable_wf Demo.policy_reachable) Demo.mk_eq
    (.generate _ hkey) henc ?_).1 ⟨Demo.low, by simp, Or.inl ?_⟩⟩
  · rintro ⟨_, ⟨b, ⟨s, t, h, h0, _, h1, h2⟩, hb⟩ | ⟨b, ⟨s, t, h, h0, _, h1, h2⟩, hb⟩⟩
    · simp only [List.mem_cons, List.not_mem_nil, or_false] at hb
      rcases hb with rfl | rfl
      · exact absurd h1 (by decide +kernel)
      · rcases h2 with h2 | ⟨rfl, _⟩
        · exact absurd h2 (by decide +kernel)
        · have hh : hget Demo.policy.axes Demo.hr.axis = some (["RnD", "HR", "MKG"], false) := by decide +kernel
          rw [hh] at h0; simp at h0
    · simp only [List.mem_cons, List.not_mem_nil, or_false] at hb
      rcases hb with rfl | rfl
      · exact absurd h1 (by decide +kernel)
      · rcases h2 with h2 | ⟨rfl, _⟩
        · exact absurd h2 (by decide +kernel)
        · have hh : hget Demo.policy.axes Demo.mkg.axis = some (["RnD", "HR", "MKG"], false) := by decide +kernel
          rw [hh] at h0; simp at h0
  · exact ⟨["Low"], [], true, by decide +kernel, by decide +kernel, rfl, Or.inr ⟨rfl, by decide +kernel⟩⟩

/-- **C06.** A key for attribute `L` of an axis opens exactly the ciphertexts carrying `L`, or, when the axis is
hierarchical, an attribute of this axis ranked below `L`. -/
theorem C06_hierarchical_access (c : Curve K P Q QP T) {p : Policy} (hw : p.WF) {rnd : Nat → K} {y : K}
    {mk : MasterKey K P Q T} (hmk : engineGenerateMasterKey (bls c) p rnd y = .ok mk)
    {axis L : String} {below above : List String} {hier : Bool}
    (haxis : hget p.axes axis = some (below ++ L :: above, hier))
    {key : DecryptionKey K QP Q} (hkey : UserKey c p mk (.attr ⟨axis, L⟩) key)
    {t : Target} {atts : List Attribute} {msg : T} {s : K} {enc : CipherText P T}
    (henc : engineEncrypt (bls c) t p mk.pubKey atts msg s = .ok enc) :
    engineDecrypt (bls c) enc key = .ok (some msg) ↔
      ⟨axis, L⟩ ∈ atts ∨ hier = true ∧ ∃ name ∈ below, ⟨axis, name⟩ ∈ atts := by
  have hcov : ∀ b, p.Covers ⟨axis, L⟩ b ↔ b.axis = axis ∧ (b.name = L ∨ hier = true ∧ b.name ∈ below) := by
    intro b
    have hnd := hw.namesNodup _ _ _ haxis
    have hL : L ∉ below := by
      intro hm
      exact (List.nodup_append.1 hnd).2.2 L hm L (by simp) rfl
    constructor
    · rintro ⟨s', t', h', g1, g2, g3, g4⟩
      simp only [] at g1 g2 g3 g4
      rw [haxis] at g1
      simp only [Option.some.injEq, Prod.mk.injEq] at g1
      obtain ⟨g1, rfl⟩ := g1
      have : below = s' := by
        rw [List.append_eq_append_iff] at g1
        rcases g1 with ⟨as, q1, q2⟩ | ⟨as, q1, q2⟩
        · cases as with
          | nil => simpa using q1.symm
          | cons x as =>
            simp only [List.cons_append, List.cons.injEq] at q2
            exfalso; apply g2; rw [q1, q2.1]; simp
        · cases as with
          | nil => simpa using q1
          | cons x as =>
            simp only [List.cons_append, List.cons.injEq] at q2
            exfalso; apply hL; rw [q1, q2.1]; simp
      subst this
      exact ⟨g3, g4⟩
    · rintro ⟨g1, g2⟩
      exact ⟨below, above, hier, haxis, hL, g1, g2⟩
  have hsat : AccessPolicy.Sat p (· ∈ atts) (.attr ⟨axis, L⟩) ↔
      (⟨axis, L⟩ ∈ atts ∨ hier = true ∧ ∃ name ∈ below, (⟨axis, name⟩ : Attribute) ∈ atts) := by
    simp only [AccessPolicy.Sat, hcov]
    constructor
    · rintro ⟨⟨ax, nm⟩, ⟨h1, h2⟩, h3⟩
      simp only at h1 h2
      subst h1
      rcases h2 with rfl | ⟨h2, h4⟩
      · exact Or.inl h3
      · exact Or.inr ⟨h2, nm, h4, h3⟩
    · rintro (h | ⟨h, nm, h1, h2⟩)
      · exact ⟨_, ⟨rfl, Or.inl rfl⟩, h⟩
      · exact ⟨_, ⟨rfl, Or.inr ⟨h, h1⟩⟩, h2⟩
  rw [← hsat]
  constructor
  · intro h
    by_contra hns
    obtain ⟨h1, h2⟩ := C02_unauthorised_decryption c hw hmk hkey henc hns
    by_cases hg : ∃ b ∈ atts, AccessPolicy.Grants p b (.attr ⟨axis, L⟩)
    · rw [h1 hg] at h; simp at h
    · push Not at hg
      rw [h2 hg] at h; simp at h
  · exact C01_authorised_decryption c hw hmk hkey henc

/-- The key for `Lvl::High` opens ciphertexts for `Lvl::Low` of the hierarchical axis. -/
example : ∃ key enc,
    UserKey Demo.curve Demo.policy Demo.mk (.attr Demo.high) key ∧
    engineEncrypt (bls Demo.curve) .debug64 Demo.policy Demo.mk.pubKey [Demo.low, Demo.hr] 5 11 = .ok enc ∧
    engineDecrypt (bls Demo.curve) enc key = .ok (some 5) := by
  obtain ⟨key, hkey⟩ : ∃ key, engineGenerateUserKey (bls Demo.curve) Demo.policy Demo.mk.privKey (.attr Demo.high)
    Demo.draws = .ok key := Demo.exists_of_isOk (by decide +kernel)
  obtain ⟨enc, henc⟩ := Demo.enc_exists
  refine ⟨key, enc, .generate _ hkey, henc, ?_⟩
  exact (C06_hierarchical_access Demo.curve (reachable_wf Demo.policy_reachable) Demo.mk_eq
    (axis := "Lvl") (L := "High") (below := ["Low"]) (above := []) (hier := true) (by decide +kernel)
    (.generate _ hkey) henc).2 (Or.inr ⟨rfl, "Low", by simp, by simp [Demo.low]⟩)

/-- **C07.** User key generation succeeds exactly for valid access policies whose granted values are below the master
key size; otherwise it is an error, and never a panic. -/
theorem C07_key_generation_success (c : Curve K P Q QP T) {p : Policy} (hw : p.WF) {tI : List K}
    (hnz : ∀ t ∈ tI, t ≠ 0) (y : K) (ap : AccessPolicy) (rnd : Nat → K) :
    ((ap.Valid p ∧ ∀ b v, ap.Grants p b → p.HasValue b v → v.toNat < tI.length) →
      ∃ key, engineGenerateUserKey (bls c) p ⟨tI, y⟩ ap rnd = .ok key) ∧
    (¬ (ap.Valid p ∧ ∀ b v, ap.Grants p b → p.HasValue b v → v.toNat < tI.length) →
      ∃ e, engineGenerateUserKey (bls c) p ⟨tI, y⟩ ap rnd = .err e) := by
  unfold engineGenerateUserKey
  rcases policyToMsp_spec hw ap with ⟨hv, m, F, h1, h2, h3⟩ | ⟨hv, e, h1⟩
  · rw [h1]
    simp only [Res.ok_bind]
    have hrange : (∀ b v, ap.Grants p b → p.HasValue b v → v.toNat < tI.length) ↔
        ∀ a ∈ F.leaves, a.toNat < tI.length := by
      constructor
      · intro h a ha
        obtain ⟨b, hb, hbv⟩ := (h3.leaves a).1 ha
        exact h b a hb hbv
      · intro h b v hb hbv
        exact h v ((h3.leaves v).2 ⟨b, hb, hbv⟩)
    rw [hrange]
    rcases keyGeneration_cases c h2 tI y rnd hnz with ⟨g1, g2⟩ | ⟨⟨a, ha, ha'⟩, g2⟩
    · exact ⟨fun _ => g2, fun h => absurd ⟨hv, g1⟩ h⟩
    · refine ⟨fun h => ?_, fun _ => g2⟩
      have := h.2 a ha
      omega
  · rw [h1]
    exact ⟨fun h => absurd h.1 hv, fun _ => ⟨e, rfl⟩⟩

/-- The access policy of the demo is valid and in range; `HR && HR` is not valid. -/
example : (Demo.ap.Valid Demo.policy ∧
      ∀ b v, Demo.ap.Grants Demo.policy b → Demo.policy.HasValue b v → v.toNat < Demo.mk.privKey.tI.length) ∧
    ∃ e, engineGenerateUserKey (bls Demo.curve) Demo.policy Demo.mk.privKey (.and (.attr Demo.hr) (.attr Demo.hr))
      Demo.draws = .err e := by
  have hw := reachable_wf Demo.policy_reachable
  have hnz : ∀ t ∈ Demo.mk.privKey.tI, t ≠ 0 := by decide +kernel
  constructor
  · by_contra hn
    obtain ⟨e, he⟩ := (C07_key_generation_success Demo.curve hw hnz Demo.mk.privKey.y Demo.ap Demo.draws).2 hn
    obtain ⟨key, hk⟩ := Demo.key_exists
    have : (Demo.mk.privKey) = ⟨Demo.mk.privKey.tI, Demo.mk.privKey.y⟩ := rfl
    rw [this] at hk
    rw [hk] at he; simp at he
  · apply (C07_key_generation_success Demo.curve hw hnz Demo.mk.privKey.y _ Demo.draws).2
    rintro ⟨⟨_, _, _, _, h⟩, _⟩
    apply h Demo.hr
    have : Demo.policy.Covers Demo.hr Demo.hr :=
      ⟨["RnD"], ["MKG"], false, by decide +kernel, by decide +kernel, rfl, Or.inl rfl⟩
    exact ⟨this, this⟩

/-- **C08.** An `All` key opens a ciphertext exactly when the ciphertext carries a value that existed in the policy when
the key was generated; otherwise decryption is an error.  The policy `p'` of the ciphertext is arbitrary. -/
theorem C08_all_key (c : Curve K P Q QP T) {p p' : Policy} (hw : p.WF) (hw' : p'.WF) {rnd : Nat → K} {y : K}
    {mk : MasterKey K P Q T} (hmk : engineGenerateMasterKey (bls c) p rnd y = .ok mk)
    {key : DecryptionKey K QP Q} (hkey : UserKey c p mk .all key)
    {t : Target} {atts : List Attribute} {msg : T} {s : K} {enc : CipherText P T}
    (henc : engineEncrypt (bls c) t p' mk.pubKey atts msg s = .ok enc) :
    ((∃ a ∈ atts, ∃ v, p'.Top a v ∧ ∃ b, p.HasValue b v) →
      engineDecrypt (bls c) enc key = .ok (some msg)) ∧
    (¬ (∃ a ∈ atts, ∃ v, p'.Top a v ∧ ∃ b, p.HasValue b v) →
      engineDecrypt (bls c) enc key = .err (.internalOperation "empty input matrix")) := by
  obtain ⟨tI, _, hnz, rfl⟩ := generateMasterKey_inv c hmk
  obtain ⟨F, msp, lam, hk⟩ := userKey_ok c hw hnz hkey
  obtain ⟨vs, _, hvs, _, _, _, _, rfl⟩ := engineEncrypt_inv c hw' henc
  obtain ⟨h1, h2, h3⟩ := decrypt_exact c hk s msg vs
  constructor
  · rintro ⟨a, ha, v, hc, b, hb⟩
    apply h1
    exact ⟨b, hb.known hw, v, hb, (hvs v).2 ⟨a, ha, top_iff.1 hc⟩⟩
  · intro hn
    apply h3
    rintro ⟨b, _, v, hbv, hv⟩
    obtain ⟨a, ha, hc⟩ := (hvs v).1 hv
    exact hn ⟨a, ha, v, top_iff.2 hc, b, hbv⟩

theorem Demo.all_key_exists : ∃ key, engineGenerateUserKey (bls Demo.curve) Demo.policy Demo.mk.privKey .all Demo.draws = .ok key :=
  Demo.exists_of_isOk (by decide +kernel)

theorem Demo.enc_rotated : ∃ enc, engineEncrypt (bls Demo.curve) .debug64 Demo.rotated Demo.mk.pubKey [Demo.hr, Demo.mkg] 5 11 = .ok enc :=
  Demo.exists_of_isOk (by decide +kernel)

/-- An `All` key opens a ciphertext made after rotation of one of its two attributes. -/
example : ∃ key enc, UserKey Demo.curve Demo.policy Demo.mk .all key ∧
    engineEncrypt (bls Demo.curve) .debug64 Demo.rotated Demo.mk.pubKey [Demo.hr, Demo.mkg] 5 11 = .ok enc ∧
    engineDecrypt (bls Demo.curve) enc key = .ok (some 5) := by
  obtain ⟨key, hkey⟩ := Demo.all_key_exists
  obtain ⟨enc, henc⟩ := Demo.enc_rotated
  refine ⟨key, enc, .generate _ hkey, henc, ?_⟩
  have hw := reachable_wf Demo.policy_reachable
  exact (C08_all_key Demo.curve hw (rotations_spec Demo.rotations hw).1 Demo.mk_eq (.generate _ hkey) henc).1
    ⟨Demo.mkg, by simp, 5, top_iff.2 (by decide +kernel), Demo.mkg, Policy.currentValue_hasValue (by decide +kernel)⟩

/-- **C09**, revocation: a key made under `p` opens a ciphertext made after the rotations `l` exactly when the attributes
of the ciphertext not in `l` satisfy its access policy. -/
theorem C09_rotation_revokes (c : Curve K P Q QP T) {p p' : Policy} (hw : p.WF) {l : List Attribute}
    (hr : Policy.Rotations p l p') {rnd : Nat → K} {y : K}
    {mk : MasterKey K P Q T} (hmk : engineGenerateMasterKey (bls c) p rnd y = .ok mk)
    {ap : AccessPolicy} {key : DecryptionKey K QP Q} (hkey : UserKey c p mk ap key)
    {t : Target} {atts : List Attribute} {msg : T} {s : K} {enc : CipherText P T}
    (henc : engineEncrypt (bls c) t p' mk.pubKey atts msg s = .ok enc) :
    (ap.Sat p (fun b => b ∈ atts ∧ b ∉ l) → engineDecrypt (bls c) enc key = .ok (some msg)) ∧
    (¬ ap.Sat p (fun b => b ∈ atts ∧ b ∉ l) →
      ((∃ b ∈ atts, b ∉ l ∧ ap.Grants p b) → engineDecrypt (bls c) enc key = .ok none) ∧
      ((∀ b ∈ atts, b ∉ l → ¬ ap.Grants p b) → engineDecrypt (bls c) enc key = .err (.internalOperation "empty input matrix"))) := by
  obtain ⟨tI, _, hnz, rfl⟩ := generateMasterKey_inv c hmk
  obtain ⟨F, msp, lam, hk⟩ := userKey_ok c hw hnz hkey
  obtain ⟨vs, _, hvs, _, _, _, _, rfl⟩ := engineEncrypt_inv c (rotations_spec hr hw).1 henc
  obtain ⟨h1, h2, h3⟩ := decrypt_exact c hk s msg vs
  rw [AccessPolicy.sat_congr (fun b hb => hasValue_later hr hw hvs hb) ap] at h1 h2
  refine ⟨h1, fun hn => ⟨?_, fun hg => h3 ?_⟩⟩
  · rintro ⟨b, hb, hr', hg⟩
    exact h2 hn ⟨b, hg, (hasValue_later hr hw hvs hg.known).2 ⟨hb, hr'⟩⟩
  · rintro ⟨b, hb, hv⟩
    obtain ⟨hm, hr'⟩ := (hasValue_later hr hw hvs hb.known).1 hv
    exact hg b hm hr' hb

/-- **C09**, preservation: a key made after the rotations `l` opens ciphertexts made before them, and those made
after them, exactly when all their attributes satisfy its access policy. -/
theorem C09_rotation_preserves (c : Curve K P Q QP T) {p p' : Policy} (hw : p.WF) {l : List Attribute}
    (hr : Policy.Rotations p l p') {rnd : Nat → K} {y : K}
    {mk : MasterKey K P Q T} (hmk : engineGenerateMasterKey (bls c) p rnd y = .ok mk)
    {ap : AccessPolicy} {key : DecryptionKey K QP Q} (hkey : UserKey c p' mk ap key)
    {t : Target} {atts : List Attribute} {msg : T} {s : K} {enc : CipherText P T}
    (henc : engineEncrypt (bls c) t p mk.pubKey atts msg s = .ok enc ∨
      engineEncrypt (bls c) t p' mk.pubKey atts msg s = .ok enc) :
    (ap.Sat p (· ∈ atts) → engineDecrypt (bls c) enc key = .ok (some msg)) ∧
    (¬ ap.Sat p (· ∈ atts) →
      ((∃ b ∈ atts, ap.Grants p b) → engineDecrypt (bls c) enc key = .ok none) ∧
      ((∀ b ∈ atts, ¬ ap.Grants p b) → engineDecrypt (bls c) enc key = .err (.internalOperation "empty input matrix"))) := by
  obtain ⟨tI, _, hnz, rfl⟩ := generateMasterKey_inv c hmk
  obtain ⟨hw', haxes, _⟩ := rotations_spec hr hw
  obtain ⟨F, msp, lam, hk⟩ := userKey_ok c hw' hnz hkey
  rw [← AccessPolicy.sat_axes haxes]
  simp only [← AccessPolicy.grants_axes haxes]
  have main : ∀ (vs : List UInt32), (∀ b, p'.Known b → ((∃ v, p'.HasValue b v ∧ v ∈ vs) ↔ b ∈ atts)) →
      (ap.Sat p' (· ∈ atts) → engineDecrypt (bls c) (ctOf c tI y s msg vs) key = .ok (some msg)) ∧
      (¬ ap.Sat p' (· ∈ atts) →
        ((∃ b ∈ atts, ap.Grants p' b) → engineDecrypt (bls c) (ctOf c tI y s msg vs) key = .ok none) ∧
        ((∀ b ∈ atts, ¬ ap.Grants p' b) →
          engineDecrypt (bls c) (ctOf c tI y s msg vs) key = .err (.internalOperation "empty input matrix"))) := by
    intro vs hvs
    obtain ⟨h1, h2, h3⟩ := decrypt_exact c hk s msg vs
    rw [AccessPolicy.sat_congr hvs ap] at h1 h2
    refine ⟨h1, fun hn => ⟨?_, fun hg => h3 ?_⟩⟩
    · rintro ⟨b, hb, hg⟩
      exact h2 hn ⟨b, hg, (hvs b hg.known).2 hb⟩
    · rintro ⟨b, hb, hv⟩
      exact hg b ((hvs b hb.known).1 hv) hb
  rcases henc with henc | henc
  · obtain ⟨vs, _, hvs, _, _, _, _, rfl⟩ := engineEncrypt_inv c hw henc
    exact main vs fun b hb => hasValue_earlier hr hw hvs hb
  · obtain ⟨vs, _, hvs, _, _, _, _, rfl⟩ := engineEncrypt_inv c hw' henc
    exact main vs fun b hb => hasValue_same hw' hvs hb

theorem Demo.enc_rotated_hr : ∃ enc, engineEncrypt (bls Demo.curve) .debug64 Demo.rotated Demo.mk.pubKey [Demo.low, Demo.hr] 5 11 = .ok enc :=
  Demo.exists_of_isOk (by decide +kernel)

theorem Demo.key_rotated : ∃ key, engineGenerateUserKey (bls Demo.curve) Demo.rotated Demo.mk.privKey Demo.ap Demo.draws = .ok key :=
  Demo.exists_of_isOk (by decide +kernel)

/-- After rotating `HR`, the refreshed key opens the new ciphertext. -/
example : ∃ key enc, UserKey Demo.curve Demo.rotated Demo.mk Demo.ap key ∧
    engineEncrypt (bls Demo.curve) .debug64 Demo.rotated Demo.mk.pubKey [Demo.low, Demo.hr] 5 11 = .ok enc ∧
    engineDecrypt (bls Demo.curve) enc key = .ok (some 5) := by
  obtain ⟨key, hkey⟩ := Demo.key_rotated
  obtain ⟨enc, henc⟩ := Demo.enc_rotated_hr
  have hw := reachable_wf Demo.policy_reachable
  exact ⟨key, enc, .generate _ hkey, henc,
    (C09_rotation_preserves Demo.curve hw Demo.rotations Demo.mk_eq (.generate _ hkey) (Or.inr henc)).1 Demo.ap_sat⟩

/-- After rotating `HR`, the old key does not open the new ciphertext. -/
example : ∃ key enc, UserKey Demo.curve Demo.policy Demo.mk Demo.ap key ∧
    engineEncrypt (bls Demo.curve) .debug64 Demo.rotated Demo.mk.pubKey [Demo.low, Demo.hr] 5 11 = .ok enc ∧
    engineDecrypt (bls Demo.curve) enc key = .ok none := by
  obtain ⟨key, hkey⟩ := Demo.key_exists
  obtain ⟨enc, henc⟩ := Demo.enc_rotated_hr
  have hw := reachable_wf Demo.policy_reachable
  refine ⟨key, enc, .generate _ hkey, henc, ?_⟩
  refine ((C09_rotation_revokes Demo.curve hw Demo.rotations Demo.mk_eq (.generate _ hkey) henc).2 (by
    rintro ⟨_, ⟨b, ⟨s, t, h, h0, _, h1, h2⟩, hb, hb'⟩ | ⟨b, ⟨s, t, h, h0, _, h1, h2⟩, hb, hb'⟩⟩
    · simp only [List.mem_cons, List.not_mem_nil, or_false] at hb hb'
      rcases hb with rfl | rfl
      · exact absurd h1 (by decide +kernel)
      · exact hb' rfl
    · simp only [List.mem_cons, List.not_mem_nil, or_false] at hb hb'
      rcases hb with rfl | rfl
      · exact absurd h1 (by decide +kernel)
      · exact hb' rfl)).1 ⟨Demo.low, by simp, by decide, Or.inl ?_⟩
  exact ⟨["Low"], [], true, by decide +kernel, by decide +kernel, rfl, Or.inr ⟨rfl, by decide +kernel⟩⟩

/-- **C10.** Once every attribute of a ciphertext has been rotated after its generation, an `All` key gets an error. -/
theorem C10_all_key_not_exempt (c : Curve K P Q QP T) {p p' : Policy} (hw : p.WF) {l : List Attribute}
    (hr : Policy.Rotations p l p') {rnd : Nat → K} {y : K}
    {mk : MasterKey K P Q T} (hmk : engineGenerateMasterKey (bls c) p rnd y = .ok mk)
    {key : DecryptionKey K QP Q} (hkey : UserKey c p mk .all key)
    {t : Target} {atts : List Attribute} {msg : T} {s : K} {enc : CipherText P T}
    (henc : engineEncrypt (bls c) t p' mk.pubKey atts msg s = .ok enc) (hl : ∀ a ∈ atts, a ∈ l) :
    engineDecrypt (bls c) enc key = .err (.internalOperation "empty input matrix") := by
  obtain ⟨hw', _, _, _, _, _, h7⟩ := rotations_spec hr hw
  apply (C08_all_key c hw hw' hmk hkey henc).2
  rintro ⟨a, ha, v, hc, b, hb⟩
  have hm := (Policy.mem_allValues hw).2 ⟨b, hb⟩
  obtain ⟨v', hv', hlt⟩ := h7 a (hl a ha)
  rw [top_iff.1 hc] at hv'
  simp only [Option.some.injEq] at hv'
  subst hv'
  have := (hw.range v hm).2
  omega

/-- **C10**, refutation of "All is not subject to revocation" (/repo/src/core/demo.rs:120-123 and 290-291): there is a
reachable policy, an `All` key and a rotation after which the key does not open a new ciphertext. -/
theorem C10_all_key_refutation : ∃ (p p' : Policy) (a : Attribute) (mk : MasterKey ℚ ℚ ℚ ℚ) (key : DecryptionKey ℚ ℚ ℚ)
    (enc : CipherText ℚ ℚ), p.Reachable ∧ p.rotate a = some p' ∧
    engineGenerateMasterKey (bls Demo.curve) p Demo.draws 3 = .ok mk ∧
    engineGenerateUserKey (bls Demo.curve) p mk.privKey .all Demo.draws = .ok key ∧
    engineEncrypt (bls Demo.curve) .debug64 p' mk.pubKey [a] 5 11 = .ok enc ∧
    engineDecrypt (bls Demo.curve) enc key ≠ .ok (some 5) := by
  obtain ⟨key, hkey⟩ := Demo.all_key_exists
  obtain ⟨enc, henc⟩ : ∃ enc, engineEncrypt (bls Demo.curve) .debug64 Demo.rotated Demo.mk.pubKey [Demo.hr] 5 11 = .ok enc :=
    Demo.exists_of_isOk (by decide +kernel)
  refine ⟨Demo.policy, Demo.rotated, Demo.hr, Demo.mk, key, enc, Demo.policy_reachable, by decide +kernel, Demo.mk_eq, hkey,
    henc, ?_⟩
  rw [C10_all_key_not_exempt Demo.curve (reachable_wf Demo.policy_reachable) Demo.rotations Demo.mk_eq
    (.generate _ hkey) henc (by simp)]
  simp

end Abe
