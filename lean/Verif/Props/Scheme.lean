import Verif.Proofs.Engine
import Verif.Props.Demo

/-!
# Set-up, encryption, and invariances of decryption

Properties C17–C20 and C53.
-/

namespace Abe

set_option linter.unusedSectionVars false

variable {K P Q QP T : Type} [Field K] [DecidableEq K] [AddCommGroup P] [Module K P] [AddCommGroup Q] [Module K Q]
  [AddCommGroup T] [Module K T]

/-- **C17.** When encryption succeeds, errs or panics, for a policy and a public key of `size ≥ 1` slots. -/
theorem C17_encryption_outcome (c : Curve K P Q QP T) (t : Target) {p : Policy} (hw : p.WF) {size : Nat} (hsize : 0 < size)
    {rnd : Nat → K} {y : K} {mk : MasterKey K P Q T} (hmk : generateMasterKey (bls c) size rnd y = .ok mk)
    (atts : List Attribute) (msg : T) (s : K) :
    ((∃ a ∈ atts, ¬ p.Known a) ∨ size ≤ atts.length →
      ∃ e, engineEncrypt (bls c) t p mk.pubKey atts msg s = .err e) ∧
    ((∀ a ∈ atts, p.Known a) → atts.length < size →
      (∀ a ∈ atts, ∀ v, p.Top a v → v.toNat < size) →
      ∃ enc, engineEncrypt (bls c) t p mk.pubKey atts msg s = .ok enc ∧ List.Forall₂ p.Top atts enc.gamma) ∧
    ((∀ a ∈ atts, p.Known a) → atts.length < size →
      (∃ a ∈ atts, ∃ v, p.Top a v ∧ size ≤ v.toNat) →
      engineEncrypt (bls c) t p mk.pubKey atts msg s = .panic) := by
  obtain ⟨tI, hlen, _, rfl⟩ := generateMasterKey_inv c hmk
  unfold engineEncrypt
  rcases attributesValues_cases hw atts with ⟨h1, vs, h2, h3, h4, h5⟩ | ⟨⟨a, ha, hka⟩, h2⟩
  · rw [h2]
    simp only [Res.ok_bind]
    rcases encrypt_cases c t tI y s msg vs with ⟨g0, _, g⟩ | g | ⟨g1, g2, g⟩ | ⟨g1, ⟨v, hv, hv'⟩, g⟩
    · refine ⟨fun _ => ⟨_, g⟩, fun _ h => ?_, fun _ h => ?_⟩ <;> omega
    · omega
    · refine ⟨?_, fun _ _ _ => ⟨_, g, tops_iff.2 h5⟩, ?_⟩
      · rintro (⟨a, ha, hk⟩ | h)
        · exact absurd (h1 a ha) hk
        · omega
      · rintro _ _ ⟨a, ha, v, hv, hvs⟩
        have := g2 v ((h4 v).2 ⟨a, ha, top_iff.1 hv⟩)
        omega
    · refine ⟨?_, fun _ _ h => ?_, fun _ _ _ => g⟩
      · rintro (⟨a, ha, hk⟩ | h)
        · exact absurd (h1 a ha) hk
        · omega
      · obtain ⟨a, ha, hc⟩ := (h4 v).1 hv
        have := h a ha v (top_iff.2 hc)
        omega
  · rw [h2]
    exact ⟨fun _ => ⟨_, rfl⟩, fun h => absurd (h a ha) hka, fun h => absurd (h a ha) hka⟩

/-- Both attributes known and within range: encryption under the demo policy succeeds. -/
example : ∃ enc, engineEncrypt (bls Demo.curve) .release64 Demo.policy Demo.mk.pubKey [Demo.low, Demo.hr] 5 11 = .ok enc ∧
    List.Forall₂ Demo.policy.Top [Demo.low, Demo.hr] enc.gamma :=
  (C17_encryption_outcome Demo.curve .release64 (reachable_wf Demo.policy_reachable) (size := 8) (by omega)
    (rnd := Demo.draws) (y := 3) Demo.mk_eq [Demo.low, Demo.hr] 5 11).2.1
    (fun a ha => ((reachable_wf Demo.policy_reachable).known a).2 (by
      simp only [List.mem_cons, List.not_mem_nil, or_false] at ha
      rcases ha with rfl | rfl
      · exact ⟨[1], by decide +kernel⟩
      · exact ⟨[4], by decide +kernel⟩))
    (by decide) (by
      intro a ha v hv
      rw [top_iff] at hv
      simp only [List.mem_cons, List.not_mem_nil, or_false] at ha
      rcases ha with rfl | rfl
      · have : Demo.policy.currentValue Demo.low = some 1 := by decide +kernel
        rw [this] at hv; cases hv; decide
      · have : Demo.policy.currentValue Demo.hr = some 4 := by decide +kernel
        rw [this] at hv; cases hv; decide)

/-- **C17**, a policy whose budget is used up: its last attribute value equals the size of the master keys made for it,
so encryption under this attribute panics and user keys for it cannot be made. -/
theorem C17_full_budget_panics (c : Curve K P Q QP T) (t : Target) {p : Policy} (hw : p.WF)
    {rnd : Nat → K} {y : K} {mk : MasterKey K P Q T} (hmk : engineGenerateMasterKey (bls c) p rnd y = .ok mk)
    {a : Attribute} (ha : p.Top a p.maxAttributeCreations) (hmax : 2 ≤ p.maxAttributeCreations.toNat)
    (msg : T) (s : K) (rnd' : Nat → K) :
    engineEncrypt (bls c) t p mk.pubKey [a] msg s = .panic ∧
    ∃ e, engineGenerateUserKey (bls c) p mk.privKey (.attr a) rnd' = .err e := by
  have hav := Policy.currentValue_hasValue (top_iff.1 ha)
  have hk : p.Known a := hav.known hw
  constructor
  · apply (C17_encryption_outcome c t hw (by omega) hmk [a] msg s).2.2
    · simpa using hk
    · simp; omega
    · exact ⟨a, by simp, _, ha, Nat.le_refl _⟩
  · obtain ⟨tI, hlen, hnz, rfl⟩ := generateMasterKey_inv c hmk
    unfold engineGenerateUserKey
    rcases policyToMsp_spec hw (.attr a) with ⟨_, m, F, h1, h2, h3⟩ | ⟨_, e, h1⟩
    · rw [h1]
      simp only [Res.ok_bind]
      rcases keyGeneration_cases c h2 tI y rnd' hnz with ⟨g1, _⟩ | ⟨_, g2⟩
      · have hcov : p.Covers a a := by
          obtain ⟨list, h, q1, q2⟩ := hk
          obtain ⟨s, t, rfl, hs⟩ := List.eq_append_cons_of_mem q2
          exact ⟨s, t, h, q1, hs, rfl, Or.inl rfl⟩
        have := g1 _ ((h3.leaves _).2 ⟨a, hcov, hav⟩)
        omega
      · exact g2
    · rw [h1]; exact ⟨e, rfl⟩

/-- A reachable policy with a used-up budget. -/
def Demo.full : Policy := ⟨2, 2, [("Lvl", (["Low", "High"], true))], [(⟨"Lvl", "High"⟩, [2]), (⟨"Lvl", "Low"⟩, [1])]⟩

theorem Demo.full_reachable : Demo.full.Reachable :=
  .addAxis ⟨"Lvl", ["Low", "High"], true⟩ (.new 2) (by decide +kernel)

/-- Encryption under the last attribute of a full policy panics. -/
example : ∃ mk, engineGenerateMasterKey (bls Demo.curve) Demo.full Demo.draws 3 = .ok mk ∧
    engineEncrypt (bls Demo.curve) .release64 Demo.full mk.pubKey [Demo.high] 5 11 = .panic := by
  obtain ⟨mk, hmk⟩ : ∃ mk, engineGenerateMasterKey (bls Demo.curve) Demo.full Demo.draws 3 = .ok mk :=
    Demo.exists_of_isOk (by decide +kernel)
  exact ⟨mk, hmk, (C17_full_budget_panics Demo.curve .release64 (reachable_wf Demo.full_reachable) hmk
    (a := Demo.high) (top_iff.2 (by decide +kernel)) (by decide +kernel) 5 11 Demo.draws).1⟩

/-- **C18.** Set-up panics exactly when a sampled scalar is zero; otherwise it returns `size` slots such that the
private scalars are the draws, each public component is the image of its scalar, each delegation component pairs with
the public one to the target generator, and the public `y` is the image of the secret. -/
theorem C18_master_keys_consistent (c : Curve K P Q QP T) (size : Nat) (rnd : Nat → K) (y : K) :
    (generateMasterKey (bls c) size rnd y = .panic ↔ ∃ i < size, rnd i = 0) ∧
    ((∀ i < size, rnd i ≠ 0) → ∃ mk, generateMasterKey (bls c) size rnd y = .ok mk ∧
      mk.privKey.y = y ∧ mk.pubKey.y = y • c.genT ∧
      mk.privKey.tI.length = size ∧ mk.pubKey.tI.length = size ∧ mk.delKey.invTI.length = size ∧
      ∀ i < size, mk.privKey.tI[i]? = some (rnd i) ∧ ∃ Pi Qi, mk.pubKey.tI[i]? = some Pi ∧
        mk.delKey.invTI[i]? = some Qi ∧ Pi = rnd i • c.genP ∧ rnd i • Qi = c.genQ ∧ c.pair Pi Qi = c.genT) := by
  constructor
  · constructor
    · intro h
      by_contra hn
      push Not at hn
      rw [generateMasterKey_ok c size rnd y hn] at h
      simp at h
    · exact generateMasterKey_panic c size rnd y
  · intro hnz
    refine ⟨_, generateMasterKey_ok c size rnd y hnz, rfl, rfl, by simp [genScalars], by simp [pubOf, genScalars],
      by simp [delOf, genScalars], ?_⟩
    intro i hi
    have hg : (genScalars rnd size)[i]? = some (rnd i) := by
      simp [genScalars, hi]
    refine ⟨hg, rnd i • c.genP, (rnd i)⁻¹ • c.genQ, ?_, ?_, rfl, ?_, ?_⟩
    · simp [pubOf, List.getElem?_map, hg]
    · simp [delOf, List.getElem?_map, hg]
    · rw [smul_smul, mul_inv_cancel₀ (hnz i hi), one_smul]
    · rw [map_smul, map_smul, LinearMap.smul_apply, smul_smul, inv_mul_cancel₀ (hnz i hi), one_smul, c.genT_eq]

/-- The draws of the demo are non-zero. -/
example : ∃ mk, generateMasterKey (bls Demo.curve) 8 Demo.draws 3 = .ok mk ∧ mk.pubKey.y = 3 • Demo.curve.genT := by
  obtain ⟨mk, h1, _, h2, _⟩ := (C18_master_keys_consistent Demo.curve 8 Demo.draws 3).2 (by decide +kernel)
  exact ⟨mk, h1, by rw [h2]; simp⟩

/-- **C19.** Order and repetition of the ciphertext attributes are irrelevant to every user key. -/
theorem C19_attribute_order_irrelevant (c : Curve K P Q QP T) {p : Policy} (hw : p.WF) {rnd : Nat → K} {y : K}
    {mk : MasterKey K P Q T} (hmk : engineGenerateMasterKey (bls c) p rnd y = .ok mk)
    {ap : AccessPolicy} {key : DecryptionKey K QP Q} (hkey : UserKey c p mk ap key)
    {t t' : Target} {gamma gamma' : List UInt32} (hsame : ∀ v, v ∈ gamma ↔ v ∈ gamma')
    {msg : T} {s s' : K} {enc enc' : CipherText P T}
    (henc : encrypt (bls c) t msg gamma mk.pubKey s = .ok enc)
    (henc' : encrypt (bls c) t' msg gamma' mk.pubKey s' = .ok enc') :
    engineDecrypt (bls c) enc key = engineDecrypt (bls c) enc' key := by
  obtain ⟨tI, _, hnz, rfl⟩ := generateMasterKey_inv c hmk
  obtain ⟨F, msp, lam, hk⟩ := userKey_ok c hw hnz hkey
  have inv : ∀ {t : Target} {gamma : List UInt32} {s : K} {enc : CipherText P T},
      encrypt (bls c) t msg gamma (pubOf c tI y) s = .ok enc → enc = ctOf c tI y s msg gamma := by
    intro t gamma s enc h
    rcases encrypt_cases c t tI y s msg gamma with ⟨_, _, g⟩ | g | ⟨_, _, g⟩ | ⟨_, _, g⟩
    · rw [g] at h; simp at h
    · exfalso
      unfold encrypt at h
      rw [if_pos (by simp [pubOf, g])] at h
      unfold Target.usub at h
      simp only [pubOf, List.length_map, g] at h
      split at h
      · omega
      · split at h <;> simp at h
    · rw [g] at h; simp only [Res.ok.injEq] at h; exact h.symm
    · rw [g] at h; simp at h
  rw [inv henc, inv henc']
  obtain ⟨h1, h2, h3⟩ := decrypt_exact c hk s msg gamma
  obtain ⟨h1', h2', h3'⟩ := decrypt_exact c hk s' msg gamma'
  have hS : (fun b => ∃ v, p.HasValue b v ∧ v ∈ gamma) = fun b => ∃ v, p.HasValue b v ∧ v ∈ gamma' := by
    funext b
    simp only [hsame]
  have hS' : (∃ b, ap.Grants p b ∧ ∃ v, p.HasValue b v ∧ v ∈ gamma) ↔
      ∃ b, ap.Grants p b ∧ ∃ v, p.HasValue b v ∧ v ∈ gamma' := by simp only [hsame]
  by_cases hs : ap.Sat p fun b => ∃ v, p.HasValue b v ∧ v ∈ gamma
  · rw [h1 hs, h1' (hS ▸ hs)]
  · by_cases hg : ∃ b, ap.Grants p b ∧ ∃ v, p.HasValue b v ∧ v ∈ gamma
    · rw [h2 hs hg, h2' (hS ▸ hs) (hS'.1 hg)]
    · rw [h3 hg, h3' (fun h => hg (hS'.2 h))]

/-- Values `4, 1, 4` and `1, 4`. -/
example : ∃ key enc enc', UserKey Demo.curve Demo.policy Demo.mk Demo.ap key ∧
    encrypt (bls Demo.curve) .debug64 5 [4, 1, 4] Demo.mk.pubKey 11 = .ok enc ∧
    encrypt (bls Demo.curve) .debug64 5 [1, 4] Demo.mk.pubKey 13 = .ok enc' ∧
    engineDecrypt (bls Demo.curve) enc key = engineDecrypt (bls Demo.curve) enc' key := by
  obtain ⟨key, hkey⟩ := Demo.key_exists
  obtain ⟨enc, henc⟩ : ∃ enc, encrypt (bls Demo.curve) .debug64 5 [4, 1, 4] Demo.mk.pubKey 11 = .ok enc :=
    Demo.exists_of_isOk (by decide +kernel)
  obtain ⟨enc', henc'⟩ : ∃ enc, encrypt (bls Demo.curve) .debug64 5 [1, 4] Demo.mk.pubKey 13 = .ok enc :=
    Demo.exists_of_isOk (by decide +kernel)
  exact ⟨key, enc, enc', .generate _ hkey, henc, henc',
    C19_attribute_order_irrelevant Demo.curve (reachable_wf Demo.policy_reachable) Demo.mk_eq (.generate _ hkey)
      (by intro v; simp; tauto) henc henc'⟩

/-- Satisfaction is monotone in the set of attributes. -/
theorem AccessPolicy.sat_mono {p : Policy} {S S' : Attribute → Prop} (h : ∀ b, S b → S' b) :
    ∀ {ap : AccessPolicy}, ap.Sat p S → ap.Sat p S'
  | .attr _, ⟨b, h1, h2⟩ => ⟨b, h1, h b h2⟩
  | .and _ _, hs => hs.imp (AccessPolicy.sat_mono h) (AccessPolicy.sat_mono h)
  | .or _ _, hs => hs.imp (AccessPolicy.sat_mono h) (AccessPolicy.sat_mono h)
  | .all, ⟨b, h1, h2⟩ => ⟨b, h1, h b h2⟩

/-- **C20.** Access is monotone: if a key opens a ciphertext, it opens (to its own message) every ciphertext with more
attributes, and so does every key whose access policy is implied by the one of the first key. -/
theorem C20_access_monotone (c : Curve K P Q QP T) {p : Policy} (hw : p.WF) {rnd : Nat → K} {y : K}
    {mk : MasterKey K P Q T} (hmk : engineGenerateMasterKey (bls c) p rnd y = .ok mk)
    {ap ap' : AccessPolicy} {key key' : DecryptionKey K QP Q} (hkey : UserKey c p mk ap key)
    (hkey' : UserKey c p mk ap' key') (himp : ∀ S, ap.Sat p S → ap'.Sat p S)
    {t t' : Target} {atts atts' : List Attribute} (hsub : ∀ a ∈ atts, a ∈ atts') {msg msg' m : T} {s s' : K}
    {enc enc' : CipherText P T}
    (henc : engineEncrypt (bls c) t p mk.pubKey atts msg s = .ok enc)
    (henc' : engineEncrypt (bls c) t' p mk.pubKey atts' msg' s' = .ok enc')
    (hopen : engineDecrypt (bls c) enc key = .ok (some m)) :
    engineDecrypt (bls c) enc' key' = .ok (some msg') := by
  obtain ⟨tI, _, hnz, rfl⟩ := generateMasterKey_inv c hmk
  obtain ⟨F, msp, lam, hk⟩ := userKey_ok c hw hnz hkey
  obtain ⟨F', msp', lam', hk'⟩ := userKey_ok c hw hnz hkey'
  obtain ⟨vs, _, hvs, _, _, _, _, rfl⟩ := engineEncrypt_inv c hw henc
  obtain ⟨vs', _, hvs', _, _, _, _, rfl⟩ := engineEncrypt_inv c hw henc'
  obtain ⟨_, h2, h3⟩ := decrypt_exact c hk s msg vs
  have hs : ap.Sat p fun b => ∃ v, p.HasValue b v ∧ v ∈ vs := by
    by_contra hns
    by_cases hg : ∃ b, ap.Grants p b ∧ ∃ v, p.HasValue b v ∧ v ∈ vs
    · rw [h2 hns hg] at hopen; simp at hopen
    · rw [h3 hg] at hopen; simp at hopen
  apply (decrypt_exact c hk' s' msg' vs').1
  apply himp
  apply AccessPolicy.sat_mono _ hs
  rintro b ⟨v, hv, hm⟩
  refine ⟨v, hv, ?_⟩
  obtain ⟨a, ha, hc⟩ := (hvs v).1 hm
  exact (hvs' v).2 ⟨a, hsub a ha, hc⟩

/-- A key for `High && (HR || MKG)` opening `[Low, HR]`; the key for `High` opens `[Low, HR, RnD]`. -/
example : ∃ key' enc', UserKey Demo.curve Demo.policy Demo.mk (.attr Demo.high) key' ∧
    engineEncrypt (bls Demo.curve) .debug64 Demo.policy Demo.mk.pubKey [Demo.low, Demo.hr, Demo.rnd'] 7 13 = .ok enc' ∧
    engineDecrypt (bls Demo.curve) enc' key' = .ok (some 7) := by
  have hw := reachable_wf Demo.policy_reachable
  obtain ⟨key, hkey⟩ := Demo.key_exists
  obtain ⟨enc, henc⟩ := Demo.enc_exists
  obtain ⟨key', hkey'⟩ : ∃ key, engineGenerateUserKey (bls Demo.curve) Demo.policy Demo.mk.privKey (.attr Demo.high)
    Demo.draws = .ok key := Demo.exists_of_isOk (by decide +kernel)
  obtain ⟨enc', henc'⟩ : ∃ enc, engineEncrypt (bls Demo.curve) .debug64 Demo.policy Demo.mk.pubKey
    [Demo.low, Demo.hr, Demo.rnd'] 7 13 = .ok enc := Demo.exists_of_isOk (by decide +kernel)
  have hopen : engineDecrypt (bls Demo.curve) enc key = .ok (some 5) := by
    obtain ⟨tI, _, hnz, hmk⟩ := generateMasterKey_inv Demo.curve Demo.mk_eq
    have hk := UserKey.generate (c := Demo.curve) (mk := Demo.mk) Demo.draws hkey
    rw [hmk] at hk henc
    obtain ⟨F, msp, lam, hk⟩ := userKey_ok Demo.curve hw hnz hk
    obtain ⟨vs, _, hvs, _, _, _, _, rfl⟩ := engineEncrypt_inv Demo.curve hw henc
    apply (decrypt_exact Demo.curve hk 11 5 vs).1
    exact (AccessPolicy.sat_congr (fun b hb => hasValue_earlier (.nil _) hw hvs hb) _).2 Demo.ap_sat
  exact ⟨key', enc', .generate _ hkey', henc', C20_access_monotone Demo.curve hw Demo.mk_eq (.generate _ hkey)
    (.generate _ hkey') (fun S h => h.1) (by intro a ha; simp at ha ⊢; tauto) henc henc' hopen⟩

/-- **C53.** Policies built by adding axes and rotating attributes have positive distinct values within the budget; the
current value of an attribute, which every known one has, is the greatest of its values. -/
theorem C53_reachable_well_formed {p : Policy} (h : p.Reachable) :
    p.allValues.Nodup ∧ (∀ v ∈ p.allValues, 1 ≤ v.toNat ∧ v.toNat ≤ p.maxAttributeCreations.toNat) ∧
    (∀ a, p.Known a ↔ ∃ v, p.Top a v) ∧
    (∀ a v, p.Top a v ↔ p.HasValue a v ∧ ∀ w, p.HasValue a w → w ≤ v) := by
  have hw := reachable_wf h
  have htop : ∀ a v w, p.currentValue a = some v → p.HasValue a w → w ≤ v := by
    rintro a v w hv ⟨heap, hh, hm⟩
    obtain ⟨v', h1, h2⟩ := hw.top a heap hh
    obtain ⟨heap', hh', hv'⟩ := Policy.currentValue_iff.1 hv
    rw [hh] at hh'
    simp only [Option.some.injEq] at hh'
    subst hh'
    rw [h1] at hv'
    simp only [Option.some.injEq] at hv'
    subst hv'
    exact h2 w hm
  simp only [top_iff]
  refine ⟨hw.valuesNodup, fun v hv => ⟨(hw.range v hv).1, (hw.range v hv).2.trans hw.budget⟩, ?_, ?_⟩
  · intro a
    constructor
    · intro hk
      obtain ⟨v, hv, _⟩ := Policy.currentValue_known hw hk
      exact ⟨v, hv⟩
    · rintro ⟨v, hv⟩
      exact (Policy.currentValue_hasValue hv).known hw
  · intro a v
    refine ⟨fun hv => ⟨Policy.currentValue_hasValue hv, fun w => htop a v w hv⟩, ?_⟩
    rintro ⟨hv, hmax⟩
    obtain ⟨v', hv', _⟩ := Policy.currentValue_known hw (hv.known hw)
    rw [hv', UInt32.le_antisymm (hmax v' (Policy.currentValue_hasValue hv')) (htop a v' v hv' hv)]

/-- **C53**, rotation: succeeds exactly for known attributes while the budget is not used up; keeps all old values, adds
one fresh value, larger than all others, which becomes the current value of this attribute only. -/
theorem C53_rotation {p : Policy} (h : p.Reachable) (a : Attribute) :
    ((p.rotate a).isSome ↔ p.Known a ∧ p.lastAttributeValue.toNat < p.maxAttributeCreations.toNat) ∧
    ∀ p', p.rotate a = some p' → ∃ v, p'.Top a v ∧ (∀ b w, p.HasValue b w → w < v) ∧
      (∀ b, b ≠ a → ∀ w, p'.Top b w ↔ p.Top b w) ∧
      (∀ b w, p'.HasValue b w ↔ p.HasValue b w ∨ b = a ∧ w = v) := by
  have hw := reachable_wf h
  refine ⟨rotate_isSome hw a, ?_⟩
  intro p' hp
  obtain ⟨e1, e2, e3, e4, e5, e6, e7, e8⟩ := rotate_spec hw hp
  refine ⟨_, top_iff.2 e6, ?_, fun b hb w => by rw [top_iff, top_iff, e7 b hb], e8⟩
  intro b w hw'
  have := (hw.range w ((Policy.mem_allValues hw).2 ⟨b, hw'⟩)).2
  rw [UInt32.lt_iff_toNat_lt]; omega

/-- **C53**, adding an axis keeps the values of all other attributes, and makes known exactly the new attributes. -/
theorem C53_add_axis {p p' : Policy} (h : p.Reachable) {ax : PolicyAxis} (hp : p.addAxis ax = some p') :
    (∀ a, p'.Known a ↔ p.Known a ∨ a.axis = ax.name ∧ a.name ∈ ax.attributes) ∧
    (∀ a v, p.Known a → (p'.HasValue a v ↔ p.HasValue a v)) ∧
    p'.maxAttributeCreations = p.maxAttributeCreations := by
  have hw := reachable_wf h
  obtain ⟨e1, e2, e3, e4, e5⟩ := addAxis_spec hw hp
  refine ⟨e4, ?_, e2⟩
  intro a v hk
  obtain ⟨heap, hh⟩ := (hw.known a).1 hk
  unfold Policy.HasValue
  rw [e5 a heap hh, hh]

/-- The demo policy is reachable, has a rotation, and its last axis was added to a reachable policy. -/
example : Demo.policy.Reachable ∧ (Demo.policy.rotate Demo.hr).isSome ∧
    (Demo.full.addAxis ⟨"Dpt", [], false⟩).isSome :=
  ⟨Demo.policy_reachable, by decide +kernel, by decide +kernel⟩

end Abe
