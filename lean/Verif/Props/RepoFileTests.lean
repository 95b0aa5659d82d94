import Verif.Model.RepoFileTests
import Verif.Props.RepoBytesTests
import Verif.Props.Show
import Verif.Props.DemoLib
import Verif.Proofs.Py
import Verif.Spec.Py

/-!
# The tests of the engine on files

Property C74, continued: `symmetric_key_test` on all files that are what their names say, and on the files written by the two tests that generate files.
-/

namespace Abe

set_option linter.unusedSectionVars false

open RepoFiles

theorem RepoFiles.hexValue_digit : ∀ n < 16, hexValue (hexDigits.getD n '0') = some n := by decide

theorem RepoFiles.decode_encode (b : Bytes) : hexDecode (hexEncode b) = some b := by
  induction b with
  | nil => rfl
  | cons x b ih =>
    have hx := x.toNat_lt
    have h1 := hexValue_digit (x.toNat / 16) (by omega)
    have h2 := hexValue_digit (x.toNat % 16) (by omega)
    have h3 : UInt8.ofNat (16 * (x.toNat / 16) + x.toNat % 16) = x := by
      rw [Nat.div_add_mod]
      exact UInt8.ofNat_toNat
    simp only [hexEncode, List.flatMap_cons, List.cons_append, List.nil_append, hexDecode] at ih ⊢
    rw [h1, h2, ih]
    simp only [h3]

section
variable {K P Q QP T Key Nonce : Type} [Field K] [DecidableEq K] [AddCommGroup P] [Module K P] [AddCommGroup Q] [Module K Q] [AddCommGroup T] [Module K T]
  {cs : Codecs K P Q T} {e : External Key Nonce} {serde : Serde} {t : Target} {tag : Nat} {p : Policy} {rnd : Nat → K} {y : K} {mk : MasterKey K P Q T}
  {ap : AccessPolicy} {key : DecryptionKey K QP Q}

@[simp] theorem RepoFiles.unwrapRes_ok {ε α : Type} (a : α) : unwrapRes (.ok a : Res ε α) = .ok a := rfl
@[simp] theorem RepoFiles.unwrapRes_err {ε α : Type} (x : ε) : unwrapRes (.err x : Res ε α) = .panic := rfl
@[simp] theorem RepoFiles.unwrapRes_panic {ε α : Type} : unwrapRes (.panic : Res ε α) = .panic := rfl

/-- The bytes of a user key under a policy of at most 100 values. -/
theorem RepoFiles.user_bytes (c : Curve K P Q QP T) (hcs : cs.Lawful) (ht : 32 ≤ t.bits) (hw : p.WF)
    (hmk : engineGenerateMasterKey (bls c) p rnd y = .ok mk) (hkey : UserKey c p mk ap key) (hmax : p.maxAttributeCreations.toNat ≤ 100) :
    ∃ kb, (userKeyCodec t cs (bls c)).enc key = .ok kb ∧ (userKeyCodec t cs (bls c)).dec kb = .ok key ∧ 0 < kb.length ∧ kb.length < 2 ^ 31 := by
  have hn := hkey.nbRow_le hw hmk
  obtain ⟨kb, k1, k2, k3⟩ := C25_user_key_round_trip (t := t) hcs c hkey.obtained (by omega)
  have hs := obtained_shape c hkey.obtained
  have hr := hs.raw
  have h0 : key.rawDI ≠ [] := by
    intro h0
    have := hs.regular.row_pos
    rw [h0] at hr
    simp at hr
    omega
  have hc := hs.cols
  have hl : 0 < kb.length ∧ kb.length < 2 ^ 31 := by
    rw [k2]
    simp only [userKeyCodec]
    rw [vecLen_eq hcs.g3 h0]
    have : mspLen cs.scalar key.msp ≤ 8 + key.msp.nbRow * key.msp.nbCol * 32 + key.msp.nbRow * 4 := by
      unfold mspLen
      split
      · rw [hcs.scalar.len]
      · omega
    have hmul : key.msp.nbRow * key.msp.nbCol ≤ 100 * 100 := Nat.mul_le_mul (by omega) (by omega)
    omega
  have hmod : 2 ^ 32 ≤ t.modulus := Nat.pow_le_pow_right (by decide) ht
  have := k3 []
  rw [List.append_nil] at this
  exact ⟨kb, k1, this (by omega), hl⟩

/-- The bytes of the keys of a policy of 1 to 100 values. -/
theorem RepoFiles.master_bytes (c : Curve K P Q QP T) (hcs : cs.Lawful) (ht : 32 ≤ t.bits)
    (hmk : engineGenerateMasterKey (bls c) p rnd y = .ok mk) (h0 : p.maxAttributeCreations ≠ 0) (hmax : p.maxAttributeCreations.toNat ≤ 100) :
    (∃ b, (privKeyCodec t cs).enc mk.privKey = .ok b ∧ (privKeyCodec t cs).dec b = .ok mk.privKey ∧ b.length < 2 ^ 30) ∧
    (∃ b, (pubKeyCodec t cs).enc mk.pubKey = .ok b ∧ (pubKeyCodec t cs).dec b = .ok mk.pubKey ∧ 0 < b.length ∧ b.length < 2 ^ 30) := by
  have hmod : 2 ^ 32 ≤ t.modulus := Nat.pow_le_pow_right (by decide) ht
  obtain ⟨⟨b, b1, b2, b3⟩, ⟨d, d1, d2, d3⟩, _⟩ := C24_generated_keys_round_trip (t := t) hcs c hmk h0 (by omega)
  obtain ⟨tI, hlen, _, rfl⟩ := generateMasterKey_inv c hmk
  have hne : tI ≠ [] := by
    rintro rfl
    exact h0 (UInt32.toNat.inj (by simpa using hlen.symm))
  have hb : b.length < 2 ^ 30 := by
    rw [b2]
    simp only [privKeyCodec]
    rw [vecLen_eq hcs.scalar hne, hcs.scalar.len]
    omega
  have hd : 0 < d.length ∧ d.length < 2 ^ 30 := by
    rw [d2]
    simp only [pubKeyCodec]
    rw [vecLen_eq hcs.g2 (by simpa [pubOf] using hne), hcs.gt.len]
    simp only [pubOf, List.length_map]
    omega
  have b4 := b3 []
  have d4 := d3 []
  rw [List.append_nil] at b4 d4
  exact ⟨⟨b, b1, b4 (by omega), hb⟩, ⟨d, d1, d4 (by omega), hd⟩⟩

/-- Master key generation under an unwrap: a panic exactly if a scalar is zero. -/
theorem RepoFiles.unwrap_master (c : Curve K P Q QP T) (p : Policy) (setup : Nat → K) (y : K) :
    (∃ mk, (∀ i < p.maxAttributeCreations.toNat, setup i ≠ 0) ∧ engineGenerateMasterKey (bls c) p setup y = .ok mk) ∨
    ((∃ i < p.maxAttributeCreations.toNat, setup i = 0) ∧ engineGenerateMasterKey (bls c) p setup y = .panic) := by
  by_cases h : ∃ i < p.maxAttributeCreations.toNat, setup i = 0
  · exact .inr ⟨h, (C18_master_keys_consistent c _ setup y).1.2 h⟩
  · have h' : ∀ i < p.maxAttributeCreations.toNat, setup i ≠ 0 := fun i hi h0 => h ⟨i, hi, h0⟩
    obtain ⟨mk, hmk, _⟩ := (C18_master_keys_consistent c _ setup y).2 h'
    exact .inl ⟨mk, h', hmk⟩

/-- The ciphertext of a list of attributes can be encoded. -/
theorem RepoFiles.engine_encodes (c : Curve K P Q QP T) (hcs : cs.Lawful) (hw : p.WF) (hmk : engineGenerateMasterKey (bls c) p rnd y = .ok mk)
    {atts : List Attribute} {random : T} {s : K} {ct : CipherText P T} (hct : engineEncrypt (bls c) t p mk.pubKey atts random s = .ok ct)
    (h0 : atts ≠ []) (hlen : ciphertextLen atts.length < 2 ^ 32) : ∃ ek, (cipherTextCodec t cs).enc ct = .ok ek ∧ ek.length < 2 ^ 32 := by
  obtain ⟨h, hh⟩ := C35_header_encrypts (e := Demo.symmetric) (md := none) (nonce := Demo.nonce) c hcs Demo.symmetric_lawful hw hmk hct hlen (by simp)
  unfold encryptHybridHeader at hh
  obtain ⟨r, hr, hh⟩ := Res.bind_eq_ok.1 hh
  obtain ⟨ct', _, c1, c2, _⟩ := generateSymmetricKey_inv hr
  obtain rfl : ct = ct' := by rw [hct] at c1; exact Res.ok.inj c1
  exact ⟨r.2, c2, by rw [((capsule (t' := .release64) c hcs hw hmk hct c2).1 h0).2]; exact hlen⟩

/-- **C74**, `symmetric_key_test`: for all files containing the public key of a policy, the policy and a user key of the same master key, it succeeds if the
two attributes satisfy the access policy of the key and no scalar of the second master key is zero, otherwise it panics. -/
theorem C74_symmetric_key (c : Curve K P Q QP T) (hcs : cs.Lawful) (he : e.Lawful tag) (ht : 32 ≤ t.bits)
    (hp : p.Reachable) (hlast : p.lastAttributeValue.toNat < p.maxAttributeCreations.toNat) (hmax : 2 < p.maxAttributeCreations.toNat)
    (hmax' : p.maxAttributeCreations.toNat < 2 ^ 32 - 1) (hv : topFin.Valid p)
    (hmk : engineGenerateMasterKey (bls c) p rnd y = .ok mk) (hkey : UserKey c p mk ap key) {f : Files} {pb pj kb : Bytes}
    (hf : hexDecode f.publicKey = some pb) (hpb : (pubKeyCodec t cs).dec pb = .ok mk.pubKey)
    (hf' : hexDecode f.policy = some pj) (hpj : serde.policyDec pj = some p)
    (hf'' : hexDecode f.userKey = some kb) (hkb : (userKeyCodec t cs (bls c)).dec kb = .ok key)
    (random : T) (s : K) (setup : Nat → K) (y' : K) (draws : Nat → K) :
    ((ap.Sat p (· ∈ RepoHybrid.attributes) ∧ ∀ i < p.maxAttributeCreations.toNat, setup i ≠ 0) →
      symmetricKeyTest e (bls c) cs serde t f random s setup y' draws = .ok ()) ∧
    (¬ (ap.Sat p (· ∈ RepoHybrid.attributes) ∧ ∀ i < p.maxAttributeCreations.toNat, setup i ≠ 0) →
      symmetricKeyTest e (bls c) cs serde t f random s setup y' draws = .panic) := by
  have hw := reachable_wf hp
  have hmod : 2 ^ 32 ≤ t.modulus := Nat.pow_le_pow_right (by decide) ht
  have hk : ∀ a ∈ RepoHybrid.attributes, p.Known a := by
    obtain ⟨_, h2, _⟩ := (show topFin.NoAll ∧ (∀ a, topFin.Mentions a → p.Known a) ∧ topFin.Disjoint p from hv)
    intro a ha
    simp only [RepoHybrid.attributes, List.mem_cons, List.not_mem_nil, or_false] at ha
    rcases ha with rfl | rfl
    · exact h2 _ (Or.inr rfl)
    · exact h2 _ (Or.inl rfl)
  obtain ⟨ct, hct⟩ := engineEncrypt_ok c hmk hp hlast hk hmax t random s
  obtain ⟨ek, gb, h2, h3, hl⟩ : ∃ ek gb, (cipherTextCodec t cs).enc ct = .ok ek ∧ cs.gt.enc random = .ok gb ∧ ek.length < t.modulus := by
    obtain ⟨gb, h3, _⟩ := hcs.gt.enc random
    obtain ⟨ek, h2, hl⟩ := engine_encodes c hcs hw hmk hct (by decide) (by decide)
    exact ⟨ek, gb, h2, h3, by omega⟩
  have hg : generateSymmetricKey e (bls c) cs t p mk.pubKey RepoHybrid.attributes 32 random s = .ok (e.shake gb 32, ek) := by
    unfold generateSymmetricKey
    rw [hct, Res.ok_bind, h2, Res.ok_bind, h3, Res.ok_bind]
  unfold symmetricKeyTest
  rw [hf, hf', hf'']
  simp only [Res.unwrap, Res.ok_bind]
  simp only [hpj, hpb, hkb, hg, Res.ok_bind, unwrapRes_ok, he.shake_length, assert, beq_self_eq_true, if_true]
  by_cases hsat : ap.Sat p (· ∈ RepoHybrid.attributes)
  · rw [(C33_authorised c hcs he hw hmk hkey hg hl hsat).1]
    simp only [Res.ok_bind, unwrapRes_ok, beq_self_eq_true, if_true]
    rcases unwrap_master c p setup y' with ⟨mk', hz, hmk'⟩ | ⟨hz, hpanic⟩
    · obtain ⟨key', hkey', _⟩ := generate_ok c hmk' hp hlast hv draws
      obtain ⟨_, ⟨pb', p1, _⟩, _⟩ := C24_generated_keys_round_trip (t := t) hcs c hmk' (by rintro h; rw [h] at hmax; simp at hmax) hmax'
      have hu : UserKey c p mk' topFin key' := .generate _ hkey'
      have hn := hu.nbRow_le hw hmk'
      obtain ⟨kb', k1, _⟩ := C25_user_key_round_trip (t := t) hcs c hu.obtained (by omega)
      rw [hmk']
      simp only [Res.ok_bind, unwrapRes_ok, display_of_enc p1, hkey', display_of_enc k1]
      exact ⟨fun _ => rfl, fun h => absurd ⟨hsat, hz⟩ h⟩
    · rw [hpanic]
      obtain ⟨i, hi, h0⟩ := hz
      exact ⟨fun h => absurd h0 (h.2 i hi), fun _ => rfl⟩
  · have hd := (C33_unauthorised c hcs hw hmk hkey hg hl hsat 32).2 (by decide)
    refine ⟨fun h => absurd h.1 hsat, fun _ => ?_⟩
    generalize decryptSymmetricKey e (bls c) cs t key ek 32 = d at hd
    cases d with
    | err x => rfl
    | ok k => simp [Res.isErr] at hd
    | panic => simp [Res.isErr] at hd

namespace RepoFiles

/-- The policy of the first test. -/
def policy : Policy :=
  ⟨6, 20, [("Department", (["FIN", "MKG", "HR"], false)), ("Security Level", (["Protected", "Confidential", "Top Secret"], true))],
    [(⟨"Department", "HR"⟩, [6]), (⟨"Department", "MKG"⟩, [5]), (⟨"Department", "FIN"⟩, [4]), (⟨"Security Level", "Top Secret"⟩, [3]),
      (⟨"Security Level", "Confidential"⟩, [2]), (⟨"Security Level", "Protected"⟩, [1])]⟩

/-- The policy of the second test. -/
def another : Policy := { RepoDemo.policy with maxAttributeCreations := 20 }

theorem policy_steps : ∃ q, (Policy.new 20).addAxis securityLevel = some q ∧ q.addAxis department = some policy := by
  refine ⟨⟨3, 20, [("Security Level", (["Protected", "Confidential", "Top Secret"], true))], [(⟨"Security Level", "Top Secret"⟩, [3]),
    (⟨"Security Level", "Confidential"⟩, [2]), (⟨"Security Level", "Protected"⟩, [1])]⟩, ?_, ?_⟩ <;> decide +kernel

theorem another_steps : ∃ q, (Policy.new 20).addAxis RepoDemo.securityLevel = some q ∧ q.addAxis RepoDemo.department = some another := by
  refine ⟨{ RepoDemo.levels with maxAttributeCreations := 20 }, ?_, ?_⟩ <;> decide +kernel

theorem policy_reachable : policy.Reachable := by
  obtain ⟨q, h1, h2⟩ := policy_steps
  exact .addAxis _ (.addAxis _ (.new _) h1) h2

theorem another_reachable : another.Reachable := by
  obtain ⟨q, h1, h2⟩ := another_steps
  exact .addAxis _ (.addAxis _ (.new _) h1) h2

end RepoFiles

/-- **C74**, `generate_non_regression_files`: it writes its files unless a scalar of the master key is zero, and then panics.  With its files in place of
those of the repository `symmetric_key_test` panics whatever is drawn, as the key is for `Confidential && FIN` and the test asks for `Top Secret`. -/
theorem C74_generate_files (c : Curve K P Q QP T) (hcs : cs.Lawful) (he : e.Lawful tag) (ht : 32 ≤ t.bits) {pj : Bytes}
    (hpj : serde.policyEnc RepoFiles.policy = some pj) (hpj' : serde.policyDec pj = some RepoFiles.policy) (setup : Nat → K) (y : K) (draws : Nat → K) :
    ((∀ i < 20, setup i ≠ 0) → ∃ f, generate (bls c) cs serde t setup y draws = .ok f ∧
      ∀ (random : T) (s : K) (setup' : Nat → K) (y' : K) (draws' : Nat → K),
        symmetricKeyTest e (bls c) cs serde t f random s setup' y' draws' = .panic) ∧
    ((∃ i < 20, setup i = 0) → generate (bls c) cs serde t setup y draws = .panic) := by
  obtain ⟨q, q1, q2⟩ := policy_steps
  unfold generate
  rw [q1]
  simp only [Res.unwrap, Res.ok_bind]
  rw [q2]
  simp only [Res.ok_bind]
  rcases unwrap_master c RepoFiles.policy setup y with ⟨mk, hz, hmk⟩ | ⟨hz, hpanic⟩
  · refine ⟨fun _ => ?_, fun ⟨i, hi, h0⟩ => absurd h0 (hz i hi)⟩
    obtain ⟨key, hkey, _⟩ := generate_ok c hmk policy_reachable (by decide) (ap := confidentialFin) (by decide +kernel) draws
    have hu : UserKey c RepoFiles.policy mk confidentialFin key := .generate _ hkey
    obtain ⟨kb, k1, k2, _⟩ := user_bytes (t := t) c hcs ht (reachable_wf policy_reachable) hmk hu (by decide)
    obtain ⟨_, pb, p1, p2, _⟩ := master_bytes (t := t) c hcs ht hmk (by decide) (by decide)
    rw [hmk]
    simp only [unwrapRes_ok, Res.ok_bind]
    rw [hkey]
    simp only [unwrapRes_ok, Res.ok_bind, display_of_enc p1, display_of_enc k1, policyText, hpj, Res.unwrap]
    refine ⟨_, rfl, fun random s setup' y' draws' => ?_⟩
    exact (C74_symmetric_key c hcs he ht policy_reachable (by decide) (by decide) (by decide) (by decide +kernel) hmk hu (decode_encode pb) p2
      (decode_encode pj) hpj' (decode_encode kb) k2 random s setup' y' draws').2
      (fun h => absurd h.1 (by decide +kernel))
  · refine ⟨fun h => ?_, fun _ => by rw [hpanic]; rfl⟩
    obtain ⟨i, hi, h0⟩ := hz
    exact absurd h0 (h i hi)

/-- **C74**, `generate_another_non_regression_files`: it writes its files unless a scalar of the master key is zero, and then panics.  `symmetric_key_test`
succeeds with the first of its user keys unless it draws a zero, and panics with the second. -/
theorem C74_generate_another (c : Curve K P Q QP T) (hcs : cs.Lawful) (he : e.Lawful tag) (ht : 32 ≤ t.bits) {pj : Bytes}
    (hpj : serde.policyEnc RepoFiles.another = some pj) (hpj' : serde.policyDec pj = some RepoFiles.another) (setup : Nat → K) (y : K) (draws draws' : Nat → K) :
    ((∀ i < 20, setup i ≠ 0) → ∃ top medium priv, generateAnother (bls c) cs serde t setup y draws draws' = .ok (top, medium, priv) ∧
      ∀ (random : T) (s : K) (setup' : Nat → K) (y' : K) (draws'' : Nat → K),
        ((∀ i < 20, setup' i ≠ 0) → symmetricKeyTest e (bls c) cs serde t top random s setup' y' draws'' = .ok ()) ∧
        symmetricKeyTest e (bls c) cs serde t medium random s setup' y' draws'' = .panic) ∧
    ((∃ i < 20, setup i = 0) → generateAnother (bls c) cs serde t setup y draws draws' = .panic) := by
  obtain ⟨q, q1, q2⟩ := another_steps
  unfold generateAnother
  rw [q1]
  simp only [Res.unwrap, Res.ok_bind]
  rw [q2]
  simp only [Res.ok_bind]
  rcases unwrap_master c RepoFiles.another setup y with ⟨mk, hz, hmk⟩ | ⟨hz, hpanic⟩
  · refine ⟨fun _ => ?_, fun ⟨i, hi, h0⟩ => absurd h0 (hz i hi)⟩
    obtain ⟨key, hkey, _⟩ := generate_ok c hmk another_reachable (by decide) (ap := topFinMkg) (by decide +kernel) draws
    obtain ⟨key', hkey', _⟩ := generate_ok c hmk another_reachable (by decide) (ap := mediumMkg) (by decide +kernel) draws'
    have hu : UserKey c RepoFiles.another mk topFinMkg key := .generate _ hkey
    have hu' : UserKey c RepoFiles.another mk mediumMkg key' := .generate _ hkey'
    obtain ⟨kb, k1, k2, _⟩ := user_bytes (t := t) c hcs ht (reachable_wf another_reachable) hmk hu (by decide)
    obtain ⟨kb', k1', k2', _⟩ := user_bytes (t := t) c hcs ht (reachable_wf another_reachable) hmk hu' (by decide)
    obtain ⟨⟨sb, s1, _⟩, pb, p1, p2, _⟩ := master_bytes (t := t) c hcs ht hmk (by decide) (by decide)
    rw [hmk]
    simp only [unwrapRes_ok, Res.ok_bind]
    rw [hkey, hkey']
    simp only [unwrapRes_ok, Res.ok_bind, display_of_enc p1, display_of_enc s1, display_of_enc k1, display_of_enc k1', policyText, hpj, Res.unwrap]
    refine ⟨_, _, _, rfl, fun random s setup' y' draws'' => ⟨fun hz' => ?_, ?_⟩⟩
    · exact (C74_symmetric_key c hcs he ht another_reachable (by decide) (by decide) (by decide) (by decide +kernel) hmk hu (decode_encode pb) p2
        (decode_encode pj) hpj' (decode_encode kb) k2 random s setup' y' draws'').1 ⟨by decide +kernel, hz'⟩
    · exact (C74_symmetric_key c hcs he ht another_reachable (by decide) (by decide) (by decide) (by decide +kernel) hmk hu' (decode_encode pb) p2
        (decode_encode pj) hpj' (decode_encode kb') k2' random s setup' y' draws'').2 (fun h => absurd h.1 (by decide +kernel))
  · refine ⟨fun h => ?_, fun _ => by rw [hpanic]; rfl⟩
    obtain ⟨i, hi, h0⟩ := hz
    exact absurd h0 (h i hi)

end

/-! ### Concrete cases -/

/-- The JSON of the two policies. -/
def RepoFiles.demoSerde : Serde :=
  { Demo.serde with
    policyDec := fun b => if b = [1] then some RepoFiles.policy else if b = [2] then some RepoFiles.another else none
    policyEnc := fun p => if p = RepoFiles.policy then some [1] else if p = RepoFiles.another then some [2] else none }

/-- Over a group of order 11, with draws that are not zero. -/
example : ∃ f, generate (bls Demo.curveF) Demo.codecs RepoFiles.demoSerde .release32 (fun _ => 3) 5 (fun _ => 2) = .ok f ∧
    symmetricKeyTest Demo.symmetric (bls Demo.curveF) Demo.codecs RepoFiles.demoSerde .release32 f 4 6 (fun _ => 3) 5 (fun _ => 2) = .panic := by
  obtain ⟨f, h1, h2⟩ := (C74_generate_files (t := .release32) (serde := RepoFiles.demoSerde) Demo.curveF Demo.codecs_lawful Demo.symmetric_lawful (by decide)
    (pj := [1]) (by decide +kernel) (by decide +kernel) (fun _ => 3) 5 (fun _ => 2)).1 (fun _ _ => by decide)
  exact ⟨f, h1, h2 _ _ _ _ _⟩

example : ∃ f g h, generateAnother (bls Demo.curveF) Demo.codecs RepoFiles.demoSerde .release32 (fun _ => 3) 5 (fun _ => 2) (fun _ => 7) = .ok (f, g, h) ∧
    symmetricKeyTest Demo.symmetric (bls Demo.curveF) Demo.codecs RepoFiles.demoSerde .release32 f 4 6 (fun _ => 3) 5 (fun _ => 2) = .ok () ∧
    symmetricKeyTest Demo.symmetric (bls Demo.curveF) Demo.codecs RepoFiles.demoSerde .release32 g 4 6 (fun _ => 3) 5 (fun _ => 2) = .panic := by
  obtain ⟨f, g, h, h1, h2⟩ := (C74_generate_another (t := .release32) (serde := RepoFiles.demoSerde) Demo.curveF Demo.codecs_lawful Demo.symmetric_lawful
    (by decide) (pj := [2]) (by decide +kernel) (by decide +kernel) (fun _ => 3) 5 (fun _ => 2) (fun _ => 7)).1 (fun _ _ => by decide)
  exact ⟨f, g, h, h1, (h2 _ _ _ _ _).1 (fun _ _ => by decide), (h2 _ _ _ _ _).2⟩

end Abe
