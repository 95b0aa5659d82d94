import Verif.Model.RepoJsTests
import Verif.Props.RepoFileTests
import Verif.Props.Wasm

/-!
# The tests of the JavaScript interface

Property C74, continued: the tests of /repo/src/interfaces/wasm_bindgen/tests.rs.
-/

namespace Abe

set_option linter.unusedSectionVars false

open RepoFiles (unwrapRes unwrapRes_ok unwrapRes_err unwrapRes_panic unwrap_master user_bytes master_bytes)

namespace RepoJs

/-- The policy of `create_test_policy`. -/
def policy : Policy :=
  ⟨7, 100, [("Department", (["R&D", "HR", "MKG", "FIN"], false)), ("Security Level", (["Protected", "Confidential", "Top Secret"], true))],
    [(⟨"Department", "FIN"⟩, [7]), (⟨"Department", "MKG"⟩, [6]), (⟨"Department", "HR"⟩, [5]), (⟨"Department", "R&D"⟩, [4]),
      (⟨"Security Level", "Top Secret"⟩, [3]), (⟨"Security Level", "Confidential"⟩, [2]), (⟨"Security Level", "Protected"⟩, [1])]⟩

theorem policy_steps : ∃ q, (Policy.new 100).addAxis RepoFiles.securityLevel = some q ∧ q.addAxis RepoDemo.department = some policy := by
  refine ⟨⟨3, 100, [("Security Level", (["Protected", "Confidential", "Top Secret"], true))], [(⟨"Security Level", "Top Secret"⟩, [3]),
    (⟨"Security Level", "Confidential"⟩, [2]), (⟨"Security Level", "Protected"⟩, [1])]⟩, ?_, ?_⟩ <;> decide +kernel

theorem policy_reachable : policy.Reachable := by
  obtain ⟨q, h1, h2⟩ := policy_steps
  exact .addAxis _ (.addAxis _ (.new _) h1) h2

/-- What `Department::FIN && Security Level::Top Secret` denotes. -/
def finTop : AccessPolicy := .and (.attr ⟨"Department", "FIN"⟩) (.attr ⟨"Security Level", "Top Secret"⟩)

end RepoJs

section
variable {K P Q QP T Key Nonce : Type} [Field K] [DecidableEq K] [AddCommGroup P] [Module K P] [AddCommGroup Q] [Module K Q] [AddCommGroup T] [Module K T]
  {lib : Lib K QP P Q T Key Nonce} {tag : Nat} {p : Policy} {rnd : Nat → K} {y : K} {mk : MasterKey K P Q T} {ap : AccessPolicy}
  {key : DecryptionKey K QP Q}

/-- **C74**, `test_generate_keys`: it succeeds unless a scalar of the master key is zero, and then panics. -/
theorem C74_js_generate_keys (c : Curve K P Q QP T) (hbm : lib.bm = bls c) (ht : 32 ≤ lib.t.bits) (hcs : lib.cs.Lawful) {pj : Bytes}
    (hpj : lib.serde.policyEnc RepoJs.policy = some pj) (hpj' : lib.serde.policyDec pj = some RepoJs.policy)
    (hap : lib.serde.accessPolicyParse "Department::FIN && Security Level::Top Secret" = some RepoJs.finTop) (setup : Nat → K) (y : K) (draws : Nat → K) :
    ((∀ i < 100, setup i ≠ 0) → RepoJs.generateKeys lib setup y draws = .ok ()) ∧
    ((∃ i < 100, setup i = 0) → RepoJs.generateKeys lib setup y draws = .panic) := by
  have hmod : 2 ^ 32 ≤ lib.t.modulus := Nat.pow_le_pow_right (by decide) ht
  obtain ⟨q, q1, q2⟩ := RepoJs.policy_steps
  unfold RepoJs.generateKeys RepoJs.testPolicy
  rw [q1]
  simp only [Res.unwrap, Res.ok_bind]
  rw [q2]
  simp only [Res.ok_bind, hpj]
  unfold jsGenerateMasterKeys
  rw [hpj', jsArg_some, Res.ok_bind, hbm]
  rcases unwrap_master c RepoJs.policy setup y with ⟨mk, hz, hmk⟩ | ⟨hz, hpanic⟩
  · refine ⟨fun _ => ?_, fun ⟨i, hi, h0⟩ => absurd h0 (hz i hi)⟩
    obtain ⟨⟨sb, s1, s2, s3⟩, pb, p1, p2, _, p3⟩ := master_bytes (t := lib.t) c hcs ht hmk (by decide) (by decide)
    obtain ⟨key, hkey, _⟩ := generate_ok c hmk RepoJs.policy_reachable (by decide) (ap := RepoJs.finTop) (by decide +kernel) draws
    have hu : UserKey c RepoJs.policy mk RepoJs.finTop key := .generate _ hkey
    obtain ⟨kb, k1, _⟩ := user_bytes (t := lib.t) c hcs ht (reachable_wf RepoJs.policy_reachable) hmk hu (by decide)
    have hs : slice (be32 sb.length.toUInt32 ++ sb ++ pb) 0 4 = (.ok (be32 sb.length.toUInt32) : Out Bytes) := by
      unfold slice
      rw [if_pos ⟨by omega, by simp [be32_length]⟩, List.append_assoc, List.take_left' (be32_length _), List.drop_zero]
    have hb : (ofBe32 (be32 sb.length.toUInt32)).toNat = sb.length := by
      rw [← List.append_nil (be32 _), ofBe32_be32, toNat_toUInt32 (by omega)]
    have hs' : slice (be32 sb.length.toUInt32 ++ sb ++ pb) 4 (4 + sb.length) = (.ok sb : Out Bytes) := by
      unfold slice
      rw [if_pos ⟨by omega, by simp [be32_length]⟩, List.take_left' (by simp [be32_length]), List.drop_left' (be32_length _)]
    have hs'' : sliceFrom (be32 sb.length.toUInt32 ++ sb ++ pb) (4 + sb.length) = (.ok pb : Out Bytes) := by
      unfold sliceFrom
      rw [if_pos (by simp [be32_length]), List.drop_left' (by simp [be32_length])]
    rw [hmk, js_ok, Res.ok_bind, s1, js_ok, Res.ok_bind, p1, js_ok, Res.ok_bind]
    simp only [unwrapRes_ok, Res.ok_bind]
    rw [hs, Res.ok_bind, hb, uadd_ok (by omega), Res.ok_bind, hs', Res.ok_bind, s2, unwrapRes_ok, Res.ok_bind, hs'', Res.ok_bind, p2, unwrapRes_ok, Res.ok_bind]
    unfold jsGenerateUserPrivateKey
    rw [s2, js_ok, Res.ok_bind, hpj', jsArg_some, Res.ok_bind, hap, jsArg_some, Res.ok_bind, hbm, hkey, js_ok, Res.ok_bind, k1]
    rfl
  · refine ⟨fun h => ?_, fun _ => by rw [hpanic]; rfl⟩
    obtain ⟨i, hi, h0⟩ := hz
    exact absurd h0 (h i hi)

/-- **C74**, `test_decrypt_hybrid_header`: for all files containing the public key of a policy that knows the two attributes, the policy and a user key of
the same master key, it succeeds if the attributes satisfy the access policy of the key, and otherwise panics. -/
theorem C74_js_decrypt_header (c : Curve K P Q QP T) (hbm : lib.bm = bls c) (ht : 32 ≤ lib.t.bits) (hcs : lib.cs.Lawful) (he : lib.e.Lawful tag)
    (h32 : lib.e.keyLen = 32) (hp : p.Reachable) (hlast : p.lastAttributeValue.toNat < p.maxAttributeCreations.toNat) (hmax : 2 < p.maxAttributeCreations.toNat)
    (hk : ∀ a ∈ RepoHybrid.attributes, p.Known a) (hmk : engineGenerateMasterKey (bls c) p rnd y = .ok mk) (hkey : UserKey c p mk ap key) {pb pj kb : Bytes}
    (hpb : (pubKeyCodec lib.t lib.cs).dec pb = .ok mk.pubKey) (hpj : lib.serde.policyDec pj = some p)
    (hkb : (userKeyCodec lib.t lib.cs lib.bm).dec kb = .ok key) (hk0 : kb ≠ [])
    (hatt : lib.serde.attributesParse "Department::FIN, Security Level::Top Secret" = some RepoHybrid.attributes) (hmeta : lib.e.Keeps RepoHybrid.metaData)
    (henc : ∃ mb, lib.e.metaEnc RepoHybrid.metaData = .ok mb ∧ mb.length + tag < 2 ^ 32 ∧ ∀ k n, ∃ em, lib.e.encrypt k mb n none = .ok em)
    (random : T) (s : K) (nonce : Nonce) :
    (ap.Sat p (· ∈ RepoHybrid.attributes) → RepoJs.decryptHeader lib pb pj kb random s nonce = .ok ()) ∧
    (¬ ap.Sat p (· ∈ RepoHybrid.attributes) → RepoJs.decryptHeader lib pb pj kb random s nonce = .panic) := by
  have hw := reachable_wf hp
  have hmod : 2 ^ 32 ≤ lib.t.modulus := Nat.pow_le_pow_right (by decide) ht
  obtain ⟨ct, hct⟩ := engineEncrypt_ok c hmk hp hlast hk hmax lib.t random s
  obtain ⟨mb, m1, m2, m3⟩ := henc
  obtain ⟨h, hh⟩ := C35_header_encrypts (md := some RepoHybrid.metaData) (nonce := nonce) c hcs he hw hmk hct (by decide) (by
    rintro m hm
    obtain rfl : RepoHybrid.metaData = m := by simpa using hm
    exact ⟨mb, m1, by omega, fun k => m3 k nonce⟩)
  have hl : h.encryptedHeaderBytes.length = 300 + 52 * 2 + lib.e.nonceLen + 4 + mb.length + tag :=
    (C36_length c hcs he hw hmk (by decide) hh).2 RepoHybrid.metaData rfl mb m1
  unfold RepoJs.decryptHeader jsDecryptHybridHeader
  rw [hpb, hpj, hatt]
  simp only [unwrapRes_ok, Res.unwrap, Res.ok_bind]
  rw [hbm, hh, unwrapRes_ok, Res.ok_bind, if_neg (by simpa using hk0), if_neg (by omega), ← hbm, hkb, js_ok, Res.ok_bind]
  unfold jsDecryptHeaderWith
  rw [hbm]
  refine ⟨fun hsat => ?_, fun hsat => ?_⟩
  · rw [C35_header_round_trip (t' := lib.t) c ht hcs he hw hmk hkey (md := some RepoHybrid.metaData) (by
      rintro m hm
      obtain rfl : RepoHybrid.metaData = m := by simpa using hm
      exact hmeta) hh hsat, js_ok, Res.ok_bind]
    obtain ⟨b, b1, b2⟩ := C37_clear_header (t := lib.t) he (by rw [h32]; exact lt_of_lt_of_le (by decide) hmod) ⟨h.symmetricKey, (some RepoHybrid.metaData).getD ⟨[], none⟩⟩ hmeta
    rw [b1, js_ok, unwrapRes_ok, Res.ok_bind, b2]
    rfl
  · have := (C39_unauthorised (t' := lib.t) c ht hcs hw hmk hkey hh hsat).2 (by decide)
    generalize decryptHybridHeader lib.e (bls c) lib.cs lib.t key h.encryptedHeaderBytes = d at this
    cases d with
    | err x => rfl
    | ok k => simp [Res.isErr] at this
    | panic => simp [Res.isErr] at this

/-- **C74**, `test_encrypt_hybrid_header`: for the same files and every identifier that is not empty, whose metadata can be encoded and read back, it
succeeds if the attributes satisfy the access policy of the key, and otherwise panics. -/
theorem C74_js_encrypt_header (c : Curve K P Q QP T) (hbm : lib.bm = bls c) (ht : 32 ≤ lib.t.bits) (hcs : lib.cs.Lawful) (he : lib.e.Lawful tag)
    (h32 : lib.e.keyLen = 32) (hp : p.Reachable) (hlast : p.lastAttributeValue.toNat < p.maxAttributeCreations.toNat) (hmax : 2 < p.maxAttributeCreations.toNat)
    (hk : ∀ a ∈ RepoHybrid.attributes, p.Known a) (hmk : engineGenerateMasterKey (bls c) p rnd y = .ok mk) (hkey : UserKey c p mk ap key) {pb pj kb : Bytes}
    (hpb : (pubKeyCodec lib.t lib.cs).dec pb = .ok mk.pubKey) (hp0 : pb ≠ []) (hpj : lib.serde.policyDec pj = some p) (hj0 : pj ≠ [])
    (hkb : (userKeyCodec lib.t lib.cs lib.bm).dec kb = .ok key)
    (hatt : lib.serde.attributesParse "Department::FIN, Security Level::Top Secret" = some RepoHybrid.attributes)
    {id : Bytes} (hid : id ≠ []) (hmeta : lib.e.Keeps ⟨id, none⟩)
    (henc : ∃ mb, lib.e.metaEnc ⟨id, none⟩ = .ok mb ∧ mb.length + tag < 2 ^ 32 ∧ ∀ k n, ∃ em, lib.e.encrypt k mb n none = .ok em)
    (random : T) (s : K) (nonce : Nonce) :
    (ap.Sat p (· ∈ RepoHybrid.attributes) → RepoJs.encryptHeader lib id pb pj kb random s nonce = .ok ()) ∧
    (¬ ap.Sat p (· ∈ RepoHybrid.attributes) → RepoJs.encryptHeader lib id pb pj kb random s nonce = .panic) := by
  have hw := reachable_wf hp
  have hmod : 2 ^ 32 ≤ lib.t.modulus := Nat.pow_le_pow_right (by decide) ht
  obtain ⟨ct, hct⟩ := engineEncrypt_ok c hmk hp hlast hk hmax lib.t random s
  obtain ⟨mb, m1, m2, m3⟩ := henc
  obtain ⟨h, hh⟩ := C35_header_encrypts (md := some ⟨id, none⟩) (nonce := nonce) c hcs he hw hmk hct (by decide) (by
    rintro m hm
    obtain rfl : (⟨id, none⟩ : Metadata) = m := by simpa using hm
    exact ⟨mb, m1, by omega, fun k => m3 k nonce⟩)
  obtain ⟨b, b1, b2⟩ := C37_encrypted_header (t := lib.t) he (by rw [h32]; exact lt_of_lt_of_le (by decide) hmod) h
  have hcall : jsEncryptHybridHeader lib pj pb "Department::FIN, Security Level::Top Secret" id random s nonce = .ok b := by
    unfold jsEncryptHybridHeader jsEncryptHeaderWith
    rw [if_neg (by simpa using hj0), if_neg (by simpa using hp0), if_neg (by simpa using hid), if_neg (by decide), hpj, jsArg_some, Res.ok_bind, hpb, js_ok,
      Res.ok_bind, hatt, jsArg_some, Res.ok_bind, hbm, hh, js_ok, Res.ok_bind, b1, js_ok]
  unfold RepoJs.encryptHeader
  rw [hcall, unwrapRes_ok, Res.ok_bind, b2, unwrapRes_ok, Res.ok_bind, hkb, unwrapRes_ok, Res.ok_bind, hbm]
  refine ⟨fun hsat => ?_, fun hsat => ?_⟩
  · rw [C35_header_round_trip (t' := lib.t) c ht hcs he hw hmk hkey (md := some ⟨id, none⟩) (by
      rintro m hm
      obtain rfl : (⟨id, none⟩ : Metadata) = m := by simpa using hm
      exact hmeta) hh hsat]
    rfl
  · have := (C39_unauthorised (t' := lib.t) c ht hcs hw hmk hkey hh hsat).2 (by decide)
    generalize decryptHybridHeader lib.e (bls c) lib.cs lib.t key h.encryptedHeaderBytes = d at this
    cases d with
    | err x => rfl
    | ok k => simp [Res.isErr] at this
    | panic => simp [Res.isErr] at this

/-- **C74**, `test_encrypt_hybrid_block`: it succeeds for every nonce; the clear text which it does not look at is the one encrypted. -/
theorem C74_js_encrypt_block {e : External Key Nonce} (he : e.Lawful tag) (h32 : e.keyLen = 32) (nonce : Nonce) :
    RepoJs.encryptBlock e nonce = .ok [1, 2, 3, 4, 5, 6, 7, 8] := by
  obtain ⟨k, hk, _⟩ := he.keyDec_size RepoJs.blockKey (by rw [h32]; rfl)
  obtain ⟨ct, h1, h2, _⟩ := (C38_blocks he (max := maxClearTextSize) (by decide) k (uid := RepoJs.blockUid) (by decide) 0 [1, 2, 3, 4, 5, 6, 7, 8] nonce).2.2 (by simp) (by decide)
  unfold RepoJs.encryptBlock jsEncryptHybridBlock
  rw [if_neg (by decide), if_neg (by decide), hk, unwrapRes_ok, Res.ok_bind, js_ok, Res.ok_bind]
  simp only [Option.getD_some]
  rw [h1, js_ok, unwrapRes_ok, Res.ok_bind, h2, unwrapRes_ok]

end

/-! ### Concrete cases -/

namespace RepoJs

/-- A library which knows the texts of the tests. -/
def demo : Lib Demo.F Demo.F Demo.F Demo.F Demo.F Demo.SymKey Demo.SymNonce :=
  { Demo.lib with
    t := .debug32
    serde := { Demo.serde with
      policyDec := fun b => if b = [112] then some policy else none
      policyEnc := fun _ => some [112]
      accessPolicyParse := fun s => if s = "Department::FIN && Security Level::Top Secret" then some finTop else none
      attributesParse := fun s => if s = "Department::FIN, Security Level::Top Secret" then some RepoHybrid.attributes else none } }

/-- Metadata without additional data are kept. -/
theorem demo_keeps {id : Bytes} (h : id.length < 2 ^ 32) : Demo.symmetric.Keeps ⟨id, none⟩ := by
  refine ⟨_, rfl, ?_⟩
  have hb : ofBe32 (be32 id.length.toUInt32 ++ id ++ ([] : Bytes)) = id.length.toUInt32 := by
    rw [List.append_nil, ofBe32_be32]
  simp only [Demo.symmetric, Option.getD_none]
  rw [hb, toNat_toUInt32 h]
  simp only [List.append_nil, List.length_append, be32_length]
  rw [if_neg (by omega), if_neg (by omega), List.drop_left' (be32_length _), List.take_length,
    List.drop_eq_nil_of_le (by simp [be32_length])]
  simp

/-- Keys of the policy of the tests, and their bytes. -/
theorem files {ap : AccessPolicy} (hv : ap.Valid policy) :
    ∃ (mk : MasterKey Demo.F Demo.F Demo.F Demo.F) (key : DecryptionKey Demo.F Demo.F Demo.F) (pb kb : Bytes),
      engineGenerateMasterKey (bls Demo.curveF) policy (fun _ => 3) 5 = .ok mk ∧ UserKey Demo.curveF policy mk ap key ∧
      (pubKeyCodec .debug32 Demo.codecs).enc mk.pubKey = .ok pb ∧
      (pubKeyCodec .debug32 Demo.codecs).dec pb = .ok mk.pubKey ∧ pb ≠ [] ∧ (userKeyCodec .debug32 Demo.codecs (bls Demo.curveF)).dec kb = .ok key ∧ kb ≠ [] := by
  rcases unwrap_master Demo.curveF policy (fun _ => 3) 5 with ⟨mk, _, hmk⟩ | ⟨⟨i, _, h⟩, _⟩
  · obtain ⟨key, hkey, _⟩ := generate_ok Demo.curveF hmk policy_reachable (by decide) hv (fun _ => 2)
    have hu : UserKey Demo.curveF policy mk ap key := .generate _ hkey
    obtain ⟨kb, _, k2, k3, _⟩ := user_bytes (t := .debug32) Demo.curveF Demo.codecs_lawful (by decide) (reachable_wf policy_reachable) hmk hu (by decide)
    obtain ⟨_, pb, p1, p2, p3, _⟩ := master_bytes (t := .debug32) Demo.curveF Demo.codecs_lawful (by decide) hmk (by decide) (by decide)
    exact ⟨mk, key, pb, kb, hmk, hu, p1, p2, List.length_pos_iff.1 p3, k2, List.length_pos_iff.1 k3⟩
  · exact absurd h (by decide)

/-- A key below the one needed. -/
def finConfidential : AccessPolicy := .and (.attr ⟨"Department", "FIN"⟩) (.attr ⟨"Security Level", "Confidential"⟩)

example : generateKeys demo (fun _ => 3) 5 (fun _ => 2) = .ok () ∧ generateKeys demo (fun i => if i = 99 then 0 else 3) 5 (fun _ => 2) = .panic :=
  ⟨(C74_js_generate_keys (lib := demo) Demo.curveF rfl (by decide) Demo.codecs_lawful (pj := [112]) rfl rfl rfl _ _ _).1 (fun _ _ => by decide),
    (C74_js_generate_keys (lib := demo) Demo.curveF rfl (by decide) Demo.codecs_lawful (pj := [112]) rfl rfl rfl _ _ _).2 ⟨99, by decide, rfl⟩⟩

/-- The two tests on headers with a key for `FIN && Top Secret`, and with one for `FIN && Confidential`. -/
theorem demo_headers {id : Bytes} (hid : id ≠ []) (hl : id.length < 2 ^ 31) : ∃ (pb kb kb' : Bytes), ∀ (random s : Demo.F) (nonce : Demo.SymNonce),
    decryptHeader demo pb [112] kb random s nonce = .ok () ∧ decryptHeader demo pb [112] kb' random s nonce = .panic ∧
    encryptHeader demo id pb [112] kb random s nonce = .ok () ∧ encryptHeader demo id pb [112] kb' random s nonce = .panic := by
  obtain ⟨mk, key, pb, kb, h1, h2, h3, h4, h5, h6, h7⟩ := files (ap := finTop) (by decide +kernel)
  obtain ⟨mk', key', pb', kb', h1', h2', h3', h4', h5', h6', h7'⟩ := files (ap := finConfidential) (by decide +kernel)
  obtain rfl : mk = mk' := by rw [h1] at h1'; exact Res.ok.inj h1'
  have s1 : finTop.Sat policy (· ∈ RepoHybrid.attributes) := by decide +kernel
  have s2 : ¬ finConfidential.Sat policy (· ∈ RepoHybrid.attributes) := by decide +kernel
  have hmeta : Demo.symmetric.Keeps RepoHybrid.metaData := ⟨[0, 0, 0, 9, 1, 2, 3, 4, 5, 6, 7, 8, 9, 10, 11, 12, 13, 14], by decide, by decide⟩
  have hk : ∀ a ∈ RepoHybrid.attributes, policy.Known a := by decide +kernel
  have hku : Demo.symmetric.Keeps ⟨id, none⟩ := demo_keeps (by omega)
  have henc : ∃ mb, Demo.symmetric.metaEnc ⟨id, none⟩ = .ok mb ∧ mb.length + 16 < 2 ^ 32 ∧ ∀ k n, ∃ em, Demo.symmetric.encrypt k mb n none = .ok em :=
    ⟨_, rfl, by rw [List.length_append, List.length_append, be32_length]; simp only [Option.getD_none, List.length_nil]; omega, fun _ _ => ⟨_, rfl⟩⟩
  refine ⟨pb, kb, kb', fun random s nonce => ⟨?_, ?_, ?_, ?_⟩⟩
  · exact (C74_js_decrypt_header (lib := demo) Demo.curveF rfl (by decide) Demo.codecs_lawful Demo.symmetric_lawful rfl policy_reachable (by decide) (by decide) hk
      h1 h2 h4 rfl h6 h7 rfl hmeta
      ⟨[0, 0, 0, 9, 1, 2, 3, 4, 5, 6, 7, 8, 9, 10, 11, 12, 13, 14], by decide, by decide, fun _ _ => ⟨_, rfl⟩⟩ random s nonce).1 s1
  · exact (C74_js_decrypt_header (lib := demo) Demo.curveF rfl (by decide) Demo.codecs_lawful Demo.symmetric_lawful rfl policy_reachable (by decide) (by decide) hk
      h1 h2' h4 rfl h6' h7' rfl hmeta
      ⟨[0, 0, 0, 9, 1, 2, 3, 4, 5, 6, 7, 8, 9, 10, 11, 12, 13, 14], by decide, by decide, fun _ _ => ⟨_, rfl⟩⟩ random s nonce).2 s2
  · exact (C74_js_encrypt_header (lib := demo) Demo.curveF rfl (by decide) Demo.codecs_lawful Demo.symmetric_lawful rfl policy_reachable (by decide) (by decide) hk
      h1 h2 h4 h5 rfl (by decide) h6 rfl hid hku henc random s nonce).1 s1
  · exact (C74_js_encrypt_header (lib := demo) Demo.curveF rfl (by decide) Demo.codecs_lawful Demo.symmetric_lawful rfl policy_reachable (by decide) (by decide) hk
      h1 h2' h4 h5 rfl (by decide) h6' rfl hid hku henc random s nonce).2 s2

/-- The identifier of the test. -/
theorem uid_length : uid.length = 12345678 := List.length_replicate

example : ∃ (pb kb : Bytes), ∀ (random s : Demo.F) (nonce : Demo.SymNonce), encryptHeader demo uid pb [112] kb random s nonce = .ok () := by
  obtain ⟨pb, kb, _, h⟩ := demo_headers (id := uid) (List.length_pos_iff.1 (by rw [uid_length]; decide)) (by rw [uid_length]; decide)
  exact ⟨pb, kb, fun random s nonce => (h random s nonce).2.2.1⟩

example : encryptBlock Demo.symmetric Demo.nonce = .ok [1, 2, 3, 4, 5, 6, 7, 8] := C74_js_encrypt_block Demo.symmetric_lawful rfl _

end RepoJs

end Abe
