import Verif.Model.RepoPyDemo
import Verif.Props.RepoFileTests
import Verif.Props.HybridHistory

/-!
# The demonstration of the Python interface

Property C74, continued: /repo/src/interfaces/pyo3/tests/demo.py.
-/

namespace Abe

set_option linter.unusedSectionVars false

open RepoDemo (level dept policy rotated topMkgFin mediumMkg policy_reachable rotated_reachable)
open RepoFiles (user_bytes master_bytes unwrap_master)

namespace RepoPy

/-- What the delegated key is for, /repo/src/interfaces/pyo3/tests/demo.py:123. -/
def finMkgMedium : AccessPolicy := .and (.or (.attr (dept "FIN")) (.attr (dept "MKG"))) (.attr (level "Medium Secret"))

/-- The texts of the script are what they say, and policies can be written and read back, up to the order of their hash maps. -/
structure Knows (s : Serde) (j : Texts) : Prop where
  axes : s.axesDec j.axes = some [RepoDemo.securityLevel, RepoDemo.department]
  metadata : s.metadataDec j.metadata = some metadata
  lowMkg : s.attributesDec j.lowMkg = some [level "Low Secret", dept "MKG"]
  topMkg : s.attributesDec j.topMkg = some [level "Top Secret", dept "MKG"]
  lowFin : s.attributesDec j.lowFin = some [level "Low Secret", dept "FIN"]
  low : s.attributesDec j.low = some [level "Low Secret"]
  top : s.accessPolicyParse "Security Level::Top Secret && (Department::MKG || Department::FIN)" = some topMkgFin
  medium : s.accessPolicyParse "Security Level::Medium Secret && Department::MKG" = some mediumMkg
  delegate : s.accessPolicyParse "(Department::FIN || Department::MKG) && Security Level::Medium Secret" = some finMkgMedium
  policies : ∀ p, policy.Reorders p ∨ rotated.Reorders p → ∃ b q, s.policyEnc p = some b ∧ s.policyDec b = some q ∧ p.Reorders q

end RepoPy

section
variable {K P Q QP T Key Nonce : Type} [Field K] [DecidableEq K] [AddCommGroup P] [Module K P] [AddCommGroup Q] [Module K Q] [AddCommGroup T] [Module K T]
  {lib : Lib K QP P Q T Key Nonce} {tag : Nat} {p p' : Policy} {rnd : Nat → K} {y : K} {mk : MasterKey K P Q T} {ap : AccessPolicy}
  {key : DecryptionKey K QP Q} {polB priv pub del kb : Bytes}

/-- The bytes of the delegation key of a policy of 1 to 100 values. -/
theorem RepoPy.del_bytes {cs : Codecs K P Q T} {t : Target} (c : Curve K P Q QP T) (hcs : cs.Lawful) (ht : 32 ≤ t.bits)
    (hmk : engineGenerateMasterKey (bls c) p rnd y = .ok mk) (h0 : p.maxAttributeCreations ≠ 0) (hmax : p.maxAttributeCreations.toNat ≤ 100) :
    ∃ b, (delKeyCodec t cs).enc mk.delKey = .ok b ∧ (delKeyCodec t cs).dec b = .ok mk.delKey := by
  have hmod : 2 ^ 32 ≤ t.modulus := Nat.pow_le_pow_right (by decide) ht
  obtain ⟨_, _, b, b1, b2, b3⟩ := C24_generated_keys_round_trip (t := t) hcs c hmk h0 (by omega)
  obtain ⟨tI, hlen, _, rfl⟩ := generateMasterKey_inv c hmk
  have hne : tI ≠ [] := by
    rintro rfl
    exact h0 (UInt32.toNat.inj (by simpa using hlen.symm))
  have hb : b.length < 2 ^ 30 := by
    rw [b2]
    simp only [delKeyCodec]
    rw [vecLen_eq hcs.g3 (by simpa [delOf] using hne)]
    simp only [delOf, List.length_map]
    omega
  have b4 := b3 []
  rw [List.append_nil] at b4
  exact ⟨b, b1, b4 (by omega)⟩

/-- Master keys through Python. -/
theorem RepoPy.master (c : Curve K P Q QP T) (hbm : lib.bm = bls c) (ht : 32 ≤ lib.t.bits) (hcs : lib.cs.Lawful)
    (hmk : engineGenerateMasterKey (bls c) p rnd y = .ok mk) (h0 : p.maxAttributeCreations ≠ 0) (hmax : p.maxAttributeCreations.toNat ≤ 100)
    (hpol : lib.serde.policyDec polB = some p) :
    ∃ priv pub del, pyGenerateMasterKeys lib polB rnd y = .ok (priv, pub, del) ∧ (privKeyCodec lib.t lib.cs).dec priv = .ok mk.privKey ∧
      (pubKeyCodec lib.t lib.cs).dec pub = .ok mk.pubKey ∧ (delKeyCodec lib.t lib.cs).dec del = .ok mk.delKey := by
  obtain ⟨⟨sb, s1, s2, _⟩, pb, p1, p2, _⟩ := master_bytes (t := lib.t) c hcs ht hmk h0 hmax
  obtain ⟨db, d1, d2⟩ := RepoPy.del_bytes (t := lib.t) c hcs ht hmk h0 hmax
  refine ⟨sb, pb, db, ?_, s2, p2, d2⟩
  unfold pyGenerateMasterKeys
  rw [hpol, pyArg_some, Res.ok_bind, hbm, hmk, py_ok, Res.ok_bind, s1, py_ok, Res.ok_bind, p1, py_ok, Res.ok_bind, d1, py_ok, Res.ok_bind]

/-- A user key through Python. -/
theorem RepoPy.user (c : Curve K P Q QP T) (hbm : lib.bm = bls c) (ht : 32 ≤ lib.t.bits) (hcs : lib.cs.Lawful) (hp : p.Reachable) (hr : p.Reorders p')
    (hmk : engineGenerateMasterKey (bls c) p rnd y = .ok mk) (hlast : p.lastAttributeValue.toNat < p.maxAttributeCreations.toNat)
    (hmax : p.maxAttributeCreations.toNat ≤ 100) (hpriv : (privKeyCodec lib.t lib.cs).dec priv = .ok mk.privKey)
    (hpol : lib.serde.policyDec polB = some p') {str : String} (hap : lib.serde.accessPolicyParse str = some ap) (hne : ap ≠ .all) (hv : ap.Valid p)
    (r : Nat → K) : ∃ kb key, pyGenerateUserPrivateKey lib priv str polB r = .ok kb ∧ UserKey c p mk ap key ∧ Issued c mk p ap key ∧
      (userKeyCodec lib.t lib.cs lib.bm).dec kb = .ok key := by
  obtain ⟨key, hkey, hi⟩ := generate_ok c hmk hp hlast hv r
  have hu : UserKey c p mk ap key := .generate _ hkey
  obtain ⟨kb, k1, k2, _⟩ := user_bytes (t := lib.t) c hcs ht (reachable_wf hp) hmk hu hmax
  refine ⟨kb, key, ?_, hu, hi, by rw [hbm]; exact k2⟩
  unfold pyGenerateUserPrivateKey
  rw [hpriv, py_ok, Res.ok_bind, hpol, pyArg_some, Res.ok_bind, hap, pyArg_some, Res.ok_bind, hbm, (C75_engine c hp hr).2.1 _ _ _ hne, hkey, py_ok,
    Res.ok_bind, k1, py_ok]

/-- A message through Python. -/
theorem RepoPy.message (c : Curve K P Q QP T) (hbm : lib.bm = bls c) (hcs : lib.cs.Lawful) (he : lib.e.Lawful tag) (hp : p.Reachable)
    (hr : p.Reorders p') (hmk : engineGenerateMasterKey (bls c) p rnd y = .ok mk) (hlast : p.lastAttributeValue.toNat < p.maxAttributeCreations.toNat)
    (hmax : 2 < p.maxAttributeCreations.toNat) (hpub : (pubKeyCodec lib.t lib.cs).dec pub = .ok mk.pubKey)
    (hpol : lib.serde.policyDec polB = some p') {attB mdB : Bytes} {a b : Attribute} (hatt : lib.serde.attributesDec attB = some [a, b])
    (ha : p.Known a) (hb : p.Known b) {md : Metadata} (hmd : lib.serde.metadataDec mdB = some md) (hu : md.uid.length ≤ 2 ^ 32)
    (henc : ∃ mb, lib.e.metaEnc md = .ok mb ∧ mb.length + tag + lib.e.nonceLen + lib.e.overhead < 2 ^ 31 ∧ ∀ k n, ∃ em, lib.e.encrypt k mb n none = .ok em)
    {plain : Bytes} (h0 : plain ≠ []) (hl : plain.length ≤ 2 ^ 20) (random : T) (s : K) (n n' : Nonce) :
    ∃ ct, pyEncrypt lib mdB polB attB pub plain random s n n' = .ok ct ∧ ct.length < 2 ^ 32 := by
  obtain ⟨ct, hct⟩ := engineEncrypt_ok c hmk hp hlast (atts := [a, b]) (by simp [ha, hb]) hmax lib.t random s
  rw [← (C75_engine c hp hr).2.2.2.2] at hct
  have hmk' : engineGenerateMasterKey (bls c) p' rnd y = .ok mk := by rw [(C75_engine c hp hr).1]; exact hmk
  have hw := reachable_wf (hp.reorder hr)
  obtain ⟨mb, m1, m2, m3⟩ := henc
  obtain ⟨h, hh⟩ := C35_header_encrypts (md := some md) (nonce := n) c hcs he hw hmk' hct (show ciphertextLen 2 < 2 ^ 32 by decide) (by
    rintro m hm
    obtain rfl : md = m := by simpa using hm
    exact ⟨mb, m1, by omega, fun k => m3 k n⟩)
  have hlen : h.encryptedHeaderBytes.length = 300 + 52 * 2 + lib.e.nonceLen + 4 + mb.length + tag :=
    (C36_length c hcs he hw hmk' (by simp) hh).2 md rfl mb m1
  have hle : plain.length ≤ maxClearTextSize := le_trans hl (by decide)
  obtain ⟨block, b1, _, b3⟩ := (C38_blocks he (max := maxClearTextSize) (by decide) h.symmetricKey hu 0 plain n').2.2 h0 hle
  refine ⟨be32 h.encryptedHeaderBytes.length.toUInt32 ++ h.encryptedHeaderBytes ++ block, ?_, ?_⟩
  · unfold pyEncrypt pyEncryptHybridHeader pyEncryptHybridBlock
    rw [hmd, pyArg_some, Res.ok_bind, Res.ok_bind, hpol, pyArg_some, Res.ok_bind, hatt, pyArg_some, Res.ok_bind, hpub, py_ok, Res.ok_bind, hbm, hh, py_ok,
      Res.ok_bind, Res.ok_bind, he.keyDec_keyEnc, py_ok, Res.ok_bind, b1, py_ok, Res.ok_bind]
  · unfold symmetricEncryptionOverhead at b3
    simp only [List.length_append, be32_length, hlen, b3]
    omega

theorem RepoPy.opens_ok {ct : Bytes} (h : pyDecrypt lib kb ct = .ok RepoPy.plaintext) : RepoPy.opens lib kb ct = .ok () := by
  unfold RepoPy.opens
  rw [h]
  rfl

theorem RepoPy.tries_raised {ct : Bytes} (h : pyDecrypt lib kb ct = .err .typeError) : RepoPy.tries lib kb ct = .ok true := by
  unfold RepoPy.tries
  rw [h]

@[simp] theorem RepoPy.must_ok {α : Type} (a : α) : RepoPy.must (.ok a) = .ok a := rfl

/-- **C74**, the demonstration of the Python interface: whatever the random values, it succeeds, the three decryptions of which the script expects an
exception (without checking it) raise one, and the delegated key is a key for the access policy asked for; if a scalar of the master key is zero, it ends
with an exception. -/
theorem C74_py_demo (c : Curve K P Q QP T) (hbm : lib.bm = bls c) (ht : 32 ≤ lib.t.bits) (hcs : lib.cs.Lawful) (he : lib.e.Lawful tag)
    {j : RepoPy.Texts} (hj : RepoPy.Knows lib.serde j) (hkeep : lib.e.Keeps RepoPy.metadata)
    (henc : ∃ mb, lib.e.metaEnc RepoPy.metadata = .ok mb ∧ mb.length + tag + lib.e.nonceLen + lib.e.overhead < 2 ^ 31 ∧
      ∀ k n, ∃ em, lib.e.encrypt k mb n none = .ok em) (d : RepoPy.Draws K T Nonce) :
    ((∀ i < 100, d.setup i ≠ 0) → ∃ delegate, RepoPy.demo lib j d = .ok ([true, true, true], delegate) ∧
      ∃ mk key, engineGenerateMasterKey (bls c) policy d.setup d.y = .ok mk ∧ Issued c mk policy RepoPy.finMkgMedium key ∧
        (userKeyCodec lib.t lib.cs lib.bm).dec delegate = .ok key) ∧
    ((∃ i < 100, d.setup i = 0) → RepoPy.demo lib j d = .panic) := by
  have hlevels : foldRes (fun p ax => pyArg (p.addAxis ax)) (Policy.new (100 : Nat).toUInt32) [RepoDemo.securityLevel, RepoDemo.department] = .ok policy := by
    have h1 : (Policy.new (100 : Nat).toUInt32).addAxis RepoDemo.securityLevel = some RepoDemo.levels := RepoDemo.levels_eq
    simp only [foldRes]
    rw [h1, pyArg_some, Res.ok_bind, RepoDemo.policy_eq, pyArg_some, Res.ok_bind]
  obtain ⟨polB, pol, e1, e2, hP⟩ := hj.policies policy (.inl (Policy.Reorders.refl _))
  obtain ⟨rot', hrot, hR'⟩ := rotate_reorders hP (reachable_wf policy_reachable) RepoDemo.rotated_eq
  obtain ⟨rotB, rot, f1, f2, hR⟩ := hj.policies rot' (.inr hR')
  have hR2 : rotated.Reorders rot := hR'.trans hR
  have hgen : pyGeneratePolicy lib.serde j.axes 100 = .ok polB := by
    unfold pyGeneratePolicy
    rw [hj.axes, pyArg_some, Res.ok_bind, hlevels, Res.ok_bind, e1, pyArg_some]
  have hmkE : ∀ q : Policy, q.maxAttributeCreations = 100 →
      engineGenerateMasterKey (bls c) q d.setup d.y = engineGenerateMasterKey (bls c) policy d.setup d.y := by
    intro q hq
    unfold engineGenerateMasterKey
    rw [hq]
    rfl
  unfold RepoPy.demo
  rw [hgen, RepoPy.must_ok, Res.ok_bind]
  rcases unwrap_master c policy d.setup d.y with ⟨mk, hz, hmk⟩ | ⟨hz, hpanic⟩
  · refine ⟨fun _ => ?_, fun ⟨i, hi, h0⟩ => absurd h0 (hz i hi)⟩
    have hmk' : engineGenerateMasterKey (bls c) pol d.setup d.y = .ok mk := by rw [hmkE _ (by rw [hP.max]; rfl)]; exact hmk
    have hmkR : engineGenerateMasterKey (bls c) rotated d.setup d.y = .ok mk := hmk
    obtain ⟨priv, pub, del, m1, m2, m3, m4⟩ := RepoPy.master c hbm ht hcs hmk' (by rw [hP.max]; decide) (by rw [hP.max]; decide) e2
    obtain ⟨top, topK, t1, t2, t3, t4⟩ := RepoPy.user c hbm ht hcs policy_reachable hP hmk (by decide) (by decide) m2 e2 hj.top (by simp [topMkgFin])
      (by decide +kernel) (d.key 0)
    obtain ⟨med, medK, u1, u2, u3, u4⟩ := RepoPy.user c hbm ht hcs policy_reachable hP hmk (by decide) (by decide) m2 e2 hj.medium (by simp [mediumMkg])
      (by decide +kernel) (d.key 1)
    obtain ⟨med', medK', v1, v2, v3, v4⟩ := RepoPy.user c hbm ht hcs rotated_reachable hR2 hmkR (by decide) (by decide) m2 f2 hj.medium (by simp [mediumMkg])
      (by decide +kernel) (d.key 2)
    obtain ⟨c0, a0, l0⟩ := RepoPy.message c hbm hcs he policy_reachable hP hmk (by decide) (by decide) m3 e2 hj.lowMkg (by decide +kernel) (by decide +kernel)
      hj.metadata (by decide) henc (plain := RepoPy.plaintext) (by decide) (by decide) (d.random 0) (d.enc 0) (d.nonce 0) (d.nonce' 0)
    obtain ⟨c1, a1, l1⟩ := RepoPy.message c hbm hcs he policy_reachable hP hmk (by decide) (by decide) m3 e2 hj.topMkg (by decide +kernel) (by decide +kernel)
      hj.metadata (by decide) henc (plain := RepoPy.plaintext) (by decide) (by decide) (d.random 1) (d.enc 1) (d.nonce 1) (d.nonce' 1)
    obtain ⟨c2, a2, l2⟩ := RepoPy.message c hbm hcs he policy_reachable hP hmk (by decide) (by decide) m3 e2 hj.lowFin (by decide +kernel) (by decide +kernel)
      hj.metadata (by decide) henc (plain := RepoPy.plaintext) (by decide) (by decide) (d.random 2) (d.enc 2) (d.nonce 2) (d.nonce' 2)
    obtain ⟨c3, a3, l3⟩ := RepoPy.message c hbm hcs he rotated_reachable hR2 hmkR (by decide) (by decide) m3 f2 hj.lowMkg (by decide +kernel) (by decide +kernel)
      hj.metadata (by decide) henc (plain := RepoPy.plaintext) (by decide) (by decide) (d.random 3) (d.enc 3) (d.nonce 3) (d.nonce' 3)
    have hrotate : pyRotateAttributes lib.serde j.low polB = .ok rotB := by
      unfold pyRotateAttributes
      rw [hj.low, pyArg_some, Res.ok_bind, e2, pyArg_some, Res.ok_bind]
      simp only [foldRes]
      rw [hrot, pyArg_some, Res.ok_bind, Res.ok_bind, f1, pyArg_some]
    -- what is opened
    have hev : policy.Evolves [] pol := .reorder hP (.nil _)
    have hevR : policy.Evolves [.rotate (level "Low Secret")] rot := .reorder hP (.cons hrot (.reorder hR (.nil _)))
    have hevN : rotated.Evolves [] rot := .reorder hR2 (.nil _)
    have o1 := (C100_later_message c hbm ht hcs he (by decide) hmk u3 hev u4 m3 e2 hj.lowMkg hj.metadata hkeep a0 l0).1 (by rw [sat_unchanged]; decide +kernel)
    have o2 := ((C100_later_message c hbm ht hcs he (by decide) hmk u3 hev u4 m3 e2 hj.topMkg hj.metadata hkeep a1 l1).2
      (by rw [sat_unchanged]; decide +kernel)).2 (by decide)
    have o3 := ((C100_later_message c hbm ht hcs he (by decide) hmk u3 hev u4 m3 e2 hj.lowFin hj.metadata hkeep a2 l2).2
      (by rw [sat_unchanged]; decide +kernel)).2 (by decide)
    have o4 := (C100_later_message c hbm ht hcs he (by decide) hmk t3 hev t4 m3 e2 hj.lowMkg hj.metadata hkeep a0 l0).1 (by rw [sat_unchanged]; decide +kernel)
    have o5 := (C100_later_message c hbm ht hcs he (by decide) hmk t3 hev t4 m3 e2 hj.topMkg hj.metadata hkeep a1 l1).1 (by rw [sat_unchanged]; decide +kernel)
    have o6 := (C100_later_message c hbm ht hcs he (by decide) hmk t3 hev t4 m3 e2 hj.lowFin hj.metadata hkeep a2 l2).1 (by rw [sat_unchanged]; decide +kernel)
    have o7 := ((C100_later_message c hbm ht hcs he (by decide) hmk u3 hevR u4 m3 f2 hj.lowMkg hj.metadata hkeep a3 l3).2
      (by rw [sat_after_rotation]; decide +kernel)).2 (by decide)
    have o8 := (C100_later_message c hbm ht hcs he (by decide) hmk v3 hevN v4 m3 f2 hj.lowMkg hj.metadata hkeep a3 l3).1 (by rw [sat_unchanged]; decide +kernel)
    -- the delegated key
    have hres : topMkgFin.Restricts policy RepoPy.finMkgMedium :=
      .andSwap (.attr (by decide +kernel)) (.or (.orRight (.refl _)) (.orLeft (.refl _)))
    obtain ⟨delK, w1⟩ := (C14_delegation_outcome c hmk t3 (reachable_wf policy_reachable) (ap' := RepoPy.finMkgMedium) (by simp [RepoPy.finMkgMedium])
      (by decide +kernel) (d.key 3)).1.2 fun b v hb hbv =>
        ⟨b, (by decide +kernel : ∀ b ∈ RepoPy.finMkgMedium.grantsList policy, topMkgFin.Grants policy b) b (AccessPolicy.mem_grantsList.2 hb), hbv⟩
    have w2 : UserKey c policy mk RepoPy.finMkgMedium delK := .delegate _ t2 hres (by simp [RepoPy.finMkgMedium]) w1
    have w3 : Issued c mk policy RepoPy.finMkgMedium delK := .delegateLater _ t3 (.nil _) hres (by simp [RepoPy.finMkgMedium]) w1
    obtain ⟨delB, x1, x2, _⟩ := user_bytes (t := lib.t) c hcs ht (reachable_wf policy_reachable) hmk w2 (by decide)
    have hdelegate : pyGenerateDelegatedKey lib del top "(Department::FIN || Department::MKG) && Security Level::Medium Secret" polB (d.key 3) = .ok delB := by
      unfold pyGenerateDelegatedKey
      rw [m4, py_ok, Res.ok_bind, t4, py_ok, Res.ok_bind, hj.delegate, pyArg_some, Res.ok_bind, e2, pyArg_some, Res.ok_bind, hbm,
        (C75_engine c policy_reachable hP).2.2.2.1, w1, py_ok, Res.ok_bind, x1, py_ok]
    refine ⟨delB, ?_, mk, delK, hmk, w3, by rw [hbm]; exact x2⟩
    rw [m1]
    simp only [RepoPy.must_ok, Res.ok_bind]
    rw [t1, u1, a0, a1, a2]
    simp only [RepoPy.must_ok, Res.ok_bind]
    rw [RepoPy.opens_ok o1, RepoPy.tries_raised o2, RepoPy.tries_raised o3, RepoPy.opens_ok o4, RepoPy.opens_ok o5, RepoPy.opens_ok o6, hrotate]
    simp only [RepoPy.must_ok, Res.ok_bind]
    rw [a3, v1]
    simp only [RepoPy.must_ok, Res.ok_bind]
    rw [RepoPy.tries_raised o7, RepoPy.opens_ok o8, hdelegate]
    rfl
  · refine ⟨fun h => ?_, fun _ => ?_⟩
    · obtain ⟨i, hi, h0⟩ := hz
      exact absurd h0 (h i hi)
    · unfold pyGenerateMasterKeys
      rw [e2, pyArg_some, Res.ok_bind, hbm, hmkE _ (by rw [hP.max]; rfl), hpanic]
      rfl

end

/-! ### A concrete case -/

namespace RepoPy

/-- The policy with its hash maps in another order, as it may be read back. -/
def shuffled : Policy := { policy with axes := policy.axes.reverse, attributeToInt := policy.attributeToInt.reverse }

theorem shuffled_reorders : policy.Reorders shuffled := ⟨rfl, rfl, List.reverse_perm _, List.reverse_perm _⟩

/-- A library which knows the texts of the script and shuffles the first policy. -/
def demoLib : Lib Demo.F Demo.F Demo.F Demo.F Demo.F Demo.SymKey Demo.SymNonce :=
  { Demo.lib with
    t := .release32
    serde := { Demo.serde with
      policyDec := fun b => if b = [1] then some shuffled else if b = [2] then some rotated else none
      policyEnc := fun p => if p.lastAttributeValue = 9 then some [1] else some [2]
      axesDec := fun _ => some [RepoDemo.securityLevel, RepoDemo.department]
      metadataDec := fun _ => some metadata
      attributesDec := fun b =>
        if b = [1] then some [level "Low Secret", dept "MKG"] else if b = [2] then some [level "Top Secret", dept "MKG"]
        else if b = [3] then some [level "Low Secret", dept "FIN"] else some [level "Low Secret"]
      accessPolicyParse := fun s =>
        if s = "Security Level::Top Secret && (Department::MKG || Department::FIN)" then some topMkgFin
        else if s = "Security Level::Medium Secret && Department::MKG" then some mediumMkg else some finMkgMedium } }

theorem demo_knows : Knows demoLib.serde ⟨[], [], [1], [2], [3], [4]⟩ where
  axes := rfl
  metadata := rfl
  lowMkg := rfl
  topMkg := rfl
  lowFin := rfl
  low := rfl
  top := rfl
  medium := by decide +kernel
  delegate := by decide +kernel
  policies p h := by
    rcases h with h | h
    · refine ⟨[1], shuffled, ?_, rfl, h.symm.trans shuffled_reorders⟩
      change (if p.lastAttributeValue = 9 then some [1] else some [2]) = some ([1] : Bytes)
      rw [h.last]
      rfl
    · refine ⟨[2], rotated, ?_, by decide +kernel, h.symm⟩
      change (if p.lastAttributeValue = 9 then some [1] else some [2]) = some ([2] : Bytes)
      rw [h.last]
      rfl

theorem demo_meta : ∃ mb, Demo.symmetric.metaEnc metadata = .ok mb ∧ mb.length + 16 + Demo.symmetric.nonceLen + Demo.symmetric.overhead < 2 ^ 31 ∧
    Demo.symmetric.metaDec mb = .ok metadata ∧ ∀ k n, ∃ em, Demo.symmetric.encrypt k mb n none = .ok em :=
  ⟨[0, 0, 0, 8, 0, 0, 0, 0, 0, 0, 0, 1], by decide +kernel, by decide +kernel, by decide +kernel, fun _ _ => ⟨_, rfl⟩⟩

/-- The script in the demo library, with two outcomes of the random generator. -/
example : (∃ delegate, demo demoLib ⟨[], [], [1], [2], [3], [4]⟩ ⟨fun _ => 1, 3, fun _ _ => 2, fun _ => 5, fun _ => 7, fun _ => Demo.nonce, fun _ => Demo.nonce⟩ =
      .ok ([true, true, true], delegate)) ∧
    demo demoLib ⟨[], [], [1], [2], [3], [4]⟩ ⟨fun i => if i = 50 then 0 else 1, 3, fun _ _ => 2, fun _ => 5, fun _ => 7, fun _ => Demo.nonce, fun _ => Demo.nonce⟩ =
      .panic := by
  obtain ⟨mb, h1, h2, h3, h4⟩ := demo_meta
  constructor
  · obtain ⟨del, h, _⟩ := (C74_py_demo (lib := demoLib) (tag := 16) Demo.curveF rfl (by decide) Demo.codecs_lawful Demo.symmetric_lawful demo_knows
      ⟨mb, h1, h3⟩ ⟨mb, h1, h2, h4⟩ ⟨fun _ => 1, 3, fun _ _ => 2, fun _ => 5, fun _ => 7, fun _ => Demo.nonce, fun _ => Demo.nonce⟩).1 (fun _ _ => one_ne_zero)
    exact ⟨del, h⟩
  · exact (C74_py_demo (lib := demoLib) (tag := 16) Demo.curveF rfl (by decide) Demo.codecs_lawful Demo.symmetric_lawful demo_knows
      ⟨mb, h1, h3⟩ ⟨mb, h1, h2, h4⟩ _).2 ⟨50, by decide, rfl⟩

end RepoPy

end Abe
