import Verif.Model.RepoTests
import Verif.Proofs.PolicyDecide
import Verif.Props.Reorder
import Verif.Props.Scheme
import Verif.Props.Text

/-!
# The tests of the repository pass

Property C74: the demonstration and the tests of the engine and of the scheme succeed for every outcome of the random generator and every order of the
hash maps, except when a scalar of the master key is drawn as zero.
-/

namespace Abe

set_option linter.unusedSectionVars false

variable {K P Q QP T : Type} [Field K] [DecidableEq K] [AddCommGroup P] [Module K P] [AddCommGroup Q] [Module K Q]
  [AddCommGroup T] [Module K T]

theorem assertOpens_ok [DecidableEq T] (c : Curve K P Q QP T) {ct : CipherText P T} {key : DecryptionKey K QP Q} {msg : T}
    (h : engineDecrypt (bls c) ct key = .ok (some msg)) : assertOpens (bls c) ct key msg = .ok () := by
  unfold assertOpens assert
  rw [h]
  simp [Res.unwrap]

theorem assertNone_ok (c : Curve K P Q QP T) {ct : CipherText P T} {key : DecryptionKey K QP Q} (h : engineDecrypt (bls c) ct key = .ok none) :
    assertNone (bls c) ct key = .ok () := by
  unfold assertNone assert
  rw [h]
  simp

/-- Generation of a key under a policy whose values are within the master key. -/
theorem generate_ok (c : Curve K P Q QP T) {size : Nat} {rnd : Nat → K} {y : K} {mk : MasterKey K P Q T}
    (hmk : generateMasterKey (bls c) size rnd y = .ok mk) {p : Policy} (hp : p.Reachable) (hlast : p.lastAttributeValue.toNat < size)
    {ap : AccessPolicy} (hv : ap.Valid p) (rnd' : Nat → K) :
    ∃ key, engineGenerateUserKey (bls c) p mk.privKey ap rnd' = .ok key ∧ Issued c mk p ap key := by
  obtain ⟨tI, hlen, hnz, rfl⟩ := generateMasterKey_inv c hmk
  obtain ⟨key, hkey⟩ := (C07_key_generation_success c (reachable_wf hp) hnz y ap rnd').1 ⟨hv, fun b v _ hbv => by
    have := ((reachable_wf hp).range v ((Policy.mem_allValues (reachable_wf hp)).2 ⟨b, hbv⟩)).2
    omega⟩
  exact ⟨key, hkey, .generate rnd' hp hkey⟩

theorem hasValue_lt {p : Policy} (hp : p.Reachable) {size : Nat} (hlast : p.lastAttributeValue.toNat < size) {b : Attribute} {v : UInt32}
    (h : p.HasValue b v) : v.toNat < size := by
  have := ((reachable_wf hp).range v ((Policy.mem_allValues (reachable_wf hp)).2 ⟨b, h⟩)).2
  omega

/-- Encryption for known attributes under a policy whose values are within the master key. -/
theorem engineEncrypt_ok (c : Curve K P Q QP T) {size : Nat} {rnd : Nat → K} {y : K} {mk : MasterKey K P Q T}
    (hmk : generateMasterKey (bls c) size rnd y = .ok mk) {p : Policy} (hp : p.Reachable) (hlast : p.lastAttributeValue.toNat < size)
    {atts : List Attribute} (hk : ∀ a ∈ atts, p.Known a) (hn : atts.length < size) (t : Target) (msg : T) (s : K) :
    ∃ ct, engineEncrypt (bls c) t p mk.pubKey atts msg s = .ok ct := by
  obtain ⟨ct, h, _⟩ := (C17_encryption_outcome c t (reachable_wf hp) (by omega) hmk atts msg s).2.1 hk hn fun a _ v hv => by
    apply hasValue_lt hp hlast (b := a)
    exact Policy.currentValue_hasValue (top_iff.1 hv)
  exact ⟨ct, h⟩

/-- What a key made under `p` opens under the same policy, up to order. -/
theorem opens (c : Curve K P Q QP T) {size : Nat} {rnd : Nat → K} {y : K} {mk : MasterKey K P Q T}
    (hmk : generateMasterKey (bls c) size rnd y = .ok mk) {p q : Policy} {l : List Change} (he : p.Evolves l q) {ap : AccessPolicy}
    {key : DecryptionKey K QP Q} (hk : Issued c mk p ap key) {t : Target} {atts rest : List Attribute} {msg : T} {s : K} {ct : CipherText P T}
    (hct : engineEncrypt (bls c) t q mk.pubKey atts msg s = .ok ct) (hrest : ∀ b, b ∈ rest ↔ b ∈ atts ∧ ¬ Rotated l b) :
    (ap.Sat p (· ∈ rest) → engineDecrypt (bls c) ct key = .ok (some msg)) ∧
    (¬ ap.Sat p (· ∈ rest) → (∃ b ∈ rest, ap.Grants p b) → engineDecrypt (bls c) ct key = .ok none) := by
  obtain ⟨h1, h2⟩ := C71_later_ciphertext c hmk hk he hct
  have e : ∀ ap : AccessPolicy, ap.Sat p (fun b => b ∈ atts ∧ ¬ Rotated l b) ↔ ap.Sat p (· ∈ rest) :=
    AccessPolicy.sat_congr fun b _ => (hrest b).symm
  rw [e] at h1 h2
  refine ⟨h1, fun hn ⟨b, hb, hg⟩ => (h2 hn).1 ⟨b, ((hrest b).1 hb).1, ((hrest b).1 hb).2, hg⟩⟩

namespace RepoDemo

/-- The policy of the demonstration, in one order. -/
def policy : Policy :=
  ⟨9, 100, [("Department", (["R&D", "HR", "MKG", "FIN"], false)),
    ("Security Level", (["Protected", "Low Secret", "Medium Secret", "High Secret", "Top Secret"], true))],
    [(dept "FIN", [9]), (dept "MKG", [8]), (dept "HR", [7]), (dept "R&D", [6]), (level "Top Secret", [5]), (level "High Secret", [4]),
      (level "Medium Secret", [3]), (level "Low Secret", [2]), (level "Protected", [1])]⟩

/-- The policy after the rotation. -/
def rotated : Policy :=
  ⟨10, 100, [("Department", (["R&D", "HR", "MKG", "FIN"], false)),
    ("Security Level", (["Protected", "Low Secret", "Medium Secret", "High Secret", "Top Secret"], true))],
    [(dept "FIN", [9]), (dept "MKG", [8]), (dept "HR", [7]), (dept "R&D", [6]), (level "Top Secret", [5]), (level "High Secret", [4]),
      (level "Medium Secret", [3]), (level "Low Secret", [10, 2]), (level "Protected", [1])]⟩

/-- The policy with the first axis. -/
def levels : Policy :=
  ⟨5, 100, [("Security Level", (["Protected", "Low Secret", "Medium Secret", "High Secret", "Top Secret"], true))],
    [(level "Top Secret", [5]), (level "High Secret", [4]), (level "Medium Secret", [3]), (level "Low Secret", [2]), (level "Protected", [1])]⟩

theorem levels_eq : (Policy.new 100).addAxis securityLevel = some levels := by decide +kernel

theorem policy_eq : levels.addAxis department = some policy := by decide +kernel

theorem rotated_eq : policy.rotate (level "Low Secret") = some rotated := by decide +kernel

theorem levels_reachable : levels.Reachable := .addAxis _ (.new _) levels_eq

theorem policy_reachable : policy.Reachable := .addAxis _ levels_reachable policy_eq

theorem rotated_reachable : rotated.Reachable := .rotate _ policy_reachable rotated_eq

theorem rotation : policy.Evolves [.rotate (level "Low Secret")] rotated := .cons rotated_eq (.nil _)

end RepoDemo

open RepoDemo in
/-- **C74**, the demonstration. -/
theorem C74_demo [DecidableEq T] (c : Curve K P Q QP T) (t : Target) {ord : Policy → Policy} (hord : ∀ p : Policy, p.Reorders (ord p))
    (d : TestDraws K T) :
    ((∀ i < 100, d.setup i ≠ 0) → RepoDemo.abe (bls c) t ord d = .ok ()) ∧
    ((∃ i < 100, d.setup i = 0) → RepoDemo.abe (bls c) t ord d = .panic) := by
  obtain ⟨q1, hq1, hr1⟩ := addAxis_reorders (hord (Policy.new 100)) (new_wf 100) levels_eq
  obtain ⟨q2, hq2, hr2⟩ := addAxis_reorders (hr1.trans (hord q1)) (reachable_wf levels_reachable) policy_eq
  have hP := hr2.trans (hord q2)
  obtain ⟨q3, hq3, hr3⟩ := rotate_reorders hP (reachable_wf policy_reachable) rotated_eq
  have hR := hr3.trans (hord q3)
  have hPr : (ord q2).Reachable := policy_reachable.reorder hP
  obtain ⟨p1, p2, p3, p4, p5⟩ := C75_engine c policy_reachable hP
  obtain ⟨r1, r2, r3, r4, r5⟩ := C75_engine c rotated_reachable hR
  unfold RepoDemo.abe
  rw [hq1]
  simp only [Res.ofOption, Res.ok_bind]
  rw [hq2]
  simp only [Res.ok_bind]
  generalize ord q2 = pol at *
  have hmkE : engineGenerateMasterKey (bls c) pol d.setup d.y = generateMasterKey (bls c) 100 d.setup d.y := by rw [p1]; rfl
  rw [hmkE]
  refine ⟨fun hnz => ?_, fun hz => ?_⟩
  · obtain ⟨mk, hmk, _⟩ := (C18_master_keys_consistent c 100 d.setup d.y).2 hnz
    rw [hmk]
    simp only [Res.ok_bind]
    rw [p2 _ highMkgFin _ (by simp [highMkgFin]), p2 _ topMkgFin _ (by simp [topMkgFin]), hq3]
    simp only [p4, p5, Res.ok_bind]
    generalize ord q3 = rot at *
    simp only [r4, r5, r2 _ highMkgFin _ (by simp [highMkgFin])]
    have hl : policy.lastAttributeValue.toNat < 100 := by decide
    have hl' : rotated.lastAttributeValue.toNat < 100 := by decide
    have rest0 : ∀ (atts : List Attribute) b, b ∈ atts ↔ b ∈ atts ∧ ¬ Rotated [] b := fun atts b => by simp [Rotated]
    -- keys
    obtain ⟨high, hhigh, ihigh⟩ := generate_ok c hmk policy_reachable hl (ap := highMkgFin) (by decide +kernel) (d.key 0)
    obtain ⟨top, htop, _⟩ := generate_ok c hmk policy_reachable hl (ap := topMkgFin) (by decide +kernel) (d.key 1)
    obtain ⟨sup, hsup, isup⟩ := generate_ok c hmk hPr (by rw [hP.last]; exact hl) (ap := .all)
      (by exact ⟨level "Low Secret", (hP.known (reachable_wf policy_reachable) _).2 (by decide +kernel)⟩) (d.key 2)
    rw [hhigh, htop, hsup]
    simp only [Res.ok_bind]
    have hdel : ∀ {q : Policy} {ap ap' : AccessPolicy} {key : DecryptionKey K QP Q} (_ : q.Reachable) (_ : Issued c mk q ap key) (_ : ap' ≠ .all) (_ : ap'.Valid q)
        (_ : ∀ b ∈ ap'.grantsList q, ap.Grants q b) (r : Nat → K), ∃ key', engineDelegateUserKey (bls c) q mk.delKey key ap' r = .ok key' :=
      fun hq hk hne hv hg r => (C14_delegation_outcome c hmk hk (reachable_wf hq) hne hv r).1.2 fun b v hb hbv =>
        ⟨b, hg b (AccessPolicy.mem_grantsList.2 hb), hbv⟩
    obtain ⟨unused, hunused⟩ := (C14_delegation_outcome c hmk isup (reachable_wf policy_reachable) (ap' := mediumMkg) (by simp [mediumMkg])
      (by decide +kernel) (d.key 3)).1.2 fun b v hb hbv => ⟨b, (hP.known (reachable_wf policy_reachable) _).2 hb.known, by
        unfold Policy.HasValue
        simp only [hP.hget_values (reachable_wf policy_reachable)]
        exact hbv⟩
    obtain ⟨user, huser⟩ := hdel policy_reachable ihigh (ap' := mediumMkg) (by simp [mediumMkg]) (by decide +kernel) (by decide +kernel) (d.key 4)
    have iuser : Issued c mk policy mediumMkg user := .delegateLater _ ihigh (.nil _)
      (.and (.attr (by decide +kernel)) (.orLeft (.refl _))) (by simp [mediumMkg]) huser
    rw [hunused, huser]
    simp only [Res.ok_bind]
    have hbad : ∀ {ap' : AccessPolicy} (a : Attribute) (v : UInt32) (_ : ap' ≠ .all) (_ : ap'.Valid policy) (_ : ap'.Grants policy a) (_ : policy.HasValue a v)
        (_ : ∀ b ∈ highMkgFin.grantsList policy, ¬ policy.HasValue b v) (r : Nat → K),
        engineDelegateUserKey (bls c) policy mk.delKey high ap' r = .err (.internalOperation "new attribute is not allowed") :=
      fun a v hne hv hg hav hno r => (C14_delegation_outcome c hmk ihigh (reachable_wf policy_reachable) hne hv r).2.1
        (fun b v _ hbv => hasValue_lt policy_reachable hl hbv) ⟨a, v, hg, hav, fun b' hb' => hno b' (AccessPolicy.mem_grantsList.2 hb')⟩
    rw [hbad (ap' := topMkg) (level "Top Secret") 5 (by simp [topMkg]) (by decide +kernel) (by decide +kernel) (by decide +kernel) (by decide +kernel) (d.key 5),
      hbad (ap' := mediumHr) (dept "HR") 7 (by simp [mediumHr]) (by decide +kernel) (by decide +kernel) (by decide +kernel) (by decide +kernel) (d.key 6)]
    simp only [isErrCall, assert, if_true, Res.ok_bind]
    obtain ⟨superUser, hsuperUser, _⟩ := (C11_randomisation c (reachable_wf hPr) (hmkE.trans hmk) (.generate _ hsup) policy).1 (d.key 7)
    have isuper : Issued c mk pol .all superUser := .randomise _ isup hsuperUser
    rw [hsuperUser]
    simp only [Res.ok_bind]
    -- what the super user opens
    have hsuper : ∀ {q : Policy} {l : List Change} (_ : policy.Evolves l q) (a b : Attribute) (msg : T) (s : K) (ct : CipherText P T)
        (_ : engineEncrypt (bls c) t q mk.pubKey [a, b] msg s = .ok ct) (_ : policy.Known b) (_ : ¬ Rotated l b),
        assertOpens (bls c) ct superUser msg = .ok () := fun he a b msg s ct hct hb hn =>
      assertOpens_ok c ((C71_later_ciphertext c hmk isuper (.reorder hP.symm he) hct).1
        ⟨b, (hP.known (reachable_wf policy_reachable) b).2 hb, by simp, hn⟩)
    -- messages before the rotation
    obtain ⟨lowMkgCt, hlowMkg⟩ := engineEncrypt_ok c hmk policy_reachable hl (atts := [level "Low Secret", dept "MKG"]) (by decide +kernel) (by simp) t (d.msg 0) (d.enc 0)
    obtain ⟨topMkgCt, htopMkg⟩ := engineEncrypt_ok c hmk policy_reachable hl (atts := [level "Top Secret", dept "MKG"]) (by decide +kernel) (by simp) t (d.msg 1) (d.enc 1)
    obtain ⟨lowHrCt, hlowHr⟩ := engineEncrypt_ok c hmk policy_reachable hl (atts := [level "Low Secret", dept "HR"]) (by decide +kernel) (by simp) t (d.msg 2) (d.enc 2)
    rw [hlowMkg, htopMkg, hlowHr]
    simp only [Res.ok_bind]
    rw [assertOpens_ok c ((opens c hmk (.nil _) iuser hlowMkg (rest0 _)).1 (by decide +kernel)), hsuper (.nil _) _ _ _ _ _ hlowMkg (by decide +kernel) (by simp [Rotated]),
      assertNone_ok c ((opens c hmk (.nil _) iuser htopMkg (rest0 _)).2 (by decide +kernel) ⟨dept "MKG", by decide +kernel, by decide +kernel⟩),
      hsuper (.nil _) _ _ _ _ _ htopMkg (by decide +kernel) (by simp [Rotated]),
      assertNone_ok c ((opens c hmk (.nil _) iuser hlowHr (rest0 _)).2 (by decide +kernel) ⟨level "Low Secret", by decide +kernel, by decide +kernel⟩),
      hsuper (.nil _) _ _ _ _ _ hlowHr (by decide +kernel) (by simp [Rotated])]
    simp only [Res.ok_bind]
    -- after the rotation
    obtain ⟨newCt, hnew⟩ := engineEncrypt_ok c hmk rotated_reachable hl' (atts := [level "Low Secret", dept "MKG"]) (by decide +kernel) (by simp) t (d.msg 3) (d.enc 3)
    obtain ⟨high', hhigh', ihigh'⟩ := generate_ok c hmk rotated_reachable hl' (ap := highMkgFin) (by decide +kernel) (d.key 8)
    obtain ⟨user', huser'⟩ := hdel rotated_reachable ihigh' (ap' := mediumMkg) (by simp [mediumMkg]) (by decide +kernel) (by decide +kernel) (d.key 9)
    have iuser' : Issued c mk rotated mediumMkg user' := .delegateLater _ ihigh' (.nil _)
      (.and (.attr (by decide +kernel)) (.orLeft (.refl _))) (by simp [mediumMkg]) huser'
    rw [hnew]
    simp only [Res.ok_bind]
    rw [hhigh']
    simp only [Res.ok_bind]
    rw [huser']
    simp only [Res.ok_bind]
    have hrest : ∀ b, b ∈ [dept "MKG"] ↔ b ∈ [level "Low Secret", dept "MKG"] ∧ ¬ Rotated [.rotate (level "Low Secret")] b := by
      intro b
      simp only [List.mem_cons, List.not_mem_nil, or_false, Rotated, Change.rotate.injEq]
      constructor
      · rintro rfl; exact ⟨.inr rfl, by decide⟩
      · rintro ⟨h | h, hn⟩
        · exact absurd h hn
        · exact h
    rw [assertNone_ok c ((opens c hmk rotation iuser hnew hrest).2 (by decide +kernel) ⟨dept "MKG", by decide +kernel, by decide +kernel⟩),
      hsuper rotation _ _ _ _ _ hnew (by decide +kernel) (((hrest _).1 (by simp)).2),
      assertOpens_ok c ((opens c hmk (.nil _) iuser' hnew (rest0 _)).1 (by decide +kernel)),
      assertOpens_ok c ((C71_earlier_ciphertext c hmk iuser' policy_reachable rotation hlowMkg).1 (by decide +kernel))]
    rfl
  · rw [(C18_master_keys_consistent c 100 d.setup d.y).1.2 hz]
    rfl


open RepoDemo in
/-- **C74**, the key that the demonstration makes and does not use (`_medium_secret_mkg_user`, /repo/src/core/demo.rs:134-139: "can have its key generated
by any of the Delegates").  Whatever the randomness, its delegation from the super delegate succeeds, and the key decrypts the first message of the
demonstration to another message, unless the secret of the master key or the scalar of the encryption is zero. -/
theorem C74_demo_unused_key (c : Curve K P Q QP T) (t : Target) {pol : Policy} (hpol : policy.Reorders pol) {rnd : Nat → K} {y : K} {mk : MasterKey K P Q T}
    (hmk : engineGenerateMasterKey (bls c) pol rnd y = .ok mk) {sup : DecryptionKey K QP Q} {r : Nat → K}
    (hsup : engineGenerateUserKey (bls c) pol mk.privKey .all r = .ok sup) (r' : Nat → K) :
    ∃ key, engineDelegateUserKey (bls c) pol mk.delKey sup mediumMkg r' = .ok key ∧
      ∀ (msg : T) (s : K), s ≠ 0 → y ≠ 0 → ∃ ct, engineEncrypt (bls c) t pol mk.pubKey [level "Low Secret", dept "MKG"] msg s = .ok ct ∧
        engineDecrypt (bls c) ct key = .ok (some (msg - (s * y) • c.genT)) ∧ msg - (s * y) • c.genT ≠ msg := by
  have hw := reachable_wf policy_reachable
  have hP : pol.Reachable := policy_reachable.reorder hpol
  obtain ⟨p1, p2, p3, p4, p5⟩ := C75_engine c policy_reachable hpol
  have hk : ∀ a, policy.Known a → pol.Known a := fun a h => (hpol.known hw a).2 h
  have hc : ∀ a b, policy.Covers a b → pol.Covers a b := fun a b h => (hpol.covers hw a b).2 h
  have hc' : ∀ a b, pol.Covers a b → policy.Covers a b := fun a b h => (hpol.covers hw a b).1 h
  have hv0 : mediumMkg.Valid policy := by decide +kernel
  have hv : mediumMkg.Valid pol := ⟨hv0.1, fun a h => hk a (hv0.2.1 a h), trivial, trivial, fun b ⟨h1, h2⟩ => hv0.2.2.2.2 b ⟨hc' _ _ h1, hc' _ _ h2⟩⟩
  obtain ⟨key, h1, h2⟩ := C13_delegation_to_and_broken c (reachable_wf hP) hmk (.generate _ hsup) (l := .attr (level "Medium Secret")) (r := .attr (dept "MKG"))
    (.all (hk _ (by decide +kernel))) (.all (hk _ (by decide +kernel))) hv r'
  refine ⟨key, h1, fun msg s hs hy => ?_⟩
  have hmk' : generateMasterKey (bls c) 100 rnd y = .ok mk := by rw [p1] at hmk; exact hmk
  obtain ⟨ct, hct⟩ := engineEncrypt_ok c hmk' hP (by rw [hpol.last]; decide) (atts := [level "Low Secret", dept "MKG"])
    (fun a h => hk a (by revert a; decide +kernel)) (by simp) t msg s
  obtain ⟨g1, g2⟩ := h2 t _ msg s ct hct ⟨level "Low Secret", hc _ _ (by decide +kernel), by simp⟩ ⟨dept "MKG", hc _ _ (by decide +kernel), by simp⟩
  refine ⟨ct, hct, g1, fun e => g2 hs hy ?_⟩
  rw [g1, e]

namespace RepoComplex

/-- The policy of the test, in one order. -/
def policy : Policy :=
  ⟨10, 100, [("Country", (["France", "Germany", "Italy", "Hungary", "Spain", "Belgium"], false)), ("Entity", (["BCEF", "BNPPF", "CIB", "CashMgt"], false))],
    [(⟨"Country", "Belgium"⟩, [10]), (⟨"Country", "Spain"⟩, [9]), (⟨"Country", "Hungary"⟩, [8]), (⟨"Country", "Italy"⟩, [7]), (⟨"Country", "Germany"⟩, [6]),
      (⟨"Country", "France"⟩, [5]), (⟨"Entity", "CashMgt"⟩, [4]), (⟨"Entity", "CIB"⟩, [3]), (⟨"Entity", "BNPPF"⟩, [2]), (⟨"Entity", "BCEF"⟩, [1])]⟩

def entities : Policy :=
  ⟨4, 100, [("Entity", (["BCEF", "BNPPF", "CIB", "CashMgt"], false))],
    [(⟨"Entity", "CashMgt"⟩, [4]), (⟨"Entity", "CIB"⟩, [3]), (⟨"Entity", "BNPPF"⟩, [2]), (⟨"Entity", "BCEF"⟩, [1])]⟩

theorem entities_eq : (Policy.new 100).addAxis entity = some entities := by decide +kernel

theorem policy_eq : entities.addAxis country = some policy := by decide +kernel

theorem entities_reachable : entities.Reachable := .addAxis _ (.new _) entities_eq

theorem policy_reachable : policy.Reachable := .addAxis _ entities_reachable policy_eq

end RepoComplex

open RepoComplex in
/-- **C74**, `complex_access_policy_test`. -/
theorem C74_complex_access_policy [DecidableEq T] (c : Curve K P Q QP T) (t : Target) {ord : Policy → Policy}
    (hord : ∀ p : Policy, p.Reorders (ord p)) (d : TestDraws K T) :
    ((∀ i < 100, d.setup i ≠ 0) → RepoComplex.test (bls c) t ord d = .ok ()) ∧
    ((∃ i < 100, d.setup i = 0) → RepoComplex.test (bls c) t ord d = .panic) := by
  obtain ⟨q1, hq1, hr1⟩ := addAxis_reorders (hord (Policy.new 100)) (new_wf 100) entities_eq
  obtain ⟨q2, hq2, hr2⟩ := addAxis_reorders (hr1.trans (hord q1)) (reachable_wf entities_reachable) policy_eq
  have hP := hr2.trans (hord q2)
  have hw := reachable_wf policy_reachable
  obtain ⟨p1, p2, p3, p4, p5⟩ := C75_engine c policy_reachable hP
  unfold RepoComplex.test
  rw [hq1]
  simp only [Res.unwrap, Res.ok_bind]
  rw [hq2]
  simp only [Res.ok_bind]
  generalize ord q2 = pol at *
  have hmkE : engineGenerateMasterKey (bls c) pol d.setup d.y = generateMasterKey (bls c) 100 d.setup d.y := by rw [p1]; rfl
  rw [hmkE]
  refine ⟨fun hnz => ?_, fun hz => ?_⟩
  · obtain ⟨mk, hmk, _⟩ := (C18_master_keys_consistent c 100 d.setup d.y).2 hnz
    have hl : policy.lastAttributeValue.toNat < 100 := by decide
    have hne : bnppfAll ≠ .all := by simp [bnppfAll]
    obtain ⟨msp, hmsp⟩ : ∃ m, policyToMsp policy bnppfAll = .ok m := Demo.exists_of_isOk (by decide +kernel)
    obtain ⟨user, huser, iuser⟩ := generate_ok c hmk policy_reachable hl (ap := bnppfAll) (by decide +kernel) (d.key 0)
    obtain ⟨user', huser', iuser'⟩ := generate_ok c hmk policy_reachable hl (ap := bnppfAll) (by decide +kernel) (d.key 1)
    obtain ⟨e, hbad⟩ := (C17_encryption_outcome c t hw (by decide) hmk [⟨"Bad_Entity", "BNPPF"⟩, ⟨"Country", "France"⟩] (d.msg 0) (d.enc 0)).1
      (.inl ⟨⟨"Bad_Entity", "BNPPF"⟩, by simp, by decide +kernel⟩)
    obtain ⟨ct, hct⟩ := engineEncrypt_ok c hmk policy_reachable hl (atts := [⟨"Entity", "BNPPF"⟩, ⟨"Country", "France"⟩]) (by decide +kernel) (by simp) t
      (d.msg 0) (d.enc 1)
    have rest0 : ∀ (atts : List Attribute) b, b ∈ atts ↔ b ∈ atts ∧ ¬ Rotated [] b := fun atts b => by simp [Rotated]
    rw [hmk, hP.policyToMsp hw hne, hmsp]
    simp only [p2 _ bnppfAll _ hne, p5, RepoComplex.test.unwrapRes, Res.ok_bind]
    rw [huser, hbad, hct]
    simp only [isErrCall, assert, if_true, Res.ok_bind]
    rw [(opens c hmk (.nil _) iuser hct (rest0 _)).1 (by decide +kernel), huser']
    simp only [decide_true, if_true, Res.ok_bind]
    rw [(opens c hmk (.nil _) iuser' hct (rest0 _)).1 (by decide +kernel)]
    simp
  · rw [(C18_master_keys_consistent c 100 d.setup d.y).1.2 hz]
    rfl

open Text in
/-- A key made from the text of a formula. -/
theorem textKey (c : Curve K P Q QP T) (t : Target) {s : List Char} (hs : s.length < 2 ^ 31) {F : Node} (hp : Node.parse .release64 s = .ok F) (hn : F.leaves.Nodup)
    {size : Nat} {rnd : Nat → K} {y : K} {mk : MasterKey K P Q T} (hmk : generateMasterKey (bls c) size rnd y = .ok mk) (hlt : ∀ a ∈ F.leaves, a.toNat < size) :
    ∃ msp, Msp.parse t s = .ok msp ∧ ∀ r, ∃ key, keyGeneration (bls c) msp mk.privKey r = .ok key ∧
      ∀ (t' : Target) (gamma : List UInt32) (msg : T) (r : K) (ct : CipherText P T), encrypt (bls c) t' msg gamma mk.pubKey r = .ok ct →
        (F.Sat (· ∈ gamma) → engineDecrypt (bls c) ct key = .ok (some msg)) ∧
        (¬ F.Sat (· ∈ gamma) → (∃ a ∈ gamma, a ∈ F.leaves) → engineDecrypt (bls c) ct key = .ok none) := by
  obtain ⟨h1, h2⟩ := (C41_grammar .release64 s hs F).1 hp
  obtain ⟨_, h3, _⟩ := C66_text_to_matrix (K := K) t s hs
  obtain ⟨msp, hm⟩ := h3.2 ⟨h1, _, h2, hn⟩
  refine ⟨msp, hm, fun r => ?_⟩
  obtain ⟨key, hk, hd⟩ := (C66_text_to_decryption c hs hm h2 hmk r).2 hlt
  exact ⟨key, hk, fun t' gamma msg r ct hct => ⟨(hd t' gamma msg r ct hct).1, (hd t' gamma msg r ct hct).2.1⟩⟩

theorem schemeEncrypt_ok (c : Curve K P Q QP T) {size : Nat} {rnd : Nat → K} {y : K} {mk : MasterKey K P Q T}
    (hmk : generateMasterKey (bls c) size rnd y = .ok mk) {gamma : List UInt32} (hl : gamma.length < size) (hb : ∀ a ∈ gamma, a.toNat < size)
    (t : Target) (msg : T) (s : K) : ∃ ct, encrypt (bls c) t msg gamma mk.pubKey s = .ok ct := by
  obtain ⟨tI, hlen, hnz, rfl⟩ := generateMasterKey_inv c hmk
  exact ⟨_, encrypt_ok c t tI y s msg gamma (by omega) (by rw [hlen]; exact hb)⟩

/-- **C74**, `encrypt_decrypt_with_multiple_key_pair`. -/
theorem C74_multiple_key_pair [DecidableEq T] (c : Curve K P Q QP T) (t : Target) (d : TestDraws K T) :
    ((∀ i < 10, d.setup i ≠ 0) → multipleKeyPairTest (bls c) t d = .ok ()) ∧
    ((∃ i < 10, d.setup i = 0) → multipleKeyPairTest (bls c) t d = .panic) := by
  have hparse : ∀ {s : List Char} {F : Node} (_ : s.length < 2 ^ 31) (_ : Node.parse .release64 s = .ok F) (_ : F.leaves.Nodup), ∃ msp, Msp.parse t s = .ok msp :=
    fun {s F} hs hp hn => by
      obtain ⟨h1, h2⟩ := (C41_grammar .release64 s hs F).1 hp
      exact (C66_text_to_matrix (K := K) t s hs).2.1.2 ⟨h1, _, h2, hn⟩
  unfold multipleKeyPairTest
  constructor
  · intro hnz
    obtain ⟨mk, hmk, _⟩ := (C18_master_keys_consistent c 10 d.setup d.y).2 hnz
    obtain ⟨m1, e1, k1⟩ := textKey c t (s := "1 | 2".toList) (by decide) (F := .or (.leaf 1) (.leaf 2)) (by decide +kernel) (by decide) hmk (by decide)
    obtain ⟨m2, e2, k2⟩ := textKey c t (s := "1 & 2".toList) (by decide) (F := .and (.leaf 1) (.leaf 2)) (by decide +kernel) (by decide) hmk (by decide)
    obtain ⟨m3, e3, k3⟩ := textKey c t (s := "1".toList) (by decide) (F := .leaf 1) (by decide +kernel) (by decide) hmk (by decide)
    obtain ⟨m4, e4, k4⟩ := textKey c t (s := "1 & 3".toList) (by decide) (F := .and (.leaf 1) (.leaf 3)) (by decide +kernel) (by decide) hmk (by decide)
    obtain ⟨m5, e5, k5⟩ := textKey c t (s := "1 | 3".toList) (by decide) (F := .or (.leaf 1) (.leaf 3)) (by decide +kernel) (by decide) hmk (by decide)
    obtain ⟨uk1, g1, f1⟩ := k1 (d.key 0)
    obtain ⟨uk2, g2, f2⟩ := k2 (d.key 1)
    obtain ⟨uk3, g3, f3⟩ := k3 (d.key 2)
    obtain ⟨uk4, g4, f4⟩ := k4 (d.key 3)
    obtain ⟨uk5, g5, f5⟩ := k5 (d.key 4)
    obtain ⟨ct, hct⟩ := schemeEncrypt_ok c hmk (gamma := [1, 2]) (by decide) (by decide) t (d.msg 0) (d.enc 0)
    rw [e1, e2, e3, e4, e5, hmk]
    simp only [Res.ok_bind]
    rw [g1, g2, g3, g4, g5, hct]
    simp only [Res.ok_bind]
    rw [assertOpens_ok c ((f1 _ _ _ _ _ hct).1 (by simp [Node.Sat])), assertOpens_ok c ((f2 _ _ _ _ _ hct).1 (by simp [Node.Sat])),
      assertOpens_ok c ((f3 _ _ _ _ _ hct).1 (by simp [Node.Sat])),
      assertNone_ok c ((f4 _ _ _ _ _ hct).2 (by simp [Node.Sat]) ⟨1, by simp, by simp [Node.leaves]⟩),
      assertOpens_ok c ((f5 _ _ _ _ _ hct).1 (by simp [Node.Sat]))]
    rfl
  · intro hz
    obtain ⟨m1, e1⟩ := hparse (s := "1 | 2".toList) (by decide) (F := .or (.leaf 1) (.leaf 2)) (by decide +kernel) (by decide)
    obtain ⟨m2, e2⟩ := hparse (s := "1 & 2".toList) (by decide) (F := .and (.leaf 1) (.leaf 2)) (by decide +kernel) (by decide)
    obtain ⟨m3, e3⟩ := hparse (s := "1".toList) (by decide) (F := .leaf 1) (by decide +kernel) (by decide)
    obtain ⟨m4, e4⟩ := hparse (s := "1 & 3".toList) (by decide) (F := .and (.leaf 1) (.leaf 3)) (by decide +kernel) (by decide)
    obtain ⟨m5, e5⟩ := hparse (s := "1 | 3".toList) (by decide) (F := .or (.leaf 1) (.leaf 3)) (by decide +kernel) (by decide)
    rw [e1, e2, e3, e4, e5, (C18_master_keys_consistent c 10 d.setup d.y).1.2 hz]
    rfl

/-- **C74**, `encrypt_decrypt`; the message is also the one that was encrypted (the test only prints this). -/
theorem C74_encrypt_decrypt [DecidableEq T] (c : Curve K P Q QP T) (t : Target) (d : TestDraws K T) :
    ((∀ i < 10, d.setup i ≠ 0) → encryptDecryptTest (bls c) t d = .ok true) ∧
    ((∃ i < 10, d.setup i = 0) → encryptDecryptTest (bls c) t d = .panic) := by
  have hm0 : ∃ m, (Node.and (.leaf 1) (.or (.leaf 4) (.and (.leaf 2) (.leaf 3)))).toMsp = .ok m := Demo.exists_of_isOk (by decide +kernel)
  unfold encryptDecryptTest
  constructor
  · intro hnz
    obtain ⟨mk, hmk, _⟩ := (C18_master_keys_consistent c 10 d.setup d.y).2 hnz
    obtain ⟨m, e, k⟩ := textKey c .release64 (s := "1 & (4 | (2 & 3))".toList) (by decide)
      (F := .and (.leaf 1) (.or (.leaf 4) (.and (.leaf 2) (.leaf 3)))) (by decide +kernel) (by decide) hmk (by decide)
    have e' : (Node.and (.leaf 1) (.or (.leaf 4) (.and (.leaf 2) (.leaf 3)))).toMsp = .ok m := by
      rw [← e]; unfold Msp.parse
      rw [show Node.parse .release64 "1 & (4 | (2 & 3))".toList = .ok (.and (.leaf 1) (.or (.leaf 4) (.and (.leaf 2) (.leaf 3)))) by decide +kernel]
      rfl
    obtain ⟨uk, g, f⟩ := k (d.key 0)
    obtain ⟨ct, hct⟩ := schemeEncrypt_ok c hmk (gamma := [1, 4]) (by decide) (by decide) t (d.msg 0) (d.enc 0)
    have hd : decrypt (bls c) ct uk = .ok (some (d.msg 0)) := (f _ _ _ _ _ hct).1 (by simp [Node.Sat])
    rw [e', hmk]
    simp only [Res.ok_bind]
    rw [g, hct]
    simp only [Res.ok_bind]
    rw [hd]
    simp [Res.unwrap]
  · intro hz
    obtain ⟨m, e⟩ := hm0
    rw [e, (C18_master_keys_consistent c 10 d.setup d.y).1.2 hz]
    rfl

namespace Demo

/-- Every operation on a policy reverses its hash maps. -/
def reversed (p : Policy) : Policy := { p with axes := p.axes.reverse, attributeToInt := p.attributeToInt.reverse }

theorem reversed_reorders (p : Policy) : p.Reorders (reversed p) := ⟨rfl, rfl, List.reverse_perm _, List.reverse_perm _⟩

/-- Draws without a zero, and with one at the end of the master key. -/
def testDraws : TestDraws ℚ ℚ := ⟨fun i => i + 1, 7, fun i j => 3 * i - j, fun i => 5 + i, fun i => 2 + i⟩
def zeroDraws : TestDraws ℚ ℚ := { testDraws with setup := fun i => if i = 9 then 0 else i + 1 }

theorem testDraws_ne (i : Nat) : testDraws.setup i ≠ 0 := by simp only [testDraws]; positivity

example : reversed RepoDemo.policy ≠ RepoDemo.policy ∧ RepoDemo.abe (bls curve) .debug32 reversed testDraws = .ok () ∧
    RepoDemo.abe (bls curve) .debug32 reversed zeroDraws = .panic :=
  ⟨by decide +kernel, (C74_demo curve _ reversed_reorders _).1 fun i _ => testDraws_ne i, (C74_demo curve _ reversed_reorders _).2 ⟨9, by decide, rfl⟩⟩

example : RepoComplex.test (bls curve) .release64 reversed testDraws = .ok () ∧ RepoComplex.test (bls curve) .release64 reversed zeroDraws = .panic :=
  ⟨(C74_complex_access_policy curve _ reversed_reorders _).1 fun i _ => testDraws_ne i,
    (C74_complex_access_policy curve _ reversed_reorders _).2 ⟨9, by decide, rfl⟩⟩

example : multipleKeyPairTest (bls curve) .release64 testDraws = .ok () ∧ multipleKeyPairTest (bls curve) .release64 zeroDraws = .panic ∧
    encryptDecryptTest (bls curve) .release64 testDraws = .ok true ∧ encryptDecryptTest (bls curve) .release64 zeroDraws = .panic :=
  ⟨(C74_multiple_key_pair curve _ _).1 fun i _ => testDraws_ne i, (C74_multiple_key_pair curve _ _).2 ⟨9, by decide, rfl⟩,
    (C74_encrypt_decrypt curve _ _).1 fun i _ => testDraws_ne i, (C74_encrypt_decrypt curve _ _).2 ⟨9, by decide, rfl⟩⟩

/-- The unused key of the demonstration: the message 5 is decrypted to 5 - 14. -/
example : ∃ mk sup key ct, engineGenerateMasterKey (bls curve) (reversed RepoDemo.policy) testDraws.setup 7 = .ok mk ∧
    engineGenerateUserKey (bls curve) (reversed RepoDemo.policy) mk.privKey .all (testDraws.key 2) = .ok sup ∧
    engineDelegateUserKey (bls curve) (reversed RepoDemo.policy) mk.delKey sup RepoDemo.mediumMkg (testDraws.key 3) = .ok key ∧
    engineEncrypt (bls curve) .release64 (reversed RepoDemo.policy) mk.pubKey [RepoDemo.level "Low Secret", RepoDemo.dept "MKG"] 5 2 = .ok ct ∧
    engineDecrypt (bls curve) ct key = .ok (some (5 - (2 * 7 : ℚ) • curve.genT)) := by
  have h := reversed_reorders RepoDemo.policy
  obtain ⟨mk, hmk, _⟩ := (C18_master_keys_consistent curve 100 testDraws.setup 7).2 fun i _ => testDraws_ne i
  have hmk' : engineGenerateMasterKey (bls curve) (reversed RepoDemo.policy) testDraws.setup 7 = .ok mk := hmk
  obtain ⟨sup, hsup, _⟩ := generate_ok curve hmk (RepoDemo.policy_reachable.reorder h) (by decide) (ap := .all) (by decide +kernel) (testDraws.key 2)
  obtain ⟨key, hkey, hd⟩ := C74_demo_unused_key curve .release64 h hmk' hsup (testDraws.key 3)
  obtain ⟨ct, hct, hdec, _⟩ := hd 5 2 (by norm_num) (by norm_num)
  exact ⟨mk, sup, key, ct, hmk', hsup, hkey, hct, hdec⟩

end Demo

end Abe
