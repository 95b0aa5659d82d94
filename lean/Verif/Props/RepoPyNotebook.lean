import Verif.Model.RepoPyNotebook
import Verif.Props.RepoPyDemo
import Verif.Props.JsonRepo

/-!
# The notebook on the Python interface

Property C74, continued: /repo/src/interfaces/pyo3/tests/notebooks/confidential-data-access.ipynb.
-/

namespace Abe

set_option linter.unusedSectionVars false

open RepoDemo (level dept)
open RepoFiles (user_bytes unwrap_master)

namespace RepoNotebook

/-- The axis of departments, /repo/src/interfaces/pyo3/tests/notebooks/confidential-data-access.ipynb:117-126. -/
def department : PolicyAxis := ⟨"Department", ["R&D", "Human Resources", "Marketing", "Finance"], false⟩

/-- The policy of the notebook. -/
def policy : Policy :=
  ⟨9, 100, [("Department", (["R&D", "Human Resources", "Marketing", "Finance"], false)),
    ("Security Level", (["Protected", "Low Secret", "Medium Secret", "High Secret", "Top Secret"], true))],
    [(dept "Finance", [9]), (dept "Marketing", [8]), (dept "Human Resources", [7]), (dept "R&D", [6]), (level "Top Secret", [5]), (level "High Secret", [4]),
      (level "Medium Secret", [3]), (level "Low Secret", [2]), (level "Protected", [1])]⟩

/-- The policy after the rotation. -/
def rotated : Policy :=
  ⟨10, 100, [("Department", (["R&D", "Human Resources", "Marketing", "Finance"], false)),
    ("Security Level", (["Protected", "Low Secret", "Medium Secret", "High Secret", "Top Secret"], true))],
    [(dept "Finance", [9]), (dept "Marketing", [8]), (dept "Human Resources", [7]), (dept "R&D", [6]), (level "Top Secret", [5]), (level "High Secret", [4]),
      (level "Medium Secret", [10, 3]), (level "Low Secret", [2]), (level "Protected", [1])]⟩

theorem policy_eq : RepoDemo.levels.addAxis department = some policy := by decide +kernel

theorem rotated_eq : policy.rotate (level "Medium Secret") = some rotated := by decide +kernel

theorem policy_reachable : policy.Reachable := .addAxis _ RepoDemo.levels_reachable policy_eq

theorem rotated_reachable : rotated.Reachable := .rotate _ policy_reachable rotated_eq

/-- What the keys of the notebook are for: a department and a level. -/
def grant (d l : String) : AccessPolicy := .and (.attr (dept d)) (.attr (level l))

/-- The access policy of the delegate. -/
def delegateAp : AccessPolicy := .and (.or (.attr (dept "Finance")) (.attr (dept "Marketing"))) (.attr (level "High Secret"))

/-- The five ways in which a parser may group "Finance or Marketing or R&D or Human Resources". -/
def anyDepartment : List AccessPolicy :=
  let f : AccessPolicy := .attr (dept "Finance")
  let m : AccessPolicy := .attr (dept "Marketing")
  let r : AccessPolicy := .attr (dept "R&D")
  let h : AccessPolicy := .attr (dept "Human Resources")
  [.or (.or (.or f m) r) h, .or f (.or m (.or r h)), .or (.or f m) (.or r h), .or (.or f (.or m r)) h, .or f (.or (.or m r) h)]

/-- The texts of the notebook are what they say, and policies can be written and read back, up to the order of their hash maps. -/
structure Knows (s : Serde) (j : Texts) : Prop where
  axes : s.axesDec j.axes = some [RepoDemo.securityLevel, department]
  metadata : s.metadataDec j.metadata = some RepoPy.metadata
  mediumMkg : s.attributesDec j.mediumMkg = some [level "Medium Secret", dept "Marketing"]
  topMkg : s.attributesDec j.topMkg = some [level "Top Secret", dept "Marketing"]
  mediumHr : s.attributesDec j.mediumHr = some [level "Medium Secret", dept "Human Resources"]
  medium : s.attributesDec j.medium = some [level "Medium Secret"]
  alice : s.accessPolicyParse aliceStr = some (grant "Marketing" "Medium Secret")
  bob : s.accessPolicyParse bobStr = some (grant "Marketing" "Top Secret")
  carol : s.accessPolicyParse carolStr = some (grant "Human Resources" "Medium Secret")
  super : ∃ d ∈ anyDepartment, s.accessPolicyParse superStr = some (.and d (.attr (level "Top Secret")))
  delegate : s.accessPolicyParse delegateStr = some delegateAp
  user : s.accessPolicyParse userStr = some (grant "Marketing" "High Secret")
  hr : s.accessPolicyParse hrStr = some (grant "Human Resources" "Top Secret")
  policies : ∀ p, policy.Reorders p ∨ rotated.Reorders p → ∃ b q, s.policyEnc p = some b ∧ s.policyDec b = some q ∧ p.Reorders q

theorem super_valid : ∀ d ∈ anyDepartment, (AccessPolicy.and d (.attr (level "Top Secret"))).Valid policy := by decide +kernel

theorem super_restricts {d : AccessPolicy} (hd : d ∈ anyDepartment) {a : Attribute} (ha : a = dept "Finance" ∨ a = dept "Marketing") (p : Policy) :
    d.Restricts p (.attr a) := by
  simp only [anyDepartment, List.mem_cons, List.not_mem_nil, or_false] at hd
  rcases hd with rfl | rfl | rfl | rfl | rfl <;> rcases ha with rfl | rfl
  · exact .orLeft (.orLeft (.orLeft (.refl _)))
  · exact .orLeft (.orLeft (.orRight (.refl _)))
  · exact .orLeft (.refl _)
  · exact .orRight (.orLeft (.refl _))
  · exact .orLeft (.orLeft (.refl _))
  · exact .orLeft (.orRight (.refl _))
  · exact .orLeft (.orLeft (.refl _))
  · exact .orLeft (.orRight (.orLeft (.refl _)))
  · exact .orLeft (.refl _)
  · exact .orRight (.orLeft (.orLeft (.refl _)))

end RepoNotebook

section
variable {K P Q QP T Key Nonce : Type} [Field K] [DecidableEq K] [AddCommGroup P] [Module K P] [AddCommGroup Q] [Module K Q] [AddCommGroup T] [Module K T]
  {lib : Lib K QP P Q T Key Nonce} {tag : Nat} {p p' : Policy} {rnd : Nat → K} {y : K} {mk : MasterKey K P Q T} {ap ap' : AccessPolicy}
  {key : DecryptionKey K QP Q} {polB del kb : Bytes}

/-- A delegated key through Python. -/
theorem RepoNotebook.delegated (c : Curve K P Q QP T) (hbm : lib.bm = bls c) (ht : 32 ≤ lib.t.bits) (hcs : lib.cs.Lawful) (hp : p.Reachable) (hr : p.Reorders p')
    (hmk : engineGenerateMasterKey (bls c) p rnd y = .ok mk) (hmax : p.maxAttributeCreations.toNat ≤ 100)
    (hdel : (delKeyCodec lib.t lib.cs).dec del = .ok mk.delKey) (hkd : (userKeyCodec lib.t lib.cs lib.bm).dec kb = .ok key) (hu : UserKey c p mk ap key)
    (hi : Issued c mk p ap key) (hpol : lib.serde.policyDec polB = some p') {str : String} (hap : lib.serde.accessPolicyParse str = some ap') (hne : ap' ≠ .all)
    (hv : ap'.Valid p) (hres : ap.Restricts p ap') (r : Nat → K) :
    ∃ kb' key', pyGenerateDelegatedKey lib del kb str polB r = .ok kb' ∧ UserKey c p mk ap' key' ∧ Issued c mk p ap' key' ∧
      (userKeyCodec lib.t lib.cs lib.bm).dec kb' = .ok key' := by
  have hw := reachable_wf hp
  obtain ⟨key', w1⟩ := (C14_delegation_outcome c hmk hi hw hne hv r).1.2 fun b v hb hbv => ⟨b, AccessPolicy.grants_restrict hres hw hb, hbv⟩
  have w2 : UserKey c p mk ap' key' := .delegate _ hu hres hne w1
  obtain ⟨kb', x1, x2, _⟩ := user_bytes (t := lib.t) c hcs ht hw hmk w2 hmax
  refine ⟨kb', key', ?_, w2, .delegateLater _ hi (.nil _) hres hne w1, by rw [hbm]; exact x2⟩
  unfold pyGenerateDelegatedKey
  rw [hdel, py_ok, Res.ok_bind, hkd, py_ok, Res.ok_bind, hap, pyArg_some, Res.ok_bind, hpol, pyArg_some, Res.ok_bind, hbm, (C75_engine c hp hr).2.2.2.1, w1, py_ok,
    Res.ok_bind, x1, py_ok]

/-- A delegation that is refused, through Python. -/
theorem RepoNotebook.refused (c : Curve K P Q QP T) (hbm : lib.bm = bls c) (hp : p.Reachable) (hr : p.Reorders p')
    (hmk : engineGenerateMasterKey (bls c) p rnd y = .ok mk) (hlast : p.lastAttributeValue.toNat < p.maxAttributeCreations.toNat)
    (hdel : (delKeyCodec lib.t lib.cs).dec del = .ok mk.delKey) (hkd : (userKeyCodec lib.t lib.cs lib.bm).dec kb = .ok key)
    (hi : Issued c mk p ap key) (hpol : lib.serde.policyDec polB = some p') {str : String} (hap : lib.serde.accessPolicyParse str = some ap') (hne : ap' ≠ .all)
    (hv : ap'.Valid p) (a : Attribute) (v : UInt32) (hg : ap'.Grants p a) (hav : p.HasValue a v) (hno : ∀ b ∈ ap.grantsList p, ¬ p.HasValue b v) (r : Nat → K) :
    pyGenerateDelegatedKey lib del kb str polB r = .err .typeError := by
  have h := (C14_delegation_outcome c hmk hi (reachable_wf hp) hne hv r).2.1
    (fun b v _ hbv => hasValue_lt hp hlast hbv) ⟨a, v, hg, hav, fun b' hb' => hno b' (AccessPolicy.mem_grantsList.2 hb')⟩
  unfold pyGenerateDelegatedKey
  rw [hdel, py_ok, Res.ok_bind, hkd, py_ok, Res.ok_bind, hap, pyArg_some, Res.ok_bind, hpol, pyArg_some, Res.ok_bind, hbm, (C75_engine c hp hr).2.2.2.1, h]
  rfl

theorem RepoNotebook.shown {ct b : Bytes} (h : pyDecrypt lib kb ct = .ok b) : RepoNotebook.abeDecrypt lib kb ct = .ok (some b) := by
  unfold RepoNotebook.abeDecrypt
  rw [h]

theorem RepoNotebook.failed {ct : Bytes} (h : pyDecrypt lib kb ct = .err .typeError) : RepoNotebook.abeDecrypt lib kb ct = .ok none := by
  unfold RepoNotebook.abeDecrypt
  rw [h]

open RepoNotebook in
/-- **C74**, the notebook: whatever the random values and however the parser groups the four departments, it prints what is stored in it.  Alice opens the first message
only, Bob both marketing messages, Carol the last one; Alice's key does not open the message made after the rotation, their new key opens it and the first one.  The
delegated keys are keys for the access policies asked for, and the delegate is refused keys for another level and for another department.  If a scalar of the master
key is zero, the notebook ends with an exception. -/
theorem C74_py_notebook (c : Curve K P Q QP T) (hbm : lib.bm = bls c) (ht : 32 ≤ lib.t.bits) (hcs : lib.cs.Lawful) (he : lib.e.Lawful tag)
    {j : RepoNotebook.Texts} (hj : RepoNotebook.Knows lib.serde j) (hkeep : lib.e.Keeps RepoPy.metadata)
    (henc : ∃ mb, lib.e.metaEnc RepoPy.metadata = .ok mb ∧ mb.length + tag + lib.e.nonceLen + lib.e.overhead < 2 ^ 31 ∧
      ∀ k n, ∃ em, lib.e.encrypt k mb n none = .ok em) (d : RepoPy.Draws K T Nonce) :
    ((∀ i < 100, d.setup i ≠ 0) → ∃ k1 k2 k3, RepoNotebook.run lib j d =
        .ok ([some (utf8 "✅ Marketing message medium secret"), some (utf8 "✅ Marketing message medium secret"), none,
          none, some (utf8 "✅ Marketing message top_secret"), none,
          none, none, some (utf8 "✅ human resources message medium secret"),
          none, some (utf8 "✅ New marketing message medium secret"), some (utf8 "✅ Marketing message medium secret")], [k1, k2, k3], [true, true]) ∧
      ∃ mk key1 key2 key3, engineGenerateMasterKey (bls c) policy d.setup d.y = .ok mk ∧
        (Issued c mk policy delegateAp key1 ∧ (userKeyCodec lib.t lib.cs lib.bm).dec k1 = .ok key1) ∧
        (Issued c mk policy (grant "Marketing" "High Secret") key2 ∧ (userKeyCodec lib.t lib.cs lib.bm).dec k2 = .ok key2) ∧
        (Issued c mk policy (grant "Marketing" "High Secret") key3 ∧ (userKeyCodec lib.t lib.cs lib.bm).dec k3 = .ok key3)) ∧
    ((∃ i < 100, d.setup i = 0) → RepoNotebook.run lib j d = .panic) := by
  have hlevels : foldRes (fun p ax => pyArg (p.addAxis ax)) (Policy.new (100 : Nat).toUInt32) [RepoDemo.securityLevel, department] = .ok policy := by
    have h1 : (Policy.new (100 : Nat).toUInt32).addAxis RepoDemo.securityLevel = some RepoDemo.levels := RepoDemo.levels_eq
    simp only [foldRes]
    rw [h1, pyArg_some, Res.ok_bind, policy_eq, pyArg_some, Res.ok_bind]
  obtain ⟨polB, pol, e1, e2, hP⟩ := hj.policies policy (.inl (Policy.Reorders.refl _))
  obtain ⟨rot', hrot, hR'⟩ := rotate_reorders hP (reachable_wf policy_reachable) rotated_eq
  obtain ⟨rotB, rot, f1, f2, hR⟩ := hj.policies rot' (.inr hR')
  have hR2 : rotated.Reorders rot := hR'.trans hR
  have hgen : pyGeneratePolicy lib.serde j.axes 100 = .ok polB := by
    unfold pyGeneratePolicy
    rw [hj.axes, pyArg_some, Res.ok_bind, hlevels, Res.ok_bind, e1, pyArg_some]
  have hmkE : ∀ q : Policy, q.maxAttributeCreations = 100 →
      engineGenerateMasterKey (bls c) q d.setup d.y = engineGenerateMasterKey (bls c) policy d.setup d.y := by
    intro q hq
    unfold engineGenerateMasterKey
    rw [hq]
    rfl
  unfold RepoNotebook.run
  rw [hgen, RepoPy.must_ok, Res.ok_bind]
  have hmaster := unwrap_master c RepoDemo.policy d.setup d.y
  rw [hmkE RepoDemo.policy rfl] at hmaster
  rcases hmaster with ⟨mk, hz, hmk⟩ | ⟨hz, hpanic⟩
  · refine ⟨fun _ => ?_, fun ⟨i, hi, h0⟩ => absurd h0 (hz i hi)⟩
    have hmk' : engineGenerateMasterKey (bls c) pol d.setup d.y = .ok mk := by rw [hmkE _ (by rw [hP.max]; rfl)]; exact hmk
    have hmkR : engineGenerateMasterKey (bls c) rotated d.setup d.y = .ok mk := hmk
    obtain ⟨priv, pub, del, m1, m2, m3, m4⟩ := RepoPy.master c hbm ht hcs hmk' (by rw [hP.max]; decide) (by rw [hP.max]; decide) e2
    have hgrant : ∀ d l, grant d l ≠ .all := fun d l => by simp [grant]
    obtain ⟨al, alK, a1, a2, a3, a4⟩ := RepoPy.user c hbm ht hcs policy_reachable hP hmk (by decide) (by decide) m2 e2 hj.alice (hgrant _ _)
      (by decide +kernel) (d.key 0)
    obtain ⟨bo, boK, b1, b2, b3, b4⟩ := RepoPy.user c hbm ht hcs policy_reachable hP hmk (by decide) (by decide) m2 e2 hj.bob (hgrant _ _)
      (by decide +kernel) (d.key 1)
    obtain ⟨ca, caK, c1, c2, c3, c4⟩ := RepoPy.user c hbm ht hcs policy_reachable hP hmk (by decide) (by decide) m2 e2 hj.carol (hgrant _ _)
      (by decide +kernel) (d.key 2)
    obtain ⟨al', alK', a1', a2', a3', a4'⟩ := RepoPy.user c hbm ht hcs rotated_reachable hR2 hmkR (by decide) (by decide) m2 f2 hj.alice (hgrant _ _)
      (by decide +kernel) (d.key 3)
    obtain ⟨dep, hdep, hsup⟩ := hj.super
    obtain ⟨su, suK, s1, s2, s3, s4⟩ := RepoPy.user c hbm ht hcs policy_reachable hP hmk (by decide) (by decide) m2 e2 hsup (by simp)
      (super_valid dep hdep) (d.key 4)
    obtain ⟨de, deK, d1, d2, d3, d4⟩ := delegated c hbm ht hcs policy_reachable hP hmk (by decide) m4 s4 s2 s3 e2 hj.delegate (by simp [delegateAp])
      (by decide +kernel) (.and (.or (super_restricts hdep (.inl rfl) _) (super_restricts hdep (.inr rfl) _)) (.attr (by decide +kernel))) (d.key 5)
    obtain ⟨us, usK, u1, u2, u3, u4⟩ := delegated c hbm ht hcs policy_reachable hP hmk (by decide) m4 s4 s2 s3 e2 hj.user (hgrant _ _)
      (by decide +kernel) (.and (super_restricts hdep (.inr rfl) _) (.attr (by decide +kernel))) (d.key 6)
    obtain ⟨us', usK', u1', u2', u3', u4'⟩ := delegated c hbm ht hcs policy_reachable hP hmk (by decide) m4 d4 d2 d3 e2 hj.user (hgrant _ _)
      (by decide +kernel) (.and (.orRight (.refl _)) (.refl _)) (d.key 7)
    have hf0 := refused c hbm policy_reachable hP hmk (by decide) m4 d4 d3 e2 hj.bob (hgrant _ _) (by decide +kernel) (level "Top Secret") 5 (by decide +kernel)
      (by decide +kernel) (by decide +kernel) (d.key 8)
    have hf1 := refused c hbm policy_reachable hP hmk (by decide) m4 d4 d3 e2 hj.hr (hgrant _ _) (by decide +kernel) (level "Top Secret") 5 (by decide +kernel)
      (by decide +kernel) (by decide +kernel) (d.key 9)
    obtain ⟨c0, x0, l0⟩ := RepoPy.message c hbm hcs he policy_reachable hP hmk (by decide) (by decide) m3 e2 hj.mediumMkg (by decide +kernel) (by decide +kernel)
      hj.metadata (by decide) henc (plain := plain 0) (by decide +kernel) (by decide +kernel) (d.random 0) (d.enc 0) (d.nonce 0) (d.nonce' 0)
    obtain ⟨ct1, x1, l1⟩ := RepoPy.message c hbm hcs he policy_reachable hP hmk (by decide) (by decide) m3 e2 hj.topMkg (by decide +kernel) (by decide +kernel)
      hj.metadata (by decide) henc (plain := plain 1) (by decide +kernel) (by decide +kernel) (d.random 1) (d.enc 1) (d.nonce 1) (d.nonce' 1)
    obtain ⟨ct2, x2, l2⟩ := RepoPy.message c hbm hcs he policy_reachable hP hmk (by decide) (by decide) m3 e2 hj.mediumHr (by decide +kernel) (by decide +kernel)
      hj.metadata (by decide) henc (plain := plain 2) (by decide +kernel) (by decide +kernel) (d.random 2) (d.enc 2) (d.nonce 2) (d.nonce' 2)
    obtain ⟨ct3, x3, l3⟩ := RepoPy.message c hbm hcs he rotated_reachable hR2 hmkR (by decide) (by decide) m3 f2 hj.mediumMkg (by decide +kernel) (by decide +kernel)
      hj.metadata (by decide) henc (plain := plain 3) (by decide +kernel) (by decide +kernel) (d.random 3) (d.enc 3) (d.nonce 3) (d.nonce' 3)
    have hrotate : pyRotateAttributes lib.serde j.medium polB = .ok rotB := by
      unfold pyRotateAttributes
      rw [hj.medium, pyArg_some, Res.ok_bind, e2, pyArg_some, Res.ok_bind]
      simp only [foldRes]
      rw [hrot, pyArg_some, Res.ok_bind, Res.ok_bind, f1, pyArg_some]
    -- what is opened
    have hev : policy.Evolves [] pol := .reorder hP (.nil _)
    have hevR : policy.Evolves [.rotate (level "Medium Secret")] rot := .reorder hP (.cons hrot (.reorder hR (.nil _)))
    have hevN : rotated.Evolves [] rot := .reorder hR2 (.nil _)
    have hevE : pol.Evolves [.rotate (level "Medium Secret")] rotated := .cons hrot (.reorder hR'.symm (.nil _))
    have yes : ∀ {ap : AccessPolicy} {key : DecryptionKey K QP Q} {kb attB pl ct : Bytes} {atts : List Attribute} {random : T} {s : K} {n n' : Nonce}
        (_ : Issued c mk policy ap key) (_ : (userKeyCodec lib.t lib.cs lib.bm).dec kb = .ok key) (_ : lib.serde.attributesDec attB = some atts)
        (_ : pyEncrypt lib j.metadata polB attB pub pl random s n n' = .ok ct) (_ : ct.length < 2 ^ 32) (_ : ap.Sat policy (· ∈ atts)),
        abeDecrypt lib kb ct = .ok (some pl) := fun hi hd ha hx hl hs =>
      shown ((C100_later_message c hbm ht hcs he (by decide) hmk hi hev hd m3 e2 ha hj.metadata hkeep hx hl).1 (sat_unchanged.2 hs))
    have no : ∀ {ap : AccessPolicy} {key : DecryptionKey K QP Q} {kb attB pl ct : Bytes} {atts : List Attribute} {random : T} {s : K} {n n' : Nonce}
        (_ : Issued c mk policy ap key) (_ : (userKeyCodec lib.t lib.cs lib.bm).dec kb = .ok key) (_ : lib.serde.attributesDec attB = some atts)
        (_ : pyEncrypt lib j.metadata polB attB pub pl random s n n' = .ok ct) (_ : ct.length < 2 ^ 32) (_ : ¬ ap.Sat policy (· ∈ atts)) (_ : atts ≠ []),
        abeDecrypt lib kb ct = .ok none := fun hi hd ha hx hl hs h0 =>
      failed (((C100_later_message c hbm ht hcs he (by decide) hmk hi hev hd m3 e2 ha hj.metadata hkeep hx hl).2 (fun h => hs (sat_unchanged.1 h))).2 h0)
    have r0 := yes a3 a4 hj.mediumMkg x0 l0 (by decide +kernel)
    have r1 := yes b3 b4 hj.mediumMkg x0 l0 (by decide +kernel)
    have r2 := no c3 c4 hj.mediumMkg x0 l0 (by decide +kernel) (by decide)
    have r3 := no a3 a4 hj.topMkg x1 l1 (by decide +kernel) (by decide)
    have r4 := yes b3 b4 hj.topMkg x1 l1 (by decide +kernel)
    have r5 := no c3 c4 hj.topMkg x1 l1 (by decide +kernel) (by decide)
    have r6 := no a3 a4 hj.mediumHr x2 l2 (by decide +kernel) (by decide)
    have r7 := no b3 b4 hj.mediumHr x2 l2 (by decide +kernel) (by decide)
    have r8 := yes c3 c4 hj.mediumHr x2 l2 (by decide +kernel)
    have r9 := failed (((C100_later_message c hbm ht hcs he (by decide) hmk a3 hevR a4 m3 f2 hj.mediumMkg hj.metadata hkeep x3 l3).2
      (by rw [sat_after_rotation]; decide +kernel)).2 (by decide))
    have r10 := shown ((C100_later_message c hbm ht hcs he (by decide) hmk a3' hevN a4' m3 f2 hj.mediumMkg hj.metadata hkeep x3 l3).1
      (by rw [sat_unchanged]; decide +kernel))
    have r11 := shown ((C100_earlier_message c hbm ht hcs he (by decide) hmk a3' (policy_reachable.reorder hP) hevE a4' m3 e2 hj.mediumMkg hj.metadata hkeep x0 l0).1
      (by decide +kernel))
    refine ⟨de, us, us', ?_, mk, deK, usK, usK', hmk, ⟨d3, d4⟩, ⟨u3, u4⟩, ⟨u3', u4'⟩⟩
    rw [m1]
    simp only [RepoPy.must_ok, Res.ok_bind]
    rw [a1, b1, c1, x0]
    simp only [RepoPy.must_ok, Res.ok_bind]
    rw [r0, r1, r2, x1]
    simp only [RepoPy.must_ok, Res.ok_bind]
    rw [r3, r4, r5, x2]
    simp only [RepoPy.must_ok, Res.ok_bind]
    rw [r6, r7, r8, hrotate]
    simp only [RepoPy.must_ok, Res.ok_bind]
    rw [x3, a1']
    simp only [RepoPy.must_ok, Res.ok_bind]
    rw [r9, r10, r11, s1]
    simp only [RepoPy.must_ok, Res.ok_bind]
    rw [d1, u1]
    simp only [RepoPy.must_ok, Res.ok_bind]
    rw [u1', hf0, hf1]
    rfl
  · refine ⟨fun h => ?_, fun _ => ?_⟩
    · obtain ⟨i, hi, h0⟩ := hz
      exact absurd h0 (h i hi)
    · unfold pyGenerateMasterKeys
      rw [e2, pyArg_some, Res.ok_bind, hbm, hmkE _ (by rw [hP.max]; rfl), hpanic]
      rfl

end

/-! ### The texts, and a concrete case -/

namespace RepoNotebook

/-- The texts of the notebook, as `json.dumps` writes them. /repo/src/interfaces/pyo3/tests/notebooks/confidential-data-access.ipynb:105-128,237-238,327,387,434-435,451-452. -/
def texts : Texts where
  axes := utf8 "[{\"name\": \"Security Level\", \"attributes\": [\"Protected\", \"Low Secret\", \"Medium Secret\", \"High Secret\", \"Top Secret\"], \"hierarchical\": true}, {\"name\": \"Department\", \"attributes\": [\"R&D\", \"Human Resources\", \"Marketing\", \"Finance\"], \"hierarchical\": false}]"
  metadata := utf8 "{\"uid\": [0, 0, 0, 0, 0, 0, 0, 1]}"
  mediumMkg := utf8 "[\"Security Level::Medium Secret\", \"Department::Marketing\"]"
  topMkg := utf8 "[\"Security Level::Top Secret\", \"Department::Marketing\"]"
  mediumHr := utf8 "[\"Security Level::Medium Secret\", \"Department::Human Resources\"]"
  medium := utf8 "[\"Security Level::Medium Secret\"]"

theorem policy_spelled : policy.Spelled := by
  rw [spelled_keys (reachable_wf policy_reachable)]
  have : ∀ x ∈ policy.attributeToInt, Attribute.ofChars x.1.chars = some x.1 := by decide +kernel
  exact fun x hx => ofChars_chars_iff.1 (this x hx)

theorem rotated_spelled : rotated.Spelled := by
  rw [spelled_keys (reachable_wf rotated_reachable)]
  have : ∀ x ∈ rotated.attributeToInt, Attribute.ofChars x.1.chars = some x.1 := by decide +kernel
  exact fun x hx => ofChars_chars_iff.1 (this x hx)

end RepoNotebook

open RepoNotebook in
/-- **C103** for the notebook: with the JSON of this model, all that the notebook assumes of the texts holds as soon as the parser of expressions reads its expressions. -/
theorem C103_py_notebook {parse : String → Option AccessPolicy} {dep : AccessPolicy} (hdep : dep ∈ anyDepartment)
    (h1 : parse aliceStr = some (grant "Marketing" "Medium Secret")) (h2 : parse bobStr = some (grant "Marketing" "Top Secret"))
    (h3 : parse carolStr = some (grant "Human Resources" "Medium Secret")) (h4 : parse superStr = some (.and dep (.attr (level "Top Secret"))))
    (h5 : parse delegateStr = some delegateAp) (h6 : parse userStr = some (grant "Marketing" "High Secret"))
    (h7 : parse hrStr = some (grant "Human Resources" "Top Secret")) : RepoNotebook.Knows (jsonSerde parse) texts where
  axes := by
    rw [jsonSerde_axesDec]
    decide +kernel
  metadata := by
    rw [jsonSerde_metadataDec]
    decide +kernel
  mediumMkg := by
    rw [jsonSerde_attributesDec]
    decide +kernel
  topMkg := by
    rw [jsonSerde_attributesDec]
    decide +kernel
  mediumHr := by
    rw [jsonSerde_attributesDec]
    decide +kernel
  medium := by
    rw [jsonSerde_attributesDec]
    decide +kernel
  alice := h1
  bob := h2
  carol := h3
  super := ⟨dep, hdep, h4⟩
  delegate := h5
  user := h6
  hr := h7
  policies := by
    intro p hp
    have hr : p.Reachable ∧ p.Spelled := by
      rcases hp with hp | hp
      · exact ⟨.reorder policy_reachable hp, RepoPy.reorders_spelled policy_reachable hp policy_spelled⟩
      · exact ⟨.reorder rotated_reachable hp, RepoPy.reorders_spelled rotated_reachable hp rotated_spelled⟩
    obtain ⟨⟨b, b1, _⟩, _⟩ := C103_policies (parse := parse) hr.1
    obtain ⟨q, q1, q2⟩ := C103_keeps (parse := parse) p b hr.1 hr.2 b1
    exact ⟨b, q, b1, q1, q2⟩

namespace RepoNotebook

/-- A parser which reads the expressions of the notebook and no other, grouping to the right. -/
def parse (s : String) : Option AccessPolicy :=
  if s = aliceStr then some (grant "Marketing" "Medium Secret")
  else if s = bobStr then some (grant "Marketing" "Top Secret")
  else if s = carolStr then some (grant "Human Resources" "Medium Secret")
  else if s = superStr then some (.and (.or (.attr (dept "Finance")) (.or (.attr (dept "Marketing")) (.or (.attr (dept "R&D")) (.attr (dept "Human Resources")))))
    (.attr (level "Top Secret")))
  else if s = delegateStr then some delegateAp
  else if s = userStr then some (grant "Marketing" "High Secret")
  else if s = hrStr then some (grant "Human Resources" "Top Secret") else none

theorem parse_knows : Knows (jsonSerde parse) texts :=
  C103_py_notebook (dep := .or (.attr (dept "Finance")) (.or (.attr (dept "Marketing")) (.or (.attr (dept "R&D")) (.attr (dept "Human Resources"))))) (by decide +kernel)
    (by decide +kernel) (by decide +kernel) (by decide +kernel) (by decide +kernel) (by decide +kernel) (by decide +kernel) (by decide +kernel)

/-- The notebook with the JSON of this model, with two outcomes of the random generator. -/
example : (∃ keys out, run { Demo.lib with t := .release32, serde := jsonSerde parse } texts
      ⟨fun _ => 1, 3, fun _ _ => 2, fun _ => 5, fun _ => 7, fun _ => Demo.nonce, fun _ => Demo.nonce⟩ = .ok (out, keys, [true, true]) ∧ out.length = 12) ∧
    run { Demo.lib with t := .release32, serde := jsonSerde parse } texts
      ⟨fun i => if i = 50 then 0 else 1, 3, fun _ _ => 2, fun _ => 5, fun _ => 7, fun _ => Demo.nonce, fun _ => Demo.nonce⟩ = .panic := by
  obtain ⟨mb, h1, h2, h3, h4⟩ := RepoPy.demo_meta
  constructor
  · obtain ⟨k1, k2, k3, h, _⟩ := (C74_py_notebook (lib := { Demo.lib with t := .release32, serde := jsonSerde parse }) (tag := 16) Demo.curveF rfl (by decide)
      Demo.codecs_lawful Demo.symmetric_lawful parse_knows ⟨mb, h1, h3⟩ ⟨mb, h1, h2, h4⟩
      ⟨fun _ => 1, 3, fun _ _ => 2, fun _ => 5, fun _ => 7, fun _ => Demo.nonce, fun _ => Demo.nonce⟩).1 (fun _ _ => one_ne_zero)
    exact ⟨_, _, h, rfl⟩
  · exact (C74_py_notebook (lib := { Demo.lib with t := .release32, serde := jsonSerde parse }) (tag := 16) Demo.curveF rfl (by decide)
      Demo.codecs_lawful Demo.symmetric_lawful parse_knows ⟨mb, h1, h3⟩ ⟨mb, h1, h2, h4⟩ _).2 ⟨50, by decide, rfl⟩

end RepoNotebook

end Abe
