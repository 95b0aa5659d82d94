import Verif.Proofs.CipherForge
import Verif.Props.GcmGame

/-!
# Hybrid messages with AES-256-GCM

Property C105.
-/

set_option linter.unusedSectionVars false

namespace Abe

variable {K P Q QP T Key Nonce : Type} [Field K] [DecidableEq K] [AddCommGroup P] [Module K P] [AddCommGroup Q] [Module K Q]
  [AddCommGroup T] [Module K T]

open Gcm

section

variable {shake : Bytes → Nat → Bytes} {metaEnc : Metadata → Out Bytes} {metaDec : Bytes → Out Metadata} {num : Nat → Bytes} {max : Nat}

theorem encryptHybridBlock_aes (k : AesKey) (uid : Bytes) (i : Nat) (p : Bytes) (n : AesNonce) :
    encryptHybridBlock (aesGcm shake metaEnc metaDec num) max k uid i p n = encryptHybridBlock (gcmWith metaEnc metaDec num) max (Aes.aes256 k.val) uid i p n := rfl

theorem encryptBlocks_aes (k : AesKey) (ν : Nat → AesNonce) : ∀ (bs : List (Bytes × Nat × Bytes)) (i : Nat),
    encryptBlocks (aesGcm shake metaEnc metaDec num) max k ν bs i = encryptBlocks (gcmWith metaEnc metaDec num) max (Aes.aes256 k.val) ν bs i := by
  intro bs
  induction bs with
  | nil => intro i; rfl
  | cons b bs ih =>
    intro i
    simp only [encryptBlocks, encryptHybridBlock_aes, ih]

theorem encryptSymmetric_aes (k : AesKey) (m : HybridMsg) (ν : Nat → AesNonce) :
    encryptSymmetric (aesGcm shake metaEnc metaDec num) max k.val m ν = encryptUnder (gcmWith metaEnc metaDec num) max (Aes.aes256 k.val) m ν := by
  unfold encryptSymmetric encryptUnder
  rw [aesGcm_keyDec k.2, Res.ok_bind]
  simp only [encryptBlocks_aes]
  rfl

end

theorem symmetricGame_test [Fintype K] [Fintype Nonce] [Nonempty Nonce] {Key' : Type} (e : External Key Nonce) (e' : External Key' Nonce) (c : Curve K P Q QP T)
    (cs : Codecs K P Q T) (max : Nat) (F : K → Key')
    (h : ∀ x m ν, ((derivedKey e cs (x • c.genT)).bind fun kb => (encryptSymmetric e max kb m ν).toOption) = (encryptUnder e' max (F x) m ν).toOption)
    (D : SymmetricAttacker) : symmetricGame e c cs max D = (PMF.uniformOfFintype K).bind fun x => messageTest e' max D (F x) := by
  unfold symmetricGame messageTest
  simp only [h]
  conv_rhs => rw [PMF.bind_comm]
  congr 1; funext b
  rw [PMF.bind_comm]

/-- What is sent in the game with the symmetric scheme alone is what the rule allows. -/
theorem HybridAttacker.stage_alike [Fintype K] {metaEnc : Metadata → Out Bytes} {n : Nat} (keys : Policy → AccessPolicy → PMF (Option (DecryptionKey K QP Q)))
    (cap : Option Bytes) : ∀ A : HybridAttacker K Q QP, A.Alike metaEnc n → ∀ d ∈ (A.stage keys cap).support, d.1.Alike metaEnc d.2.1 ∧ d.1.blocks.length ≤ n := by
  intro A
  induction A with
  | guess g =>
    intro _ d hd
    rw [HybridAttacker.stage, PMF.mem_support_pure_iff] at hd
    subst hd
    exact ⟨⟨rfl, rfl⟩, Nat.zero_le _⟩
  | toss next ih =>
    intro h d hd
    rw [HybridAttacker.stage, PMF.mem_support_bind_iff] at hd
    obtain ⟨x, _, hx⟩ := hd
    exact ih x (h x) d hx
  | choose m next ih =>
    intro h d hd
    rw [HybridAttacker.stage, PMF.mem_support_bind_iff] at hd
    obtain ⟨x, _, hx⟩ := hd
    exact ih x (h x) d hx
  | key p ap next ih =>
    intro h d hd
    rw [HybridAttacker.stage, PMF.mem_support_bind_iff] at hd
    obtain ⟨x, _, hx⟩ := hd
    exact ih x (h x) d hx
  | challenge m0 m1 next ih =>
    intro h d hd
    rw [HybridAttacker.stage, PMF.mem_support_pure_iff] at hd
    subst hd
    exact ⟨h.1, h.2.1⟩

theorem demAttacker_alike [Fintype K] (c : Curve K P Q QP T) (cs : Codecs K P Q T) (t : Target) (size : Nat) (p : Policy) (attrs : List Attribute)
    {metaEnc : Metadata → Out Bytes} {n : Nat} {A : MasterPublicKey P T → DelegationKey Q → HybridAttacker K Q QP} (hA : ∀ pk dk, (A pk dk).Alike metaEnc n) :
    ∀ d ∈ (demAttacker c cs t size p attrs A).support, d.1.Alike metaEnc d.2.1 ∧ d.1.blocks.length ≤ n := by
  intro d hd
  unfold demAttacker at hd
  simp only [PMF.mem_support_bind_iff] at hd
  obtain ⟨s, _, y, _, rnd, _, x0, _, hd⟩ := hd
  cases h : generateMasterKey (bls c) size (pad rnd) y with
  | ok mk =>
    rw [h] at hd
    exact HybridAttacker.stage_alike _ _ _ (hA _ _) d hd
  | err e =>
    rw [h, PMF.mem_support_pure_iff] at hd
    subst hd
    exact ⟨⟨rfl, rfl⟩, Nat.zero_le _⟩
  | panic =>
    rw [h, PMF.mem_support_pure_iff] at hd
    subst hd
    exact ⟨⟨rfl, rfl⟩, Nat.zero_le _⟩

/-- The derived key is what the tests are made with. -/
theorem derivedKey_aes {shake : Bytes → Nat → Bytes} {metaEnc : Metadata → Out Bytes} {metaDec : Bytes → Out Metadata} {num : Nat → Bytes} (c : Curve K P Q QP T)
    {cs : Codecs K P Q T} {keyOf : K → AesKey} (hkey : ∀ x, derivedKey (aesGcm shake metaEnc metaDec num) cs (x • c.genT) = some (keyOf x).val) (max : Nat) (x : K)
    (m : HybridMsg) (ν : Nat → AesNonce) :
    ((derivedKey (aesGcm shake metaEnc metaDec num) cs (x • c.genT)).bind fun kb => (encryptSymmetric (aesGcm shake metaEnc metaDec num) max kb m ν).toOption) =
      (encryptUnder (gcmWith metaEnc metaDec num) max (Aes.aes256 (keyOf x).val) m ν).toOption := by
  rw [hkey, Option.bind_some, encryptSymmetric_aes]

/-- **C105.** Hybrid messages with AES-256-GCM: the advantage of an attacker who is sent one of two messages of at most `n` blocks that differ in nothing but clear texts
of the same sizes, and has keys that do not open it, is at most `n (n + 1) / 2 ^ 98` for nonces which repeat, the advantage of an explicit test in telling AES-256 under
the derived key from a random function on blocks, and twice the advantage of an explicit reduction to the bilinear Diffie-Hellman problem. -/
theorem C105_confidentiality [Fintype K] {shake : Bytes → Nat → Bytes} {metaEnc : Metadata → Out Bytes} {metaDec : Bytes → Out Metadata} {num : Nat → Bytes}
    (c : Curve K P Q QP T) (hT : ∀ m : T, ∃ x : K, m = x • c.genT) {cs : Codecs K P Q T} {keyOf : K → AesKey}
    (hkey : ∀ x, derivedKey (aesGcm shake metaEnc metaDec num) cs (x • c.genT) = some (keyOf x).val) (t : Target) {max : Nat} (hmax : max ≤ maxClear) (size : Nat)
    {p : Policy} {attrs : List Attribute} {gamma : List UInt32} (hg : List.Forall₂ p.Top attrs gamma)
    (A : MasterPublicKey P T → DelegationKey Q → HybridAttacker K Q QP) (hA : ∀ pk dk, (A pk dk).Fair gamma) {n : Nat} (hn : ∀ pk dk, (A pk dk).Alike metaEnc n) :
    |prob (hybridGame (aesGcm shake metaEnc metaDec num) c cs t max size p attrs A) - 1 / 2| ≤ (n + 1) * n / 2 ^ 98 +
      |prob ((PMF.uniformOfFintype K).bind fun x => messageTest (gcmWith metaEnc metaDec num) max (demAttacker c cs t size p attrs A) (Aes.aes256 (keyOf x).val)) -
        prob (randomFunction.bind fun E => messageTest (gcmWith metaEnc metaDec num) max (demAttacker c cs t size p attrs A) (onBytes E))| +
      2 * |prob ((bdhReal c).bind (distinguisher c size gamma (kemAttacker (aesGcm shake metaEnc metaDec num) c cs t max A))) -
        prob ((bdhRandom c).bind (distinguisher c size gamma (kemAttacker (aesGcm shake metaEnc metaDec num) c cs t max A)))| := by
  have h1 := C82_hybrid_confidentiality (aesGcm shake metaEnc metaDec num) c hT cs t max size hg A hA
  have h2 := messageTest_random (metaEnc := metaEnc) (metaDec := metaDec) (num := num) hmax _ (demAttacker_alike c cs t size p attrs hn)
  rw [symmetricGame_test _ (gcmWith metaEnc metaDec num) c cs max (fun x => Aes.aes256 (keyOf x).val) (derivedKey_aes c hkey max)] at h1
  generalize prob (randomFunction.bind _) = a at *
  generalize prob ((PMF.uniformOfFintype K).bind _) = b at *
  have h3 : |b - 1 / 2| ≤ |b - a| + |a - 1 / 2| := abs_sub_le _ _ _
  linarith

theorem HybridAttacker.only_alike [Fintype Nonce] [Nonempty Nonce] (e : External Key Nonce) (c : Curve K P Q QP T) (cs : Codecs K P Q T) (t : Target)
    (max : Nat) (pub : MasterPublicKey P T) {q : Nat} (posts : Fin q → Policy × List Attribute) (j : Nat) {metaEnc : Metadata → Out Bytes} {n : Nat} :
    ∀ (A : HybridAttacker K Q QP) (k : Nat), A.Alike metaEnc n → (A.only e c cs t max pub posts j k).Alike metaEnc n := by
  intro A
  induction A with
  | guess g => intro _ _; trivial
  | toss next ih => intro k h x; exact ih x k (h x)
  | choose m next ih => intro k h x; exact ih x k (h x)
  | key p ap next ih => intro k h x; exact ih x k (h x)
  | challenge m0 m1 next ih =>
    intro k h
    unfold HybridAttacker.only
    split
    · exact ⟨h.1, h.2.1, fun x => ih x _ (h.2.2 x)⟩
    · split
      · exact fun s x i => ih _ _ (h.2.2 _)
      · exact ih _ _ (h.2.2 _)

/-- **C105.** The same over the life of a policy, with any number of messages, each for its own attributes under the policy of its moment, and any keys that open none
of them: the bounds for the messages add up. -/
theorem C105_system_confidentiality [Fintype K] {shake : Bytes → Nat → Bytes} {metaEnc : Metadata → Out Bytes} {metaDec : Bytes → Out Metadata} {num : Nat → Bytes}
    (c : Curve K P Q QP T) (hT : ∀ m : T, ∃ x : K, m = x • c.genT) {cs : Codecs K P Q T} {keyOf : K → AesKey}
    (hkey : ∀ x, derivedKey (aesGcm shake metaEnc metaDec num) cs (x • c.genT) = some (keyOf x).val) (t : Target) {max : Nat} (hmax : max ≤ maxClear) (p0 : Policy)
    {q : Nat} (posts : Fin q → Policy × List Attribute) (hp : ∀ j, (posts j).1.Reachable) (A : MasterPublicKey P T → DelegationKey Q → HybridAttacker K Q QP)
    (hA : ∀ pk dk, (A pk dk).Asks fun r ap => ∀ j, Shut (posts j).1 (posts j).2 r ap) {n : Nat} (hn : ∀ pk dk, (A pk dk).Alike metaEnc n) :
    let e := aesGcm shake metaEnc metaDec num
    let one := fun (j : Fin q) pk dk => (A pk dk).only e c cs t max pk posts j 0
    let test := fun j => messageTest (gcmWith metaEnc metaDec num) max (demAttacker c cs t p0.maxAttributeCreations.toNat (posts j).1 (posts j).2 (one j))
    let bdh := fun j => distinguisher c p0.maxAttributeCreations.toNat (challengeValues (posts j).1 (posts j).2) (kemAttacker e c cs t max (one j))
    |prob (systemGame e c cs t max p0 posts A) - 1 / 2| ≤ q * ((n + 1) * n / 2 ^ 98) +
      ∑ j, |prob ((PMF.uniformOfFintype K).bind fun x => test j (Aes.aes256 (keyOf x).val)) - prob (randomFunction.bind fun E => test j (onBytes E))| +
      2 * ∑ j, |prob ((bdhReal c).bind (bdh j)) - prob ((bdhRandom c).bind (bdh j))| := by
  intro e one test bdh
  have h1 : |prob (systemGame e c cs t max p0 posts A) - 1 / 2| ≤ ∑ j, ((n + 1) * n / 2 ^ 98 +
      |prob ((PMF.uniformOfFintype K).bind fun x => test j (Aes.aes256 (keyOf x).val)) - prob (randomFunction.bind fun E => test j (onBytes E))| +
      2 * |prob ((bdhReal c).bind (bdh j)) - prob ((bdhRandom c).bind (bdh j))|) := by
    rw [C91_messages_one_by_one]
    refine (Finset.abs_sum_le_sum_abs _ _).trans (Finset.sum_le_sum fun j _ => ?_)
    rcases attributesValues_cases (reachable_wf (hp j)) (posts j).2 with ⟨_, gamma, hg, _⟩ | ⟨_, hg⟩
    · have hv : challengeValues (posts j).1 (posts j).2 = gamma := by simp [challengeValues, hg, Res.toOption]
      simp only [bdh, hv]
      exact C105_confidentiality c hT hkey t hmax _ (attributesValues_iff.1 hg) (one j) (fun pk dk => HybridAttacker.asks_fair
        (fun r ap h => shut_unauthorised (hp j) hg (h j)) _ (HybridAttacker.only_asks e c cs t max pk posts j _ _ 0 (hA pk dk)))
        fun pk dk => HybridAttacker.only_alike e c cs t max pk posts j _ 0 (hn pk dk)
    · have hcoin : prob (PMF.uniformOfFintype Bool) = 1 / 2 := by simp [prob]
      rw [hybridGame_blind e c cs t max _ hg, hcoin, sub_self, abs_zero]
      positivity
  rw [Finset.sum_add_distrib, Finset.sum_add_distrib, Finset.sum_const, Finset.card_univ, Fintype.card_fin, nsmul_eq_mul, ← Finset.mul_sum] at h1
  exact h1

/-! ### Integrity -/

theorem Forger.draw_within {metaEnc : Metadata → Out Bytes} {metaDec : Bytes → Out Metadata} {L q v : Nat} {α : Type} [Fintype α] [Nonempty α]
    {next : α → Forger K Q QP} (h : ∀ a, (next a).Within metaEnc metaDec L q v) : (Forger.draw α next).Within metaEnc metaDec L q v := fun _ => h _

theorem Forger.raise_within [Fintype K] {metaEnc : Metadata → Out Bytes} {metaDec : Bytes → Out Metadata} {L : Nat} (c : Curve K P Q QP T) (priv : MasterPrivateKey K)
    (cap : Bytes) : ∀ (A : Forger K Q QP) (q v : Nat), A.Within metaEnc metaDec L q v → (A.raise c priv cap).Within metaEnc metaDec L q v := by
  intro A
  induction A with
  | stop => intro _ _ _; trivial
  | choose n next ih => intro q v h x; exact ih x q v (h x)
  | key p ap next ih => intro q v h; exact Forger.draw_within fun r => ih _ q v (h _)
  | header m next ih => intro q v h; exact ⟨h.1, h.2.1, fun r => ih _ _ _ (h.2.2 _)⟩
  | block uid n p next ih => intro q v h; exact ⟨h.1, h.2.1, h.2.2.1, h.2.2.2.1, fun r => ih _ _ _ (h.2.2.2.2 _)⟩
  | tryBlock uid n b next ih => intro q v h; exact ⟨h.1, h.2.1, h.2.2.1, h.2.2.2.1, fun r => ih _ _ _ (h.2.2.2.2 _)⟩
  | tryTail tail next ih => intro q v h; exact ⟨h.1, h.2.1, fun r => ih _ _ _ (h.2.2 _)⟩

theorem demForger_within [Fintype K] (c : Curve K P Q QP T) (cs : Codecs K P Q T) (t : Target) (size : Nat) (p : Policy) (attrs : List Attribute)
    {metaEnc : Metadata → Out Bytes} {metaDec : Bytes → Out Metadata} {L q v : Nat} {A : MasterPublicKey P T → DelegationKey Q → Forger K Q QP}
    (hA : ∀ pk dk, (A pk dk).Within metaEnc metaDec L q v) : (demForger c cs t size p attrs A).Within metaEnc metaDec L q v := by
  unfold demForger
  refine Forger.draw_within fun s => Forger.draw_within fun y => Forger.draw_within fun rnd => Forger.draw_within fun x0 => ?_
  split
  · split
    · exact Forger.raise_within c _ _ _ q v (hA _ _)
    · trivial
  · trivial

section

variable {shake : Bytes → Nat → Bytes} {metaEnc : Metadata → Out Bytes} {metaDec : Bytes → Out Metadata} {num : Nat → Bytes} {max : Nat}

theorem symmetricForgery_test [Fintype K] (c : Curve K P Q QP T) {cs : Codecs K P Q T} {keyOf : K → AesKey}
    (hkey : ∀ x, derivedKey (aesGcm shake metaEnc metaDec num) cs (x • c.genT) = some (keyOf x).val) (A : Forger K Q QP) :
    symmetricForgery (aesGcm shake metaEnc metaDec num) c cs max A =
      (PMF.uniformOfFintype K).bind fun x => forgeryTest (gcmWith metaEnc metaDec num) max A (Aes.aes256 (keyOf x).val) := by
  unfold symmetricForgery forgeryTest
  congr 1; funext x
  rw [exec_map (aesGcm shake metaEnc metaDec num) (gcmWith metaEnc metaDec num) (fun k : AesKey => Aes.aes256 k.val) (fun _ _ _ _ _ => rfl) (fun _ _ _ _ => rfl)
    fun _ _ => rfl]
  have hh : (fun (m : Option Metadata) (ν : AesNonce) => (((derivedKey (aesGcm shake metaEnc metaDec num) cs (x • c.genT)).bind fun kb =>
      ((aesGcm shake metaEnc metaDec num).keyDec kb).toOption.bind fun key =>
        (encryptSymmetric (aesGcm shake metaEnc metaDec num) max kb ⟨m, []⟩ fun _ => ν).toOption.map fun r => (key, r.1)).map fun r => (Aes.aes256 r.1.val, r.2))) =
      fun m ν => (encryptUnder (gcmWith metaEnc metaDec num) max (Aes.aes256 (keyOf x).val) ⟨m, []⟩ fun _ => ν).toOption.map fun r => (Aes.aes256 (keyOf x).val, r.1) := by
    funext m ν
    rw [hkey, Option.bind_some, aesGcm_keyDec (keyOf x).2, Res.toOption_ok, Option.bind_some, encryptSymmetric_aes, Option.map_map]
    rfl
  rw [hh]
  rfl

/-- **C105.** Hybrid messages with AES-256-GCM: the probability that an attacker with keys that do not open a message, which asks for at most `q` headers and blocks and
makes at most `v` attempts of at most `L` blocks of 128 bits each, makes readers accept a block which the sender did not make for that identifier and number, or other
metadata, is at most `v (L + 1) / 2 ^ 128` for guesses, `q (q - 1) / 2 ^ 97` for nonces which repeat, the advantage of an explicit test in telling AES-256 under the
derived key from a random function on blocks, and twice the advantage of an explicit reduction to the bilinear Diffie-Hellman problem. -/
theorem C105_integrity [Fintype K] (c : Curve K P Q QP T) (hT : ∀ m : T, ∃ x : K, m = x • c.genT) {cs : Codecs K P Q T} {keyOf : K → AesKey}
    (hkey : ∀ x, derivedKey (aesGcm shake metaEnc metaDec num) cs (x • c.genT) = some (keyOf x).val) (t : Target) (hmax : max ≤ maxClear)
    (hn : ∀ i, (num i).length = 8) (hinj : ∀ i < 2 ^ 64, ∀ j < 2 ^ 64, num i = num j → i = j) (size : Nat)
    {p : Policy} {attrs : List Attribute} {gamma : List UInt32} (hg : List.Forall₂ p.Top attrs gamma)
    (A : MasterPublicKey P T → DelegationKey Q → Forger K Q QP) (hA : ∀ pk dk, (A pk dk).Fair gamma) {L q v : Nat}
    (hw : ∀ pk dk, (A pk dk).Within metaEnc metaDec L q v) :
    prob (forgeryGame (aesGcm shake metaEnc metaDec num) c cs t max size p attrs A) ≤ (v * (L + 1) / 2 ^ 128 + q * (q - 1) / 2 ^ 97) +
      |prob ((PMF.uniformOfFintype K).bind fun x => forgeryTest (gcmWith metaEnc metaDec num) max (demForger c cs t size p attrs A) (Aes.aes256 (keyOf x).val)) -
        prob (randomFunction.bind fun E => forgeryTest (gcmWith metaEnc metaDec num) max (demForger c cs t size p attrs A) (onBytes E))| +
      2 * |prob ((bdhReal c).bind (distinguisher c size gamma (kemForger (aesGcm shake metaEnc metaDec num) c cs t max A))) -
        prob ((bdhRandom c).bind (distinguisher c size gamma (kemForger (aesGcm shake metaEnc metaDec num) c cs t max A)))| := by
  have h1 := C98_integrity (aesGcm shake metaEnc metaDec num) c hT cs t max size hg A hA
  have h2 := forgeryTest_random hmax hn hinj (demForger_within c cs t size p attrs hw)
  rw [symmetricForgery_test c hkey] at h1
  generalize prob (randomFunction.bind _) = a at *
  generalize prob ((PMF.uniformOfFintype K).bind _) = b at *
  have h3 : b - a ≤ |b - a| := le_abs_self _
  linarith

theorem SystemForger.only_within [Fintype K] {Key Nonce : Type} [Fintype Nonce] [Nonempty Nonce] {n : Nat} (e : External Key Nonce) (max : Nat)
    (hdr : Fin n → K → K → Option Metadata → Nonce → Option (Key × Bytes)) (i : Fin n) {L : Nat} :
    ∀ (A : SystemForger K Q QP n) (σ : Fin n → Session Key) (q v : Fin n → Nat), A.Within metaEnc metaDec L q v →
      (A.only e max hdr i σ).Within metaEnc metaDec L (q i) (v i) := by
  intro A
  induction A with
  | stop => intro _ _ _ _; trivial
  | choose n next ih => intro σ q v h x; exact ih x σ q v (h x)
  | key p ap next ih => intro σ q v h x; exact ih x σ q v (h x)
  | header j m next ih =>
    intro σ q v h
    simp only [SystemForger.only]
    split
    · next hj =>
      subst hj
      refine ⟨h.1, h.2.1, fun r => ?_⟩
      have := ih r σ _ _ (h.2.2 r)
      rwa [Function.update_self] at this
    · next hj =>
      have hu : Function.update q j (q j - 1) i = q i := Function.update_of_ne (Ne.symm hj) _ _
      have hr : ∀ r σ, ((next r).only e max hdr i σ).Within metaEnc metaDec L (q i) (v i) := fun r σ => by
        have := ih r σ _ _ (h.2.2 r)
        rwa [hu] at this
      split
      · exact hr _ _
      · exact Forger.draw_within fun s => Forger.draw_within fun x => Forger.draw_within fun ν => hr _ _
  | block j uid n p next ih =>
    intro σ q v h
    simp only [SystemForger.only]
    split
    · next hj =>
      subst hj
      refine ⟨h.1, h.2.1, h.2.2.1, h.2.2.2.1, fun r => ?_⟩
      have := ih r σ _ _ (h.2.2.2.2 r)
      rwa [Function.update_self] at this
    · next hj =>
      have hu : Function.update q j (q j - 1) i = q i := Function.update_of_ne (Ne.symm hj) _ _
      have hr : ∀ r σ, ((next r).only e max hdr i σ).Within metaEnc metaDec L (q i) (v i) := fun r σ => by
        have := ih r σ _ _ (h.2.2.2.2 r)
        rwa [hu] at this
      refine Forger.draw_within fun ν => ?_
      split <;> exact hr _ _
  | tryBlock j uid n b next ih =>
    intro σ q v h
    simp only [SystemForger.only]
    split
    · next hj =>
      subst hj
      refine ⟨h.1, h.2.1, h.2.2.1, h.2.2.2.1, fun r => ?_⟩
      have := ih r σ _ _ (h.2.2.2.2 r)
      rwa [Function.update_self] at this
    · next hj =>
      have hu : Function.update v j (v j - 1) i = v i := Function.update_of_ne (Ne.symm hj) _ _
      have hr : ∀ r σ, ((next r).only e max hdr i σ).Within metaEnc metaDec L (q i) (v i) := fun r σ => by
        have := ih r σ _ _ (h.2.2.2.2 r)
        rwa [hu] at this
      split
      · exact hr _ _
      · split
        · exact hr _ _
        · trivial
  | tryTail j tail next ih =>
    intro σ q v h
    simp only [SystemForger.only]
    split
    · next hj =>
      subst hj
      refine ⟨h.1, h.2.1, fun r => ?_⟩
      have := ih r σ _ _ (h.2.2 r)
      rwa [Function.update_self] at this
    · next hj =>
      have hu : Function.update v j (v j - 1) i = v i := Function.update_of_ne (Ne.symm hj) _ _
      have hr : ∀ r σ, ((next r).only e max hdr i σ).Within metaEnc metaDec L (q i) (v i) := fun r σ => by
        have := ih r σ _ _ (h.2.2 r)
        rwa [hu] at this
      split
      · exact hr _ _
      · split
        · exact hr _ _
        · trivial

/-- **C105.** The same over the life of a policy, with any number of messages, each for its own attributes under the policy of its moment, and any keys that open none
of them: the bounds for the messages add up. -/
theorem C105_system_integrity [Fintype K] (c : Curve K P Q QP T) (hT : ∀ m : T, ∃ x : K, m = x • c.genT) {cs : Codecs K P Q T} {keyOf : K → AesKey}
    (hkey : ∀ x, derivedKey (aesGcm shake metaEnc metaDec num) cs (x • c.genT) = some (keyOf x).val) (t : Target) (hmax : max ≤ maxClear)
    (hn : ∀ i, (num i).length = 8) (hinj : ∀ i < 2 ^ 64, ∀ j < 2 ^ 64, num i = num j → i = j) (p0 : Policy) {k : Nat} (posts : Fin k → Policy × List Attribute)
    (hp : ∀ j, (posts j).1.Reachable) (A : MasterPublicKey P T → DelegationKey Q → SystemForger K Q QP k)
    (hA : ∀ pk dk, (A pk dk).Asks fun r ap => ∀ j, Shut (posts j).1 (posts j).2 r ap) {L : Nat} {q v : Fin k → Nat}
    (hw : ∀ pk dk, (A pk dk).Within metaEnc metaDec L q v) :
    let e := aesGcm shake metaEnc metaDec num
    let one := fun (j : Fin k) pk dk => (A pk dk).only e max (headerOf e c cs t pk posts) j fun _ => {}
    let test := fun j => forgeryTest (gcmWith metaEnc metaDec num) max (demForger c cs t p0.maxAttributeCreations.toNat (posts j).1 (posts j).2 (one j))
    let bdh := fun j => distinguisher c p0.maxAttributeCreations.toNat (challengeValues (posts j).1 (posts j).2) (kemForger e c cs t max (one j))
    prob (systemForgeryGame e c cs t max p0 posts A) ≤ ∑ j, ((v j : ℝ) * (L + 1) / 2 ^ 128 + q j * (q j - 1) / 2 ^ 97) +
      ∑ j, |prob ((PMF.uniformOfFintype K).bind fun x => test j (Aes.aes256 (keyOf x).val)) - prob (randomFunction.bind fun E => test j (onBytes E))| +
      2 * ∑ j, |prob ((bdhReal c).bind (bdh j)) - prob ((bdhRandom c).bind (bdh j))| := by
  intro e one test bdh
  have h1 : prob (systemForgeryGame e c cs t max p0 posts A) ≤ ∑ j, ((v j * (L + 1) / 2 ^ 128 + q j * (q j - 1) / 2 ^ 97) +
      |prob ((PMF.uniformOfFintype K).bind fun x => test j (Aes.aes256 (keyOf x).val)) - prob (randomFunction.bind fun E => test j (onBytes E))| +
      2 * |prob ((bdhReal c).bind (bdh j)) - prob ((bdhRandom c).bind (bdh j))|) := by
    rw [C98_messages_one_by_one]
    refine Finset.sum_le_sum fun j _ => ?_
    rcases attributesValues_cases (reachable_wf (hp j)) (posts j).2 with ⟨_, gamma, hg, _⟩ | ⟨_, hg⟩
    · have hv : challengeValues (posts j).1 (posts j).2 = gamma := by simp [challengeValues, hg, Res.toOption]
      simp only [bdh, hv]
      exact C105_integrity c hT hkey t hmax hn hinj _ (attributesValues_iff.1 hg) (one j) (fun pk dk =>
        SystemForger.only_fair e max _ j (fun r ap h => shut_unauthorised (hp j) hg (h j)) _ _ (hA pk dk))
        fun pk dk => SystemForger.only_within e max _ j _ _ q v (hw pk dk)
    · rw [forgeryGame_blind e c cs t max _ hg, prob_false]
      have h0 : (0 : ℝ) ≤ q j * (q j - 1) := by
        rcases Nat.eq_zero_or_pos (q j) with h | h
        · rw [h]; simp
        · have : (1 : ℝ) ≤ q j := by exact_mod_cast h
          nlinarith
      have := div_nonneg h0 (by positivity : (0 : ℝ) ≤ 2 ^ 97)
      positivity
  rw [Finset.sum_add_distrib, Finset.sum_add_distrib, ← Finset.mul_sum] at h1
  exact h1

end

section

variable {shake : Bytes → Nat → Bytes} {metaEnc : Metadata → Out Bytes} {metaDec : Bytes → Out Metadata} {num : Nat → Bytes}

/-- Keys are derived from all elements of the target group, as the theorems of this file ask. -/
theorem derivedKeys (c : Curve K P Q QP T) {cs : Codecs K P Q T} (hcs : cs.Lawful) (hs : ∀ b n, (shake b n).length = n) :
    ∃ keyOf : K → AesKey, ∀ x, derivedKey (aesGcm shake metaEnc metaDec num) cs (x • c.genT) = some (keyOf x).val := by
  have h : ∀ x : K, ∃ k : AesKey, derivedKey (aesGcm shake metaEnc metaDec num) cs (x • c.genT) = some k.val := fun x => by
    obtain ⟨b, hb, -⟩ := hcs.gt.enc (x • c.genT)
    refine ⟨⟨shake b 32, hs _ _⟩, ?_⟩
    rw [derivedKey, hb]
    rfl
  exact ⟨fun x => (h x).choose, fun x => (h x).choose_spec⟩

end

/-! ## Examples -/

namespace Demo

/-- Block numbers of the examples. -/
abbrev num8 (i : Nat) : Bytes := (Gcm.bytes16 i).drop 8

theorem aes_keys : ∃ keyOf : F → AesKey, ∀ x, derivedKey aes codecs (x • curveF.genT) = some (keyOf x).val :=
  derivedKeys curveF codecs_lawful symmetric_lawful.shake_length

/-- An attacker on messages for `Low` and `HR` with a key for `MKG`, who sends different metadata and blocks of the same sizes and looks at everything. -/
def quietSpy (look : MasterPublicKey F F → DelegationKey F → Option (DecryptionKey F F F) → Option (Bytes × List Bytes) → Fin 3 → Bool)
    (pk : MasterPublicKey F F) (dk : DelegationKey F) : HybridAttacker F F F :=
  .key policy (.attr mkg) fun k =>
    .challenge ⟨some ⟨[1, 2, 3, 4], some [9, 8]⟩, [([1], 0, [4, 5]), ([1], 1, [6])]⟩ ⟨some ⟨[5, 6, 7], some [8, 9, 1]⟩, [([1], 0, [7, 8]), ([1], 1, [9])]⟩
    fun r => .choose 2 fun i => .guess (look pk dk k r i)

/-- **C105** for this attacker. -/
example (look) : ∃ keyOf : F → AesKey, |prob (hybridGame aes curveF codecs .release64 maxClearTextSize 8 policy [low, hr] (quietSpy look)) - 1 / 2| ≤
    ((2 : Nat) + 1) * (2 : Nat) / 2 ^ 98 +
      |prob ((PMF.uniformOfFintype F).bind fun x => messageTest (gcmWith symmetric.metaEnc symmetric.metaDec num8) maxClearTextSize
          (demAttacker curveF codecs .release64 8 policy [low, hr] (quietSpy look)) (Aes.aes256 (keyOf x).val)) -
        prob (randomFunction.bind fun E => messageTest (gcmWith symmetric.metaEnc symmetric.metaDec num8) maxClearTextSize
          (demAttacker curveF codecs .release64 8 policy [low, hr] (quietSpy look)) (onBytes E))| +
      2 * |prob ((bdhReal curveF).bind (distinguisher curveF 8 [1, 4] (kemAttacker aes curveF codecs .release64 maxClearTextSize (quietSpy look)))) -
        prob ((bdhRandom curveF).bind (distinguisher curveF 8 [1, 4] (kemAttacker aes curveF codecs .release64 maxClearTextSize (quietSpy look))))| := by
  obtain ⟨keyOf, hkey⟩ := aes_keys
  exact ⟨keyOf, C105_confidentiality curveF (fun m => ⟨m, by simp [curveF]⟩) hkey .release64 (by decide) 8 (attributesValues_iff.1 (by decide +kernel)) (quietSpy look)
    (fun _ _ => ⟨policy_reachable, mkg_unauthorised, fun _ _ _ => trivial⟩) (n := 2)
    fun _ _ _ => ⟨⟨by decide +kernel, by decide +kernel⟩, by decide, fun _ _ => trivial⟩⟩

/-- A former employee with a key for `HR` made before its rotation, who sees both messages of `posts`; what they ask to be sent in the second one depends on the first. -/
def quietHr (pick : Option (Bytes × List Bytes) → UInt8 × UInt8)
    (look : MasterPublicKey F F → DelegationKey F → Option (DecryptionKey F F F) → Option (Bytes × List Bytes) → Option (Bytes × List Bytes) → Fin 3 → Bool)
    (pk : MasterPublicKey F F) (dk : DelegationKey F) : HybridAttacker F F F :=
  .key policy (.attr hr) fun k => .challenge ⟨none, [([1], 0, [4, 5]), ([1], 1, [6])]⟩ ⟨none, [([1], 0, [7, 8]), ([1], 1, [9])]⟩ fun r =>
    .challenge ⟨none, [([2], 0, [(pick r).1])]⟩ ⟨none, [([2], 0, [(pick r).2])]⟩ fun r' => .choose 2 fun i => .guess (look pk dk k r r' i)

/-- **C105** for them. -/
example (pick look) : ∃ keyOf : F → AesKey,
    let one := fun (j : Fin 2) pk dk => (quietHr pick look pk dk).only aes curveF codecs .release64 maxClearTextSize pk posts j 0
    let test := fun j => messageTest (gcmWith symmetric.metaEnc symmetric.metaDec num8) maxClearTextSize
      (demAttacker curveF codecs .release64 policy.maxAttributeCreations.toNat (posts j).1 (posts j).2 (one j))
    let bdh := fun j => distinguisher curveF policy.maxAttributeCreations.toNat (challengeValues (posts j).1 (posts j).2)
      (kemAttacker aes curveF codecs .release64 maxClearTextSize (one j))
    |prob (systemGame aes curveF codecs .release64 maxClearTextSize policy posts (quietHr pick look)) - 1 / 2| ≤ (2 : Nat) * (((2 : Nat) + 1) * (2 : Nat) / 2 ^ 98) +
      ∑ j, |prob ((PMF.uniformOfFintype F).bind fun x => test j (Aes.aes256 (keyOf x).val)) - prob (randomFunction.bind fun E => test j (onBytes E))| +
      2 * ∑ j, |prob ((bdhReal curveF).bind (bdh j)) - prob ((bdhRandom curveF).bind (bdh j))| := by
  obtain ⟨keyOf, hkey⟩ := aes_keys
  refine ⟨keyOf, C105_system_confidentiality curveF (fun m => ⟨m, by simp [curveF]⟩) hkey .release64 (by decide) policy posts ?_ (quietHr pick look)
    (fun pk dk => ⟨(formerHr_asks (fun _ => (⟨none, []⟩, ⟨none, []⟩)) (fun _ _ _ _ _ _ => true) pk dk).1, fun _ _ _ _ => trivial⟩) (n := 2)
    fun _ _ _ => ⟨⟨rfl, rfl⟩, by decide, fun _ => ⟨⟨rfl, rfl⟩, by simp, fun _ _ => trivial⟩⟩⟩
  rw [Fin.forall_fin_two]
  exact ⟨policy_reachable, grown_reachable⟩

/-- An attacker on messages for `Low` and `HR` with a key for `MKG`, who obtains a header and a block and gives the block to readers as the block of another
resource, then as another block, then gives them other metadata. -/
def carefulMover (look : MasterPublicKey F F → DelegationKey F → Option (DecryptionKey F F F) → Option Bytes → Option Bytes → Bytes)
    (pk : MasterPublicKey F F) (dk : DelegationKey F) : Forger F F F :=
  .key policy (.attr mkg) fun k => .header (some ⟨[1, 2, 3, 4], some [9, 8]⟩) fun h => .block [1] 0 [4, 5] fun b =>
    .tryBlock [2] 0 ((b.getD []).take 30) fun _ => .tryBlock [1] 1 ((b.getD []).take 30) fun _ => .tryTail ((look pk dk k h b).take 48) fun _ => .stop

theorem carefulMover_within (look) (pk dk) : (carefulMover look pk dk).Within symmetric.metaEnc symmetric.metaDec 2 2 3 := by
  intro k
  refine ⟨by decide, ?_, fun h => ⟨by decide, by decide, by decide, by decide, fun b => ⟨by decide, by decide, by decide, ?_, fun _ => ⟨by decide, by decide,
    by decide, ?_, fun _ => ⟨by decide, ?_, fun _ => trivial⟩⟩⟩⟩⟩
  · rintro a b ⟨⟩ hb
    have : b = [0, 0, 0, 4, 1, 2, 3, 4, 9, 8] := by
      have h : symmetric.metaEnc ⟨[1, 2, 3, 4], some [9, 8]⟩ = .ok [0, 0, 0, 4, 1, 2, 3, 4, 9, 8] := by decide +kernel
      rw [h] at hb
      exact (Res.ok.inj hb).symm
    subst this
    refine ⟨by decide, fun a' ha => ?_⟩
    have h : symmetric.metaDec [0, 0, 0, 4, 1, 2, 3, 4, 9, 8] = .ok ⟨[1, 2, 3, 4], some [9, 8]⟩ := by decide +kernel
    rw [h] at ha
    exact (Res.ok.inj ha).symm
  · simp only [List.length_take, List.length_singleton]
    omega
  · simp only [List.length_take, List.length_singleton]
    omega
  · simp only [List.length_take]
    omega

/-- **C105** for this attacker. -/
example (look) : ∃ keyOf : F → AesKey, prob (forgeryGame aes curveF codecs .release64 maxClearTextSize 8 policy [low, hr] (carefulMover look)) ≤
    ((3 : Nat) * ((2 : Nat) + 1) / 2 ^ 128 + (2 : Nat) * ((2 : Nat) - 1) / 2 ^ 97) +
      |prob ((PMF.uniformOfFintype F).bind fun x => forgeryTest (gcmWith symmetric.metaEnc symmetric.metaDec num8) maxClearTextSize
          (demForger curveF codecs .release64 8 policy [low, hr] (carefulMover look)) (Aes.aes256 (keyOf x).val)) -
        prob (randomFunction.bind fun E => forgeryTest (gcmWith symmetric.metaEnc symmetric.metaDec num8) maxClearTextSize
          (demForger curveF codecs .release64 8 policy [low, hr] (carefulMover look)) (onBytes E))| +
      2 * |prob ((bdhReal curveF).bind (distinguisher curveF 8 [1, 4] (kemForger aes curveF codecs .release64 maxClearTextSize (carefulMover look)))) -
        prob ((bdhRandom curveF).bind (distinguisher curveF 8 [1, 4] (kemForger aes curveF codecs .release64 maxClearTextSize (carefulMover look))))| := by
  obtain ⟨keyOf, hkey⟩ := aes_keys
  exact ⟨keyOf, C105_integrity curveF (fun m => ⟨m, by simp [curveF]⟩) hkey .release64 (by decide) (fun i => by simp [Gcm.bytes16]) aes_num 8 (attributesValues_iff.1 (by decide +kernel))
    (carefulMover look) (fun _ _ => ⟨policy_reachable, mkg_unauthorised, fun _ _ _ _ _ _ => trivial⟩) (carefulMover_within look)⟩

/-- A former employee with a key for `HR` made before its rotation, who takes a block of the first message of `posts` for one of the second. -/
def carefulMixer (pick : Option Bytes → UInt8) (_pk : MasterPublicKey F F) (_dk : DelegationKey F) : SystemForger F F F 2 :=
  .key policy (.attr hr) fun _ => .header 0 none fun h => .block 0 [1] 0 [pick h] fun b => .header 1 none fun _ => .tryBlock 1 [1] 0 ((b.getD []).take 30) fun _ =>
    .stop

/-- **C105** for them. -/
example (pick) : ∃ keyOf : F → AesKey,
    let q : Fin 2 → Nat := ![2, 1]
    let v : Fin 2 → Nat := ![0, 1]
    let one := fun (j : Fin 2) pk dk => (carefulMixer pick pk dk).only aes maxClearTextSize (headerOf aes curveF codecs .release64 pk posts) j fun _ => {}
    let test := fun j => forgeryTest (gcmWith symmetric.metaEnc symmetric.metaDec num8) maxClearTextSize
      (demForger curveF codecs .release64 policy.maxAttributeCreations.toNat (posts j).1 (posts j).2 (one j))
    let bdh := fun j => distinguisher curveF policy.maxAttributeCreations.toNat (challengeValues (posts j).1 (posts j).2)
      (kemForger aes curveF codecs .release64 maxClearTextSize (one j))
    prob (systemForgeryGame aes curveF codecs .release64 maxClearTextSize policy posts (carefulMixer pick)) ≤
      ∑ j, ((v j : ℝ) * ((2 : Nat) + 1) / 2 ^ 128 + q j * (q j - 1) / 2 ^ 97) +
      ∑ j, |prob ((PMF.uniformOfFintype F).bind fun x => test j (Aes.aes256 (keyOf x).val)) - prob (randomFunction.bind fun E => test j (onBytes E))| +
      2 * ∑ j, |prob ((bdhReal curveF).bind (bdh j)) - prob ((bdhRandom curveF).bind (bdh j))| := by
  obtain ⟨keyOf, hkey⟩ := aes_keys
  refine ⟨keyOf, C105_system_integrity curveF (fun m => ⟨m, by simp [curveF]⟩) hkey .release64 (by decide) (fun i => by simp [Gcm.bytes16]) aes_num policy posts ?_
    (carefulMixer pick) (fun pk dk => ⟨(formerHr_asks (fun _ => (⟨none, []⟩, ⟨none, []⟩)) (fun _ _ _ _ _ _ => true) pk dk).1, fun _ _ _ _ _ => trivial⟩) ?_⟩
  · rw [Fin.forall_fin_two]
    exact ⟨policy_reachable, grown_reachable⟩
  · intro _ _ _
    refine ⟨by decide, fun _ _ h => (nomatch h), fun _ => ⟨by decide, by decide, by decide, ?_, fun b => ⟨by decide, fun _ _ h => (nomatch h), fun _ =>
      ⟨by decide, by decide, by decide, ?_, fun _ => trivial⟩⟩⟩⟩
    · simp
    · simp only [List.length_take, List.length_singleton]
      omega

end Demo

end Abe
