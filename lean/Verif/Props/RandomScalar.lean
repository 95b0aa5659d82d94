import Verif.Proofs.RandomScalar
import Verif.Proofs.ScalarField
import Verif.Props.CipherGame

/-!
# C111: random scalars

The proofs of security draw scalars uniformly.  The code does not quite: 64 random bytes are reduced by the order.  The difference is negligible, for one scalar
and for a whole game.
-/

namespace Abe

open Gcm

theorem wide_bound : (blsOrder : ℝ) / (256 ^ 64 : Nat) ≤ 1 / 2 ^ 257 := by
  have h : blsOrder * 2 ^ 257 ≤ 1 * 256 ^ 64 := by decide +kernel
  have hN : (0 : ℝ) < (256 ^ 64 : Nat) := by exact_mod_cast Nat.pow_pos (by norm_num)
  rw [div_le_div_iff₀ hN (by positivity)]
  exact_mod_cast h

/-- C111.  Every scalar may be drawn, and each one is with a probability that is that of a uniform draw up to `1 / 2 ^ 512`; but the draw is not uniform. -/
theorem C111_scalar : (∀ x : ZMod blsOrder, |(genRandScalar blsOrder 64 x).toReal - 1 / blsOrder| ≤ 1 / 2 ^ 512 ∧ x ∈ (genRandScalar blsOrder 64).support) ∧
    genRandScalar blsOrder 64 ≠ PMF.uniformOfFintype (ZMod blsOrder) := by
  refine ⟨fun x => ⟨?_, ?_⟩, genRandScalar_ne_uniform fun h => ?_⟩
  · have h := genRandScalar_near blsOrder 64 x
    have e : (256 : Nat) ^ 64 = 2 ^ 512 := by decide +kernel
    rw [e] at h
    exact_mod_cast h
  · rw [PMF.mem_support_iff]
    refine (PMF.mem_support_map_iff _ _ _).2 ?_
    have hx : x.val < 256 ^ 64 := x.val_lt.trans (by decide +kernel)
    refine ⟨(ByteArrayOf.equiv 64).symm ⟨x.val, hx⟩, PMF.mem_support_uniformOfFintype _, ?_⟩
    have h1 := congrArg Fin.val ((ByteArrayOf.equiv 64).apply_symm_apply ⟨x.val, hx⟩)
    have h2 : ofLe ((ByteArrayOf.equiv 64).symm ⟨x.val, hx⟩).1 = x.val := h1
    rw [fromBytesWide, h2, ZMod.natCast_zmod_val]
  · have h1 : blsOrder ∣ 256 := blsOrder_prime.dvd_of_dvd_pow h
    exact absurd (Nat.le_of_dvd (by norm_num) h1) (by decide +kernel)

/-- C111.  No test tells a vector of `n` scalars drawn by the code from one drawn uniformly with more than `n / 2 ^ 257`. -/
theorem C111_vector (n : Nat) :
    Near (n / 2 ^ 257) (genRandomScalarVector (genRandScalar blsOrder 64) n) (PMF.uniformOfFintype (Fin n → ZMod blsOrder)) := by
  intro test
  refine (near_vector (near_genRandScalar blsOrder 64) n test).trans ?_
  rw [div_eq_mul_one_div (n : ℝ)]
  exact mul_le_mul_of_nonneg_left wide_bound n.cast_nonneg

/-- The scalar zero, which makes the generation of a master key fail (C18), comes up with a probability of at most `1 / blsOrder + 1 / 2 ^ 512`. -/
example : (genRandScalar blsOrder 64 0).toReal ≤ 1 / blsOrder + 1 / 2 ^ 512 := by
  have := (abs_le.1 (C111_scalar.1 0).1).2
  rwa [sub_le_iff_le_add'] at this

/-- Whether the first two of three scalars are the same. -/
example : |prob ((genRandomScalarVector (genRandScalar blsOrder 64) 3).bind fun r => .pure (decide (r 0 = r 1))) -
    prob ((PMF.uniformOfFintype (Fin 3 → ZMod blsOrder)).bind fun r => .pure (decide (r 0 = r 1)))| ≤ (3 : Nat) / 2 ^ 257 := C111_vector 3 _

section

variable {P Q QP T : Type} [AddCommGroup P] [AddCommGroup Q] [AddCommGroup T] {q k : Nat} [Fact q.Prime] [Module (ZMod q) P] [Module (ZMod q) Q]
  [Module (ZMod q) T]

/-- C111.  For scalars reduced from `k` bytes by any prime `q`: the selective game with the scalars that the code draws is, up to `(size + 2 + n) q / 256 ^ k`, that
with uniform scalars, where `n` bounds the number of scalars drawn for the keys that the attacker asks for; so (C80) its advantage is at most that of the
reduction plus this. -/
theorem C111_selective_security (c : Curve (ZMod q) P Q QP T) (hT : ∀ m : T, ∃ x : ZMod q, m = x • c.genT) (t : Target) (size : Nat)
    (gamma : List UInt32) (A : MasterPublicKey P T → DelegationKey Q → Attacker (ZMod q) P Q QP T) (hA : ∀ pk dk, (A pk dk).Fair gamma) (n : Nat)
    (hn : ∀ pk dk, (A pk dk).Within n) :
    |prob (selectiveGameFrom (genRandScalar q k) c t size gamma A) - prob (selectiveGame c t size gamma A)| ≤
      (size + 2 + n : Nat) * ((q : ℝ) / (256 ^ k : Nat)) ∧
    |prob (selectiveGameFrom (genRandScalar q k) c t size gamma A) - 1 / 2| ≤ (size + 2 + n : Nat) * ((q : ℝ) / (256 ^ k : Nat)) +
      |prob ((bdhReal c).bind (distinguisher c size gamma A)) - prob ((bdhRandom c).bind (distinguisher c size gamma A))| := by
  have h1 := selective_near (near_genRandScalar q k) c t size gamma A n hn
  exact ⟨h1, (abs_sub_le _ (prob (selectiveGame c t size gamma A)) _).trans (add_le_add h1 (C80_selective_security c hT t size gamma A hA).2)⟩

/-- C111.  The same for the game of all messages over the life of a policy (C105), where the encapsulated elements may come from a source `E` of their own that is
uniform up to `ε`: scalars are drawn for the master key, for the user keys and one for each of the `l` messages. -/
theorem C111_system_confidentiality {shake : Bytes → Nat → Bytes} {metaEnc : Metadata → Out Bytes} {metaDec : Bytes → Out Metadata} {num : Nat → Bytes}
    (c : Curve (ZMod q) P Q QP T) (hT : ∀ m : T, ∃ x : ZMod q, m = x • c.genT) {cs : Codecs (ZMod q) P Q T} {keyOf : ZMod q → AesKey}
    (hkey : ∀ x, derivedKey (aesGcm shake metaEnc metaDec num) cs (x • c.genT) = some (keyOf x).val) (t : Target) {max : Nat} (hmax : max ≤ maxClear) (p0 : Policy)
    {l : Nat} (posts : Fin l → Policy × List Attribute) (hp : ∀ j, (posts j).1.Reachable)
    (A : MasterPublicKey P T → DelegationKey Q → HybridAttacker (ZMod q) Q QP)
    (hA : ∀ pk dk, (A pk dk).Asks fun r ap => ∀ j, Shut (posts j).1 (posts j).2 r ap) {n : Nat} (hn : ∀ pk dk, (A pk dk).Alike metaEnc n) {d : Nat}
    (hd : ∀ pk dk, (A pk dk).Within d) {E : PMF (ZMod q)} {ε : ℝ} (hE : Near ε E (PMF.uniformOfFintype (ZMod q))) :
    let e := aesGcm shake metaEnc metaDec num
    let one := fun (j : Fin l) pk dk => (A pk dk).only e c cs t max pk posts j 0
    let test := fun j => messageTest (gcmWith metaEnc metaDec num) max (demAttacker c cs t p0.maxAttributeCreations.toNat (posts j).1 (posts j).2 (one j))
    let bdh := fun j => distinguisher c p0.maxAttributeCreations.toNat (challengeValues (posts j).1 (posts j).2) (kemAttacker e c cs t max (one j))
    |prob (systemGameFrom (genRandScalar q k) E e c cs t max p0 posts A) - 1 / 2| ≤
      ((p0.maxAttributeCreations.toNat + 1 + d + l : Nat) * ((q : ℝ) / (256 ^ k : Nat)) + l * ε) + (l * ((n + 1) * n / 2 ^ 98) +
      ∑ j, |prob ((PMF.uniformOfFintype (ZMod q)).bind fun x => test j (Aes.aes256 (keyOf x).val)) - prob (randomFunction.bind fun E => test j (onBytes E))| +
      2 * ∑ j, |prob ((bdhReal c).bind (bdh j)) - prob ((bdhRandom c).bind (bdh j))|) := by
  intro e one test bdh
  exact (abs_sub_le _ (prob (systemGame e c cs t max p0 posts A)) _).trans (add_le_add (system_near (near_genRandScalar q k) hE e c cs t max p0 posts A d hd)
    (C105_system_confidentiality c hT hkey t hmax p0 posts hp A hA hn))

/-- C111.  And for the game of forgeries over the life of a policy. -/
theorem C111_system_integrity {shake : Bytes → Nat → Bytes} {metaEnc : Metadata → Out Bytes} {metaDec : Bytes → Out Metadata} {num : Nat → Bytes} {max : Nat}
    (c : Curve (ZMod q) P Q QP T) (hT : ∀ m : T, ∃ x : ZMod q, m = x • c.genT) {cs : Codecs (ZMod q) P Q T} {keyOf : ZMod q → AesKey}
    (hkey : ∀ x, derivedKey (aesGcm shake metaEnc metaDec num) cs (x • c.genT) = some (keyOf x).val) (t : Target) (hmax : max ≤ maxClear)
    (hn : ∀ i, (num i).length = 8) (hinj : ∀ i < 2 ^ 64, ∀ j < 2 ^ 64, num i = num j → i = j) (p0 : Policy) {l : Nat} (posts : Fin l → Policy × List Attribute)
    (hp : ∀ j, (posts j).1.Reachable) (A : MasterPublicKey P T → DelegationKey Q → SystemForger (ZMod q) Q QP l)
    (hA : ∀ pk dk, (A pk dk).Asks fun r ap => ∀ j, Shut (posts j).1 (posts j).2 r ap) {L : Nat} {w v : Fin l → Nat}
    (hw : ∀ pk dk, (A pk dk).Within metaEnc metaDec L w v) {d : Nat} (hd : ∀ pk dk, (A pk dk).KeysWithin d) {E : PMF (ZMod q)} {ε : ℝ}
    (hE : Near ε E (PMF.uniformOfFintype (ZMod q))) :
    let e := aesGcm shake metaEnc metaDec num
    let one := fun (j : Fin l) pk dk => (A pk dk).only e max (headerOf e c cs t pk posts) j fun _ => {}
    let test := fun j => forgeryTest (gcmWith metaEnc metaDec num) max (demForger c cs t p0.maxAttributeCreations.toNat (posts j).1 (posts j).2 (one j))
    let bdh := fun j => distinguisher c p0.maxAttributeCreations.toNat (challengeValues (posts j).1 (posts j).2) (kemForger e c cs t max (one j))
    prob (systemForgeryGameFrom (genRandScalar q k) E e c cs t max p0 posts A) ≤
      ((p0.maxAttributeCreations.toNat + 1 + d + l : Nat) * ((q : ℝ) / (256 ^ k : Nat)) + l * ε) +
      (∑ j, ((v j : ℝ) * (L + 1) / 2 ^ 128 + w j * (w j - 1) / 2 ^ 97) +
      ∑ j, |prob ((PMF.uniformOfFintype (ZMod q)).bind fun x => test j (Aes.aes256 (keyOf x).val)) - prob (randomFunction.bind fun E => test j (onBytes E))| +
      2 * ∑ j, |prob ((bdhReal c).bind (bdh j)) - prob ((bdhRandom c).bind (bdh j))|) := by
  intro e one test bdh
  have h1 := sub_le_iff_le_add.1 ((le_abs_self _).trans (forgery_near (near_genRandScalar q k) hE e c cs t max p0 posts A d hd))
  exact h1.trans (add_le_add le_rfl (C105_system_integrity c hT hkey t hmax hn hinj p0 posts hp A hA hw))

/-- C111.  Random elements of the target group (`random_message`) are made by a homomorphism of a larger group onto it (the final exponentiation, from the units of the
field of degree twelve): if the element of that group is uniform up to `ε` then so is the result, as a multiple of the generator, whatever the sizes of the groups. -/
theorem C111_elements (c : Curve (ZMod q) P Q QP T) (hT : ∀ m : T, ∃ x : ZMod q, m = x • c.genT) {U : Type} [Group U] [Fintype U] {φ : U → T}
    (hφ : ∀ a b, φ (a * b) = φ a + φ b) (hs : Function.Surjective φ) {D : PMF U} {ε : ℝ} (hD : Near ε D (PMF.uniformOfFintype U)) :
    ∃ E : PMF (ZMod q), E.map (· • c.genT) = D.map φ ∧ Near ε E (PMF.uniformOfFintype (ZMod q)) := by
  choose log hlog using hT
  have hinv : ∀ x : ZMod q, log (x • c.genT) = x := fun x => smul_left_injective _ c.genT_ne_zero (hlog _).symm
  have hadd : ∀ a b, log (φ (a * b)) = log (φ a) + log (φ b) := fun a b => by
    rw [← hinv (log (φ a) + log (φ b)), add_smul, ← hlog, ← hlog, hφ]
  refine ⟨D.map (log ∘ φ), ?_, ?_⟩
  · rw [PMF.map_comp]
    congr 1
    funext u
    exact (hlog _).symm
  · have := hD.map (log ∘ φ)
    rwa [map_uniform_hom hadd fun x => ?_] at this
    obtain ⟨u, hu⟩ := hs (x • c.genT)
    exact ⟨u, by rw [Function.comp_apply, hu, hinv]⟩

end

namespace Demo

theorem snoop_within (look) (pk dk) : (snoop look pk dk).Within 2 :=
  ⟨by decide +kernel, fun _ _ => ⟨by decide +kernel, fun _ _ => trivial⟩⟩

/-- The attacker of C80 that asks for a key for `High && (HR || MKG)` and one for `MKG`, with 64 bytes for every scalar below 11. -/
example (look) : |prob (selectiveGameFrom (genRandScalar 11 64) curveF .release64 20 [4] (snoop look)) - 1 / 2| ≤ (20 + 2 + 2 : Nat) * ((11 : Nat) / (256 ^ 64 : Nat)) +
    |prob ((bdhReal curveF).bind (distinguisher curveF 20 [4] (snoop look))) - prob ((bdhRandom curveF).bind (distinguisher curveF 20 [4] (snoop look)))| :=
  (C111_selective_security (q := 11) curveF (fun m => ⟨m, by simp [curveF]⟩) .release64 20 [4] (snoop look) (snoop_fair look) 2 (snoop_within look)).2

/-- The former employee of C105, with elements made from 32 bytes each. -/
example (pick look) : ∃ keyOf : F → AesKey,
    let one := fun (j : Fin 2) pk dk => (quietHr pick look pk dk).only aes curveF codecs .release64 maxClearTextSize pk posts j 0
    let test := fun j => messageTest (gcmWith symmetric.metaEnc symmetric.metaDec num8) maxClearTextSize
      (demAttacker curveF codecs .release64 policy.maxAttributeCreations.toNat (posts j).1 (posts j).2 (one j))
    let bdh := fun j => distinguisher curveF policy.maxAttributeCreations.toNat (challengeValues (posts j).1 (posts j).2)
      (kemAttacker aes curveF codecs .release64 maxClearTextSize (one j))
    |prob (systemGameFrom (genRandScalar 11 64) (genRandScalar 11 32) aes curveF codecs .release64 maxClearTextSize policy posts (quietHr pick look)) - 1 / 2| ≤
      ((policy.maxAttributeCreations.toNat + 1 + 1 + 2 : Nat) * (((11 : Nat) : ℝ) / (256 ^ 64 : Nat)) + (2 : Nat) * (((11 : Nat) : ℝ) / (256 ^ 32 : Nat))) +
      ((2 : Nat) * (((2 : Nat) + 1) * (2 : Nat) / 2 ^ 98) +
      ∑ j, |prob ((PMF.uniformOfFintype F).bind fun x => test j (Aes.aes256 (keyOf x).val)) - prob (randomFunction.bind fun E => test j (onBytes E))| +
      2 * ∑ j, |prob ((bdhReal curveF).bind (bdh j)) - prob ((bdhRandom curveF).bind (bdh j))|) := by
  obtain ⟨keyOf, hkey⟩ := aes_keys
  refine ⟨keyOf, C111_system_confidentiality (q := 11) (k := 64) curveF (fun m => ⟨m, by simp [curveF]⟩) hkey .release64 (by decide) policy posts ?_
    (quietHr pick look) (fun pk dk => ⟨(formerHr_asks (fun _ => (⟨none, []⟩, ⟨none, []⟩)) (fun _ _ _ _ _ _ => true) pk dk).1, fun _ _ _ _ => trivial⟩) (n := 2)
    (fun _ _ _ => ⟨⟨rfl, rfl⟩, by decide, fun _ => ⟨⟨rfl, rfl⟩, by simp, fun _ _ => trivial⟩⟩) (d := 1)
    (fun _ _ => ⟨by decide +kernel, fun _ _ _ _ => trivial⟩) (near_genRandScalar 11 32)⟩
  rw [Fin.forall_fin_two]
  exact ⟨policy_reachable, grown_reachable⟩

/-- The former employee of C105 who takes a block of the first message for one of the second. -/
example (pick) : ∃ keyOf : F → AesKey,
    let w : Fin 2 → Nat := ![2, 1]
    let v : Fin 2 → Nat := ![0, 1]
    let one := fun (j : Fin 2) pk dk => (carefulMixer pick pk dk).only aes maxClearTextSize (headerOf aes curveF codecs .release64 pk posts) j fun _ => {}
    let test := fun j => forgeryTest (gcmWith symmetric.metaEnc symmetric.metaDec num8) maxClearTextSize
      (demForger curveF codecs .release64 policy.maxAttributeCreations.toNat (posts j).1 (posts j).2 (one j))
    let bdh := fun j => distinguisher curveF policy.maxAttributeCreations.toNat (challengeValues (posts j).1 (posts j).2)
      (kemForger aes curveF codecs .release64 maxClearTextSize (one j))
    prob (systemForgeryGameFrom (genRandScalar 11 64) (genRandScalar 11 32) aes curveF codecs .release64 maxClearTextSize policy posts (carefulMixer pick)) ≤
      ((policy.maxAttributeCreations.toNat + 1 + 1 + 2 : Nat) * (((11 : Nat) : ℝ) / (256 ^ 64 : Nat)) + (2 : Nat) * (((11 : Nat) : ℝ) / (256 ^ 32 : Nat))) +
      (∑ j, ((v j : ℝ) * ((2 : Nat) + 1) / 2 ^ 128 + w j * (w j - 1) / 2 ^ 97) +
      ∑ j, |prob ((PMF.uniformOfFintype F).bind fun x => test j (Aes.aes256 (keyOf x).val)) - prob (randomFunction.bind fun E => test j (onBytes E))| +
      2 * ∑ j, |prob ((bdhReal curveF).bind (bdh j)) - prob ((bdhRandom curveF).bind (bdh j))|) := by
  obtain ⟨keyOf, hkey⟩ := aes_keys
  refine ⟨keyOf, C111_system_integrity (q := 11) (k := 64) curveF (fun m => ⟨m, by simp [curveF]⟩) hkey .release64 (by decide) (fun i => by simp [Gcm.bytes16]) aes_num
    policy posts ?_ (carefulMixer pick) (fun pk dk => ⟨(formerHr_asks (fun _ => (⟨none, []⟩, ⟨none, []⟩)) (fun _ _ _ _ _ _ => true) pk dk).1,
      fun _ _ _ _ _ => trivial⟩) ?_ (d := 1) (fun _ _ => ⟨by decide +kernel, fun _ _ _ _ _ => trivial⟩) (near_genRandScalar 11 32)⟩
  · rw [Fin.forall_fin_two]
    exact ⟨policy_reachable, grown_reachable⟩
  · intro _ _ _
    refine ⟨by decide, fun _ _ h => (nomatch h), fun _ => ⟨by decide, by decide, by decide, ?_, fun b => ⟨by decide, fun _ _ h => (nomatch h), fun _ =>
      ⟨by decide, by decide, by decide, ?_, fun _ => trivial⟩⟩⟩⟩
    · simp
    · simp only [List.length_take, List.length_singleton]
      omega

/-- Elements of the group of order 11 made from those of a group of order 33. -/
example : ∃ E : PMF F, E.map (· • curveF.genT) = (show PMF (Multiplicative (ZMod 33)) from genRandScalar 33 64).map (fun u => ZMod.castHom (by decide : 11 ∣ 33) F u.toAdd) ∧
    Near (((33 : Nat) : ℝ) / (256 ^ 64 : Nat)) E (PMF.uniformOfFintype F) :=
  C111_elements (q := 11) curveF (fun m => ⟨m, by simp [curveF]⟩) (U := Multiplicative (ZMod 33)) (fun a b => by rw [toAdd_mul, map_add])
    (fun x => ⟨Multiplicative.ofAdd (x.val : ZMod 33), by revert x; decide⟩) (near_genRandScalar 33 64)

end Demo

end Abe
