import Verif.Spec.Game
import Verif.Props.Distribution
import Verif.Props.Generic

/-!
# Selective security under the bilinear Diffie-Hellman assumption

Property C80.
-/

set_option linter.unusedSectionVars false

namespace Abe

variable {K P Q QP T : Type} [Field K] [DecidableEq K] [AddCommGroup P] [Module K P] [AddCommGroup Q] [Module K Q]
  [AddCommGroup T] [Module K T]

/-! ### The reduction

An instance of the problem is turned into a run of the attacker by group operations only; the scalars of the instance are not used. -/

/-- A sharing of one whose shares for the values `gamma` are zero.  It depends on the span program and on `gamma` only, and is a solution of a linear system. -/
noncomputable def blind (K : Type) [Field K] [DecidableEq K] (m : Msp Int) (gamma : List UInt32) : List K :=
  open Classical in
  if h : ∃ w : List K, w.length = m.nbCol ∧ w.sum = 1 ∧ ∀ a ∈ m.rowToAttr, a ∈ gamma → shareOf m w a = 0 then h.choose else []

/-- Scalars drawn by the reduction, by attribute value. -/
def sc {size : Nat} (β : Fin size → Kˣ) (a : UInt32) : K := pad (fun i => (β i : K)) a.toNat

/-- The public key of the reduction. -/
def simPub (c : Curve K P Q QP T) {size : Nat} (β : Fin size → Kˣ) (gamma : List UInt32) (I : Bdh P Q T) : MasterPublicKey P T where
  tI := (List.range size).map fun i => pad (fun i => (β i : K)) i • (if i ∈ gamma.map UInt32.toNat then c.genP else I.xP)
  y := c.pair I.xP I.aQ

/-- The delegation key of the reduction. -/
def simDel (c : Curve K P Q QP T) {size : Nat} (β : Fin size → Kˣ) (gamma : List UInt32) (I : Bdh P Q T) : DelegationKey Q where
  invTI := (List.range size).map fun i => (pad (fun i => (β i : K)) i)⁻¹ • (if i ∈ gamma.map UInt32.toNat then c.genQ else I.iQ)

/-- A component of a user key of the reduction. -/
noncomputable def simElem (c : Curve K P Q QP T) {size : Nat} (β : Fin size → Kˣ) (gamma : List UInt32) (I : Bdh P Q T) (m : Msp Int) (r : Nat → K)
    (a : UInt32) : Q :=
  if a ∈ gamma then (shareOf m (vecK r 0 m.nbCol) a * (sc β a)⁻¹) • c.genQ
  else (shareOf m (blind K m gamma) a * (sc β a)⁻¹) • I.aQ + (shareOf m (vecK r 0 m.nbCol) a * (sc β a)⁻¹) • I.iQ

/-- The user keys of the reduction. -/
noncomputable def simKeys [Fintype K] (c : Curve K P Q QP T) {size : Nat} (β : Fin size → Kˣ) (gamma : List UInt32) (I : Bdh P Q T) (p : Policy)
    (ap : AccessPolicy) : PMF (Option (DecryptionKey K QP Q)) :=
  match policyToMsp p ap with
  | .ok m =>
    if ∀ a ∈ m.rowToAttr, a.toNat < size then
      (PMF.uniformOfFintype (Fin (keyDraws p ap) → K)).map fun r =>
        some ⟨m.rowToAttr.map (simElem c β gamma I m (pad r)), m.rowToAttr.map fun a => c.prepare (simElem c β gamma I m (pad r) a), m.convert scalarFromI32⟩
    else .pure none
  | _ => .pure none

/-- The ciphertext of the reduction. -/
def simCt {size : Nat} (β : Fin size → Kˣ) (gamma : List UInt32) (I : Bdh P Q T) (msg : T) : Option (CipherText P T) :=
  if gamma.length < size ∧ ∀ a ∈ gamma, a.toNat < size then some ⟨gamma, msg + I.z, gamma.map fun a => sc β a • I.sP⟩ else none

/-- The reduction: the attacker plays with the instance in place of the scheme, and "true" is answered if it guesses the message. -/
noncomputable def distinguisher [Fintype K] (c : Curve K P Q QP T) (size : Nat) (gamma : List UInt32)
    (A : MasterPublicKey P T → DelegationKey Q → Attacker K P Q QP T) (I : Bdh P Q T) : PMF Bool :=
  (PMF.uniformOfFintype Bool).bind fun b => (PMF.uniformOfFintype (Fin size → Kˣ)).bind fun β =>
    ((A (simPub c β gamma I) (simDel c β gamma I)).exec (simKeys c β gamma I) (fun m0 m1 => simCt β gamma I (if b then m1 else m0)) false).map (· == b)

/-! ### Random variables -/

theorem uniform_bind_equiv {α β γ : Type} [Fintype α] [Nonempty α] [Fintype β] [Nonempty β] (e : α ≃ β) (f : β → PMF γ) :
    (PMF.uniformOfFintype α).bind (fun a => f (e a)) = (PMF.uniformOfFintype β).bind f := by
  ext x
  simp only [PMF.bind_apply, PMF.uniformOfFintype_apply]
  rw [Fintype.card_congr e]
  exact e.tsum_eq fun b => (Fintype.card β : ENNReal)⁻¹ * f b x

theorem bind_const' {α β : Type} {p : PMF α} {f : α → PMF β} {q : PMF β} (h : ∀ a, f a = q) : p.bind f = q := by
  rw [funext h, PMF.bind_const]

/-! ### Simulation -/

/-- The private scalars of the simulated master key. -/
def simT {size : Nat} (gamma : List UInt32) (x : Kˣ) (β : Fin size → Kˣ) (i : Fin size) : Kˣ := if i.val ∈ gamma.map UInt32.toNat then β i else β i * x

/-- For a fixed instance the simulated scalars are as random as the scalars of the reduction. -/
def simTEquiv (size : Nat) (gamma : List UInt32) (x : Kˣ) : (Fin size → Kˣ) ≃ (Fin size → Kˣ) where
  toFun := simT gamma x
  invFun β i := if i.val ∈ gamma.map UInt32.toNat then β i else β i * x⁻¹
  left_inv β := by
    funext i
    simp only [simT]
    split <;> simp
  right_inv β := by
    funext i
    simp only [simT]
    split <;> simp

theorem pad_lt {n : Nat} (r : Fin n → K) {i : Nat} (h : i < n) : pad r i = r ⟨i, h⟩ := dif_pos h

theorem mem_values {gamma : List UInt32} {a : UInt32} : a.toNat ∈ gamma.map UInt32.toNat ↔ a ∈ gamma := by
  rw [List.mem_map]
  constructor
  · rintro ⟨b, hb, h⟩
    rwa [← UInt32.toNat_inj.1 h]
  · exact fun h => ⟨a, h, rfl⟩

/-- The instance with given scalars. -/
def inst (c : Curve K P Q QP T) (s : K) (x : Kˣ) (a z : K) : Bdh P Q T :=
  ⟨s • c.genP, (x : K) • c.genP, a • c.genQ, (x : K)⁻¹ • c.genQ, z • c.genT⟩

/-- The master scalars. -/
def scalars {size : Nat} (ti : Fin size → Kˣ) : List K := genScalars (pad fun i => (ti i : K)) size

theorem scalars_length {size : Nat} (ti : Fin size → Kˣ) : (scalars ti).length = size := by simp [scalars, genScalars]

theorem tOf_scalars {size : Nat} (ti : Fin size → Kˣ) {a : UInt32} (h : a.toNat < size) : tOf (scalars ti) a = ti ⟨a.toNat, h⟩ := by
  simp [tOf, scalars, genScalars, h, pad_lt]

theorem scalars_ne {size : Nat} (ti : Fin size → Kˣ) : ∀ t ∈ scalars ti, t ≠ 0 := by
  intro t ht
  unfold scalars genScalars at ht
  rw [List.mem_map] at ht
  obtain ⟨i, hi, rfl⟩ := ht
  rw [pad_lt _ (List.mem_range.1 hi)]
  exact Units.ne_zero _

theorem tOf_sim {size : Nat} (gamma : List UInt32) (x : Kˣ) (β : Fin size → Kˣ) {a : UInt32} (h : a.toNat < size) :
    tOf (scalars (simT gamma x β)) a = if a ∈ gamma then sc β a else sc β a * x := by
  rw [tOf_scalars _ h, simT, sc, pad_lt _ h]
  simp only [mem_values]
  split <;> simp

theorem simPub_eq (c : Curve K P Q QP T) {size : Nat} (β : Fin size → Kˣ) (gamma : List UInt32) (s : K) (x : Kˣ) (a z : K) :
    simPub c β gamma (inst c s x a z) = pubOf c (scalars (simT gamma x β)) (a * x) := by
  unfold simPub pubOf
  congr 1
  · unfold scalars genScalars
    rw [List.map_map]
    refine List.map_congr_left fun i hi => ?_
    have hi := List.mem_range.1 hi
    simp only [Function.comp, pad_lt _ hi, simT, inst]
    split
    · rfl
    · rw [smul_smul, Units.val_mul]
  · simp only [inst, map_smul, LinearMap.smul_apply, c.genT_eq]
    rw [smul_smul]

theorem simDel_eq (c : Curve K P Q QP T) {size : Nat} (β : Fin size → Kˣ) (gamma : List UInt32) (s : K) (x : Kˣ) (a z : K) :
    simDel c β gamma (inst c s x a z) = delOf c (scalars (simT gamma x β)) := by
  unfold simDel delOf
  congr 1
  unfold scalars genScalars
  rw [List.map_map]
  refine List.map_congr_left fun i hi => ?_
  have hi := List.mem_range.1 hi
  simp only [Function.comp, pad_lt _ hi, simT, inst]
  split
  · rfl
  · rw [smul_smul, Units.val_mul, mul_inv]

theorem simCt_eq (c : Curve K P Q QP T) (t : Target) {size : Nat} (β : Fin size → Kˣ) (gamma : List UInt32) (s : K) (x : Kˣ) (a : K) (msg : T) :
    simCt β gamma (inst c s x a (s * a * x)) msg = (encrypt (bls c) t msg gamma (pubOf c (scalars (simT gamma x β)) (a * x)) s).toOption := by
  unfold simCt
  have hl := scalars_length (simT gamma x β)
  split
  · rename_i h
    rw [encrypt_ok c t _ _ _ _ _ (by rw [hl]; exact h.1) (by rw [hl]; exact h.2)]
    simp only [Res.toOption, ctOf, inst, Option.some.injEq, CipherText.mk.injEq, true_and]
    refine ⟨by rw [mul_assoc], List.map_congr_left fun v hv => ?_⟩
    rw [tOf_sim _ _ _ (h.2 v hv), if_pos hv, smul_smul, mul_comm]
  · rename_i h
    rcases encrypt_cases c t (scalars (simT gamma x β)) (a * x) s msg gamma with ⟨-, -, h1⟩ | h1 | ⟨h1, h2, -⟩ | ⟨-, -, h1⟩
    · rw [h1]; rfl
    · have : encrypt (bls c) t msg gamma (pubOf c (scalars (simT gamma x β)) (a * x)) s = encrypt (bls c) t msg gamma (pubOf c [] (a * x)) s := by
        rw [List.length_eq_zero_iff.1 h1]
      rw [this]
      unfold encrypt
      rw [if_pos (by simp [pubOf])]
      unfold Target.usub
      simp only [pubOf, List.map_nil, List.length_nil]
      rw [if_neg (by omega)]
      split <;> rfl
    · exact absurd ⟨hl ▸ h1, hl ▸ h2⟩ h
    · rw [h1]; rfl

/-- The sharing used by the reduction exists when the values do not satisfy the formula. -/
theorem blind_spec {F : Node} {m : Msp Int} (h : MspFor F m) {gamma : List UInt32} (hs : ¬ F.Sat (· ∈ gamma)) :
    F.Shares (shareOf m (blind K m gamma)) 1 ∧ ∀ a ∈ F.leaves, a ∈ gamma → shareOf m (blind K m gamma) a = 0 := by
  have hex : ∃ w : List K, w.length = m.nbCol ∧ w.sum = 1 ∧ ∀ a ∈ m.rowToAttr, a ∈ gamma → shareOf m w a = 0 := by
    obtain ⟨lam, h1, h2⟩ := shares_unsat (K := K) 1 (h.perm.nodup_iff.1 h.nodup) hs
    obtain ⟨w, hl, hsum, hrow⟩ := (h.shares' lam 1).2 h2
    refine ⟨w, hl, hsum, fun a ha hg => ?_⟩
    rw [← h1 a hg, ← hrow a (h.perm.mem_iff.1 ha)]
    rfl
  unfold blind
  rw [dif_pos hex]
  obtain ⟨h1, h2, h3⟩ := hex.choose_spec
  exact ⟨(h.shares' _ 1).1 ⟨_, h1, h2, fun a _ => rfl⟩, fun a ha hg => h3 a (h.perm.mem_iff.2 ha) hg⟩

theorem engineGenerate_congr (c : Curve K P Q QP T) (priv : MasterPrivateKey K) (p : Policy) (ap : AccessPolicy) {r r' : Nat → K}
    (h : ∀ i < keyDraws p ap, r i = r' i) : engineGenerateUserKey (bls c) p priv ap r = engineGenerateUserKey (bls c) p priv ap r' := by
  unfold engineGenerateUserKey
  unfold keyDraws at h
  cases hm : policyToMsp p ap with
  | ok m =>
    rw [hm] at h
    simp only [Res.ok_bind]
    have hsv : sharingVector m.nbCol priv.y r = sharingVector m.nbCol priv.y r' := by
      rcases Nat.eq_zero_or_pos m.nbCol with h0 | h0
      · rw [h0]; rfl
      · rw [sharingVector_vecK h0, sharingVector_vecK h0, vecK_congr h]
    unfold keyGeneration
    rw [hsv]
  | err e => rfl
  | panic => rfl

/-- For a key that is not authorised the reduction gives keys with the distribution of the scheme. -/
theorem simKeys_eq [Fintype K] (c : Curve K P Q QP T) {size : Nat} (β : Fin size → Kˣ) (gamma : List UInt32) (s : K) (x : Kˣ) (a z : K) {p : Policy} (hw : p.WF)
    {ap : AccessPolicy} (hns : ¬ ap.Sat p fun b => ∃ v, p.HasValue b v ∧ v ∈ gamma) :
    userKeys c ⟨scalars (simT gamma x β), a * x⟩ p ap = simKeys c β gamma (inst c s x a z) p ap := by
  set tI := scalars (simT gamma x β) with htI
  have hl : tI.length = size := scalars_length _
  rcases policyToMsp_spec hw ap with ⟨hv, m, F, h1, h2, h3⟩ | ⟨hv, e, h1⟩
  · have hdraws : keyDraws p ap = m.nbCol - 1 := by simp [keyDraws, h1]
    unfold simKeys
    rw [h1]
    dsimp only
    by_cases hr : ∀ a ∈ m.rowToAttr, a.toNat < size
    · rw [if_pos hr]
      have hcov : Covers tI F := by
        intro a ha
        have := hr a (h2.perm.mem_iff.2 ha)
        refine ⟨by rw [hl]; exact this, ?_⟩
        rw [tOf_scalars _ this]
        exact Units.ne_zero _
      obtain ⟨hb1, hb2⟩ := blind_spec (K := K) h2 (gamma := gamma) (fun hs => hns ((h3.sat _).1 hs))
      have hsh := shares_smul (a * x : K) hb1
      obtain ⟨w, hw'⟩ := shift_shares c h2 tI hsh hcov
      unfold userKeys
      rw [PMF.map, PMF.map, ← uniform_bind_equiv (Equiv.addRight fun i : Fin (keyDraws p ap) => w i)]
      congr 1
      funext r
      simp only [Function.comp]
      congr 1
      rw [engineGenerate_congr c _ p ap (r' := fun i => pad r i + w i) (fun i hi => by rw [pad_lt _ hi, pad_lt _ hi]; rfl)]
      unfold engineGenerateUserKey
      rw [mul_one] at hw'
      rw [h1, Res.ok_bind, hw']
      have helem : ∀ v ∈ m.rowToAttr, ((a * x * shareOf m (blind K m gamma) v + shareOf m (vecK (pad r) 0 m.nbCol) v) * (tOf tI v)⁻¹) • c.genQ =
          simElem c β gamma (inst c s x a z) m (pad r) v := by
        intro v hv
        rw [htI, tOf_sim _ _ _ (hr v hv)]
        unfold simElem
        split
        · rename_i hg
          rw [hb2 v (h2.perm.mem_iff.1 hv) hg, mul_zero, zero_add]
        · simp only [inst, smul_smul, ← add_smul]
          congr 1
          have := x.ne_zero
          rw [mul_inv]
          field_simp
      simp only [Res.toOption, keyOf, Option.some.injEq, DecryptionKey.mk.injEq, and_true]
      exact ⟨List.map_congr_left helem, List.map_congr_left fun v hv => by rw [helem v hv]⟩
    · rw [if_neg hr]
      unfold userKeys
      have : ∀ r, (engineGenerateUserKey (bls c) p ⟨tI, a * x⟩ ap r).toOption = none := by
        intro r
        unfold engineGenerateUserKey
        rw [h1, Res.ok_bind]
        rcases keyGeneration_cases c h2 tI (a * x) r (scalars_ne _) with ⟨g1, -⟩ | ⟨-, e, g2⟩
        · exact absurd (fun a ha => hl ▸ g1 a (h2.perm.mem_iff.1 ha)) hr
        · rw [g2]; rfl
      simp only [this]
      exact PMF.map_const ..
  · unfold simKeys userKeys
    rw [h1]
    have : ∀ r, (engineGenerateUserKey (bls c) p ⟨tI, a * x⟩ ap r).toOption = none := by
      intro r
      unfold engineGenerateUserKey
      rw [h1]
      rfl
    simp only [this]
    exact PMF.map_const ..

/-- Attackers see no difference between environments with the same distributions. -/
theorem Attacker.exec_congr [Fintype K] {gamma : List UInt32} {k1 k2 : Policy → AccessPolicy → PMF (Option (DecryptionKey K QP Q))}
    {ch1 ch2 : T → T → Option (CipherText P T)} (hk : ∀ p ap, p.Reachable → (¬ ap.Sat p fun b => ∃ v, p.HasValue b v ∧ v ∈ gamma) → k1 p ap = k2 p ap)
    (hc : ∀ m0 m1, ch1 m0 m1 = ch2 m0 m1) : ∀ (A : Attacker K P Q QP T) (used : Bool), A.Fair gamma → A.exec k1 ch1 used = A.exec k2 ch2 used := by
  intro A
  induction A with
  | guess b => intro _ _; rfl
  | toss next ih =>
    intro used h
    simp only [Attacker.exec]
    congr 1; funext x
    exact ih x used (h x)
  | choose n next ih =>
    intro used h
    simp only [Attacker.exec]
    congr 1; funext x
    exact ih x used (h x)
  | key p ap next ih =>
    intro used h
    simp only [Attacker.exec]
    rw [hk p ap h.1 h.2.1]
    congr 1; funext k
    exact ih k used (h.2.2 k)
  | challenge m0 m1 next ih =>
    intro used h
    simp only [Attacker.exec, hc]
    split
    · exact ih _ true (h _)
    · exact ih _ true (h _)

/-- After the challenge the source of ciphertexts plays no role. -/
theorem Attacker.exec_used [Fintype K] {k : Policy → AccessPolicy → PMF (Option (DecryptionKey K QP Q))} (ch1 ch2 : T → T → Option (CipherText P T)) :
    ∀ A : Attacker K P Q QP T, A.exec k ch1 true = A.exec k ch2 true := by
  intro A
  induction A with
  | guess b => rfl
  | toss next ih => simp only [Attacker.exec, ih]
  | choose n next ih => simp only [Attacker.exec, ih]
  | key p ap next ih => simp only [Attacker.exec, ih]
  | challenge m0 m1 next ih => simp only [Attacker.exec, ih, if_true]

/-- With a random mask the attacker learns nothing about which message was encrypted. -/
theorem Attacker.exec_masked [Fintype K] (g : T) (hT : ∀ m : T, ∃ x : K, m = x • g) (k : Policy → AccessPolicy → PMF (Option (DecryptionKey K QP Q)))
    (mkCt : T → Option (CipherText P T)) (sel sel' : T → T → T) : ∀ A : Attacker K P Q QP T,
    ((PMF.uniformOfFintype K).bind fun z => A.exec k (fun m0 m1 => mkCt (sel m0 m1 + z • g)) false) =
      (PMF.uniformOfFintype K).bind fun z => A.exec k (fun m0 m1 => mkCt (sel' m0 m1 + z • g)) false := by
  intro A
  induction A with
  | guess b => rfl
  | toss next ih =>
    simp only [Attacker.exec]
    rw [PMF.bind_comm]
    conv_rhs => rw [PMF.bind_comm]
    congr 1; funext x
    exact ih x
  | choose n next ih =>
    simp only [Attacker.exec]
    rw [PMF.bind_comm]
    conv_rhs => rw [PMF.bind_comm]
    congr 1; funext x
    exact ih x
  | key p ap next ih =>
    simp only [Attacker.exec]
    rw [PMF.bind_comm]
    conv_rhs => rw [PMF.bind_comm]
    congr 1; funext x
    exact ih x
  | challenge m0 m1 next ih =>
    simp only [Attacker.exec]
    obtain ⟨d, hd⟩ := hT (sel m0 m1 - sel' m0 m1)
    rw [← uniform_bind_equiv (Equiv.addRight d) fun z => (if false = true then (next none).exec k (fun m0 m1 => mkCt (sel' m0 m1 + z • g)) true else
      (next (mkCt (sel' m0 m1 + z • g))).exec k (fun m0 m1 => mkCt (sel' m0 m1 + z • g)) true)]
    congr 1; funext z
    simp only [Bool.false_eq_true, if_false]
    have : sel m0 m1 + z • g = sel' m0 m1 + (Equiv.addRight d z) • g := by
      rw [Equiv.coe_addRight, add_smul, ← hd]
      abel
    rw [this]
    exact Attacker.exec_used _ _ _

theorem coin_guess (E : PMF Bool) : ((PMF.uniformOfFintype Bool).bind fun b => E.map (· == b)) = PMF.uniformOfFintype Bool := by
  simp only [PMF.map]
  rw [PMF.bind_comm]
  have : ∀ g : Bool, ((PMF.uniformOfFintype Bool).bind fun b => (PMF.pure ∘ (· == b)) g) = PMF.uniformOfFintype Bool := by
    intro g
    have he : ∃ e : Bool ≃ Bool, ∀ b, e b = (g == b) := by
      cases g
      · exact ⟨⟨not, not, by decide, by decide⟩, by decide⟩
      · exact ⟨Equiv.refl _, by decide⟩
    obtain ⟨e, he⟩ := he
    conv_rhs => rw [← PMF.bind_pure (PMF.uniformOfFintype Bool), ← uniform_bind_equiv e]
    congr 1; funext b
    simp [he]
  simp only [this, PMF.bind_const]

/-- **C80.** On instances whose last element is the product, the reduction is the selective game. -/
theorem C80_real_instances [Fintype K] (c : Curve K P Q QP T) (t : Target) (size : Nat) (gamma : List UInt32)
    (A : MasterPublicKey P T → DelegationKey Q → Attacker K P Q QP T) (hA : ∀ pk dk, (A pk dk).Fair gamma) :
    (bdhReal c).bind (distinguisher c size gamma A) = selectiveGameKey c t size gamma A := by
  unfold bdhReal selectiveGameKey
  rw [PMF.bind_bind]
  congr 1; funext s
  rw [PMF.bind_bind]
  have key : ∀ (x : Kˣ) (a : K) (b : Bool) (β : Fin size → Kˣ),
      ((A (simPub c β gamma (inst c s x a (s * a * x))) (simDel c β gamma (inst c s x a (s * a * x)))).exec (simKeys c β gamma (inst c s x a (s * a * x)))
        (fun m0 m1 => simCt β gamma (inst c s x a (s * a * x)) (if b then m1 else m0)) false).map (· == b) = selectiveRun c t size gamma A s (a * x) b (fun i => (simTEquiv size gamma x β i : K)) := by
    intro x a b β
    have hmk := generateMasterKey_ok c size (pad fun i => (simT gamma x β i : K)) (a * x) (fun i hi => by rw [pad_lt _ hi]; exact Units.ne_zero _)
    simp only [selectiveRun, simTEquiv, Equiv.coe_fn_mk, hmk]
    rw [simPub_eq, simDel_eq]
    congr 1
    refine Attacker.exec_congr (gamma := gamma) (fun p ap hp hns => ?_) (fun m0 m1 => ?_) _ _ (hA _ _)
    · exact (simKeys_eq c β gamma s x a _ (reachable_wf hp) hns).symm
    · rw [simCt_eq c t]
      rfl
  have hx : ∀ x : Kˣ, ((PMF.uniformOfFintype K).map fun a => (⟨s • c.genP, (x : K) • c.genP, a • c.genQ, (x : K)⁻¹ • c.genQ, (s * a * (x : K)) • c.genT⟩ :
      Bdh P Q T)).bind (distinguisher c size gamma A) =
      (PMF.uniformOfFintype K).bind fun y => (PMF.uniformOfFintype Bool).bind fun b => (PMF.uniformOfFintype (Fin size → Kˣ)).bind fun ti =>
        selectiveRun c t size gamma A s y b (fun i => (ti i : K)) := by
    intro x
    rw [PMF.bind_map]
    conv_rhs => rw [← uniform_bind_equiv (Equiv.mulRight₀ (x : K) x.ne_zero)]
    congr 1; funext a
    change distinguisher c size gamma A (inst c s x a (s * a * x)) = _
    unfold distinguisher
    congr 1; funext b
    conv_rhs => rw [← uniform_bind_equiv (simTEquiv size gamma x)]
    congr 1; funext β
    exact key x a b β
  simp only [hx, PMF.bind_const]

/-- **C80.** On instances whose last element is random, the reduction answers by a coin flip, whatever the attacker does. -/
theorem C80_random_instances [Fintype K] (c : Curve K P Q QP T) (hT : ∀ m : T, ∃ x : K, m = x • c.genT) (size : Nat) (gamma : List UInt32)
    (A : MasterPublicKey P T → DelegationKey Q → Attacker K P Q QP T) :
    (bdhRandom c).bind (distinguisher c size gamma A) = PMF.uniformOfFintype Bool := by
  unfold bdhRandom
  rw [PMF.bind_bind]
  have h : ∀ (s : K) (x : Kˣ) (a : K), ((PMF.uniformOfFintype K).map fun z => (⟨s • c.genP, (x : K) • c.genP, a • c.genQ, (x : K)⁻¹ • c.genQ, z • c.genT⟩ :
      Bdh P Q T)).bind (distinguisher c size gamma A) = PMF.uniformOfFintype Bool := by
    intro s x a
    rw [PMF.bind_map]
    change ((PMF.uniformOfFintype K).bind fun z => distinguisher c size gamma A (inst c s x a z)) = _
    unfold distinguisher
    rw [PMF.bind_comm]
    have hb : ∀ b : Bool, ((PMF.uniformOfFintype K).bind fun z => (PMF.uniformOfFintype (Fin size → Kˣ)).bind fun β =>
        ((A (simPub c β gamma (inst c s x a z)) (simDel c β gamma (inst c s x a z))).exec (simKeys c β gamma (inst c s x a z))
          (fun m0 m1 => simCt β gamma (inst c s x a z) (if b then m1 else m0)) false).map (· == b)) =
        ((PMF.uniformOfFintype (Fin size → Kˣ)).bind fun β => (PMF.uniformOfFintype K).bind fun z =>
          (A (simPub c β gamma (inst c s x a 0)) (simDel c β gamma (inst c s x a 0))).exec (simKeys c β gamma (inst c s x a 0))
          (fun m0 _ => simCt β gamma (inst c s x a z) m0) false).map (· == b) := by
      intro b
      rw [PMF.bind_comm, PMF.map_bind]
      congr 1; funext β
      rw [← PMF.map_bind]
      congr 1
      have hc : ∀ (z : K) (m : T), simCt β gamma (inst c s x a z) m =
          (fun u => simCt β gamma (⟨s • c.genP, 0, 0, 0, 0⟩ : Bdh P Q T) u : T → Option (CipherText P T)) (m + z • c.genT) := by
        intro z m
        simp only [simCt, inst, add_zero]
      have hk : ∀ z : K, simKeys c β gamma (inst c s x a z) = simKeys c β gamma (inst c s x a 0) := fun z => rfl
      have hp : ∀ z : K, simPub c β gamma (inst c s x a z) = simPub c β gamma (inst c s x a 0) := fun z => rfl
      have hd : ∀ z : K, simDel c β gamma (inst c s x a z) = simDel c β gamma (inst c s x a 0) := fun z => rfl
      have hrun : ∀ (z : K) (sel : T → T → T),
          (A (simPub c β gamma (inst c s x a z)) (simDel c β gamma (inst c s x a z))).exec (simKeys c β gamma (inst c s x a z))
            (fun m0 m1 => simCt β gamma (inst c s x a z) (sel m0 m1)) false =
          (A (simPub c β gamma (inst c s x a 0)) (simDel c β gamma (inst c s x a 0))).exec (simKeys c β gamma (inst c s x a 0))
            (fun m0 m1 => simCt β gamma (⟨s • c.genP, 0, 0, 0, 0⟩ : Bdh P Q T) (sel m0 m1 + z • c.genT)) false := by
        intro z sel
        rw [hk, hp, hd]
        simp only [hc]
      rw [funext fun z => hrun z fun m0 m1 => if b then m1 else m0]
      simp only [hc]
      exact Attacker.exec_masked (K := K) (P := P) (Q := Q) (QP := QP) (T := T) c.genT hT (simKeys c β gamma (inst c s x a 0)) (fun u => simCt β gamma (⟨s • c.genP, 0, 0, 0, 0⟩ : Bdh P Q T) u) (fun m0 m1 => if b then m1 else m0) (fun m0 _ => m0) _
    simp only [hb]
    exact coin_guess _
  have hx : ∀ (s : K) (x : Kˣ), ((PMF.uniformOfFintype K).bind fun a => (PMF.uniformOfFintype K).map fun z =>
      (⟨s • c.genP, (x : K) • c.genP, a • c.genQ, (x : K)⁻¹ • c.genQ, z • c.genT⟩ : Bdh P Q T)).bind (distinguisher c size gamma A) =
      PMF.uniformOfFintype Bool := by
    intro s x
    rw [PMF.bind_bind]
    simp only [h, PMF.bind_const]
  have hs : ∀ s : K, ((PMF.uniformOfFintype Kˣ).bind fun x => (PMF.uniformOfFintype K).bind fun a => (PMF.uniformOfFintype K).map fun z =>
      (⟨s • c.genP, (x : K) • c.genP, a • c.genQ, (x : K)⁻¹ • c.genQ, z • c.genT⟩ : Bdh P Q T)).bind (distinguisher c size gamma A) =
      PMF.uniformOfFintype Bool := by
    intro s
    rw [PMF.bind_bind]
    simp only [hx, PMF.bind_const]
  simp only [hs, PMF.bind_const]

open Classical in
/-- The attacker who asks for a key and decrypts the challenge. -/
noncomputable def decryptor (c : Curve K P Q QP T) (p : Policy) (ap : AccessPolicy) (m0 m1 : T) : Attacker K P Q QP T :=
  .key p ap fun k => .challenge m0 m1 fun ct =>
    match k, ct with
    | some k, some ct => .guess (decide (engineDecrypt (bls c) ct k = .ok (some m1)))
    | _, _ => .guess false

/-- **C80.** The rule of the game is needed: with an authorised key the game is always won. -/
theorem C80_authorised_wins [Fintype K] (c : Curve K P Q QP T) (t : Target) {size : Nat} {p : Policy} (hw : p.WF) {ap : AccessPolicy} (hv : ap.Valid p)
    (hr : ∀ b v, ap.Grants p b → p.HasValue b v → v.toNat < size) {gamma : List UInt32} (hg : gamma.length < size ∧ ∀ a ∈ gamma, a.toNat < size)
    (hs : ap.Sat p fun b => ∃ v, p.HasValue b v ∧ v ∈ gamma) {m0 m1 : T} (hm : m0 ≠ m1) :
    selectiveGameKey (K := K) c t size gamma (fun _ _ => decryptor c p ap m0 m1) = .pure true := by
  have key : ∀ (s y : K) (b : Bool) (ti : Fin size → Kˣ), selectiveRun c t size gamma (fun _ _ => decryptor c p ap m0 m1) s y b (fun i => (ti i : K)) = .pure true := by
    intro s y b ti
    unfold selectiveRun
    rw [generateMasterKey_ok c size (pad fun i => (ti i : K)) y (fun i hi => by rw [pad_lt _ hi]; exact Units.ne_zero _)]
    change PMF.map (· == b) ((decryptor c p ap m0 m1).exec (userKeys c ⟨scalars ti, y⟩)
      (fun m0 m1 => (encrypt (bls c) t (if b then m1 else m0) gamma (pubOf c (scalars ti) y) s).toOption) false) = _
    have hl := scalars_length ti
    have henc : ∀ msg, encrypt (bls c) t msg gamma (pubOf c (scalars ti) y) s = .ok (ctOf c (scalars ti) y s msg gamma) := fun msg =>
      encrypt_ok c t _ y s msg gamma (by rw [hl]; exact hg.1) (by rw [hl]; exact hg.2)
    have hk : ∀ r : Nat → K, ∃ key, engineGenerateUserKey (bls c) p ⟨scalars ti, y⟩ ap r = .ok key ∧
        ∀ msg, engineDecrypt (bls c) (ctOf c (scalars ti) y s msg gamma) key = .ok (some msg) := by
      intro r
      obtain ⟨key, hkey⟩ := (C07_key_generation_success c hw (scalars_ne ti) y ap r).1 ⟨hv, by rw [hl]; exact hr⟩
      obtain ⟨F, msp, lam, hk⟩ := userKey_gen c hw (scalars_ne ti) hkey
      exact ⟨key, hkey, fun msg => (decrypt_exact c hk s msg gamma).1 hs⟩
    simp only [decryptor, Attacker.exec, userKeys, PMF.bind_map, PMF.map_bind, henc, Res.toOption]
    refine bind_const' fun r => ?_
    obtain ⟨key, hkey, hdec⟩ := hk (pad r)
    simp only [Function.comp, hkey, Bool.false_eq_true, if_false, Attacker.exec, hdec, PMF.pure_map]
    congr 1
    cases b
    · simpa [hdec] using hm
    · simp [hdec]
  exact bind_const' fun s => bind_const' fun y => bind_const' fun b => bind_const' fun ti => key s y b ti

/-! ### Draws that are zero -/

theorem prob_uniform {α : Type} [Fintype α] [Nonempty α] (f : α → PMF Bool) :
    prob ((PMF.uniformOfFintype α).bind f) = (∑ a, prob (f a)) / Fintype.card α := by
  unfold prob
  rw [PMF.bind_apply, tsum_fintype, ENNReal.toReal_sum]
  · simp only [PMF.uniformOfFintype_apply, ENNReal.toReal_mul, ENNReal.toReal_inv, ENNReal.toReal_natCast]
    rw [← Finset.mul_sum]
    field_simp
  · intro a _
    exact ENNReal.mul_ne_top (PMF.apply_ne_top _ _) (PMF.apply_ne_top _ _)

theorem prob_shift {α : Type} [Fintype α] [Nonempty α] {f g : α → PMF Bool} {ρ : ℝ} (h : ∀ a, prob (f a) - 1 / 2 = ρ * (prob (g a) - 1 / 2)) :
    prob ((PMF.uniformOfFintype α).bind f) - 1 / 2 = ρ * (prob ((PMF.uniformOfFintype α).bind g) - 1 / 2) := by
  rw [prob_uniform, prob_uniform]
  have hc : (Fintype.card α : ℝ) ≠ 0 := by exact_mod_cast Fintype.card_ne_zero
  have h1 : ∑ a, prob (f a) = ∑ a, (ρ * (prob (g a) - 1 / 2) + 1 / 2) := Finset.sum_congr rfl fun a _ => by linarith [h a]
  rw [h1, Finset.sum_add_distrib, ← Finset.mul_sum, Finset.sum_sub_distrib]
  simp only [Finset.sum_const, Finset.card_univ, nsmul_eq_mul]
  field_simp
  ring

/-- Among all draws for the scalars of a master key those without zero are the draws of units. -/
theorem prob_units [Fintype K] {n : Nat} (f : (Fin n → K) → PMF Bool) (g : (Fin n → Kˣ) → PMF Bool) (hg : ∀ u : Fin n → Kˣ, f (fun i => u i) = g u)
    (h0 : ∀ r : Fin n → K, (∃ i, r i = 0) → prob (f r) = 1 / 2) :
    prob ((PMF.uniformOfFintype (Fin n → K)).bind f) - 1 / 2 =
      ((Fintype.card K - 1 : ℝ) / Fintype.card K) ^ n * (prob ((PMF.uniformOfFintype (Fin n → Kˣ)).bind g) - 1 / 2) := by
  have hK : (Fintype.card K : ℝ) ≠ 0 := by exact_mod_cast Fintype.card_ne_zero
  have hcard : (Fintype.card Kˣ : ℝ) = Fintype.card K - 1 := by
    rw [Fintype.card_units, Nat.cast_sub Fintype.card_pos]; simp
  have hU : (Fintype.card Kˣ : ℝ) ≠ 0 := by exact_mod_cast Fintype.card_ne_zero
  have hsum : ∑ r, (prob (f r) - 1 / 2) = ∑ u : Fin n → Kˣ, (prob (g u) - 1 / 2) := by
    symm
    refine Finset.sum_of_injOn (fun u i => (u i : K)) ?_ (by simp) ?_ ?_
    · intro u _ v _ h
      funext i
      exact Units.ext (congrFun h i)
    · intro r _ hr
      by_cases hz : ∃ i, r i = 0
      · rw [h0 r hz, sub_self]
      · push Not at hz
        exact absurd ⟨fun i => Units.mk0 (r i) (hz i), by simp, by funext i; simp⟩ hr
    · intro u _
      rw [hg]
  rw [prob_uniform, prob_uniform, Fintype.card_fun, Fintype.card_fun, Fintype.card_fin]
  rw [Finset.sum_sub_distrib, Finset.sum_sub_distrib] at hsum
  simp only [Finset.sum_const, Finset.card_univ, nsmul_eq_mul, Fintype.card_fun, Fintype.card_fin] at hsum
  push_cast at hsum ⊢
  rw [← hcard, div_pow]
  field_simp
  linarith

/-- The selective game against the reduction.  The factor is the probability that there is a master key. -/
theorem selective_signed [Fintype K] (c : Curve K P Q QP T) (hT : ∀ m : T, ∃ x : K, m = x • c.genT) (t : Target) (size : Nat) (gamma : List UInt32)
    (A : MasterPublicKey P T → DelegationKey Q → Attacker K P Q QP T) (hA : ∀ pk dk, (A pk dk).Fair gamma) :
    prob (selectiveGame c t size gamma A) - 1 / 2 = ((Fintype.card K - 1 : ℝ) / Fintype.card K) ^ size *
        (prob ((bdhReal c).bind (distinguisher c size gamma A)) - prob ((bdhRandom c).bind (distinguisher c size gamma A))) := by
  have hcoin : prob (PMF.uniformOfFintype Bool) = 1 / 2 := by simp [prob]
  rw [C80_real_instances c t size gamma A hA, C80_random_instances c hT, hcoin]
  refine prob_shift fun s => prob_shift fun y => prob_shift fun b => prob_units _ _ (fun u => rfl) ?_
  rintro r ⟨i, hi⟩
  unfold selectiveRun
  rw [generateMasterKey_panic c size _ y ⟨i, i.2, by rw [pad_lt _ i.2]; exact hi⟩]
  exact hcoin

theorem factor_bounds [Fintype K] (n : Nat) : 0 ≤ ((Fintype.card K - 1 : ℝ) / Fintype.card K) ^ n ∧ ((Fintype.card K - 1 : ℝ) / Fintype.card K) ^ n ≤ 1 := by
  have hK : (1 : ℝ) ≤ Fintype.card K := by exact_mod_cast (Fintype.card_pos : 0 < Fintype.card K)
  have h0 : (0 : ℝ) ≤ (Fintype.card K - 1) / Fintype.card K := div_nonneg (by linarith) (by linarith)
  have h1 : ((Fintype.card K - 1 : ℝ) / Fintype.card K) ≤ 1 := (div_le_one (by linarith)).2 (by linarith)
  exact ⟨pow_nonneg h0 _, pow_le_one₀ h0 h1⟩

/-- **C80.** The advantage of an attacker in the selective game is at most the advantage of the reduction in telling products from random elements.  The factor is the
probability that there is a master key. -/
theorem C80_selective_security [Fintype K] (c : Curve K P Q QP T) (hT : ∀ m : T, ∃ x : K, m = x • c.genT) (t : Target) (size : Nat) (gamma : List UInt32)
    (A : MasterPublicKey P T → DelegationKey Q → Attacker K P Q QP T) (hA : ∀ pk dk, (A pk dk).Fair gamma) :
    |prob (selectiveGame c t size gamma A) - 1 / 2| = ((Fintype.card K - 1 : ℝ) / Fintype.card K) ^ size *
        |prob ((bdhReal c).bind (distinguisher c size gamma A)) - prob ((bdhRandom c).bind (distinguisher c size gamma A))| ∧
      |prob (selectiveGame c t size gamma A) - 1 / 2| ≤
        |prob ((bdhReal c).bind (distinguisher c size gamma A)) - prob ((bdhRandom c).bind (distinguisher c size gamma A))| := by
  rw [selective_signed c hT t size gamma A hA, abs_mul, abs_of_nonneg (factor_bounds size).1]
  exact ⟨rfl, mul_le_of_le_one_left (abs_nonneg _) (factor_bounds size).2⟩

namespace Demo

/-- An attacker on the values of `HR` with two keys, for `High && (HR || MKG)` before and for `MKG` after the challenge, who looks at everything it is given. -/
def snoop (look : MasterPublicKey F F → DelegationKey F → Option (DecryptionKey F F F) → Option (CipherText F F) → Option (DecryptionKey F F F) → F → Bool)
    (pk : MasterPublicKey F F) (dk : DelegationKey F) : Attacker F F F F F :=
  .key policy ap fun k => .challenge 3 5 fun ct => .key policy (.attr mkg) fun k' => .toss fun x => .guess (look pk dk k ct k' x)

theorem snoop_fair (look) (pk dk) : (snoop look pk dk).Fair [4] := by
  obtain ⟨h1, _, _, _, h2, h3, _, h4, _⟩ := attacker_legit ⟨fun _ _ => 0, fun _ => 0⟩ ⟨fun _ _ => 0, fun _ => 0⟩ ⟨fun _ _ => 0, fun _ => 0⟩
  exact ⟨h1, h2 _ (List.mem_singleton.2 rfl), fun _ _ => ⟨h3, h4 _ rfl, fun _ _ => trivial⟩⟩

/-- Whatever such an attacker computes, its advantage is that of the reduction. -/
example (look) : |prob (selectiveGame curveF .release64 20 [4] (snoop look)) - 1 / 2| ≤
    |prob ((bdhReal curveF).bind (distinguisher curveF 20 [4] (snoop look))) - prob ((bdhRandom curveF).bind (distinguisher curveF 20 [4] (snoop look)))| :=
  (C80_selective_security curveF (fun m => ⟨m, by simp [curveF]⟩) .release64 20 [4] (snoop look) (snoop_fair look)).2

/-- With a key for `High && (HR || MKG)` a challenge for `Low` and `HR` is opened. -/
example : selectiveGameKey curveF .release64 8 [1, 4] (fun _ _ => decryptor curveF policy ap 3 5) = .pure true :=
  C80_authorised_wins curveF .release64 (reachable_wf policy_reachable) ap_authorised.1.1 ap_authorised.1.2 (by decide) ap_authorised.2 (by decide)

end Demo

end Abe
