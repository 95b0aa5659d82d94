import Verif.Spec.RandomScalar
import Verif.Props.Reduction
import Verif.Proofs.CipherSecrecy
import Mathlib.Data.Int.CardIntervalMod

/-!
# Distance of distributions, for C111
-/

namespace Abe

variable {K P Q QP T Key Nonce : Type} [Field K] [DecidableEq K] [AddCommGroup P] [Module K P] [AddCommGroup Q] [Module K Q]
  [AddCommGroup T] [Module K T]

theorem prob_bind_le_add {α : Type} (D : PMF α) {f g : α → PMF Bool} {δ : ℝ} (hδ : 0 ≤ δ) (h : ∀ a, prob (f a) ≤ prob (g a) + δ) :
    prob (D.bind f) ≤ prob (D.bind g) + δ := by
  have key : (D.bind f) true ≤ (D.bind g) true + ENNReal.ofReal δ := by
    rw [PMF.bind_apply, PMF.bind_apply]
    calc ∑' a, D a * f a true ≤ ∑' a, (D a * g a true + D a * ENNReal.ofReal δ) := by
          refine ENNReal.tsum_le_tsum fun a => ?_
          rw [← mul_add]
          refine mul_le_mul_right ?_ _
          rw [← ENNReal.ofReal_toReal (PMF.apply_ne_top (f a) true), ← ENNReal.ofReal_toReal (PMF.apply_ne_top (g a) true),
            ← ENNReal.ofReal_add ENNReal.toReal_nonneg hδ]
          exact ENNReal.ofReal_le_ofReal (h a)
      _ = _ := by rw [ENNReal.tsum_add, ENNReal.tsum_mul_right, D.tsum_coe, one_mul]
  unfold prob
  rw [← ENNReal.toReal_ofReal hδ, ← ENNReal.toReal_add (PMF.apply_ne_top _ _) ENNReal.ofReal_ne_top]
  exact ENNReal.toReal_mono (ENNReal.add_ne_top.2 ⟨PMF.apply_ne_top _ _, ENNReal.ofReal_ne_top⟩) key

theorem prob_bind_abs {α : Type} (D : PMF α) {f g : α → PMF Bool} {δ : ℝ} (hδ : 0 ≤ δ) (h : ∀ a, |prob (f a) - prob (g a)| ≤ δ) :
    |prob (D.bind f) - prob (D.bind g)| ≤ δ := by
  have h1 := prob_bind_le_add D (f := f) (g := g) hδ fun a => by linarith [(abs_le.1 (h a)).2]
  have h2 := prob_bind_le_add D (f := g) (g := f) hδ fun a => by linarith [(abs_le.1 (h a)).1]
  rw [abs_le]
  constructor <;> linarith

theorem Near.nonneg {α : Type} {ε : ℝ} {D E : PMF α} (h : Near ε D E) : 0 ≤ ε := (abs_nonneg _).trans (h fun _ => .pure true)

theorem Near.bind {α : Type} {ε δ : ℝ} {D E : PMF α} (h : Near ε D E) (hδ : 0 ≤ δ) {f g : α → PMF Bool} (hfg : ∀ a, |prob (f a) - prob (g a)| ≤ δ) :
    |prob (D.bind f) - prob (E.bind g)| ≤ ε + δ :=
  (abs_sub_le _ (prob (D.bind g)) _).trans (by linarith [prob_bind_abs D hδ hfg, h g])

omit [DecidableEq K] in
theorem prob_uniform_cons [Fintype K] {n : Nat} (f : (Fin (n + 1) → K) → PMF Bool) :
    prob ((PMF.uniformOfFintype (Fin (n + 1) → K)).bind f) =
      prob ((PMF.uniformOfFintype K).bind fun x => (PMF.uniformOfFintype (Fin n → K)).bind fun r => f (Fin.cons (α := fun _ => K) x r)) := by
  rw [prob_uniform, prob_uniform]
  simp only [prob_uniform]
  rw [← (Fin.consEquiv fun _ => K).sum_comp, Fintype.sum_prod_type, ← Finset.sum_div, div_div]
  congr 1
  simp only [Fintype.card_pi, Finset.prod_const, Finset.card_univ, Fintype.card_fin, Nat.cast_pow]
  rw [pow_succ]

omit [DecidableEq K] in
theorem near_vector [Fintype K] {ε : ℝ} {D : PMF K} (h : Near ε D (PMF.uniformOfFintype K)) :
    ∀ n : Nat, Near (n * ε) (genRandomScalarVector D n) (PMF.uniformOfFintype (Fin n → K))
  | 0 => fun f => by
    have h0 : ∀ r : Fin 0 → K, r = Fin.elim0 := fun r => Subsingleton.elim _ _
    have : (PMF.uniformOfFintype (Fin 0 → K)).bind f = f Fin.elim0 := bind_const' fun r => by rw [h0 r]
    rw [this]
    simp [genRandomScalarVector]
  | n + 1 => fun f => by
    rw [prob_uniform_cons]
    simp only [genRandomScalarVector, PMF.bind_bind, PMF.bind_map, Function.comp_def]
    have := h.bind (mul_nonneg n.cast_nonneg h.nonneg) (f := fun x => (genRandomScalarVector D n).bind fun r => f (Fin.cons (α := fun _ => K) x r))
      (g := fun x => (PMF.uniformOfFintype (Fin n → K)).bind fun r => f (Fin.cons (α := fun _ => K) x r)) fun x => near_vector h n _
    refine this.trans (le_of_eq ?_)
    push_cast
    ring

/-! ## The game -/

theorem exec_near [Fintype K] {ε : ℝ} {D : PMF K} (h : Near ε D (PMF.uniformOfFintype K)) (c : Curve K P Q QP T) (priv : MasterPrivateKey K)
    (chal : T → T → Option (CipherText P T)) (A : Attacker K P Q QP T) : ∀ (n : Nat) (used : Bool), A.Within n →
    |prob (A.exec (userKeysFrom D c priv) chal used) - prob (A.exec (userKeys c priv) chal used)| ≤ n * ε := by
  have h0 := h.nonneg
  induction A with
  | guess b =>
    intro n used _
    simp only [Attacker.exec, sub_self, abs_zero]
    positivity
  | toss next ih =>
    intro n used hw
    simp only [Attacker.exec]
    exact prob_bind_abs _ (by positivity) fun x => ih x n used (hw x)
  | choose k next ih =>
    intro n used hw
    simp only [Attacker.exec]
    exact prob_bind_abs _ (by positivity) fun x => ih x n used (hw x)
  | key p ap next ih =>
    intro n used hw
    simp only [Attacker.exec, userKeysFrom, userKeys, PMF.bind_map, Function.comp_def]
    have := (near_vector h (keyDraws p ap)).bind (δ := (n - keyDraws p ap : Nat) * ε) (by positivity) (fun r =>
      ih ((engineGenerateUserKey (bls c) p priv ap (pad r)).toOption) _ used (hw.2 _))
    refine this.trans (le_of_eq ?_)
    rw [Nat.cast_sub hw.1]
    ring
  | challenge m0 m1 next ih =>
    intro n used hw
    simp only [Attacker.exec]
    split
    · exact ih _ n true (hw _)
    · exact ih _ n true (hw _)

theorem prob_map_abs (E E' : PMF Bool) (b : Bool) : |prob (E.map (· == b)) - prob (E'.map (· == b))| = |prob E - prob E'| := by
  cases b
  · rw [prob_map_false, prob_map_false, ← abs_neg]
    congr 1
    ring
  · rw [prob_map_true, prob_map_true]

theorem selective_near [Fintype K] {ε : ℝ} {D : PMF K} (h : Near ε D (PMF.uniformOfFintype K)) (c : Curve K P Q QP T) (t : Target) (size : Nat)
    (gamma : List UInt32) (A : MasterPublicKey P T → DelegationKey Q → Attacker K P Q QP T) (n : Nat) (hA : ∀ pk dk, (A pk dk).Within n) :
    |prob (selectiveGameFrom D c t size gamma A) - prob (selectiveGame c t size gamma A)| ≤ (size + 2 + n : Nat) * ε := by
  have h0 := h.nonneg
  have key : ∀ (s y : K) (b : Bool) (rnd : Fin size → K), |prob (match generateMasterKey (bls c) size (pad rnd) y with
        | .ok mk => ((A mk.pubKey mk.delKey).exec (userKeysFrom D c mk.privKey)
            (fun m0 m1 => (encrypt (bls c) t (if b then m1 else m0) gamma mk.pubKey s).toOption) false).map (· == b)
        | _ => PMF.uniformOfFintype Bool) - prob (selectiveRun c t size gamma A s y b rnd)| ≤ n * ε := by
    intro s y b rnd
    unfold selectiveRun
    cases generateMasterKey (bls c) size (pad rnd) y with
    | ok mk =>
      simp only [prob_map_abs]
      exact exec_near h c _ _ _ n false (hA _ _)
    | err e =>
      simp only [sub_self, abs_zero]
      positivity
    | panic =>
      simp only [sub_self, abs_zero]
      positivity
  have : |prob (selectiveGameFrom D c t size gamma A) - prob (selectiveGame c t size gamma A)| ≤ ε + (ε + (size * ε + n * ε)) :=
    h.bind (by positivity) fun s => h.bind (by positivity) fun y => prob_bind_abs (PMF.uniformOfFintype Bool) (by positivity) fun b =>
      (near_vector h size).bind (by positivity) fun rnd => key s y b rnd
  refine this.trans (le_of_eq ?_)
  push_cast
  ring

/-! ## The game of all messages -/

theorem Near.bind_bind {α β : Type} {ε : ℝ} {D E : PMF α} (h : Near ε D E) {δ : ℝ} (hδ : 0 ≤ δ) {f g : α → PMF β} (hfg : ∀ a, Near δ (f a) (g a)) :
    Near (ε + δ) (D.bind f) (E.bind g) := fun test => by
  rw [PMF.bind_bind, PMF.bind_bind]
  exact h.bind hδ fun a => hfg a test

theorem Near.refl {α : Type} (D : PMF α) : Near 0 D D := fun test => by rw [sub_self, abs_zero]

theorem Near.mono {α : Type} {ε δ : ℝ} {D E : PMF α} (h : Near ε D E) (hd : ε ≤ δ) : Near δ D E := fun test => (h test).trans hd

omit [DecidableEq K] in
theorem sendFresh_near [Fintype K] [Fintype Nonce] [Nonempty Nonce] {ε ε' : ℝ} {D E : PMF K} (h : Near ε D (PMF.uniformOfFintype K))
    (h' : Near ε' E (PMF.uniformOfFintype K)) (e : External Key Nonce) (c : Curve K P Q QP T) (cs : Codecs K P Q T) (t : Target)
    (max : Nat) (pub : MasterPublicKey P T) (p : Policy) (attrs : List Attribute) (m : HybridMsg) :
    Near (ε + ε') (sendFreshFrom D E e c cs t max pub p attrs m) (sendFresh e c cs t max pub p attrs m) :=
  h.bind_bind h'.nonneg fun s => by
    have := h'.bind_bind le_rfl fun x => Near.refl ((PMF.uniformOfFintype (Fin (m.blocks.length + 1) → Nonce)).map fun ν =>
      (encryptHybrid e c cs t max p pub attrs m (x • c.genT) s (padNonce ν)).toOption)
    rwa [add_zero] at this

theorem execMany_near [Fintype K] [Fintype Nonce] [Nonempty Nonce] {ε ε' : ℝ} {D E : PMF K} (h : Near ε D (PMF.uniformOfFintype K))
    (h' : Near ε' E (PMF.uniformOfFintype K)) (e : External Key Nonce) (c : Curve K P Q QP T) (cs : Codecs K P Q T) (t : Target) (max : Nat)
    (pub : MasterPublicKey P T) (priv : MasterPrivateKey K) {q : Nat} (posts : Fin q → Policy × List Attribute) (sel : Nat → HybridMsg → HybridMsg → HybridMsg)
    (A : HybridAttacker K Q QP) : ∀ (n count : Nat), A.Within n →
    |prob (A.execMany (userKeysFrom D c priv) (sendManyFrom D E e c cs t max pub posts sel) count) -
      prob (A.execMany (userKeys c priv) (sendMany e c cs t max pub posts sel) count)| ≤ n * ε + (q - count : Nat) * (ε + ε') := by
  have h0 := h.nonneg
  have h0' := h'.nonneg
  induction A with
  | guess b =>
    intro n count _
    simp only [HybridAttacker.execMany, sub_self, abs_zero]
    positivity
  | toss next ih =>
    intro n count hw
    simp only [HybridAttacker.execMany]
    exact prob_bind_abs _ (by positivity) fun x => ih x n count (hw x)
  | choose k next ih =>
    intro n count hw
    simp only [HybridAttacker.execMany]
    exact prob_bind_abs _ (by positivity) fun x => ih x n count (hw x)
  | key p ap next ih =>
    intro n count hw
    simp only [HybridAttacker.execMany, userKeysFrom, userKeys, PMF.bind_map, Function.comp_def]
    have := (near_vector h (keyDraws p ap)).bind (δ := (n - keyDraws p ap : Nat) * ε + (q - count : Nat) * (ε + ε')) (by positivity) (fun r =>
      ih ((engineGenerateUserKey (bls c) p priv ap (pad r)).toOption) _ count (hw.2 _))
    refine this.trans (le_of_eq ?_)
    rw [Nat.cast_sub hw.1]
    ring
  | challenge m0 m1 next ih =>
    intro n count hw
    simp only [HybridAttacker.execMany]
    by_cases hc : count < q
    · simp only [sendManyFrom, sendMany, hc, dif_pos]
      refine ((sendFresh_near h h' e c cs t max pub _ _ _).bind (by positivity) fun r => ih r n (count + 1) (hw r)).trans (le_of_eq ?_)
      rw [show q - count = (q - (count + 1)) + 1 by omega]
      push_cast
      ring
    · simp only [sendManyFrom, sendMany, hc, dif_neg, not_false_eq_true, PMF.pure_bind]
      refine (ih none n (count + 1) (hw none)).trans (le_of_eq ?_)
      rw [show q - count = 0 by omega, show q - (count + 1) = 0 by omega]

theorem system_near [Fintype K] [Fintype Nonce] [Nonempty Nonce] {ε ε' : ℝ} {D E : PMF K} (h : Near ε D (PMF.uniformOfFintype K))
    (h' : Near ε' E (PMF.uniformOfFintype K)) (e : External Key Nonce) (c : Curve K P Q QP T) (cs : Codecs K P Q T) (t : Target) (max : Nat) (p0 : Policy) {q : Nat}
    (posts : Fin q → Policy × List Attribute) (A : MasterPublicKey P T → DelegationKey Q → HybridAttacker K Q QP) (n : Nat) (hA : ∀ pk dk, (A pk dk).Within n) :
    |prob (systemGameFrom D E e c cs t max p0 posts A) - prob (systemGame e c cs t max p0 posts A)| ≤
      (p0.maxAttributeCreations.toNat + 1 + n + q : Nat) * ε + q * ε' := by
  have h0 := h.nonneg
  have h0' := h'.nonneg
  have key : ∀ (y : K) (b : Bool) (rnd : Fin p0.maxAttributeCreations.toNat → K), |prob (match engineGenerateMasterKey (bls c) p0 (pad rnd) y with
        | .ok mk => ((A mk.pubKey mk.delKey).execMany (userKeysFrom D c mk.privKey)
            (sendManyFrom D E e c cs t max mk.pubKey posts fun _ m0 m1 => if b then m1 else m0) 0).map (· == b)
        | _ => PMF.uniformOfFintype Bool) - prob (systemRun e c cs t max p0 posts A y b rnd)| ≤ n * ε + q * (ε + ε') := by
    intro y b rnd
    unfold systemRun
    cases engineGenerateMasterKey (bls c) p0 (pad rnd) y with
    | ok mk =>
      simp only [prob_map_abs]
      exact execMany_near h h' e c cs t max _ _ posts _ _ n 0 (hA _ _)
    | err e =>
      simp only [sub_self, abs_zero]
      positivity
    | panic =>
      simp only [sub_self, abs_zero]
      positivity
  have : |prob (systemGameFrom D E e c cs t max p0 posts A) - prob (systemGame e c cs t max p0 posts A)| ≤
      ε + (p0.maxAttributeCreations.toNat * ε + (n * ε + q * (ε + ε'))) :=
    h.bind (by positivity) fun y => prob_bind_abs (PMF.uniformOfFintype Bool) (by positivity) fun b =>
      (near_vector h p0.maxAttributeCreations.toNat).bind (by positivity) fun rnd => key y b rnd
  refine this.trans (le_of_eq ?_)
  push_cast
  ring

/-! ## The game of forgeries -/

theorem near_bind_same {α β : Type} (D : PMF α) {δ : ℝ} (hδ : 0 ≤ δ) {f g : α → PMF β} (h : ∀ a, Near δ (f a) (g a)) : Near δ (D.bind f) (D.bind g) := by
  have := (Near.refl D).bind_bind hδ h
  rwa [zero_add] at this

/-- Messages whose header was not asked for. -/
def unasked {q : Nat} (σ : Fin q → Session Key) : Nat := (Finset.univ.filter fun j => (σ j).asked = false).card

theorem unasked_update {q : Nat} (σ : Fin q → Session Key) (j : Fin q) (h : (σ j).asked = false) (s : Session Key) (hs : s.asked = true) :
    unasked σ = unasked (Function.update σ j s) + 1 := by
  unfold unasked
  rw [← Finset.card_erase_add_one (a := j) (by simp [h])]
  congr 2
  ext i
  by_cases hi : i = j
  · subst hi
    simp [hs]
  · simp [hi]

theorem unasked_keep {q : Nat} (σ : Fin q → Session Key) (j : Fin q) (s : Session Key) (hs : s.asked = (σ j).asked) :
    unasked (Function.update σ j s) = unasked σ := by
  unfold unasked
  congr 2
  ext i
  by_cases hi : i = j
  · subst hi
    simp [hs]
  · simp [hi]

theorem forger_near [Fintype K] [Fintype Nonce] [Nonempty Nonce] {ε ε' : ℝ} {D E : PMF K} (h : Near ε D (PMF.uniformOfFintype K))
    (h' : Near ε' E (PMF.uniformOfFintype K)) (e : External Key Nonce) (c : Curve K P Q QP T) (max : Nat) (priv : MasterPrivateKey K) {q : Nat}
    (hdr : Fin q → K → K → Option Metadata → Nonce → Option (Key × Bytes)) (A : SystemForger K Q QP q) : ∀ (n : Nat) (σ : Fin q → Session Key), A.KeysWithin n →
    Near (n * ε + unasked σ * (ε + ε')) (A.execFrom D E e max (userKeysFrom D c priv) hdr σ) (A.exec e max (userKeys c priv) hdr σ) := by
  have h0 := h.nonneg
  have h0' := h'.nonneg
  induction A with
  | stop =>
    intro n σ _
    simp only [SystemForger.exec, SystemForger.execFrom]
    exact (Near.refl _).mono (by positivity)
  | choose k next ih =>
    intro n σ hw
    simp only [SystemForger.exec, SystemForger.execFrom]
    exact near_bind_same _ (by positivity) fun x => ih x n σ (hw x)
  | key p ap next ih =>
    intro n σ hw
    simp only [SystemForger.exec, SystemForger.execFrom, userKeysFrom, userKeys, PMF.bind_map, Function.comp_def]
    refine ((near_vector h (keyDraws p ap)).bind_bind (δ := (n - keyDraws p ap : Nat) * ε + unasked σ * (ε + ε')) (by positivity) (fun r =>
      ih ((engineGenerateUserKey (bls c) p priv ap (pad r)).toOption) _ σ (hw.2 _))).mono (le_of_eq ?_)
    rw [Nat.cast_sub hw.1]
    ring
  | header j m next ih =>
    intro n σ hw
    simp only [SystemForger.exec, SystemForger.execFrom]
    by_cases ha : (σ j).asked = true
    · rw [if_pos ha, if_pos ha]
      exact ih _ n σ (hw _)
    · rw [if_neg ha, if_neg ha]
      rw [Bool.not_eq_true] at ha
      have hu : 1 ≤ unasked σ := by
        have := unasked_update σ j ha { asked := true } rfl
        omega
      refine (h.bind_bind (δ := ε' + (n * ε + (unasked σ - 1 : Nat) * (ε + ε'))) (by positivity) fun s => h'.bind_bind (by positivity) fun x =>
        near_bind_same _ (by positivity) fun ν => ?_).mono (le_of_eq ?_)
      · have := ih ((hdr j s x m ν).map Prod.snd) n
          (Function.update σ j { asked := true, key := (hdr j s x m ν).map Prod.fst, metaData := m, blocks := [] }) (hw _)
        rw [unasked_update σ j ha { asked := true, key := (hdr j s x m ν).map Prod.fst, metaData := m, blocks := [] } rfl, Nat.add_sub_cancel]
        exact this
      · rw [Nat.cast_sub hu]
        push_cast
        ring
  | block j uid i plaintext next ih =>
    intro n σ hw
    simp only [SystemForger.exec, SystemForger.execFrom]
    refine near_bind_same _ (by positivity) fun ν => ?_
    cases (σ j).key.bind fun k => (encryptHybridBlock e max k uid i plaintext ν).toOption with
    | none => exact ih _ n σ (hw _)
    | some b =>
      have := ih (some b) n (Function.update σ j { σ j with blocks := (uid, i, b) :: (σ j).blocks }) (hw _)
      rwa [unasked_keep] at this
      rfl
  | tryBlock j uid i b next ih =>
    intro n σ hw
    simp only [SystemForger.exec, SystemForger.execFrom]
    cases (σ j).key.bind fun k => (decryptHybridBlock e max k uid i b).toOption with
    | none => exact ih _ n σ (hw _)
    | some x =>
      simp only
      split
      · exact ih _ n σ (hw _)
      · exact (Near.refl _).mono (by positivity)
  | tryTail j tail next ih =>
    intro n σ hw
    simp only [SystemForger.exec, SystemForger.execFrom]
    cases (σ j).key.bind fun k => readTail e k tail with
    | none => exact ih _ n σ (hw _)
    | some m =>
      simp only
      split
      · exact ih _ n σ (hw _)
      · exact (Near.refl _).mono (by positivity)

theorem forgery_near [Fintype K] [Fintype Nonce] [Nonempty Nonce] {ε ε' : ℝ} {D E : PMF K} (h : Near ε D (PMF.uniformOfFintype K))
    (h' : Near ε' E (PMF.uniformOfFintype K)) (e : External Key Nonce) (c : Curve K P Q QP T) (cs : Codecs K P Q T) (t : Target) (max : Nat) (p0 : Policy) {q : Nat}
    (posts : Fin q → Policy × List Attribute) (A : MasterPublicKey P T → DelegationKey Q → SystemForger K Q QP q) (n : Nat) (hA : ∀ pk dk, (A pk dk).KeysWithin n) :
    |prob (systemForgeryGameFrom D E e c cs t max p0 posts A) - prob (systemForgeryGame e c cs t max p0 posts A)| ≤
      (p0.maxAttributeCreations.toNat + 1 + n + q : Nat) * ε + q * ε' := by
  have h0 := h.nonneg
  have h0' := h'.nonneg
  have key : ∀ (y : K) (rnd : Fin p0.maxAttributeCreations.toNat → K), Near (n * ε + q * (ε + ε')) (match engineGenerateMasterKey (bls c) p0 (pad rnd) y with
      | .ok mk => (A mk.pubKey mk.delKey).execFrom D E e max (userKeysFrom D c mk.privKey) (fun j s x m ν =>
          (encryptHybridHeader e (bls c) cs t (posts j).1 mk.pubKey (posts j).2 m (x • c.genT) s ν).toOption.map fun h =>
            (h.symmetricKey, h.encryptedHeaderBytes)) fun _ => {}
      | _ => .pure none : PMF (Option (Fin q))) (systemForgeryRun e c cs t max p0 posts A y rnd) := by
    intro y rnd
    unfold systemForgeryRun
    cases engineGenerateMasterKey (bls c) p0 (pad rnd) y with
    | ok mk =>
      have := forger_near h h' e c max mk.privKey (fun j s x m ν =>
        (encryptHybridHeader e (bls c) cs t (posts j).1 mk.pubKey (posts j).2 m (x • c.genT) s ν).toOption.map fun h =>
          (h.symmetricKey, h.encryptedHeaderBytes)) (A mk.pubKey mk.delKey) n (fun _ => {}) (hA _ _)
      rwa [show unasked (fun _ : Fin q => ({} : Session Key)) = q by simp [unasked]] at this
    | err e => exact (Near.refl _).mono (by positivity)
    | panic => exact (Near.refl _).mono (by positivity)
  have : |prob (systemForgeryGameFrom D E e c cs t max p0 posts A) - prob (systemForgeryGame e c cs t max p0 posts A)| ≤
      ε + (p0.maxAttributeCreations.toNat * ε + (n * ε + q * (ε + ε'))) :=
    h.bind (by positivity) fun y => (near_vector h p0.maxAttributeCreations.toNat).bind (by positivity) fun rnd => key y rnd _
  refine this.trans (le_of_eq ?_)
  push_cast
  ring

/-! ## Reduction of a long number -/

theorem count_cast (q N : Nat) [NeZero q] (x : ZMod q) :
    (Finset.univ.filter fun i : Fin N => ((i : Nat) : ZMod q) = x).card = N / q + if x.val < N % q then 1 else 0 := by
  have h1 : (Finset.univ.filter fun i : Fin N => ((i : Nat) : ZMod q) = x).card = N.count (· ≡ x.val [MOD q]) := by
    rw [Nat.count_eq_card_filter_range]
    refine Finset.card_bij (fun i _ => i.1) (fun i hi => ?_) (fun i _ j _ h => Fin.ext h) fun i hi => ?_
    · simp only [Finset.mem_filter, Finset.mem_univ, true_and, Finset.mem_range] at hi ⊢
      exact ⟨i.2, by rw [← ZMod.natCast_eq_natCast_iff, hi, ZMod.natCast_zmod_val]⟩
    · simp only [Finset.mem_filter, Finset.mem_range] at hi
      refine ⟨⟨i, hi.1⟩, ?_, rfl⟩
      simp only [Finset.mem_filter, Finset.mem_univ, true_and]
      rw [(ZMod.natCast_eq_natCast_iff _ _ _).2 hi.2, ZMod.natCast_zmod_val]
  rw [h1, Nat.count_modEq_card _ (Nat.pos_of_ne_zero (NeZero.ne q)), Nat.mod_eq_of_lt (ZMod.val_lt x)]

theorem count_near (q N : Nat) [NeZero q] (x : ZMod q) :
    |((Finset.univ.filter fun i : Fin N => ((i : Nat) : ZMod q) = x).card : ℝ) - (N : ℝ) / q| ≤ 1 := by
  have hq : (0 : ℝ) < q := by exact_mod_cast Nat.pos_of_ne_zero (NeZero.ne q)
  have hm : ((N % q : Nat) : ℝ) < q := by exact_mod_cast Nat.mod_lt N (Nat.pos_of_ne_zero (NeZero.ne q))
  have hN : (N : ℝ) / q = (N / q : Nat) + ((N % q : Nat) : ℝ) / q := by
    have : ((q * (N / q) + N % q : Nat) : ℝ) = N := by rw [Nat.div_add_mod]
    rw [Nat.cast_add, Nat.cast_mul] at this
    rw [div_eq_iff hq.ne', add_mul, div_mul_cancel₀ _ hq.ne']
    linarith
  have h0 : 0 ≤ ((N % q : Nat) : ℝ) / q := by positivity
  have h1 : ((N % q : Nat) : ℝ) / q ≤ 1 := by rw [div_le_one hq]; exact hm.le
  rw [count_cast, hN, abs_le]
  push_cast
  split <;> constructor <;> linarith

theorem prob_genRandScalar (q k : Nat) [NeZero q] (f : ZMod q → PMF Bool) :
    prob ((genRandScalar q k).bind f) =
      (∑ x, ((Finset.univ.filter fun i : Fin (256 ^ k) => ((i : Nat) : ZMod q) = x).card : ℝ) * prob (f x)) / (256 ^ k : Nat) := by
  have hc : Fintype.card (ByteArrayOf k) = 256 ^ k := by rw [Fintype.card_congr (ByteArrayOf.equiv k), Fintype.card_fin]
  rw [genRandScalar, PMF.bind_map, prob_uniform, hc]
  congr 1
  rw [← (ByteArrayOf.equiv k).symm.sum_comp]
  simp only [Function.comp_def, fromBytesWide]
  have h1 : ∀ i : Fin (256 ^ k), ofLe ((ByteArrayOf.equiv k).symm i).1 = i := fun i => congrArg Fin.val ((ByteArrayOf.equiv k).apply_symm_apply i)
  simp only [h1]
  rw [← Finset.sum_fiberwise (s := Finset.univ) (g := fun i : Fin (256 ^ k) => ((i : Nat) : ZMod q))]
  refine Finset.sum_congr rfl fun x _ => ?_
  rw [Finset.sum_congr rfl (g := fun _ => prob (f x)) fun i hi => by rw [(Finset.mem_filter.1 hi).2], Finset.sum_const, nsmul_eq_mul]

theorem near_genRandScalar (q k : Nat) [NeZero q] : Near ((q : ℝ) / (256 ^ k : Nat)) (genRandScalar q k) (PMF.uniformOfFintype (ZMod q)) := by
  intro f
  have hq : (0 : ℝ) < q := by exact_mod_cast Nat.pos_of_ne_zero (NeZero.ne q)
  have hN : (0 : ℝ) < (256 ^ k : Nat) := by exact_mod_cast Nat.pow_pos (by norm_num)
  rw [prob_genRandScalar, prob_uniform, ZMod.card]
  generalize 256 ^ k = N at *
  have e : (∑ x, ((Finset.univ.filter fun i : Fin N => ((i : Nat) : ZMod q) = x).card : ℝ) * prob (f x)) / N - (∑ x, prob (f x)) / q =
      (∑ x, (((Finset.univ.filter fun i : Fin N => ((i : Nat) : ZMod q) = x).card : ℝ) - (N : ℝ) / q) * prob (f x)) / N := by
    simp only [sub_mul, Finset.sum_sub_distrib, ← Finset.mul_sum]
    field_simp
  rw [e, abs_div, abs_of_pos hN]
  refine div_le_div_of_nonneg_right ?_ hN.le
  refine (Finset.abs_sum_le_sum_abs _ _).trans ?_
  refine (Finset.sum_le_card_nsmul _ _ 1 fun x _ => ?_).trans (by simp [ZMod.card])
  rw [abs_mul, abs_of_nonneg (prob_nonneg _)]
  exact mul_le_one₀ (count_near q N x) (prob_nonneg _) (prob_le_one _)

theorem genRandScalar_apply (q k : Nat) [NeZero q] (x : ZMod q) :
    (genRandScalar q k x).toReal = ((Finset.univ.filter fun i : Fin (256 ^ k) => ((i : Nat) : ZMod q) = x).card : ℝ) / (256 ^ k : Nat) := by
  have h1 : prob ((genRandScalar q k).bind fun y => .pure (decide (y = x))) = (genRandScalar q k x).toReal := by
    unfold prob
    rw [PMF.bind_apply, tsum_eq_single x]
    · simp
    · intro y hy
      simp [hy]
  rw [← h1, prob_genRandScalar, Finset.sum_eq_single x]
  · simp [prob]
  · intro y _ hy
    simp [prob, hy]
  · simp

theorem genRandScalar_near (q k : Nat) [NeZero q] (x : ZMod q) : |(genRandScalar q k x).toReal - 1 / q| ≤ 1 / (256 ^ k : Nat) := by
  have hq : (0 : ℝ) < q := by exact_mod_cast Nat.pos_of_ne_zero (NeZero.ne q)
  have hN : (0 : ℝ) < (256 ^ k : Nat) := by exact_mod_cast Nat.pow_pos (by norm_num)
  rw [genRandScalar_apply]
  have := count_near q (256 ^ k) x
  generalize 256 ^ k = N at *
  have e : ((Finset.univ.filter fun i : Fin N => ((i : Nat) : ZMod q) = x).card : ℝ) / N - 1 / q =
      (((Finset.univ.filter fun i : Fin N => ((i : Nat) : ZMod q) = x).card : ℝ) - (N : ℝ) / q) / N := by field_simp
  rw [e, abs_div, abs_of_pos hN]
  exact div_le_div_of_nonneg_right this hN.le

theorem genRandScalar_ne_uniform {q k : Nat} [NeZero q] (h : ¬ q ∣ 256 ^ k) : genRandScalar q k ≠ PMF.uniformOfFintype (ZMod q) := by
  intro he
  have hq : (q : ℝ) ≠ 0 := by exact_mod_cast NeZero.ne q
  have hN : ((256 ^ k : Nat) : ℝ) ≠ 0 := by exact_mod_cast (Nat.pow_pos (by norm_num)).ne'
  have h1 := genRandScalar_apply q k 0
  rw [he, PMF.uniformOfFintype_apply, ENNReal.toReal_inv, ENNReal.toReal_natCast, ZMod.card] at h1
  apply h
  generalize 256 ^ k = N at *
  refine ⟨(Finset.univ.filter fun i : Fin N => ((i : Nat) : ZMod q) = 0).card, ?_⟩
  field_simp at h1
  have h2 : (N : ℝ) = ((q * (Finset.univ.filter fun i : Fin N => ((i : Nat) : ZMod q) = 0).card : Nat) : ℝ) := by
    rw [Nat.cast_mul]
    linarith
  exact_mod_cast h2

/-! ## Random elements of a group -/

theorem Near.map {α β : Type} {ε : ℝ} {D E : PMF α} (h : Near ε D E) (f : α → β) : Near ε (D.map f) (E.map f) := fun test => by
  rw [PMF.bind_map, PMF.bind_map]
  exact h _

/-- The image of a uniform element under a homomorphism onto a group is uniform. -/
theorem map_uniform_hom {U T : Type} [Group U] [Fintype U] [AddCommGroup T] [Fintype T] {φ : U → T} (hφ : ∀ a b, φ (a * b) = φ a + φ b)
    (hs : Function.Surjective φ) : (PMF.uniformOfFintype U).map φ = PMF.uniformOfFintype T := by
  classical
  have hfib : ∀ t, (Finset.univ.filter fun u => φ u = t).card = (Finset.univ.filter fun u => φ u = 0).card := by
    intro t
    obtain ⟨v, rfl⟩ := hs t
    refine Finset.card_bij (fun u _ => v⁻¹ * u) (fun u hu => ?_) (fun a _ b _ h => mul_left_cancel h) fun u hu => ⟨v * u, ?_, by simp⟩
    · simp only [Finset.mem_filter, Finset.mem_univ, true_and] at hu ⊢
      have := hφ v (v⁻¹ * u)
      rw [mul_inv_cancel_left, hu] at this
      simpa using this
    · simp only [Finset.mem_filter, Finset.mem_univ, true_and] at hu ⊢
      rw [hφ, hu, add_zero]
  have hcard : Fintype.card U = Fintype.card T * (Finset.univ.filter fun u => φ u = 0).card := by
    rw [← Finset.card_univ, Finset.card_eq_sum_card_fiberwise (f := φ) (t := Finset.univ) fun _ _ => Finset.mem_univ _, Finset.sum_congr rfl fun t _ => hfib t,
      Finset.sum_const, Finset.card_univ, smul_eq_mul]
  ext t
  rw [PMF.map_apply, tsum_fintype, ← Finset.sum_filter]
  simp only [PMF.uniformOfFintype_apply, Finset.sum_const, nsmul_eq_mul, eq_comm (a := t)]
  rw [hfib, hcard, Nat.cast_mul]
  have h0 : (Finset.univ.filter fun u => φ u = 0).card ≠ 0 := fun h => by simp [h] at hcard
  rw [ENNReal.mul_inv (.inr (ENNReal.natCast_ne_top _)) (.inl (ENNReal.natCast_ne_top _)), mul_comm, mul_assoc,
    ENNReal.inv_mul_cancel (by exact_mod_cast h0) (ENNReal.natCast_ne_top _), mul_one]

end Abe
