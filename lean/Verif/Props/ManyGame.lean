import Verif.Spec.ManyGame
import Verif.Props.AdaptiveGame

set_option linter.unusedSectionVars false

/-!
# Many ciphertexts

The reduction guesses the number of the challenge that tells the two cases apart.  It encrypts the second messages of the pairs before, and the first messages of
those after it, with the public key.
-/

namespace Abe

variable {K P Q QP T : Type} [Field K] [DecidableEq K] [AddCommGroup P] [Module K P] [AddCommGroup Q] [Module K Q]
  [AddCommGroup T] [Module K T]

/-- The attacker with challenge number `j` only; it makes the other ciphertexts itself. -/
def Attacker.only (c : Curve K P Q QP T) (t : Target) (pub : MasterPublicKey P T) {q : Nat} (gammas : Fin q → List UInt32) (j : Nat) :
    Attacker K P Q QP T → (count : Nat) → Attacker K P Q QP T
  | .guess g, _ => .guess g
  | .toss next, n => .toss fun x => (next x).only c t pub gammas j n
  | .choose m next, n => .choose m fun x => (next x).only c t pub gammas j n
  | .key p ap next, n => .key p ap fun k => (next k).only c t pub gammas j n
  | .challenge m0 m1 next, n =>
    if n = j then .challenge m0 m1 fun ct => (next ct).only c t pub gammas j (n + 1)
    else if h : n < q then
      .toss fun s => (next (encrypt (bls c) t (if n < j then m1 else m0) (gammas ⟨n, h⟩) pub s).toOption).only c t pub gammas j (n + 1)
    else (next none).only c t pub gammas j (n + 1)

theorem Attacker.only_fair (c : Curve K P Q QP T) (t : Target) (pub : MasterPublicKey P T) {q : Nat} (gammas : Fin q → List UInt32) (j : Nat)
    (gamma : List UInt32) : ∀ (A : Attacker K P Q QP T) (n : Nat), A.Fair gamma → (A.only c t pub gammas j n).Fair gamma := by
  intro A
  induction A with
  | guess g => intro _ _; trivial
  | toss next ih => intro n h x; exact ih x n (h x)
  | choose m next ih => intro n h x; exact ih x n (h x)
  | key p ap next ih => intro n h; exact ⟨h.1, h.2.1, fun k => ih k n (h.2.2 k)⟩
  | challenge m0 m1 next ih =>
    intro n h
    unfold Attacker.only
    split
    · exact fun x => ih x _ (h x)
    · split
      · exact fun s => ih _ _ (h _)
      · exact ih _ _ (h _)

/-- The second messages of the pairs before number `i`, the first messages from there on. -/
def firstSecond (i n : Nat) (m0 m1 : T) : T := if n < i then m1 else m0

theorem Attacker.only_after [Fintype K] (c : Curve K P Q QP T) (t : Target) (pub : MasterPublicKey P T) {q : Nat} (gammas : Fin q → List UInt32) (j : Nat)
    (keys : Policy → AccessPolicy → PMF (Option (DecryptionKey K QP Q))) (chal : T → T → Option (CipherText P T)) {i : Nat} (hi : i ≤ j + 1) :
    ∀ (A : Attacker K P Q QP T) (n : Nat), j < n →
      (A.only c t pub gammas j n).exec keys chal true = A.execMany keys (freshCts c t pub gammas (firstSecond i)) n := by
  intro A
  induction A with
  | guess g => intro _ _; rfl
  | toss next ih => intro n h; simp only [Attacker.only, Attacker.exec, Attacker.execMany, ih _ n h]
  | choose m next ih => intro n h; simp only [Attacker.only, Attacker.exec, Attacker.execMany, ih _ n h]
  | key p ap next ih => intro n h; simp only [Attacker.only, Attacker.exec, Attacker.execMany, ih _ n h]
  | challenge m0 m1 next ih =>
    intro n h
    simp only [Attacker.only, if_neg (Nat.ne_of_gt h), if_neg (Nat.lt_asymm h), Attacker.execMany, freshCts]
    have hs : firstSecond i n m0 m1 = m0 := if_neg (by omega)
    split
    · simp only [Attacker.exec, PMF.bind_map, ih _ (n + 1) (Nat.lt_succ_of_lt h), hs]
      rfl
    · rw [ih _ (n + 1) (Nat.lt_succ_of_lt h), PMF.pure_bind]

/-- With the first or the second message in its challenge, this attacker is in the game where the second messages begin with number `j` or after it. -/
theorem Attacker.only_exec [Fintype K] (c : Curve K P Q QP T) (t : Target) (pub : MasterPublicKey P T) {q : Nat} (gammas : Fin q → List UInt32) (j : Fin q)
    (keys : Policy → AccessPolicy → PMF (Option (DecryptionKey K QP Q))) (b : Bool) :
    ∀ (A : Attacker K P Q QP T) (n : Nat), n ≤ j →
      ((PMF.uniformOfFintype K).bind fun s => (A.only c t pub gammas j n).exec keys
        (fun m0 m1 => (encrypt (bls c) t (if b then m1 else m0) (gammas j) pub s).toOption) false) =
      A.execMany keys (freshCts c t pub gammas (firstSecond (if b then j + 1 else j))) n := by
  intro A
  induction A with
  | guess g => intro _ _; exact PMF.bind_const _ _
  | toss next ih =>
    intro n h
    simp only [Attacker.only, Attacker.exec, Attacker.execMany]
    rw [PMF.bind_comm]
    congr 1; funext x
    exact ih x n h
  | choose m next ih =>
    intro n h
    simp only [Attacker.only, Attacker.exec, Attacker.execMany]
    rw [PMF.bind_comm]
    congr 1; funext x
    exact ih x n h
  | key p ap next ih =>
    intro n h
    simp only [Attacker.only, Attacker.exec, Attacker.execMany]
    rw [PMF.bind_comm]
    congr 1; funext x
    exact ih x n h
  | challenge m0 m1 next ih =>
    intro n h
    have hq : n < q := Nat.lt_of_le_of_lt h j.2
    rcases Nat.lt_or_ge n j with hn | hn
    · have hs : firstSecond (if b then j.val + 1 else j.val) n m0 m1 = m1 := if_pos (by split <;> omega)
      simp only [Attacker.only, if_neg (Nat.ne_of_lt hn), if_pos hn, dif_pos hq, Attacker.exec, Attacker.execMany, freshCts, hs, PMF.bind_map]
      rw [PMF.bind_comm]
      congr 1; funext x
      exact ih _ (n + 1) hn
    · obtain rfl : n = j := Nat.le_antisymm h hn
      have hs : firstSecond (if b then j.val + 1 else j.val) j.val m0 m1 = if b then m1 else m0 := by cases b <;> simp [firstSecond]
      simp only [Attacker.only, if_true, Attacker.exec, Bool.false_eq_true, if_false, Attacker.execMany, freshCts, dif_pos hq, hs, PMF.bind_map]
      congr 1; funext x
      exact Attacker.only_after c t pub gammas j keys _ (by cases b <;> simp) _ _ (Nat.lt_succ_self _)

theorem gain_eq (E : Bool → PMF Bool) : gain E = prob (E true) - prob (E false) := by
  unfold gain
  rw [prob_map_true, prob_map_false]
  ring

theorem freshCts_congr [Fintype K] (c : Curve K P Q QP T) (t : Target) (pub : MasterPublicKey P T) {q : Nat} (gammas : Fin q → List UInt32)
    {sel sel' : Nat → T → T → T} (h : ∀ n, n < q → sel n = sel' n) : freshCts c t pub gammas sel = freshCts c t pub gammas sel' := by
  funext n m0 m1
  unfold freshCts
  split
  · rename_i hn
    rw [h n hn]
  · rfl

/-- **C84.** The advantage of an attacker with many challenges is the sum of the advantages, in the selective game, of the attackers with one of the challenges only. -/
theorem C84_many_advantage [Fintype K] (c : Curve K P Q QP T) (t : Target) (size : Nat) {q : Nat} (gammas : Fin q → List UInt32)
    (A : MasterPublicKey P T → DelegationKey Q → Attacker K P Q QP T) :
    prob (manyGame c t size gammas A) - 1 / 2 =
      ∑ j, (prob (selectiveGame c t size (gammas j) fun pk dk => (A pk dk).only c t pk gammas j 0) - 1 / 2) := by
  have hcoin : prob (PMF.uniformOfFintype Bool) = 1 / 2 := by simp [prob]
  have order : ∀ j : Fin q, (selectiveGame c t size (gammas j) fun pk dk => (A pk dk).only c t pk gammas j 0) =
      (PMF.uniformOfFintype K).bind fun y => (PMF.uniformOfFintype (Fin size → K)).bind fun rnd => (PMF.uniformOfFintype Bool).bind fun b =>
        (PMF.uniformOfFintype K).bind fun s => selectiveRun c t size (gammas j) (fun pk dk => (A pk dk).only c t pk gammas j 0) s y b rnd := by
    intro j
    unfold selectiveGame
    rw [PMF.bind_comm]
    congr 1; funext y
    rw [PMF.bind_comm]
    conv_rhs => rw [PMF.bind_comm]
    congr 1; funext b
    rw [PMF.bind_comm]
  simp only [order]
  refine prob_sum fun y => ?_
  have comm : ∀ f : Bool → (Fin size → K) → PMF Bool, ((PMF.uniformOfFintype Bool).bind fun b => (PMF.uniformOfFintype (Fin size → K)).bind fun rnd => f b rnd) =
      (PMF.uniformOfFintype (Fin size → K)).bind fun rnd => (PMF.uniformOfFintype Bool).bind fun b => f b rnd := fun f => PMF.bind_comm _ _ _
  rw [comm]
  refine prob_sum fun rnd => ?_
  unfold manyRun selectiveRun
  cases hmk : generateMasterKey (bls c) size (pad rnd) y with
  | ok mk =>
    simp only [← PMF.map_bind, prob_bool, Attacker.only_exec c t mk.pubKey gammas _ _ _ _ 0 (Nat.zero_le _)]
    rw [← Finset.sum_div]
    congr 1
    simp only [gain_eq, if_true, Bool.false_eq_true, if_false]
    rw [Fin.sum_univ_eq_sum_range (fun j => prob ((A mk.pubKey mk.delKey).execMany (userKeys c mk.privKey) (freshCts c t mk.pubKey gammas (firstSecond (j + 1))) 0) -
      prob ((A mk.pubKey mk.delKey).execMany (userKeys c mk.privKey) (freshCts c t mk.pubKey gammas (firstSecond j)) 0)) q, Finset.sum_range_sub
      (fun j => prob ((A mk.pubKey mk.delKey).execMany (userKeys c mk.privKey) (freshCts c t mk.pubKey gammas (firstSecond j)) 0)),
      freshCts_congr c t mk.pubKey gammas (sel := fun _ _ m1 => m1) (sel' := firstSecond q) (fun n hn => by funext m0 m1; exact (if_pos hn).symm),
      freshCts_congr c t mk.pubKey gammas (sel := fun _ m0 _ => m0) (sel' := firstSecond 0) (fun n hn => by funext m0 m1; simp [firstSecond])]
  | err e => simp [PMF.bind_const, hcoin]
  | panic => simp [PMF.bind_const, hcoin]

/-- The reduction: it guesses the number of the challenge that matters. -/
noncomputable def manyDistinguisher [Fintype K] (c : Curve K P Q QP T) (t : Target) (size : Nat) {q : Nat} (gammas : Fin (q + 1) → List UInt32)
    (A : MasterPublicKey P T → DelegationKey Q → Attacker K P Q QP T) (I : Bdh P Q T) : PMF Bool :=
  (PMF.uniformOfFintype (Fin (q + 1))).bind fun j => distinguisher c size (gammas j) (fun pk dk => (A pk dk).only c t pk gammas j 0) I

/-- **C84.** Security with many challenges: the advantage is at most the number of challenges times the advantage of the reduction in telling products from random
elements. -/
theorem C84_many_security [Fintype K] (c : Curve K P Q QP T) (hT : ∀ m : T, ∃ x : K, m = x • c.genT) (t : Target) (size : Nat) {q : Nat}
    (gammas : Fin (q + 1) → List UInt32) (A : MasterPublicKey P T → DelegationKey Q → Attacker K P Q QP T) (hA : ∀ pk dk j, (A pk dk).Fair (gammas j)) :
    |prob (manyGame c t size gammas A) - 1 / 2| ≤ (q + 1) *
      |prob ((bdhReal c).bind (manyDistinguisher c t size gammas A)) - prob ((bdhRandom c).bind (manyDistinguisher c t size gammas A))| := by
  have avg : ∀ E : PMF (Bdh P Q T), (q + 1 : ℝ) * prob (E.bind (manyDistinguisher c t size gammas A)) =
      ∑ j, prob (E.bind (distinguisher c size (gammas j) fun pk dk => (A pk dk).only c t pk gammas j 0)) := by
    intro E
    have : E.bind (manyDistinguisher c t size gammas A) = (PMF.uniformOfFintype (Fin (q + 1))).bind fun j =>
        E.bind (distinguisher c size (gammas j) fun pk dk => (A pk dk).only c t pk gammas j 0) := PMF.bind_comm _ _ _
    rw [this, prob_uniform, Fintype.card_fin]
    have hN : (q + 1 : ℝ) ≠ 0 := by positivity
    push_cast
    field_simp
  rw [C84_many_advantage c t size gammas A]
  have hs : ∀ j : Fin (q + 1), _ := fun j => selective_signed c hT t size (gammas j) (fun pk dk => (A pk dk).only c t pk gammas j 0)
    fun pk dk => (A pk dk).only_fair c t pk gammas j _ 0 (hA pk dk j)
  simp only [hs]
  rw [← Finset.mul_sum, Finset.sum_sub_distrib, ← avg, ← avg, ← mul_sub, abs_mul, abs_mul, abs_of_nonneg (factor_bounds size).1,
    abs_of_nonneg (by positivity : (0 : ℝ) ≤ q + 1)]
  exact mul_le_of_le_one_left (by positivity) (factor_bounds size).2

namespace Demo

/-- An attacker with two challenges and a key for `MKG`; the second pair of messages depends on the first ciphertext. -/
def twice (pick : Option (CipherText F F) → F × F) (look : Option (DecryptionKey F F F) → Option (CipherText F F) → Option (CipherText F F) → Bool)
    (_ : MasterPublicKey F F) (_ : DelegationKey F) : Attacker F F F F F :=
  .key policy (.attr mkg) fun k => .challenge 3 5 fun ct => .challenge (pick ct).1 (pick ct).2 fun ct' => .guess (look k ct ct')

theorem twice_fair (pick look) (pk dk) (j : Fin 2) : (twice pick look pk dk).Fair (named j) := by
  refine ⟨policy_reachable, ?_, fun _ _ _ => trivial⟩
  rintro ⟨b, h1, v, h2, h4⟩
  refine mkg_unauthorised ⟨b, h1, v, h2, ?_⟩
  revert h4 j
  rw [Fin.forall_fin_two]
  exact ⟨fun h => List.mem_cons_of_mem _ h, fun h => h⟩

/-- **C84** for this attacker, whatever it picks and computes. -/
example (pick look) : |prob (manyGame curveF .release64 20 named (twice pick look)) - 1 / 2| ≤ ((1 : Nat) + 1) *
    |prob ((bdhReal curveF).bind (manyDistinguisher curveF .release64 20 named (twice pick look))) -
      prob ((bdhRandom curveF).bind (manyDistinguisher curveF .release64 20 named (twice pick look)))| :=
  C84_many_security curveF (fun m => ⟨m, by simp [curveF]⟩) .release64 20 named (twice pick look) (twice_fair pick look)

end Demo

end Abe
