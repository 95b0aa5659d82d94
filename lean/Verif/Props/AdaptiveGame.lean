import Verif.Spec.AdaptiveGame
import Verif.Props.HybridGame
import Verif.Props.DelegationGame

set_option linter.unusedSectionVars false

/-!
# Attackers who choose the attribute values of the challenge late

The reduction guesses the values that will be named.  If it is wrong, it gives up and tosses a coin.
-/

namespace Abe

variable {K P Q QP T : Type} [Field K] [DecidableEq K] [AddCommGroup P] [Module K P] [AddCommGroup Q] [Module K Q]
  [AddCommGroup T] [Module K T]

/-- A coin toss. -/
def Attacker.giveUp : Attacker K P Q QP T := .choose 1 fun x => .guess (x == 0)

/-- The attacker after its challenge. -/
def Adaptive.rest : Adaptive K P Q QP T → Attacker K P Q QP T
  | .guess g => .guess g
  | .toss next => .toss fun x => (next x).rest
  | .choose n next => .choose n fun x => (next x).rest
  | .key p ap next => .key p ap fun k => (next k).rest
  | .challenge _ _ _ next => (next none).rest

open Classical in
/-- The attacker committed to the values `gamma`: it gives up when it is about to ask for a key that opens them, or names other values. -/
noncomputable def Adaptive.commit (gamma : List UInt32) : Adaptive K P Q QP T → Attacker K P Q QP T
  | .guess g => .guess g
  | .toss next => .toss fun x => (next x).commit gamma
  | .choose n next => .choose n fun x => (next x).commit gamma
  | .key p ap next => if Opens gamma (p, ap) then .giveUp else .key p ap fun k => (next k).commit gamma
  | .challenge gamma' m0 m1 next => if gamma' = gamma then .challenge m0 m1 fun ct => (next ct).rest else .giveUp

theorem Adaptive.rest_fair {choices : List UInt32 → Prop} {gamma : List UInt32} : ∀ (A : Adaptive K P Q QP T) (asked : List (Policy × AccessPolicy)),
    A.Fair choices asked (some gamma) → A.rest.Fair gamma := by
  intro A
  induction A with
  | guess g => intro _ _; trivial
  | toss next ih => intro asked h x; exact ih x asked (h x)
  | choose n next ih => intro asked h x; exact ih x asked (h x)
  | key p ap next ih => intro asked h; exact ⟨h.1, h.2.1 gamma rfl, fun k => ih k _ (h.2.2 k)⟩
  | challenge g m0 m1 next ih => intro asked h; exact ih none asked (h none)

/-- The committed attacker follows the rule of the selective game. -/
theorem Adaptive.commit_fair {choices : List UInt32 → Prop} (gamma : List UInt32) : ∀ (A : Adaptive K P Q QP T) (asked : List (Policy × AccessPolicy)),
    A.Fair choices asked none → (A.commit gamma).Fair gamma := by
  intro A
  induction A with
  | guess g => intro _ _; trivial
  | toss next ih => intro asked h x; exact ih x asked (h x)
  | choose n next ih => intro asked h x; exact ih x asked (h x)
  | key p ap next ih =>
    intro asked h
    unfold Adaptive.commit
    split
    · exact fun _ => trivial
    · rename_i ho
      exact ⟨h.1, ho, fun k => ih k _ (h.2.2 k)⟩
  | challenge g m0 m1 next ih =>
    intro asked h
    unfold Adaptive.commit
    split
    · rename_i he
      subst he
      exact fun x => (next x).rest_fair asked (h.2.2 x)
    · exact fun _ => trivial

theorem Adaptive.rest_exec [Fintype K] (keys : Policy → AccessPolicy → PMF (Option (DecryptionKey K QP Q)))
    (chal : List UInt32 → T → T → Option (CipherText P T)) (chal' : T → T → Option (CipherText P T)) :
    ∀ A : Adaptive K P Q QP T, A.rest.exec keys chal' true = A.exec keys chal true := by
  intro A
  induction A with
  | guess g => rfl
  | toss next ih => simp only [Adaptive.rest, Attacker.exec, Adaptive.exec, ih]
  | choose n next ih => simp only [Adaptive.rest, Attacker.exec, Adaptive.exec, ih]
  | key p ap next ih => simp only [Adaptive.rest, Attacker.exec, Adaptive.exec, ih]
  | challenge g m0 m1 next ih => simp only [Adaptive.rest, Adaptive.exec, ih, if_true]

/-- By how much the two runs, for the two values of the bit to be guessed, are better than chance. -/
noncomputable def gain (E : Bool → PMF Bool) : ℝ := prob ((E true).map (· == true)) + prob ((E false).map (· == false)) - 1

theorem gain_same (E : PMF Bool) : gain (fun _ => E) = 0 := by
  unfold gain
  rw [prob_map_true, prob_map_false]
  ring

theorem gain_uniform {α : Type} [Fintype α] [Nonempty α] (f : α → Bool → PMF Bool) :
    gain (fun b => (PMF.uniformOfFintype α).bind fun a => f a b) = (∑ a, gain (f a)) / Fintype.card α := by
  have hc : (Fintype.card α : ℝ) ≠ 0 := by exact_mod_cast Fintype.card_ne_zero
  unfold gain
  simp only [PMF.map_bind, prob_uniform]
  rw [Finset.sum_sub_distrib, Finset.sum_add_distrib]
  simp only [Finset.sum_const, Finset.card_univ, nsmul_eq_mul]
  field_simp

open Classical in
/-- The gains of the attackers committed to each of the possible values add up to the gain of the attacker. -/
theorem Adaptive.gain_commit [Fintype K] {N : Nat} {choices : Fin N → List UInt32} (hi : Function.Injective choices)
    {keys : Policy → AccessPolicy → PMF (Option (DecryptionKey K QP Q))}
    (hk : ∀ p ap, ∃ (n : Nat) (f : (Fin n → K) → Option (DecryptionKey K QP Q)), keys p ap = (PMF.uniformOfFintype (Fin n → K)).map f)
    (chal : Bool → List UInt32 → T → T → Option (CipherText P T)) : ∀ (A : Adaptive K P Q QP T) (asked : List (Policy × AccessPolicy)),
    A.Fair (· ∈ Set.range choices) asked none →
    (∑ i, if ∀ q ∈ asked, ¬ Opens (choices i) q then gain (fun b => (A.commit (choices i)).exec keys (chal b (choices i)) false) else 0) =
      gain (fun b => A.exec keys (chal b) false) := by
  have swap : ∀ {α : Type} [Fintype α] [Nonempty α] (dead : Fin N → Prop) [DecidablePred dead] (f : Fin N → α → Bool → PMF Bool) (g : α → Bool → PMF Bool)
      (_ : ∀ a, (∑ i, if dead i then gain (f i a) else 0) = gain (g a)),
      (∑ i, if dead i then gain (fun b => (PMF.uniformOfFintype α).bind fun a => f i a b) else 0) =
        gain (fun b => (PMF.uniformOfFintype α).bind fun a => g a b) := by
    intro α _ _ dead _ f g h
    simp only [gain_uniform, ← h]
    rw [Finset.sum_comm, Finset.sum_div]
    refine Finset.sum_congr rfl fun i _ => ?_
    split <;> simp
  intro A
  induction A with
  | guess g =>
    intro asked _
    simp only [Adaptive.commit, Attacker.exec, Adaptive.exec, gain_same, ite_self, Finset.sum_const_zero]
  | toss next ih =>
    intro asked h
    exact swap _ _ _ fun a => ih a asked (h a)
  | choose n next ih =>
    intro asked h
    exact swap _ _ _ fun a => ih a asked (h a)
  | key p ap next ih =>
    intro asked h
    obtain ⟨n, f, hf⟩ := hk p ap
    have hr : ∀ b, (Adaptive.key p ap next).exec keys (chal b) false =
        (PMF.uniformOfFintype (Fin n → K)).bind fun r => (next (f r)).exec keys (chal b) false := by
      intro b
      simp only [Adaptive.exec, hf, PMF.bind_map]
      rfl
    have hl : ∀ i, (if ∀ q ∈ asked, ¬ Opens (choices i) q then
          gain (fun b => ((Adaptive.key p ap next).commit (choices i)).exec keys (chal b (choices i)) false) else 0) =
        if ∀ q ∈ asked ++ [(p, ap)], ¬ Opens (choices i) q then
          gain (fun b => (PMF.uniformOfFintype (Fin n → K)).bind fun r => ((next (f r)).commit (choices i)).exec keys (chal b (choices i)) false) else 0 := by
      intro i
      by_cases ho : Opens (choices i) (p, ap)
      · rw [if_neg (c := ∀ q ∈ asked ++ [(p, ap)], ¬ Opens (choices i) q) (fun hh => hh _ (by simp) ho)]
        simp only [Adaptive.commit, if_pos ho, Attacker.giveUp, Attacker.exec, gain_same, ite_self]
      · have he : (∀ q ∈ asked ++ [(p, ap)], ¬ Opens (choices i) q) ↔ ∀ q ∈ asked, ¬ Opens (choices i) q := by
          constructor
          · exact fun hh q hq => hh q (List.mem_append_left _ hq)
          · intro hh q hq
            rcases List.mem_append.1 hq with hq | hq
            · exact hh q hq
            · rw [List.mem_singleton.1 hq]; exact ho
        simp only [he, Adaptive.commit, if_neg ho, Attacker.exec, hf, PMF.bind_map]
        rfl
    simp only [hl, hr]
    exact swap _ _ _ fun a => ih (f a) _ (h.2.2 (f a))
  | challenge g m0 m1 next ih =>
    intro asked h
    obtain ⟨⟨j, hj⟩, hns, hf⟩ := h
    rw [Finset.sum_eq_single j]
    · rw [hj, if_pos hns]
      simp only [Adaptive.commit, if_true, Attacker.exec, Adaptive.exec, Bool.false_eq_true, if_false]
      congr 1; funext b
      exact Adaptive.rest_exec keys (chal b) _ _
    · intro i _ hij
      have : g ≠ choices i := fun he => hij (hi (he.symm.trans hj.symm))
      simp only [Adaptive.commit, if_neg this, Attacker.giveUp, Attacker.exec, gain_same, ite_self]
    · intro hh
      exact absurd (Finset.mem_univ _) hh

theorem prob_bool (E : Bool → PMF Bool) : prob ((PMF.uniformOfFintype Bool).bind fun b => (E b).map (· == b)) - 1 / 2 = gain E / 2 := by
  rw [prob_uniform]
  simp only [gain, Fintype.sum_bool, Fintype.card_bool]
  push_cast
  ring

theorem prob_sum {α ι : Type} [Fintype α] [Nonempty α] [Fintype ι] {f : α → PMF Bool} {g : ι → α → PMF Bool}
    (h : ∀ a, prob (f a) - 1 / 2 = ∑ i, (prob (g i a) - 1 / 2)) :
    prob ((PMF.uniformOfFintype α).bind f) - 1 / 2 = ∑ i, (prob ((PMF.uniformOfFintype α).bind (g i)) - 1 / 2) := by
  have hc : (Fintype.card α : ℝ) ≠ 0 := by exact_mod_cast Fintype.card_ne_zero
  have h1 : ∑ a, prob (f a) = ∑ a, (1 / 2 + ∑ i, (prob (g i a) - 1 / 2)) := Finset.sum_congr rfl fun a _ => by linarith [h a]
  simp only [prob_uniform]
  rw [h1, Finset.sum_add_distrib, Finset.sum_comm]
  have h2 : ∀ i, (∑ a, prob (g i a)) / (Fintype.card α : ℝ) - 1 / 2 = (∑ a, (prob (g i a) - 1 / 2)) / Fintype.card α := by
    intro i
    rw [Finset.sum_sub_distrib]
    simp only [Finset.sum_const, Finset.card_univ, nsmul_eq_mul]
    field_simp
  simp only [h2, ← Finset.sum_div]
  simp only [Finset.sum_const, Finset.card_univ, nsmul_eq_mul]
  field_simp
  ring

/-- **C83.** The advantage of an attacker who names one of `N` lists of values with its challenge is the sum of the advantages, in the selective game, of the attackers
committed to each of the lists. -/
theorem C83_adaptive_advantage [Fintype K] (c : Curve K P Q QP T) (t : Target) (size : Nat) {N : Nat} {choices : Fin N → List UInt32}
    (hi : Function.Injective choices) (A : MasterPublicKey P T → DelegationKey Q → Adaptive K P Q QP T)
    (hA : ∀ pk dk, (A pk dk).Fair (· ∈ Set.range choices) [] none) :
    prob (adaptiveGame c t size A) - 1 / 2 = ∑ i, (prob (selectiveGame c t size (choices i) fun pk dk => (A pk dk).commit (choices i)) - 1 / 2) := by
  have hcoin : prob (PMF.uniformOfFintype Bool) = 1 / 2 := by simp [prob]
  refine prob_sum fun s => prob_sum fun y => ?_
  have comm : ∀ f : Bool → (Fin size → K) → PMF Bool, ((PMF.uniformOfFintype Bool).bind fun b => (PMF.uniformOfFintype (Fin size → K)).bind fun rnd => f b rnd) =
      (PMF.uniformOfFintype (Fin size → K)).bind fun rnd => (PMF.uniformOfFintype Bool).bind fun b => f b rnd := fun f => PMF.bind_comm _ _ _
  simp only [comm]
  refine prob_sum fun rnd => ?_
  unfold adaptiveRun selectiveRun
  cases hmk : generateMasterKey (bls c) size (pad rnd) y with
  | ok mk =>
    simp only [prob_bool]
    rw [← Finset.sum_div]
    congr 1
    rw [← Adaptive.gain_commit (keys := userKeys c mk.privKey) hi (fun p ap => ⟨_, _, rfl⟩) (fun b gamma m0 m1 => (encrypt (bls c) t (if b then m1 else m0) gamma mk.pubKey s).toOption)
      (A mk.pubKey mk.delKey) [] (hA _ _)]
    simp
  | err e => simp [PMF.bind_const, hcoin]
  | panic => simp [PMF.bind_const, hcoin]

/-- The reduction: it guesses the values that will be named. -/
noncomputable def adaptiveDistinguisher [Fintype K] (c : Curve K P Q QP T) (size : Nat) {N : Nat} (choices : Fin (N + 1) → List UInt32)
    (A : MasterPublicKey P T → DelegationKey Q → Adaptive K P Q QP T) (I : Bdh P Q T) : PMF Bool :=
  (PMF.uniformOfFintype (Fin (N + 1))).bind fun i => distinguisher c size (choices i) (fun pk dk => (A pk dk).commit (choices i)) I

/-- **C83.** Security against attackers who name the values with the challenge: the advantage is at most the number of lists of values that may be named times the
advantage of the reduction in telling products from random elements. -/
theorem C83_adaptive_security [Fintype K] (c : Curve K P Q QP T) (hT : ∀ m : T, ∃ x : K, m = x • c.genT) (t : Target) (size : Nat) {N : Nat}
    {choices : Fin (N + 1) → List UInt32} (hi : Function.Injective choices) (A : MasterPublicKey P T → DelegationKey Q → Adaptive K P Q QP T)
    (hA : ∀ pk dk, (A pk dk).Fair (· ∈ Set.range choices) [] none) :
    |prob (adaptiveGame c t size A) - 1 / 2| ≤ (N + 1) *
      |prob ((bdhReal c).bind (adaptiveDistinguisher c size choices A)) - prob ((bdhRandom c).bind (adaptiveDistinguisher c size choices A))| := by
  have avg : ∀ E : PMF (Bdh P Q T), (N + 1 : ℝ) * prob (E.bind (adaptiveDistinguisher c size choices A)) =
      ∑ i, prob (E.bind (distinguisher c size (choices i) fun pk dk => (A pk dk).commit (choices i))) := by
    intro E
    have : E.bind (adaptiveDistinguisher c size choices A) = (PMF.uniformOfFintype (Fin (N + 1))).bind fun i =>
        E.bind (distinguisher c size (choices i) fun pk dk => (A pk dk).commit (choices i)) := PMF.bind_comm _ _ _
    rw [this, prob_uniform, Fintype.card_fin]
    have hN : (N + 1 : ℝ) ≠ 0 := by positivity
    push_cast
    field_simp
  rw [C83_adaptive_advantage c t size hi A hA]
  simp only [selective_signed c hT t size _ _ fun pk dk => (A pk dk).commit_fair _ [] (hA pk dk)]
  rw [← Finset.mul_sum, Finset.sum_sub_distrib, ← avg, ← avg, ← mul_sub, abs_mul, abs_mul, abs_of_nonneg (factor_bounds size).1,
    abs_of_nonneg (by positivity : (0 : ℝ) ≤ N + 1)]
  exact mul_le_of_le_one_left (by positivity) (factor_bounds size).2

namespace Demo

/-- The lists of values that may be named: those of `HR`, and those of `Low` and `HR`. -/
def named : Fin 2 → List UInt32 := ![[4], [1, 4]]

theorem named_injective : Function.Injective named := by decide

/-- An attacker who asks for a key for `MKG`, computes on everything it has and then names the values of its challenge. -/
def late (pick : MasterPublicKey F F → DelegationKey F → Option (DecryptionKey F F F) → Fin 2)
    (look : MasterPublicKey F F → DelegationKey F → Option (DecryptionKey F F F) → Option (CipherText F F) → F → Bool) (pk : MasterPublicKey F F)
    (dk : DelegationKey F) : Adaptive F F F F F :=
  .key policy (.attr mkg) fun k => .challenge (named (pick pk dk k)) 3 5 fun ct => .toss fun x => .guess (look pk dk k ct x)

theorem late_fair (pick look) (pk dk) : (late pick look pk dk).Fair (· ∈ Set.range named) [] none := by
  refine ⟨policy_reachable, by simp, fun k => ⟨⟨_, rfl⟩, ?_, fun _ _ => trivial⟩⟩
  intro q hq
  rw [List.nil_append, List.mem_singleton] at hq
  subst hq
  rintro ⟨b, h1, v, h2, h4⟩
  refine mkg_unauthorised ⟨b, h1, v, h2, ?_⟩
  revert h4
  generalize pick pk dk k = i
  revert i
  rw [Fin.forall_fin_two]
  exact ⟨fun h => List.mem_cons_of_mem _ h, fun h => h⟩

/-- **C83** for this attacker, whatever it picks and computes. -/
example (pick look) : |prob (adaptiveGame curveF .release64 20 (late pick look)) - 1 / 2| ≤ ((1 : Nat) + 1) *
    |prob ((bdhReal curveF).bind (adaptiveDistinguisher curveF 20 named (late pick look))) -
      prob ((bdhRandom curveF).bind (adaptiveDistinguisher curveF 20 named (late pick look)))| :=
  C83_adaptive_security curveF (fun m => ⟨m, by simp [curveF]⟩) .release64 20 named_injective (late pick look) (late_fair pick look)

end Demo

end Abe
