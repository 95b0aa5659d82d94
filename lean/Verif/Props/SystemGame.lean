import Verif.Spec.SystemGame
import Verif.Props.HybridGame
import Verif.Props.LifeGame

set_option linter.unusedSectionVars false

/-!
# All messages over the life of a policy

Property C91.  The messages are replaced one after the other; the reduction sends all but one of them itself, with the public key.
-/

namespace Abe

variable {K P Q QP T Key Nonce : Type} [Field K] [DecidableEq K] [AddCommGroup P] [Module K P] [AddCommGroup Q] [Module K Q]
  [AddCommGroup T] [Module K T]

/-- A draw from any finite type. -/
noncomputable def HybridAttacker.draw (α : Type) [Fintype α] [Nonempty α] (next : α → HybridAttacker K Q QP) : HybridAttacker K Q QP :=
  .choose (Fintype.card α - 1) fun i => next (((finCongr (Nat.sub_add_cancel Fintype.card_pos)).trans (Fintype.equivFin α).symm) i)

theorem HybridAttacker.exec_draw [Fintype K] {α : Type} [Fintype α] [Nonempty α] (next : α → HybridAttacker K Q QP)
    (keys : Policy → AccessPolicy → PMF (Option (DecryptionKey K QP Q))) (chal : HybridMsg → HybridMsg → PMF (Option (Bytes × List Bytes))) (used : Bool) :
    (HybridAttacker.draw α next).exec keys chal used = (PMF.uniformOfFintype α).bind fun a => (next a).exec keys chal used := by
  unfold HybridAttacker.draw
  simp only [HybridAttacker.exec]
  exact uniform_bind_equiv ((finCongr (Nat.sub_add_cancel Fintype.card_pos)).trans (Fintype.equivFin α).symm) fun a => (next a).exec keys chal used

/-- The attacker sends a message to itself. -/
noncomputable def HybridAttacker.post [Fintype Nonce] [Nonempty Nonce] (e : External Key Nonce) (c : Curve K P Q QP T) (cs : Codecs K P Q T) (t : Target)
    (max : Nat) (pub : MasterPublicKey P T) (p : Policy) (attrs : List Attribute) (m : HybridMsg)
    (next : Option (Bytes × List Bytes) → HybridAttacker K Q QP) : HybridAttacker K Q QP :=
  .toss fun s => .toss fun x => .draw (Fin (m.blocks.length + 1) → Nonce) fun ν =>
    next (encryptHybrid e c cs t max p pub attrs m (x • c.genT) s (padNonce ν)).toOption

theorem HybridAttacker.exec_post [Fintype K] [Fintype Nonce] [Nonempty Nonce] (e : External Key Nonce) (c : Curve K P Q QP T) (cs : Codecs K P Q T) (t : Target)
    (max : Nat) (pub : MasterPublicKey P T) (p : Policy) (attrs : List Attribute) (m : HybridMsg) (next : Option (Bytes × List Bytes) → HybridAttacker K Q QP)
    (keys : Policy → AccessPolicy → PMF (Option (DecryptionKey K QP Q))) (chal : HybridMsg → HybridMsg → PMF (Option (Bytes × List Bytes))) (used : Bool) :
    (HybridAttacker.post e c cs t max pub p attrs m next).exec keys chal used =
      (sendFresh e c cs t max pub p attrs m).bind fun r => (next r).exec keys chal used := by
  unfold HybridAttacker.post sendFresh
  simp only [HybridAttacker.exec, HybridAttacker.exec_draw, PMF.bind_bind, PMF.bind_map]
  rfl

/-- The attacker with message number `j` only; it makes the other messages itself. -/
noncomputable def HybridAttacker.only [Fintype Nonce] [Nonempty Nonce] (e : External Key Nonce) (c : Curve K P Q QP T) (cs : Codecs K P Q T) (t : Target)
    (max : Nat) (pub : MasterPublicKey P T) {q : Nat} (posts : Fin q → Policy × List Attribute) (j : Nat) :
    HybridAttacker K Q QP → (count : Nat) → HybridAttacker K Q QP
  | .guess g, _ => .guess g
  | .toss next, n => .toss fun x => (next x).only e c cs t max pub posts j n
  | .choose m next, n => .choose m fun x => (next x).only e c cs t max pub posts j n
  | .key p ap next, n => .key p ap fun k => (next k).only e c cs t max pub posts j n
  | .challenge m0 m1 next, n =>
    if n = j then .challenge m0 m1 fun r => (next r).only e c cs t max pub posts j (n + 1)
    else if h : n < q then
      .post e c cs t max pub (posts ⟨n, h⟩).1 (posts ⟨n, h⟩).2 (if n < j then m1 else m0) fun r => (next r).only e c cs t max pub posts j (n + 1)
    else (next none).only e c cs t max pub posts j (n + 1)

theorem HybridAttacker.only_asks [Fintype Nonce] [Nonempty Nonce] (e : External Key Nonce) (c : Curve K P Q QP T) (cs : Codecs K P Q T) (t : Target)
    (max : Nat) (pub : MasterPublicKey P T) {q : Nat} (posts : Fin q → Policy × List Attribute) (j : Nat) (allowed : Policy → AccessPolicy → Prop) :
    ∀ (A : HybridAttacker K Q QP) (n : Nat), A.Asks allowed → (A.only e c cs t max pub posts j n).Asks allowed := by
  intro A
  induction A with
  | guess g => intro _ _; trivial
  | toss next ih => intro n h x; exact ih x n (h x)
  | choose m next ih => intro n h x; exact ih x n (h x)
  | key p ap next ih => intro n h; exact ⟨h.1, fun k => ih k n (h.2 k)⟩
  | challenge m0 m1 next ih =>
    intro n h
    unfold HybridAttacker.only
    split
    · exact fun x => ih x _ (h x)
    · split
      · exact fun s x i => ih _ _ (h _)
      · exact ih _ _ (h _)

theorem HybridAttacker.asks_fair {allowed : Policy → AccessPolicy → Prop} {gamma : List UInt32}
    (h : ∀ q ap, allowed q ap → q.Reachable ∧ ¬ ap.Sat q fun b => ∃ v, q.HasValue b v ∧ v ∈ gamma) :
    ∀ A : HybridAttacker K Q QP, A.Asks allowed → A.Fair gamma := by
  intro A
  induction A with
  | guess g => intro _; trivial
  | toss next ih => exact fun hA x => ih x (hA x)
  | choose n next ih => exact fun hA x => ih x (hA x)
  | key p ap next ih => exact fun hA => ⟨(h p ap hA.1).1, (h p ap hA.1).2, fun k => ih k (hA.2 k)⟩
  | challenge m0 m1 next ih => exact fun hA x => ih x (hA x)

/-- The second messages of the pairs before number `i`, the first messages from there on. -/
def firstSecondMsg (i n : Nat) (m0 m1 : HybridMsg) : HybridMsg := if n < i then m1 else m0

theorem HybridAttacker.only_after [Fintype K] [Fintype Nonce] [Nonempty Nonce] (e : External Key Nonce) (c : Curve K P Q QP T) (cs : Codecs K P Q T) (t : Target)
    (max : Nat) (pub : MasterPublicKey P T) {q : Nat} (posts : Fin q → Policy × List Attribute) (j : Nat)
    (keys : Policy → AccessPolicy → PMF (Option (DecryptionKey K QP Q))) (chal : HybridMsg → HybridMsg → PMF (Option (Bytes × List Bytes))) {i : Nat}
    (hi : i ≤ j + 1) : ∀ (A : HybridAttacker K Q QP) (n : Nat), j < n →
      (A.only e c cs t max pub posts j n).exec keys chal true = A.execMany keys (sendMany e c cs t max pub posts (firstSecondMsg i)) n := by
  intro A
  induction A with
  | guess g => intro _ _; rfl
  | toss next ih => intro n h; simp only [HybridAttacker.only, HybridAttacker.exec, HybridAttacker.execMany, ih _ n h]
  | choose m next ih => intro n h; simp only [HybridAttacker.only, HybridAttacker.exec, HybridAttacker.execMany, ih _ n h]
  | key p ap next ih => intro n h; simp only [HybridAttacker.only, HybridAttacker.exec, HybridAttacker.execMany, ih _ n h]
  | challenge m0 m1 next ih =>
    intro n h
    simp only [HybridAttacker.only, if_neg (Nat.ne_of_gt h), if_neg (Nat.lt_asymm h), HybridAttacker.execMany, sendMany]
    have hs : firstSecondMsg i n m0 m1 = m0 := if_neg (by omega)
    split
    · simp only [HybridAttacker.exec_post, ih _ (n + 1) (Nat.lt_succ_of_lt h), hs]
    · rw [ih _ (n + 1) (Nat.lt_succ_of_lt h), PMF.pure_bind]

/-- With the first or the second message of its pair, this attacker is in the game where the second messages begin with number `j` or after it. -/
theorem HybridAttacker.only_exec [Fintype K] [Fintype Nonce] [Nonempty Nonce] (e : External Key Nonce) (c : Curve K P Q QP T) (cs : Codecs K P Q T) (t : Target)
    (max : Nat) (pub : MasterPublicKey P T) {q : Nat} (posts : Fin q → Policy × List Attribute) (j : Fin q)
    (keys : Policy → AccessPolicy → PMF (Option (DecryptionKey K QP Q))) (b : Bool) : ∀ (A : HybridAttacker K Q QP) (n : Nat), n ≤ j →
      ((PMF.uniformOfFintype K).bind fun s => (PMF.uniformOfFintype K).bind fun x => (A.only e c cs t max pub posts j n).exec keys (fun m0 m1 =>
        (PMF.uniformOfFintype (Fin ((if b then m1 else m0).blocks.length + 1) → Nonce)).map fun ν =>
          (encryptHybrid e c cs t max (posts j).1 pub (posts j).2 (if b then m1 else m0) (x • c.genT) s (padNonce ν)).toOption) false) =
      A.execMany keys (sendMany e c cs t max pub posts (firstSecondMsg (if b then j + 1 else j))) n := by
  have swap : ∀ {α : Type} (E : PMF α) (f : K → K → α → PMF Bool),
      ((PMF.uniformOfFintype K).bind fun s => (PMF.uniformOfFintype K).bind fun x => E.bind fun a => f s x a) =
        E.bind fun a => (PMF.uniformOfFintype K).bind fun s => (PMF.uniformOfFintype K).bind fun x => f s x a := by
    intro α E f
    have : ∀ s, ((PMF.uniformOfFintype K).bind fun x => E.bind fun a => f s x a) = E.bind fun a => (PMF.uniformOfFintype K).bind fun x => f s x a :=
      fun s => PMF.bind_comm _ _ _
    simp only [this]
    exact PMF.bind_comm _ _ _
  intro A
  induction A with
  | guess g => intro _ _; exact bind_const' fun _ => PMF.bind_const _ _
  | toss next ih =>
    intro n h
    simp only [HybridAttacker.only, HybridAttacker.exec, HybridAttacker.execMany]
    rw [swap]
    congr 1; funext x
    exact ih x n h
  | choose m next ih =>
    intro n h
    simp only [HybridAttacker.only, HybridAttacker.exec, HybridAttacker.execMany]
    rw [swap]
    congr 1; funext x
    exact ih x n h
  | key p ap next ih =>
    intro n h
    simp only [HybridAttacker.only, HybridAttacker.exec, HybridAttacker.execMany]
    rw [swap]
    congr 1; funext x
    exact ih x n h
  | challenge m0 m1 next ih =>
    intro n h
    have hq : n < q := Nat.lt_of_le_of_lt h j.2
    rcases Nat.lt_or_ge n j with hn | hn
    · have hs : firstSecondMsg (if b then j.val + 1 else j.val) n m0 m1 = m1 := if_pos (by split <;> omega)
      simp only [HybridAttacker.only, if_neg (Nat.ne_of_lt hn), if_pos hn, dif_pos hq, HybridAttacker.exec_post, HybridAttacker.execMany, sendMany, hs]
      rw [swap]
      congr 1; funext r
      exact ih _ (n + 1) hn
    · obtain rfl : n = j := Nat.le_antisymm h hn
      have hs : firstSecondMsg (if b then j.val + 1 else j.val) j.val m0 m1 = if b then m1 else m0 := by cases b <;> simp [firstSecondMsg]
      simp only [HybridAttacker.only, if_true, HybridAttacker.exec, Bool.false_eq_true, if_false, HybridAttacker.execMany, sendMany, dif_pos hq, hs]
      simp only [sendFresh, PMF.bind_bind]
      congr 1; funext s; congr 1; funext x; congr 1; funext r
      exact HybridAttacker.only_after e c cs t max pub posts j keys _ (by cases b <;> simp) _ _ (Nat.lt_succ_self _)

theorem sendMany_congr [Fintype K] [Fintype Nonce] [Nonempty Nonce] (e : External Key Nonce) (c : Curve K P Q QP T) (cs : Codecs K P Q T) (t : Target)
    (max : Nat) (pub : MasterPublicKey P T) {q : Nat} (posts : Fin q → Policy × List Attribute) {sel sel' : Nat → HybridMsg → HybridMsg → HybridMsg}
    (h : ∀ n, n < q → sel n = sel' n) : sendMany e c cs t max pub posts sel = sendMany e c cs t max pub posts sel' := by
  funext n m0 m1
  unfold sendMany
  split
  · rename_i hn
    rw [h n hn]
  · rfl

/-- **C91.** The advantage of an attacker on many messages is the sum of the advantages, in the game with one message, of the attackers on one of them. -/
theorem C91_messages_one_by_one [Fintype K] [Fintype Nonce] [Nonempty Nonce] (e : External Key Nonce) (c : Curve K P Q QP T) (cs : Codecs K P Q T) (t : Target)
    (max : Nat) (p0 : Policy) {q : Nat} (posts : Fin q → Policy × List Attribute) (A : MasterPublicKey P T → DelegationKey Q → HybridAttacker K Q QP) :
    prob (systemGame e c cs t max p0 posts A) - 1 / 2 = ∑ j, (prob (hybridGame e c cs t max p0.maxAttributeCreations.toNat (posts j).1 (posts j).2
      fun pk dk => (A pk dk).only e c cs t max pk posts j 0) - 1 / 2) := by
  have hcoin : prob (PMF.uniformOfFintype Bool) = 1 / 2 := by simp [prob]
  set size := p0.maxAttributeCreations.toNat with hsize
  have order : ∀ j : Fin q, (hybridGame e c cs t max size (posts j).1 (posts j).2 fun pk dk => (A pk dk).only e c cs t max pk posts j 0) =
      (PMF.uniformOfFintype K).bind fun y => (PMF.uniformOfFintype (Fin size → K)).bind fun rnd => (PMF.uniformOfFintype Bool).bind fun b =>
        (PMF.uniformOfFintype K).bind fun s => (PMF.uniformOfFintype K).bind fun x =>
          hybridRun e c cs t max size (posts j).1 (posts j).2 (fun pk dk => (A pk dk).only e c cs t max pk posts j 0) s y b rnd x := by
    intro j
    unfold hybridGame
    rw [PMF.bind_comm]
    congr 1; funext y
    rw [PMF.bind_comm]
    conv_rhs => rw [PMF.bind_comm]
    congr 1; funext b
    rw [PMF.bind_comm]
  simp only [order]
  refine prob_sum fun y => ?_
  have comm : ∀ f : Bool → (Fin size → K) → PMF Bool, ((PMF.uniformOfFintype Bool).bind fun b => (PMF.uniformOfFintype (Fin size → K)).bind fun rnd => f b rnd) =
      (PMF.uniformOfFintype (Fin size → K)).bind fun rnd => (PMF.uniformOfFintype Bool).bind fun b => f b rnd := fun f => PMF.bind_comm _ _ _
  rw [comm]
  refine prob_sum fun rnd => ?_
  unfold systemRun hybridRun engineGenerateMasterKey
  cases hmk : generateMasterKey (bls c) size (pad rnd) y with
  | ok mk =>
    simp only [← PMF.map_bind, prob_bool, HybridAttacker.only_exec e c cs t max mk.pubKey posts _ _ _ _ 0 (Nat.zero_le _)]
    rw [← Finset.sum_div]
    congr 1
    simp only [gain_eq, if_true, Bool.false_eq_true, if_false]
    rw [Fin.sum_univ_eq_sum_range (fun j => prob ((A mk.pubKey mk.delKey).execMany (userKeys c mk.privKey)
        (sendMany e c cs t max mk.pubKey posts (firstSecondMsg (j + 1))) 0) -
      prob ((A mk.pubKey mk.delKey).execMany (userKeys c mk.privKey) (sendMany e c cs t max mk.pubKey posts (firstSecondMsg j)) 0)) q, Finset.sum_range_sub
      (fun j => prob ((A mk.pubKey mk.delKey).execMany (userKeys c mk.privKey) (sendMany e c cs t max mk.pubKey posts (firstSecondMsg j)) 0)),
      sendMany_congr e c cs t max mk.pubKey posts (sel := fun _ _ m1 => m1) (sel' := firstSecondMsg q) (fun n hn => by funext m0 m1; exact (if_pos hn).symm),
      sendMany_congr e c cs t max mk.pubKey posts (sel := fun _ m0 _ => m0) (sel' := firstSecondMsg 0) (fun n hn => by funext m0 m1; simp [firstSecondMsg])]
  | err e => simp [PMF.bind_const, hcoin]
  | panic => simp [PMF.bind_const, hcoin]

/-- A message for attributes that the policy does not have is not sent. -/
theorem hybridGame_blind [Fintype K] [Fintype Nonce] [Nonempty Nonce] (e : External Key Nonce) (c : Curve K P Q QP T) (cs : Codecs K P Q T) (t : Target)
    (max size : Nat) {p : Policy} {attrs : List Attribute} {err : FormatErr} (hg : p.attributesValues attrs = .err err)
    (A : MasterPublicKey P T → DelegationKey Q → HybridAttacker K Q QP) : hybridGame e c cs t max size p attrs A = PMF.uniformOfFintype Bool := by
  unfold hybridGame
  refine bind_const' fun s => bind_const' fun y => ?_
  rw [PMF.bind_comm]
  refine bind_const' fun rnd => ?_
  rw [PMF.bind_comm]
  refine bind_const' fun x => ?_
  unfold hybridRun
  cases generateMasterKey (bls c) size (pad rnd) y with
  | err _ => exact PMF.bind_const _ _
  | panic => exact PMF.bind_const _ _
  | ok mk =>
    have : ∀ m s ν, (encryptHybrid e c cs t max p mk.pubKey attrs m (x • c.genT) s ν).toOption = none := by
      intro m s ν
      rw [encryptHybrid_split]
      have : engineEncrypt (bls c) t p mk.pubKey attrs (x • c.genT) s = .err err := by
        unfold engineEncrypt
        rw [hg]
        rfl
      rw [this]
      rfl
    have hn : ∀ n, (PMF.uniformOfFintype (Fin n → Nonce)).map (fun _ => (none : Option (Bytes × List Bytes))) = .pure none := fun n => PMF.map_const _ _
    dsimp only
    simp only [this, hn]
    exact coin_guess _

/-- **C91.** Confidentiality over the life of a policy: any number of messages are sent, with metadata and blocks, each for its own attributes under the policy of its
moment; the attacker may have any keys that open none of them.  Its advantage is at most the sum, over the messages, of the advantage on the symmetric scheme with a
key used for nothing else and twice the advantage of the reduction in telling products from random elements. -/
theorem C91_system_confidentiality [Fintype K] [Fintype Nonce] [Nonempty Nonce] (e : External Key Nonce) (c : Curve K P Q QP T)
    (hT : ∀ m : T, ∃ x : K, m = x • c.genT) (cs : Codecs K P Q T) (t : Target) (max : Nat) (p0 : Policy) {q : Nat} (posts : Fin q → Policy × List Attribute)
    (hp : ∀ j, (posts j).1.Reachable) (A : MasterPublicKey P T → DelegationKey Q → HybridAttacker K Q QP)
    (hA : ∀ pk dk, (A pk dk).Asks fun r ap => ∀ j, Shut (posts j).1 (posts j).2 r ap) :
    |prob (systemGame e c cs t max p0 posts A) - 1 / 2| ≤
      ∑ j, (|prob (symmetricGame e c cs max (demAttacker c cs t p0.maxAttributeCreations.toNat (posts j).1 (posts j).2
          fun pk dk => (A pk dk).only e c cs t max pk posts j 0)) - 1 / 2| +
        2 * |prob ((bdhReal c).bind (distinguisher c p0.maxAttributeCreations.toNat (challengeValues (posts j).1 (posts j).2)
            (kemAttacker e c cs t max fun pk dk => (A pk dk).only e c cs t max pk posts j 0))) -
          prob ((bdhRandom c).bind (distinguisher c p0.maxAttributeCreations.toNat (challengeValues (posts j).1 (posts j).2)
            (kemAttacker e c cs t max fun pk dk => (A pk dk).only e c cs t max pk posts j 0)))|) := by
  rw [C91_messages_one_by_one]
  refine (Finset.abs_sum_le_sum_abs _ _).trans (Finset.sum_le_sum fun j _ => ?_)
  rcases attributesValues_cases (reachable_wf (hp j)) (posts j).2 with ⟨_, gamma, hg, _⟩ | ⟨_, hg⟩
  · have hv : challengeValues (posts j).1 (posts j).2 = gamma := by simp [challengeValues, hg, Res.toOption]
    rw [hv]
    exact C82_hybrid_confidentiality e c hT cs t max _ (attributesValues_iff.1 hg) _ fun pk dk => HybridAttacker.asks_fair
      (fun r ap h => shut_unauthorised (hp j) hg (h j)) _ (HybridAttacker.only_asks e c cs t max pk posts j _ _ 0 (hA pk dk))
  · have hcoin : prob (PMF.uniformOfFintype Bool) = 1 / 2 := by simp [prob]
    rw [hybridGame_blind e c cs t max _ hg, hcoin, sub_self, abs_zero]
    positivity

namespace Demo

/-- A message for `Low` and `MKG`, and one for `HR` after the rotation of `HR` and the addition of an axis. -/
def posts : Fin 2 → Policy × List Attribute := ![(policy, [low, mkg]), (grown, [hr])]

/-- A former employee with a key for `HR` made before its rotation, who sees both messages; what they ask to be sent in the second one depends on the first. -/
def formerHr (pick : Option (Bytes × List Bytes) → HybridMsg × HybridMsg)
    (look : MasterPublicKey F F → DelegationKey F → Option (DecryptionKey F F F) → Option (Bytes × List Bytes) → Option (Bytes × List Bytes) → Fin 3 → Bool)
    (pk : MasterPublicKey F F) (dk : DelegationKey F) : HybridAttacker F F F :=
  .key policy (.attr hr) fun k => .challenge ⟨some metadata, [([1], 0, [4, 5]), ([1], 1, [6])]⟩ ⟨none, [([1], 0, [7, 8])]⟩ fun r =>
    .challenge (pick r).1 (pick r).2 fun r' => .choose 2 fun i => .guess (look pk dk k r r' i)

theorem formerHr_asks (pick look) (pk dk) : (formerHr pick look pk dk).Asks fun r ap => ∀ j, Shut (posts j).1 (posts j).2 r ap := by
  refine ⟨?_, fun _ _ _ _ => trivial⟩
  refine Fin.forall_fin_two.2 ?_
  constructor
  · refine .inr ⟨[], .nil _, ?_⟩
    rintro ⟨b, ⟨below, above, h, hax, _, _, hn⟩, hb⟩
    rw [show hget policy.axes hr.axis = some (["RnD", "HR", "MKG"], false) by decide +kernel, Option.some.injEq, Prod.mk.injEq] at hax
    rcases hn with hn | hn
    · exact absurd hn ((show ∀ b ∈ [low, mkg], b.name ≠ hr.name by decide) b hb)
    · rw [← hax.2] at hn
      exact absurd hn.1 (by decide)
  · refine .inl ⟨changes, policy_reachable, evolves, ?_⟩
    rintro ⟨b, _, hb, hn⟩
    refine hn ?_
    rw [List.mem_singleton.1 hb]
    simp [Rotated, changes]

/-- **C91** for them. -/
example (pick look) : |prob (systemGame symmetric curveF codecs .release64 10 policy posts (formerHr pick look)) - 1 / 2| ≤
    ∑ j, (|prob (symmetricGame symmetric curveF codecs 10 (demAttacker curveF codecs .release64 policy.maxAttributeCreations.toNat (posts j).1 (posts j).2
        fun pk dk => (formerHr pick look pk dk).only symmetric curveF codecs .release64 10 pk posts j 0)) - 1 / 2| +
      2 * |prob ((bdhReal curveF).bind (distinguisher curveF policy.maxAttributeCreations.toNat (challengeValues (posts j).1 (posts j).2)
          (kemAttacker symmetric curveF codecs .release64 10 fun pk dk => (formerHr pick look pk dk).only symmetric curveF codecs .release64 10 pk posts j 0))) -
        prob ((bdhRandom curveF).bind (distinguisher curveF policy.maxAttributeCreations.toNat (challengeValues (posts j).1 (posts j).2)
          (kemAttacker symmetric curveF codecs .release64 10 fun pk dk => (formerHr pick look pk dk).only symmetric curveF codecs .release64 10 pk posts j 0)))|) := by
  refine C91_system_confidentiality symmetric curveF (fun m => ⟨m, by simp [curveF]⟩) codecs .release64 10 policy posts ?_ (formerHr pick look)
    (formerHr_asks pick look)
  rw [Fin.forall_fin_two]
  exact ⟨policy_reachable, grown_reachable⟩

end Demo

end Abe
