import Verif.Spec.SystemIntegrity
import Verif.Props.Integrity
import Verif.Props.SystemGame

/-!
# Integrity of all messages over the life of a policy

Property C98 for many messages: the reduction makes all messages but one itself, with the public key.
-/

set_option linter.unusedSectionVars false

namespace Abe

variable {K P Q QP T Key Nonce : Type} [Field K] [DecidableEq K] [AddCommGroup P] [Module K P] [AddCommGroup Q] [Module K Q]
  [AddCommGroup T] [Module K T]

/-- The headers of the messages. -/
def headerOf (e : External Key Nonce) (c : Curve K P Q QP T) (cs : Codecs K P Q T) (t : Target) (pub : MasterPublicKey P T) {q : Nat}
    (posts : Fin q → Policy × List Attribute) (j : Fin q) (s x : K) (m : Option Metadata) (ν : Nonce) : Option (Key × Bytes) :=
  (encryptHybridHeader e (bls c) cs t (posts j).1 pub (posts j).2 m (x • c.genT) s ν).toOption.map fun h => (h.symmetricKey, h.encryptedHeaderBytes)

/-- The attacker on message `i` only: it makes the other messages itself, and gives up when one of them is forged. -/
noncomputable def SystemForger.only [Fintype K] [Fintype Nonce] [Nonempty Nonce] {q : Nat} (e : External Key Nonce) (max : Nat)
    (hdr : Fin q → K → K → Option Metadata → Nonce → Option (Key × Bytes)) (i : Fin q) : SystemForger K Q QP q → (Fin q → Session Key) → Forger K Q QP
  | .stop, _ => .stop
  | .choose n next, σ => .choose n fun x => (next x).only e max hdr i σ
  | .key p ap next, σ => .key p ap fun k => (next k).only e max hdr i σ
  | .header j m next, σ =>
    if j = i then .header m fun r => (next r).only e max hdr i σ
    else if (σ j).asked then (next none).only e max hdr i σ
    else .draw K fun s => .draw K fun x => .draw Nonce fun ν =>
      (next ((hdr j s x m ν).map Prod.snd)).only e max hdr i
        (Function.update σ j { asked := true, key := (hdr j s x m ν).map Prod.fst, metaData := m, blocks := [] })
  | .block j uid n plaintext next, σ =>
    if j = i then .block uid n plaintext fun r => (next r).only e max hdr i σ
    else .draw Nonce fun ν =>
      match (σ j).key.bind fun k => (encryptHybridBlock e max k uid n plaintext ν).toOption with
      | none => (next none).only e max hdr i σ
      | some b => (next (some b)).only e max hdr i (Function.update σ j { σ j with blocks := (uid, n, b) :: (σ j).blocks })
  | .tryBlock j uid n b next, σ =>
    if j = i then .tryBlock uid n b fun r => (next r).only e max hdr i σ
    else
      match (σ j).key.bind fun k => (decryptHybridBlock e max k uid n b).toOption with
      | none => (next none).only e max hdr i σ
      | some x => if (uid, n, b) ∈ (σ j).blocks then (next (some x)).only e max hdr i σ else .stop
  | .tryTail j tail next, σ =>
    if j = i then .tryTail tail fun r => (next r).only e max hdr i σ
    else
      match (σ j).key.bind fun k => readTail e k tail with
      | none => (next none).only e max hdr i σ
      | some m => if m = .default ∨ (σ j).metaData = some m then (next (some m)).only e max hdr i σ else .stop

theorem SystemForger.only_fair [Fintype K] [Fintype Nonce] [Nonempty Nonce] {q : Nat} (e : External Key Nonce) (max : Nat)
    (hdr : Fin q → K → K → Option Metadata → Nonce → Option (Key × Bytes)) (i : Fin q) {allowed : Policy → AccessPolicy → Prop} {gamma : List UInt32}
    (h : ∀ q ap, allowed q ap → q.Reachable ∧ ¬ ap.Sat q fun b => ∃ v, q.HasValue b v ∧ v ∈ gamma) :
    ∀ (A : SystemForger K Q QP q) (σ : Fin q → Session Key), A.Asks allowed → (A.only e max hdr i σ).Fair gamma := by
  intro A
  induction A with
  | stop => intro _ _; trivial
  | choose n next ih => intro σ hA x; exact ih x σ (hA x)
  | key p ap next ih => intro σ hA; exact ⟨(h p ap hA.1).1, (h p ap hA.1).2, fun k => ih k σ (hA.2 k)⟩
  | header j m next ih =>
    intro σ hA
    simp only [SystemForger.only]
    split
    · exact fun r => ih r σ (hA r)
    · split
      · exact ih _ _ (hA _)
      · exact fun s x ν => ih _ _ (hA _)
  | block j uid n pt next ih =>
    intro σ hA
    simp only [SystemForger.only]
    split
    · exact fun r => ih r σ (hA r)
    · simp only [Forger.draw, Forger.Fair]
      intro ν
      split <;> exact ih _ _ (hA _)
  | tryBlock j uid n b next ih =>
    intro σ hA
    simp only [SystemForger.only]
    split
    · exact fun r => ih r σ (hA r)
    · split
      · exact ih _ _ (hA _)
      · split
        · exact ih _ _ (hA _)
        · trivial
  | tryTail j tail next ih =>
    intro σ hA
    simp only [SystemForger.only]
    split
    · exact fun r => ih r σ (hA r)
    · split
      · exact ih _ _ (hA _)
      · split
        · exact ih _ _ (hA _)
        · trivial

section
variable [Fintype K] [Fintype Nonce] [Nonempty Nonce] {q : Nat} (e : External Key Nonce) (max : Nat)
  (hdr : Fin q → K → K → Option Metadata → Nonce → Option (Key × Bytes)) (i : Fin q) (keys : Policy → AccessPolicy → PMF (Option (DecryptionKey K QP Q)))

/-- Whether message `i` is the forged one. -/
def hits (o : Option (Fin q)) : Bool := decide (o = some i)

theorem update_agree {σ τ : Fin q → Session Key} (h : ∀ j, j ≠ i → τ j = σ j) (j : Fin q) (x : Session Key) :
    ∀ k, k ≠ i → Function.update τ j x k = Function.update σ j x k := by
  intro k hk
  by_cases hj : k = j
  · subst hj; simp
  · rw [Function.update_of_ne hj, Function.update_of_ne hj, h k hk]

theorem update_agree_self {σ τ : Fin q → Session Key} (h : ∀ j, j ≠ i → τ j = σ j) (x : Session Key) : ∀ k, k ≠ i → τ k = Function.update σ i x k := by
  intro k hk
  rw [Function.update_of_ne hk, h k hk]

/-- After its header has been made. -/
theorem SystemForger.only_after (hdr' : Option Metadata → Nonce → Option (Key × Bytes)) : ∀ (A : SystemForger K Q QP q) (σ τ : Fin q → Session Key),
    (∀ j, j ≠ i → τ j = σ j) → (σ i).asked = true →
      (A.only e max hdr i τ).exec e max keys hdr' (σ i) = (A.exec e max keys hdr σ).map (hits i) := by
  intro A
  induction A with
  | stop => intro σ τ _ _; simp [SystemForger.only, Forger.exec, SystemForger.exec, PMF.pure_map, hits]
  | choose n next ih =>
    intro σ τ h ha
    simp only [SystemForger.only, Forger.exec, SystemForger.exec, PMF.map_bind, ih _ σ τ h ha]
  | key p ap next ih =>
    intro σ τ h ha
    simp only [SystemForger.only, Forger.exec, SystemForger.exec, PMF.map_bind, ih _ σ τ h ha]
  | header j m next ih =>
    intro σ τ h ha
    simp only [SystemForger.only, SystemForger.exec]
    by_cases hj : j = i
    · subst hj
      simp only [if_true, Forger.exec, ha]
      exact ih _ σ τ h ha
    · rw [if_neg hj, h j hj]
      by_cases hja : (σ j).asked = true
      · simp only [if_pos hja]
        exact ih _ σ τ h ha
      · simp only [if_neg hja, Forger.exec_draw, PMF.map_bind]
        congr 1; funext s; congr 1; funext x; congr 1; funext ν
        have := ih ((hdr j s x m ν).map Prod.snd) (Function.update σ j _) (Function.update τ j _)
          (update_agree i h j { asked := true, key := (hdr j s x m ν).map Prod.fst, metaData := m, blocks := [] })
          (by rw [Function.update_of_ne (Ne.symm hj)]; exact ha)
        rw [Function.update_of_ne (Ne.symm hj)] at this
        exact this
  | block j uid n pt next ih =>
    intro σ τ h ha
    simp only [SystemForger.only, SystemForger.exec]
    by_cases hj : j = i
    · subst hj
      simp only [if_true, Forger.exec, PMF.map_bind]
      congr 1; funext ν
      cases (σ j).key.bind fun k => (encryptHybridBlock e max k uid n pt ν).toOption with
      | none => exact ih _ σ τ h ha
      | some b =>
        have := ih (some b) (Function.update σ j { σ j with blocks := (uid, n, b) :: (σ j).blocks }) τ (update_agree_self j h _)
          (by rw [Function.update_self]; exact ha)
        rw [Function.update_self] at this
        exact this
    · rw [if_neg hj, h j hj]
      simp only [Forger.exec_draw, PMF.map_bind]
      congr 1; funext ν
      cases (σ j).key.bind fun k => (encryptHybridBlock e max k uid n pt ν).toOption with
      | none => exact ih _ σ τ h ha
      | some b =>
        have := ih (some b) (Function.update σ j _) (Function.update τ j _)
          (update_agree i h j { σ j with blocks := (uid, n, b) :: (σ j).blocks })
          (by rw [Function.update_of_ne (Ne.symm hj)]; exact ha)
        rw [Function.update_of_ne (Ne.symm hj)] at this
        exact this
  | tryBlock j uid n b next ih =>
    intro σ τ h ha
    simp only [SystemForger.only, SystemForger.exec]
    by_cases hj : j = i
    · subst hj
      simp only [if_true, Forger.exec]
      cases (σ j).key.bind fun k => (decryptHybridBlock e max k uid n b).toOption with
      | none => exact ih _ σ τ h ha
      | some x =>
        by_cases hm : (uid, n, b) ∈ (σ j).blocks
        · simp only [if_pos hm]; exact ih _ σ τ h ha
        · simp [if_neg hm, PMF.pure_map, hits]
    · rw [if_neg hj, h j hj]
      cases (σ j).key.bind fun k => (decryptHybridBlock e max k uid n b).toOption with
      | none => exact ih _ σ τ h ha
      | some x =>
        by_cases hm : (uid, n, b) ∈ (σ j).blocks
        · simp only [if_pos hm]; exact ih _ σ τ h ha
        · simp [if_neg hm, PMF.pure_map, hits, Forger.exec, hj]
  | tryTail j tail next ih =>
    intro σ τ h ha
    simp only [SystemForger.only, SystemForger.exec]
    by_cases hj : j = i
    · subst hj
      simp only [if_true, Forger.exec]
      cases (σ j).key.bind fun k => readTail e k tail with
      | none => exact ih _ σ τ h ha
      | some x =>
        by_cases hm : x = .default ∨ (σ j).metaData = some x
        · simp only [if_pos hm]; exact ih _ σ τ h ha
        · simp [if_neg hm, PMF.pure_map, hits]
    · rw [if_neg hj, h j hj]
      cases (σ j).key.bind fun k => readTail e k tail with
      | none => exact ih _ σ τ h ha
      | some x =>
        by_cases hm : x = .default ∨ (σ j).metaData = some x
        · simp only [if_pos hm]; exact ih _ σ τ h ha
        · simp [if_neg hm, PMF.pure_map, hits, Forger.exec, hj]

theorem swap_draws {α β γ : Type} [Fintype α] [Nonempty α] (E : PMF β) (f : α → α → β → PMF γ) :
    ((PMF.uniformOfFintype α).bind fun s => (PMF.uniformOfFintype α).bind fun x => E.bind fun a => f s x a) =
      E.bind fun a => (PMF.uniformOfFintype α).bind fun s => (PMF.uniformOfFintype α).bind fun x => f s x a := by
  have : ∀ s, ((PMF.uniformOfFintype α).bind fun x => E.bind fun a => f s x a) = E.bind fun a => (PMF.uniformOfFintype α).bind fun x => f s x a :=
    fun s => PMF.bind_comm _ _ _
  simp only [this]
  exact PMF.bind_comm _ _ _

/-- From the beginning: it does not matter when the element and the scalar of the header are drawn. -/
theorem SystemForger.only_exec : ∀ (A : SystemForger K Q QP q) (σ τ : Fin q → Session Key),
    (∀ j, j ≠ i → τ j = σ j) → σ i = {} →
      ((PMF.uniformOfFintype K).bind fun s => (PMF.uniformOfFintype K).bind fun x => (A.only e max hdr i τ).exec e max keys (hdr i s x) {}) =
        (A.exec e max keys hdr σ).map (hits i) := by
  intro A
  induction A with
  | stop => intro σ τ _ _; simp [SystemForger.only, Forger.exec, SystemForger.exec, PMF.pure_map, hits, PMF.bind_const]
  | choose n next ih =>
    intro σ τ h ha
    simp only [SystemForger.only, Forger.exec, SystemForger.exec, PMF.map_bind]
    rw [swap_draws]
    congr 1; funext x
    exact ih x σ τ h ha
  | key p ap next ih =>
    intro σ τ h ha
    simp only [SystemForger.only, Forger.exec, SystemForger.exec, PMF.map_bind]
    rw [swap_draws]
    congr 1; funext x
    exact ih x σ τ h ha
  | header j m next ih =>
    intro σ τ h ha
    simp only [SystemForger.only, SystemForger.exec]
    by_cases hj : j = i
    · subst hj
      simp only [if_true, Forger.exec, ha, Bool.false_eq_true, if_false, PMF.map_bind]
      congr 1; funext s; congr 1; funext x; congr 1; funext ν
      have := SystemForger.only_after e max hdr j keys (hdr j s x) (next ((hdr j s x m ν).map Prod.snd))
        (Function.update σ j { asked := true, key := (hdr j s x m ν).map Prod.fst, metaData := m, blocks := [] }) τ (update_agree_self j h _)
        (by rw [Function.update_self])
      rw [Function.update_self] at this
      exact this
    · rw [if_neg hj, h j hj]
      by_cases hja : (σ j).asked = true
      · simp only [if_pos hja]
        exact ih _ σ τ h ha
      · simp only [if_neg hja, Forger.exec_draw, PMF.map_bind]
        rw [swap_draws]
        congr 1; funext s
        rw [swap_draws]
        congr 1; funext x
        rw [swap_draws]
        congr 1; funext ν
        exact ih ((hdr j s x m ν).map Prod.snd) (Function.update σ j _) (Function.update τ j _)
          (update_agree i h j { asked := true, key := (hdr j s x m ν).map Prod.fst, metaData := m, blocks := [] })
          (by rw [Function.update_of_ne (Ne.symm hj)]; exact ha)
  | block j uid n pt next ih =>
    intro σ τ h ha
    simp only [SystemForger.only, SystemForger.exec]
    by_cases hj : j = i
    · subst hj
      simp only [if_true, Forger.exec, ha, Option.bind_none, PMF.bind_const]
      exact ih _ σ τ h ha
    · rw [if_neg hj, h j hj]
      simp only [Forger.exec_draw, PMF.map_bind]
      rw [swap_draws]
      congr 1; funext ν
      cases (σ j).key.bind fun k => (encryptHybridBlock e max k uid n pt ν).toOption with
      | none => exact ih _ σ τ h ha
      | some b =>
        exact ih (some b) (Function.update σ j _) (Function.update τ j _)
          (update_agree i h j { σ j with blocks := (uid, n, b) :: (σ j).blocks })
          (by rw [Function.update_of_ne (Ne.symm hj)]; exact ha)
  | tryBlock j uid n b next ih =>
    intro σ τ h ha
    simp only [SystemForger.only, SystemForger.exec]
    by_cases hj : j = i
    · subst hj
      simp only [if_true, Forger.exec, ha, Option.bind_none]
      exact ih _ σ τ h ha
    · rw [if_neg hj, h j hj]
      cases (σ j).key.bind fun k => (decryptHybridBlock e max k uid n b).toOption with
      | none => exact ih _ σ τ h ha
      | some x =>
        by_cases hm : (uid, n, b) ∈ (σ j).blocks
        · simp only [if_pos hm]; exact ih _ σ τ h ha
        · simp [if_neg hm, PMF.pure_map, hits, Forger.exec, hj, PMF.bind_const]
  | tryTail j tail next ih =>
    intro σ τ h ha
    simp only [SystemForger.only, SystemForger.exec]
    by_cases hj : j = i
    · subst hj
      simp only [if_true, Forger.exec, ha, Option.bind_none]
      exact ih _ σ τ h ha
    · rw [if_neg hj, h j hj]
      cases (σ j).key.bind fun k => readTail e k tail with
      | none => exact ih _ σ τ h ha
      | some x =>
        by_cases hm : x = .default ∨ (σ j).metaData = some x
        · simp only [if_pos hm]; exact ih _ σ τ h ha
        · simp [if_neg hm, PMF.pure_map, hits, Forger.exec, hj, PMF.bind_const]

end

/-- Exactly one message is the first to be forged. -/
theorem prob_hits {q : Nat} (E : PMF (Option (Fin q))) : prob (E.map Option.isSome) = ∑ i, prob (E.map (hits i)) := by
  have h1 : (E.map Option.isSome) true = ∑ i, E (some i) := by
    rw [PMF.map_apply, tsum_fintype, Fintype.sum_option]
    simp
  have h2 : ∀ i, (E.map (hits i)) true = E (some i) := by
    intro i
    rw [PMF.map_apply, tsum_fintype, Fintype.sum_option]
    simp [hits]
  unfold prob
  rw [h1, ENNReal.toReal_sum fun _ _ => PMF.apply_ne_top _ _]
  simp only [h2]

theorem prob_total {α ι : Type} [Fintype α] [Nonempty α] [Fintype ι] {f : α → PMF Bool} {g : ι → α → PMF Bool} (h : ∀ a, prob (f a) = ∑ i, prob (g i a)) :
    prob ((PMF.uniformOfFintype α).bind f) = ∑ i, prob ((PMF.uniformOfFintype α).bind (g i)) := by
  simp only [prob_uniform, h]
  rw [Finset.sum_comm, Finset.sum_div]

/-- **C98.** The probability that one of many messages is forged is the sum of the probabilities, in the game with one message, that the attackers on one of them
win. -/
theorem C98_messages_one_by_one [Fintype K] [Fintype Nonce] [Nonempty Nonce] (e : External Key Nonce) (c : Curve K P Q QP T) (cs : Codecs K P Q T) (t : Target)
    (max : Nat) (p0 : Policy) {q : Nat} (posts : Fin q → Policy × List Attribute) (A : MasterPublicKey P T → DelegationKey Q → SystemForger K Q QP q) :
    prob (systemForgeryGame e c cs t max p0 posts A) = ∑ j, prob (forgeryGame e c cs t max p0.maxAttributeCreations.toNat (posts j).1 (posts j).2
      fun pk dk => (A pk dk).only e max (headerOf e c cs t pk posts) j fun _ => {}) := by
  set size := p0.maxAttributeCreations.toNat with hsize
  have order : ∀ j : Fin q, (forgeryGame e c cs t max size (posts j).1 (posts j).2
        fun pk dk => (A pk dk).only e max (headerOf e c cs t pk posts) j fun _ => {}) =
      (PMF.uniformOfFintype K).bind fun y => (PMF.uniformOfFintype (Fin size → K)).bind fun rnd =>
        (PMF.uniformOfFintype K).bind fun s => (PMF.uniformOfFintype K).bind fun x =>
          forgeryRun e c cs t max size (posts j).1 (posts j).2 (fun pk dk => (A pk dk).only e max (headerOf e c cs t pk posts) j fun _ => {}) s y rnd x := by
    intro j
    unfold forgeryGame
    rw [PMF.bind_comm]
    congr 1; funext y
    rw [PMF.bind_comm]
  simp only [order]
  refine prob_total fun y => prob_total fun rnd => ?_
  rw [prob_hits]
  refine Finset.sum_congr rfl fun j _ => congrArg prob ?_
  unfold systemForgeryRun forgeryRun engineGenerateMasterKey
  cases generateMasterKey (bls c) size (pad rnd) y with
  | ok mk => exact (SystemForger.only_exec e max (headerOf e c cs t mk.pubKey posts) j (userKeys c mk.privKey) _ _ _ (fun _ _ => rfl) rfl).symm
  | err e => simp [PMF.bind_const, PMF.pure_map, hits]
  | panic => simp [PMF.bind_const, PMF.pure_map, hits]

/-- A message for attributes that the policy does not have is not sent. -/
theorem forgeryGame_blind [Fintype K] [Fintype Nonce] [Nonempty Nonce] (e : External Key Nonce) (c : Curve K P Q QP T) (cs : Codecs K P Q T) (t : Target)
    (max size : Nat) {p : Policy} {attrs : List Attribute} {err : FormatErr} (hg : p.attributesValues attrs = .err err)
    (A : MasterPublicKey P T → DelegationKey Q → Forger K Q QP) : forgeryGame e c cs t max size p attrs A = .pure false := by
  unfold forgeryGame
  refine bind_const' fun s => bind_const' fun y => bind_const' fun rnd => bind_const' fun x => ?_
  rw [forgeryRun_mixed]
  unfold mixedForgery
  cases generateMasterKey (bls c) size (pad rnd) y with
  | err _ => rfl
  | panic => rfl
  | ok mk =>
    have : engineEncrypt (bls c) t p mk.pubKey attrs (x • c.genT) s = .err err := by
      unfold engineEncrypt
      rw [hg]
      rfl
    dsimp only
    rw [this]
    exact Forger.exec_none e max _ _ _ rfl

/-- **C98.** Integrity over the life of a policy: any number of messages are sent, each for its own attributes under the policy of its moment; the attacker may have
any keys that open none of them.  The probability that readers of some message accept a block or metadata not written for this message is at most the sum, over
the messages, of the probability of a forgery with the symmetric scheme alone and twice the advantage of the reduction in telling products from random elements. -/
theorem C98_system_integrity [Fintype K] [Fintype Nonce] [Nonempty Nonce] (e : External Key Nonce) (c : Curve K P Q QP T)
    (hT : ∀ m : T, ∃ x : K, m = x • c.genT) (cs : Codecs K P Q T) (t : Target) (max : Nat) (p0 : Policy) {q : Nat} (posts : Fin q → Policy × List Attribute)
    (hp : ∀ j, (posts j).1.Reachable) (A : MasterPublicKey P T → DelegationKey Q → SystemForger K Q QP q)
    (hA : ∀ pk dk, (A pk dk).Asks fun r ap => ∀ j, Shut (posts j).1 (posts j).2 r ap) :
    prob (systemForgeryGame e c cs t max p0 posts A) ≤
      ∑ j, (prob (symmetricForgery e c cs max (demForger c cs t p0.maxAttributeCreations.toNat (posts j).1 (posts j).2
          fun pk dk => (A pk dk).only e max (headerOf e c cs t pk posts) j fun _ => {})) +
        2 * |prob ((bdhReal c).bind (distinguisher c p0.maxAttributeCreations.toNat (challengeValues (posts j).1 (posts j).2)
            (kemForger e c cs t max fun pk dk => (A pk dk).only e max (headerOf e c cs t pk posts) j fun _ => {}))) -
          prob ((bdhRandom c).bind (distinguisher c p0.maxAttributeCreations.toNat (challengeValues (posts j).1 (posts j).2)
            (kemForger e c cs t max fun pk dk => (A pk dk).only e max (headerOf e c cs t pk posts) j fun _ => {})))|) := by
  rw [C98_messages_one_by_one]
  refine Finset.sum_le_sum fun j _ => ?_
  rcases attributesValues_cases (reachable_wf (hp j)) (posts j).2 with ⟨_, gamma, hg, _⟩ | ⟨_, hg⟩
  · have hv : challengeValues (posts j).1 (posts j).2 = gamma := by simp [challengeValues, hg, Res.toOption]
    rw [hv]
    exact C98_integrity e c hT cs t max _ (attributesValues_iff.1 hg) _ fun pk dk =>
      SystemForger.only_fair e max _ j (fun r ap h => shut_unauthorised (hp j) hg (h j)) _ _ (hA pk dk)
  · rw [forgeryGame_blind e c cs t max _ hg]
    have : prob (PMF.pure false) = 0 := by simp [prob]
    rw [this]
    have h0 : ∀ E : PMF Bool, 0 ≤ prob E := fun E => ENNReal.toReal_nonneg
    have := h0 (symmetricForgery e c cs max (demForger c cs t p0.maxAttributeCreations.toNat (posts j).1 (posts j).2
      fun pk dk => (A pk dk).only e max (headerOf e c cs t pk posts) j fun _ => {}))
    positivity

namespace Demo

/-- A former employee with a key for `HR` made before its rotation, who takes a block of the first message of `posts` for one of the second. -/
def mixer (pick : Option Bytes → Bytes) (_pk : MasterPublicKey F F) (_dk : DelegationKey F) : SystemForger F F F 2 :=
  .key policy (.attr hr) fun _ => .header 0 (some metadata) fun h => .block 0 [1] 0 (pick h) fun b => .header 1 none fun _ => .tryBlock 1 [1] 0 (b.getD []) fun _ =>
    .stop

/-- **C98** for them. -/
example (pick) : prob (systemForgeryGame symmetric curveF codecs .release64 10 policy posts (mixer pick)) ≤
    ∑ j, (prob (symmetricForgery symmetric curveF codecs 10 (demForger curveF codecs .release64 policy.maxAttributeCreations.toNat (posts j).1 (posts j).2
        fun pk dk => (mixer pick pk dk).only symmetric 10 (headerOf symmetric curveF codecs .release64 pk posts) j fun _ => {})) +
      2 * |prob ((bdhReal curveF).bind (distinguisher curveF policy.maxAttributeCreations.toNat (challengeValues (posts j).1 (posts j).2)
          (kemForger symmetric curveF codecs .release64 10 fun pk dk => (mixer pick pk dk).only symmetric 10
            (headerOf symmetric curveF codecs .release64 pk posts) j fun _ => {}))) -
        prob ((bdhRandom curveF).bind (distinguisher curveF policy.maxAttributeCreations.toNat (challengeValues (posts j).1 (posts j).2)
          (kemForger symmetric curveF codecs .release64 10 fun pk dk => (mixer pick pk dk).only symmetric 10
            (headerOf symmetric curveF codecs .release64 pk posts) j fun _ => {})))|) := by
  refine C98_system_integrity symmetric curveF (fun m => ⟨m, by simp [curveF]⟩) codecs .release64 10 policy posts ?_ (mixer pick) fun pk dk =>
    ⟨(formerHr_asks (fun _ => (⟨none, []⟩, ⟨none, []⟩)) (fun _ _ _ _ _ _ => true) pk dk).1, fun _ _ _ _ _ => trivial⟩
  rw [Fin.forall_fin_two]
  exact ⟨policy_reachable, grown_reachable⟩

end Demo

end Abe
