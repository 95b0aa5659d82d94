import Verif.Spec.HybridGame
import Verif.Spec.LifeGame

/-!
# The game of all messages over the life of a policy

The engine makes one master key and any user keys; many hybrid messages are sent, each for its own attributes under the policy of its moment, with fresh randomness.
Either the first message of each pair is sent, or the second.
-/

namespace Abe

variable {K P Q QP T Key Nonce : Type} [Field K] [DecidableEq K] [AddCommGroup P] [Module K P] [AddCommGroup Q] [Module K Q]
  [AddCommGroup T] [Module K T]

/-- An attacker with its environment: a source of user keys and one of messages, which is told the number of the message. -/
noncomputable def HybridAttacker.execMany [Fintype K] (keys : Policy → AccessPolicy → PMF (Option (DecryptionKey K QP Q)))
    (chal : Nat → HybridMsg → HybridMsg → PMF (Option (Bytes × List Bytes))) : HybridAttacker K Q QP → (count : Nat) → PMF Bool
  | .guess g, _ => .pure g
  | .toss next, count => (PMF.uniformOfFintype K).bind fun x => (next x).execMany keys chal count
  | .choose _ next, count => (PMF.uniformOfFintype _).bind fun x => (next x).execMany keys chal count
  | .key p ap next, count => (keys p ap).bind fun k => (next k).execMany keys chal count
  | .challenge m0 m1 next, count => (chal count m0 m1).bind fun r => (next r).execMany keys chal (count + 1)

/-- The rule of the game: all keys asked for satisfy `allowed`. -/
def HybridAttacker.Asks (allowed : Policy → AccessPolicy → Prop) : HybridAttacker K Q QP → Prop
  | .guess _ => True
  | .toss next => ∀ x, (next x).Asks allowed
  | .choose _ next => ∀ x, (next x).Asks allowed
  | .key p ap next => allowed p ap ∧ ∀ k, (next k).Asks allowed
  | .challenge _ _ next => ∀ x, (next x).Asks allowed

/-- A message with fresh randomness for the attributes `attrs` under the policy `p`. -/
noncomputable def sendFresh [Fintype K] [Fintype Nonce] [Nonempty Nonce] (e : External Key Nonce) (c : Curve K P Q QP T) (cs : Codecs K P Q T) (t : Target)
    (max : Nat) (pub : MasterPublicKey P T) (p : Policy) (attrs : List Attribute) (m : HybridMsg) : PMF (Option (Bytes × List Bytes)) :=
  (PMF.uniformOfFintype K).bind fun s => (PMF.uniformOfFintype K).bind fun x => (PMF.uniformOfFintype (Fin (m.blocks.length + 1) → Nonce)).map fun ν =>
    (encryptHybrid e c cs t max p pub attrs m (x • c.genT) s (padNonce ν)).toOption

/-- There are `q` messages; number `n` is for the attributes `(posts n).2` under the policy `(posts n).1`. -/
noncomputable def sendMany [Fintype K] [Fintype Nonce] [Nonempty Nonce] (e : External Key Nonce) (c : Curve K P Q QP T) (cs : Codecs K P Q T) (t : Target)
    (max : Nat) (pub : MasterPublicKey P T) {q : Nat} (posts : Fin q → Policy × List Attribute) (sel : Nat → HybridMsg → HybridMsg → HybridMsg) (n : Nat)
    (m0 m1 : HybridMsg) : PMF (Option (Bytes × List Bytes)) :=
  if h : n < q then sendFresh e c cs t max pub (posts ⟨n, h⟩).1 (posts ⟨n, h⟩).2 (sel n m0 m1) else .pure none

/-- The game with given scalars of the master key, which is made under the policy `p0`. -/
noncomputable def systemRun [Fintype K] [Fintype Nonce] [Nonempty Nonce] (e : External Key Nonce) (c : Curve K P Q QP T) (cs : Codecs K P Q T) (t : Target)
    (max : Nat) (p0 : Policy) {q : Nat} (posts : Fin q → Policy × List Attribute) (A : MasterPublicKey P T → DelegationKey Q → HybridAttacker K Q QP) (y : K)
    (b : Bool) (rnd : Fin p0.maxAttributeCreations.toNat → K) : PMF Bool :=
  match engineGenerateMasterKey (bls c) p0 (pad rnd) y with
  | .ok mk => ((A mk.pubKey mk.delKey).execMany (userKeys c mk.privKey)
      (sendMany e c cs t max mk.pubKey posts fun _ m0 m1 => if b then m1 else m0) 0).map (· == b)
  | _ => PMF.uniformOfFintype Bool

/-- The game of all messages over the life of a policy. -/
noncomputable def systemGame [Fintype K] [Fintype Nonce] [Nonempty Nonce] (e : External Key Nonce) (c : Curve K P Q QP T) (cs : Codecs K P Q T) (t : Target)
    (max : Nat) (p0 : Policy) {q : Nat} (posts : Fin q → Policy × List Attribute) (A : MasterPublicKey P T → DelegationKey Q → HybridAttacker K Q QP) : PMF Bool :=
  (PMF.uniformOfFintype K).bind fun y => (PMF.uniformOfFintype Bool).bind fun b => (PMF.uniformOfFintype (Fin p0.maxAttributeCreations.toNat → K)).bind fun rnd =>
    systemRun e c cs t max p0 posts A y b rnd

end Abe
