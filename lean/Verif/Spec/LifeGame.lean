import Verif.Spec.Game
import Verif.Spec.History

/-!
# The game over the life of a policy

The engine makes the master key, the user keys and the challenge under the policies of different moments; the rule of the game is stated with attributes.
-/

namespace Abe

variable {K P Q QP T : Type} [Field K] [DecidableEq K] [AddCommGroup P] [Module K P] [AddCommGroup Q] [Module K Q]
  [AddCommGroup T] [Module K T]

/-- A user key for `ap`, made under the policy `q`, that does not open a ciphertext for the attributes `attrs` under the policy `p`.  For a key that is older than the
ciphertext, attributes rotated in between do not count. -/
def Shut (p : Policy) (attrs : List Attribute) (q : Policy) (ap : AccessPolicy) : Prop :=
  (∃ l, q.Reachable ∧ q.Evolves l p ∧ ¬ ap.Sat q fun b => b ∈ attrs ∧ ¬ Rotated l b) ∨ (∃ l, p.Evolves l q ∧ ¬ ap.Sat q (· ∈ attrs))

/-- The rule of the game: all keys asked for satisfy `allowed`. -/
def Attacker.Asks (allowed : Policy → AccessPolicy → Prop) : Attacker K P Q QP T → Prop
  | .guess _ => True
  | .toss next => ∀ x, (next x).Asks allowed
  | .choose _ next => ∀ x, (next x).Asks allowed
  | .key p ap next => allowed p ap ∧ ∀ k, (next k).Asks allowed
  | .challenge _ _ next => ∀ x, (next x).Asks allowed

/-- The game with given scalars: the master key is made under `p0`, the challenge is for the attributes `attrs` under `p`. -/
noncomputable def lifeRun [Fintype K] (c : Curve K P Q QP T) (t : Target) (p0 p : Policy) (attrs : List Attribute)
    (A : MasterPublicKey P T → DelegationKey Q → Attacker K P Q QP T) (s y : K) (b : Bool) (rnd : Fin p0.maxAttributeCreations.toNat → K) : PMF Bool :=
  match engineGenerateMasterKey (bls c) p0 (pad rnd) y with
  | .ok mk => ((A mk.pubKey mk.delKey).exec (userKeys c mk.privKey)
      (fun m0 m1 => (engineEncrypt (bls c) t p mk.pubKey attrs (if b then m1 else m0) s).toOption) false).map (· == b)
  | _ => PMF.uniformOfFintype Bool

/-- The game over the life of a policy. -/
noncomputable def lifeGame [Fintype K] (c : Curve K P Q QP T) (t : Target) (p0 p : Policy) (attrs : List Attribute)
    (A : MasterPublicKey P T → DelegationKey Q → Attacker K P Q QP T) : PMF Bool :=
  (PMF.uniformOfFintype K).bind fun s => (PMF.uniformOfFintype K).bind fun y => (PMF.uniformOfFintype Bool).bind fun b =>
    (PMF.uniformOfFintype (Fin p0.maxAttributeCreations.toNat → K)).bind fun rnd => lifeRun c t p0 p attrs A s y b rnd

end Abe
