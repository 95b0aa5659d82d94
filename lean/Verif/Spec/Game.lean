import Verif.Model.Engine
import Verif.Spec.Policy
import Mathlib.Probability.Distributions.Uniform

/-!
# The selective security game and the bilinear Diffie-Hellman problem

Attackers are arbitrary here: they see the group elements they are given and may do anything with them.  The selective game (Goyal, Pandey, Sahai, Waters) is
that in which the attacker names the attribute values of the challenge before it sees the public key.
-/

namespace Abe

variable {K P Q QP T : Type} [Field K] [DecidableEq K] [AddCommGroup P] [Module K P] [AddCommGroup Q] [Module K Q]
  [AddCommGroup T] [Module K T]

/-- The value of a successful outcome. -/
def Res.toOption {ε α : Type} : Res ε α → Option α
  | .ok a => some a
  | _ => none

/-- Draws of which the first `n` count. -/
def pad {n : Nat} (r : Fin n → K) (i : Nat) : K := if h : i < n then r ⟨i, h⟩ else 0

/-- An attacker from some point of the game on: what it does next may depend in any way on what it was given, and on its own random draws. -/
inductive Attacker (K P Q QP T : Type)
  /-- end of the game -/
  | guess (b : Bool)
  /-- draws a random scalar -/
  | toss (next : K → Attacker K P Q QP T)
  /-- draws one of `n + 1` values -/
  | choose (n : Nat) (next : Fin (n + 1) → Attacker K P Q QP T)
  /-- asks for a user key -/
  | key (p : Policy) (ap : AccessPolicy) (next : Option (DecryptionKey K QP Q) → Attacker K P Q QP T)
  /-- asks for the encryption of one of two messages -/
  | challenge (m0 m1 : T) (next : Option (CipherText P T) → Attacker K P Q QP T)

/-- An attacker with its environment: a source of user keys and one of ciphertexts, which is used once. -/
noncomputable def Attacker.exec [Fintype K] (keys : Policy → AccessPolicy → PMF (Option (DecryptionKey K QP Q)))
    (chal : T → T → Option (CipherText P T)) : Attacker K P Q QP T → (used : Bool) → PMF Bool
  | .guess g, _ => .pure g
  | .toss next, used => (PMF.uniformOfFintype K).bind fun x => (next x).exec keys chal used
  | .choose _ next, used => (PMF.uniformOfFintype _).bind fun x => (next x).exec keys chal used
  | .key p ap next, used => (keys p ap).bind fun k => (next k).exec keys chal used
  | .challenge m0 m1 next, used => if used then (next none).exec keys chal true else (next (chal m0 m1)).exec keys chal true

/-- The rule of the game: keys are made under policies built by the operations on policies, and none is authorised for the values of the challenge. -/
def Attacker.Fair (gamma : List UInt32) : Attacker K P Q QP T → Prop
  | .guess _ => True
  | .toss next => ∀ x, (next x).Fair gamma
  | .choose _ next => ∀ x, (next x).Fair gamma
  | .key p ap next => p.Reachable ∧ (¬ ap.Sat p fun b => ∃ v, p.HasValue b v ∧ v ∈ gamma) ∧ ∀ k, (next k).Fair gamma
  | .challenge _ _ next => ∀ x, (next x).Fair gamma

/-- Number of scalars drawn for a user key. -/
def keyDraws (p : Policy) (ap : AccessPolicy) : Nat :=
  match policyToMsp p ap with
  | .ok m => m.nbCol - 1
  | _ => 0

/-- User keys from the key generation of the engine. -/
noncomputable def userKeys [Fintype K] (c : Curve K P Q QP T) (priv : MasterPrivateKey K) (p : Policy) (ap : AccessPolicy) :
    PMF (Option (DecryptionKey K QP Q)) :=
  (PMF.uniformOfFintype (Fin (keyDraws p ap) → K)).map fun r => (engineGenerateUserKey (bls c) p priv ap (pad r)).toOption

/-- The selective game with given scalars `rnd` and `y` of the master key and `s` of the challenge, message number `b` being encrypted: the attacker is given the
public key and the delegation key.  The outcome is whether it guesses `b`.  If there is no master key it is left to chance. -/
noncomputable def selectiveRun [Fintype K] (c : Curve K P Q QP T) (t : Target) (size : Nat) (gamma : List UInt32)
    (A : MasterPublicKey P T → DelegationKey Q → Attacker K P Q QP T) (s y : K) (b : Bool) (rnd : Fin size → K) : PMF Bool :=
  match generateMasterKey (bls c) size (pad rnd) y with
  | .ok mk => ((A mk.pubKey mk.delKey).exec (userKeys c mk.privKey)
      (fun m0 m1 => (encrypt (bls c) t (if b then m1 else m0) gamma mk.pubKey s).toOption) false).map (· == b)
  | _ => PMF.uniformOfFintype Bool

/-- The selective game. -/
noncomputable def selectiveGame [Fintype K] (c : Curve K P Q QP T) (t : Target) (size : Nat) (gamma : List UInt32)
    (A : MasterPublicKey P T → DelegationKey Q → Attacker K P Q QP T) : PMF Bool :=
  (PMF.uniformOfFintype K).bind fun s => (PMF.uniformOfFintype K).bind fun y => (PMF.uniformOfFintype Bool).bind fun b =>
    (PMF.uniformOfFintype (Fin size → K)).bind fun rnd => selectiveRun c t size gamma A s y b rnd

/-- The selective game when there is a master key: the private scalars are not zero (C18). -/
noncomputable def selectiveGameKey [Fintype K] (c : Curve K P Q QP T) (t : Target) (size : Nat) (gamma : List UInt32)
    (A : MasterPublicKey P T → DelegationKey Q → Attacker K P Q QP T) : PMF Bool :=
  (PMF.uniformOfFintype K).bind fun s => (PMF.uniformOfFintype K).bind fun y => (PMF.uniformOfFintype Bool).bind fun b =>
    (PMF.uniformOfFintype (Fin size → Kˣ)).bind fun ti => selectiveRun c t size gamma A s y b fun i => (ti i : K)

/-- The probability of "true". -/
noncomputable def prob (E : PMF Bool) : ℝ := (E true).toReal

/-- An instance of the decisional bilinear Diffie-Hellman problem: `s • P`, `x • P`, `a • Q`, `x⁻¹ • Q` and an element of the target group.  With
`Q' = x⁻¹ • Q` as generator this is `s • P`, `x • P`, `x • Q'`, `(a x) • Q'` and an element to be told from `(s x (a x)) • e(P, Q')`: the usual form of the problem
for a pairing of two different groups. -/
structure Bdh (P Q T : Type) where
  sP : P
  xP : P
  aQ : Q
  iQ : Q
  z : T

/-- Instances whose last element is the product. -/
noncomputable def bdhReal [Fintype K] (c : Curve K P Q QP T) : PMF (Bdh P Q T) :=
  (PMF.uniformOfFintype K).bind fun s => (PMF.uniformOfFintype Kˣ).bind fun x => (PMF.uniformOfFintype K).map fun a =>
    ⟨s • c.genP, (x : K) • c.genP, a • c.genQ, (x : K)⁻¹ • c.genQ, (s * a * (x : K)) • c.genT⟩

/-- Instances whose last element is random. -/
noncomputable def bdhRandom [Fintype K] (c : Curve K P Q QP T) : PMF (Bdh P Q T) :=
  (PMF.uniformOfFintype K).bind fun s => (PMF.uniformOfFintype Kˣ).bind fun x => (PMF.uniformOfFintype K).bind fun a => (PMF.uniformOfFintype K).map fun z =>
    ⟨s • c.genP, (x : K) • c.genP, a • c.genQ, (x : K)⁻¹ • c.genQ, z • c.genT⟩

end Abe
