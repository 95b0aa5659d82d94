import Verif.Spec.Game

/-!
# The game of attackers who choose the attribute values of the challenge late

In the selective game the attacker names the attribute values of the challenge before it sees the public key.  Here it names them with the challenge, after it
has seen the keys and possibly some user keys.
-/

namespace Abe

variable {K P Q QP T : Type} [Field K] [DecidableEq K] [AddCommGroup P] [Module K P] [AddCommGroup Q] [Module K Q]
  [AddCommGroup T] [Module K T]

/-- An attacker from some point of the game on. -/
inductive Adaptive (K P Q QP T : Type)
  /-- end of the game -/
  | guess (b : Bool)
  /-- draws a random scalar -/
  | toss (next : K → Adaptive K P Q QP T)
  /-- draws one of `n + 1` values -/
  | choose (n : Nat) (next : Fin (n + 1) → Adaptive K P Q QP T)
  /-- asks for a user key -/
  | key (p : Policy) (ap : AccessPolicy) (next : Option (DecryptionKey K QP Q) → Adaptive K P Q QP T)
  /-- asks for the encryption of one of two messages under attribute values of its choice -/
  | challenge (gamma : List UInt32) (m0 m1 : T) (next : Option (CipherText P T) → Adaptive K P Q QP T)

/-- An attacker with its environment: a source of user keys and one of ciphertexts, which is used once. -/
noncomputable def Adaptive.exec [Fintype K] (keys : Policy → AccessPolicy → PMF (Option (DecryptionKey K QP Q)))
    (chal : List UInt32 → T → T → Option (CipherText P T)) : Adaptive K P Q QP T → (used : Bool) → PMF Bool
  | .guess g, _ => .pure g
  | .toss next, used => (PMF.uniformOfFintype K).bind fun x => (next x).exec keys chal used
  | .choose _ next, used => (PMF.uniformOfFintype _).bind fun x => (next x).exec keys chal used
  | .key p ap next, used => (keys p ap).bind fun k => (next k).exec keys chal used
  | .challenge gamma m0 m1 next, used => if used then (next none).exec keys chal true else (next (chal gamma m0 m1)).exec keys chal true

/-- A user key that opens ciphertexts with these attribute values. -/
def Opens (gamma : List UInt32) (q : Policy × AccessPolicy) : Prop := q.2.Sat q.1 fun b => ∃ v, q.1.HasValue b v ∧ v ∈ gamma

/-- The rule of the game: keys are made under policies built by the operations on policies; the values of the challenge are among `choices`, and none of the
keys asked for before (`asked`) or after the challenge (`named`) opens it. -/
def Adaptive.Fair (choices : List UInt32 → Prop) : Adaptive K P Q QP T → (asked : List (Policy × AccessPolicy)) → (named : Option (List UInt32)) → Prop
  | .guess _, _, _ => True
  | .toss next, asked, named => ∀ x, (next x).Fair choices asked named
  | .choose _ next, asked, named => ∀ x, (next x).Fair choices asked named
  | .key p ap next, asked, named => p.Reachable ∧ (∀ gamma, named = some gamma → ¬ Opens gamma (p, ap)) ∧ ∀ k, (next k).Fair choices (asked ++ [(p, ap)]) named
  | .challenge gamma _ _ next, asked, none => choices gamma ∧ (∀ q ∈ asked, ¬ Opens gamma q) ∧ ∀ x, (next x).Fair choices asked (some gamma)
  | .challenge _ _ _ next, asked, some gamma => ∀ x, (next x).Fair choices asked (some gamma)

/-- The adaptive game with given scalars of the master key and of the challenge. -/
noncomputable def adaptiveRun [Fintype K] (c : Curve K P Q QP T) (t : Target) (size : Nat) (A : MasterPublicKey P T → DelegationKey Q → Adaptive K P Q QP T)
    (s y : K) (b : Bool) (rnd : Fin size → K) : PMF Bool :=
  match generateMasterKey (bls c) size (pad rnd) y with
  | .ok mk => ((A mk.pubKey mk.delKey).exec (userKeys c mk.privKey)
      (fun gamma m0 m1 => (encrypt (bls c) t (if b then m1 else m0) gamma mk.pubKey s).toOption) false).map (· == b)
  | _ => PMF.uniformOfFintype Bool

/-- The adaptive game. -/
noncomputable def adaptiveGame [Fintype K] (c : Curve K P Q QP T) (t : Target) (size : Nat) (A : MasterPublicKey P T → DelegationKey Q → Adaptive K P Q QP T) :
    PMF Bool :=
  (PMF.uniformOfFintype K).bind fun s => (PMF.uniformOfFintype K).bind fun y => (PMF.uniformOfFintype Bool).bind fun b =>
    (PMF.uniformOfFintype (Fin size → K)).bind fun rnd => adaptiveRun c t size A s y b rnd

end Abe
