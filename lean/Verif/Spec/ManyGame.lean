import Verif.Spec.Game

/-!
# The selective game with many challenges

The attacker sees several ciphertexts, each under its own attribute values and with fresh randomness; either the first message of each pair is encrypted, or the
second.
-/

namespace Abe

variable {K P Q QP T : Type} [Field K] [DecidableEq K] [AddCommGroup P] [Module K P] [AddCommGroup Q] [Module K Q]
  [AddCommGroup T] [Module K T]

/-- An attacker with its environment: a source of user keys and one of ciphertexts, which is told the number of the challenge. -/
noncomputable def Attacker.execMany [Fintype K] (keys : Policy → AccessPolicy → PMF (Option (DecryptionKey K QP Q)))
    (chal : Nat → T → T → PMF (Option (CipherText P T))) : Attacker K P Q QP T → (count : Nat) → PMF Bool
  | .guess g, _ => .pure g
  | .toss next, count => (PMF.uniformOfFintype K).bind fun x => (next x).execMany keys chal count
  | .choose _ next, count => (PMF.uniformOfFintype _).bind fun x => (next x).execMany keys chal count
  | .key p ap next, count => (keys p ap).bind fun k => (next k).execMany keys chal count
  | .challenge m0 m1 next, count => (chal count m0 m1).bind fun ct => (next ct).execMany keys chal (count + 1)

/-- Ciphertexts with fresh randomness; challenge number `n` is under the values `gammas n`, and there are `q` of them. -/
noncomputable def freshCts [Fintype K] (c : Curve K P Q QP T) (t : Target) (pub : MasterPublicKey P T) {q : Nat} (gammas : Fin q → List UInt32)
    (sel : Nat → T → T → T) (n : Nat) (m0 m1 : T) : PMF (Option (CipherText P T)) :=
  if h : n < q then (PMF.uniformOfFintype K).map fun s => (encrypt (bls c) t (sel n m0 m1) (gammas ⟨n, h⟩) pub s).toOption else .pure none

/-- The game with many challenges, with given scalars of the master key. -/
noncomputable def manyRun [Fintype K] (c : Curve K P Q QP T) (t : Target) (size : Nat) {q : Nat} (gammas : Fin q → List UInt32)
    (A : MasterPublicKey P T → DelegationKey Q → Attacker K P Q QP T) (y : K) (b : Bool) (rnd : Fin size → K) : PMF Bool :=
  match generateMasterKey (bls c) size (pad rnd) y with
  | .ok mk => ((A mk.pubKey mk.delKey).execMany (userKeys c mk.privKey) (freshCts c t mk.pubKey gammas fun _ m0 m1 => if b then m1 else m0) 0).map (· == b)
  | _ => PMF.uniformOfFintype Bool

/-- The game with many challenges. -/
noncomputable def manyGame [Fintype K] (c : Curve K P Q QP T) (t : Target) (size : Nat) {q : Nat} (gammas : Fin q → List UInt32)
    (A : MasterPublicKey P T → DelegationKey Q → Attacker K P Q QP T) : PMF Bool :=
  (PMF.uniformOfFintype K).bind fun y => (PMF.uniformOfFintype Bool).bind fun b => (PMF.uniformOfFintype (Fin size → K)).bind fun rnd =>
    manyRun c t size gammas A y b rnd

end Abe
