import Verif.Model.Engine
import Verif.Spec.Policy

/-!
# Attacks by group operations and pairings

What a coalition sees, and what it can compute from it with the group operations and the pairing: since the pairing is bilinear, any
sequence of such operations ending in the target group is a linear combination of pairings and of target elements seen, whose coefficients
are chosen by the attacker (a *strategy*).
-/

namespace Abe

variable {K P Q QP T : Type} [Field K] [DecidableEq K] [AddCommGroup P] [Module K P] [AddCommGroup Q] [Module K Q]
  [AddCommGroup T] [Module K T]

/-- The elements seen in the three groups. -/
structure View (P Q T : Type) where
  p : List P
  q : List Q
  t : List T

/-- The view of a coalition: the generators, the public key and the delegation key, the components of all user keys of the coalition, the
ciphertext attacked and other ciphertexts. -/
def View.of (c : Curve K P Q QP T) (mk : MasterKey K P Q T) (keys : List (DecryptionKey K QP Q)) (ct : CipherText P T)
    (others : List (CipherText P T)) : View P Q T where
  p := c.genP :: mk.pubKey.tI ++ (ct :: others).flatMap fun x => x.eI
  q := c.genQ :: mk.delKey.invTI ++ keys.flatMap fun k => k.rawDI
  t := c.genT :: mk.pubKey.y :: (ct :: others).map fun x => x.ePrime

/-- Coefficients, indexed by the positions in the view. -/
structure Strategy (K : Type) where
  pairs : Nat → Nat → K
  direct : Nat → K

/-- The target element computed by a strategy. -/
def Strategy.eval (c : Curve K P Q QP T) (σ : Strategy K) (v : View P Q T) : T :=
  (v.p.zipIdx.map fun x => (v.q.zipIdx.map fun z => σ.pairs x.2 z.2 • c.pair x.1 z.1).sum).sum +
    (v.t.zipIdx.map fun w => σ.direct w.2 • w.1).sum

/-- A strategy *opens* ciphertexts for the values `gamma` to a coalition with keys for the access policies `users` (each under its own
policy), in presence of ciphertexts for the values `others`: whatever the master secrets, the randomness of the keys, of the ciphertexts
and the messages, it computes the message of the ciphertext attacked. -/
def Strategy.Opens (c : Curve K P Q QP T) (t : Target) (size : Nat) (users : List (Policy × AccessPolicy)) (gamma : List UInt32)
    (others : List (List UInt32)) (σ : Strategy K) : Prop :=
  ∀ (rnd : Nat → K) (y : K) (mk : MasterKey K P Q T), generateMasterKey (bls c) size rnd y = .ok mk →
  ∀ keys, List.Forall₂ (fun u key => ∃ r, engineGenerateUserKey (bls c) u.1 mk.privKey u.2 r = .ok key) users keys →
  ∀ (s : K) (msg : T) (ct : CipherText P T), encrypt (bls c) t msg gamma mk.pubKey s = .ok ct →
  ∀ cts, List.Forall₂ (fun g ct => ∃ s msg, encrypt (bls c) t msg g mk.pubKey s = .ok ct) others cts →
    σ.eval c (View.of c mk keys ct cts) = msg

end Abe
