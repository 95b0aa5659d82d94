import Verif.Spec.Game

/-!
# The selective game with delegation

Keys are made for users, who delegate and randomise them.  The attacker directs all of this and obtains the keys it asks for; the others stay with their
owners.
-/

namespace Abe

variable {K P Q QP T : Type} [Field K] [DecidableEq K] [AddCommGroup P] [Module K P] [AddCommGroup Q] [Module K Q]
  [AddCommGroup T] [Module K T]

/-- The access policy of a key for `ap` after delegation to `ap'`: delegation to `All` is randomisation. -/
def AccessPolicy.child (ap : AccessPolicy) : AccessPolicy → AccessPolicy
  | .all => ap
  | ap' => ap'

/-- An attacker from some point of the game on.  Keys are numbered in the order of their creation. -/
inductive Director (K P Q QP T : Type)
  /-- end of the game -/
  | guess (b : Bool)
  /-- draws a random scalar -/
  | toss (next : K → Director K P Q QP T)
  /-- draws one of `n + 1` values -/
  | choose (n : Nat) (next : Fin (n + 1) → Director K P Q QP T)
  /-- has a user key made -/
  | generate (p : Policy) (ap : AccessPolicy) (next : Director K P Q QP T)
  /-- has key number `i` delegated -/
  | delegate (i : Nat) (ap' : AccessPolicy) (next : Director K P Q QP T)
  /-- obtains key number `i` -/
  | obtain (i : Nat) (next : Option (DecryptionKey K QP Q) → Director K P Q QP T)
  /-- asks for the encryption of one of two messages -/
  | challenge (m0 m1 : T) (next : Option (CipherText P T) → Director K P Q QP T)

/-- A key, made under a policy for an access policy, if it could be made. -/
structure Owned (K QP Q : Type) where
  policy : Policy
  ap : AccessPolicy
  key : Option (DecryptionKey K QP Q)

/-- An attacker with its environment: the keys so far, how keys are made and delegated, and a source of ciphertexts, which is used once. -/
noncomputable def Director.exec [Fintype K] (keys : Policy → AccessPolicy → PMF (Option (DecryptionKey K QP Q)))
    (deleg : Policy → AccessPolicy → AccessPolicy → DecryptionKey K QP Q → PMF (Option (DecryptionKey K QP Q)))
    (chal : T → T → Option (CipherText P T)) : Director K P Q QP T → (owned : List (Owned K QP Q)) → (used : Bool) → PMF Bool
  | .guess g, _, _ => .pure g
  | .toss next, owned, used => (PMF.uniformOfFintype K).bind fun x => (next x).exec keys deleg chal owned used
  | .choose _ next, owned, used => (PMF.uniformOfFintype _).bind fun x => (next x).exec keys deleg chal owned used
  | .generate p ap next, owned, used => (keys p ap).bind fun k => next.exec keys deleg chal (owned ++ [⟨p, ap, k⟩]) used
  | .delegate i ap' next, owned, used =>
    match owned[i]? with
    | some ⟨p, ap, some k⟩ => (deleg p ap ap' k).bind fun k' => next.exec keys deleg chal (owned ++ [⟨p, ap.child ap', k'⟩]) used
    | some ⟨p, ap, none⟩ => next.exec keys deleg chal (owned ++ [⟨p, ap.child ap', none⟩]) used
    | none => next.exec keys deleg chal owned used
  | .obtain i next, owned, used => (next (owned[i]?.bind fun o => o.key)).exec keys deleg chal owned used
  | .challenge m0 m1 next, owned, used =>
    if used then (next none).exec keys deleg chal owned true else (next (chal m0 m1)).exec keys deleg chal owned true

/-- The rules of the game: keys are made under policies built by the operations on policies and delegated to restrictions of their access policy; none of the
keys that the attacker obtains is authorised for the values of the challenge, while the others may be.  `owners` are the keys so far. -/
def Director.Fair (gamma : List UInt32) : Director K P Q QP T → (owners : List (Policy × AccessPolicy)) → Prop
  | .guess _, _ => True
  | .toss next, owners => ∀ x, (next x).Fair gamma owners
  | .choose _ next, owners => ∀ x, (next x).Fair gamma owners
  | .generate p ap next, owners => p.Reachable ∧ next.Fair gamma (owners ++ [(p, ap)])
  | .delegate i ap' next, owners =>
    match owners[i]? with
    | some (p, ap) => (ap' = .all ∨ ap.Restricts p ap') ∧ next.Fair gamma (owners ++ [(p, ap.child ap')])
    | none => next.Fair gamma owners
  | .obtain i next, owners =>
    (∀ o, owners[i]? = some o → ¬ o.2.Sat o.1 fun b => ∃ v, o.1.HasValue b v ∧ v ∈ gamma) ∧ ∀ k, (next k).Fair gamma owners
  | .challenge _ _ next, owners => ∀ x, (next x).Fair gamma owners

/-- Delegation by the engine, to `ap'`, of a key for `ap`. -/
noncomputable def delegatedKeys [Fintype K] (c : Curve K P Q QP T) (del : DelegationKey Q) (p : Policy) (ap ap' : AccessPolicy) (k : DecryptionKey K QP Q) :
    PMF (Option (DecryptionKey K QP Q)) :=
  (PMF.uniformOfFintype (Fin (keyDraws p (ap.child ap')) → K)).map fun r => (engineDelegateUserKey (bls c) p del k ap' (pad r)).toOption

/-- The selective game with delegation, with given scalars of the master key and of the challenge. -/
noncomputable def delegationRun [Fintype K] (c : Curve K P Q QP T) (t : Target) (size : Nat) (gamma : List UInt32)
    (A : MasterPublicKey P T → DelegationKey Q → Director K P Q QP T) (s y : K) (b : Bool) (rnd : Fin size → K) : PMF Bool :=
  match generateMasterKey (bls c) size (pad rnd) y with
  | .ok mk => ((A mk.pubKey mk.delKey).exec (userKeys c mk.privKey) (delegatedKeys c mk.delKey)
      (fun m0 m1 => (encrypt (bls c) t (if b then m1 else m0) gamma mk.pubKey s).toOption) [] false).map (· == b)
  | _ => PMF.uniformOfFintype Bool

/-- The selective game with delegation. -/
noncomputable def delegationGame [Fintype K] (c : Curve K P Q QP T) (t : Target) (size : Nat) (gamma : List UInt32)
    (A : MasterPublicKey P T → DelegationKey Q → Director K P Q QP T) : PMF Bool :=
  (PMF.uniformOfFintype K).bind fun s => (PMF.uniformOfFintype K).bind fun y => (PMF.uniformOfFintype Bool).bind fun b =>
    (PMF.uniformOfFintype (Fin size → K)).bind fun rnd => delegationRun c t size gamma A s y b rnd

end Abe
