import Verif.Model.Engine
import Verif.Spec.Policy

/-!
# Keys obtainable through the engine

The keys a user can hold for an access policy: generated by the authority, randomised, or delegated to a restriction,
in any order and any number of times.
-/

namespace Abe

variable {K P Q QP T : Type} [Field K] [DecidableEq K] [AddCommGroup P] [Module K P] [AddCommGroup Q] [Module K Q]
  [AddCommGroup T] [Module K T]

/-- `UserKey c p mk ap key`: `key` is a user key for access policy `ap`, made under policy `p` with master key `mk`. -/
inductive UserKey (c : Curve K P Q QP T) (p : Policy) (mk : MasterKey K P Q T) :
    AccessPolicy → DecryptionKey K QP Q → Prop
  | generate {ap : AccessPolicy} {key : DecryptionKey K QP Q} (rnd : Nat → K) :
      engineGenerateUserKey (bls c) p mk.privKey ap rnd = .ok key → UserKey c p mk ap key
  | randomise {ap : AccessPolicy} {key key' : DecryptionKey K QP Q} (rnd : Nat → K) : UserKey c p mk ap key →
      engineDelegateUserKey (bls c) p mk.delKey key .all rnd = .ok key' → UserKey c p mk ap key'
  | delegate {ap ap' : AccessPolicy} {key key' : DecryptionKey K QP Q} (rnd : Nat → K) : UserKey c p mk ap key →
      ap.Restricts p ap' → ap' ≠ .all →
      engineDelegateUserKey (bls c) p mk.delKey key ap' rnd = .ok key' → UserKey c p mk ap' key'

/-- `Obtained c key`: `key` comes from some successful sequence of calls to key generation and delegation (including
randomisation), with any policies and any master and delegation keys. -/
inductive Obtained (c : Curve K P Q QP T) : DecryptionKey K QP Q → Prop
  | generate {key : DecryptionKey K QP Q} (p : Policy) (priv : MasterPrivateKey K) (ap : AccessPolicy) (rnd : Nat → K) :
      engineGenerateUserKey (bls c) p priv ap rnd = .ok key → Obtained c key
  | delegate {key key' : DecryptionKey K QP Q} (p : Policy) (del : DelegationKey Q) (ap : AccessPolicy) (rnd : Nat → K) :
      Obtained c key → engineDelegateUserKey (bls c) p del key ap rnd = .ok key' → Obtained c key'

end Abe
