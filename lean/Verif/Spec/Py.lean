import Verif.Model.Py
import Verif.Spec.Keys
import Verif.Spec.Json

/-!
# Keys obtainable through the Python interface
-/

namespace Abe

variable {K P Q QP T Key Nonce : Type} [Field K] [DecidableEq K]

/-- `PyUserKey lib p priv del ap b`: the bytes `b` are a user key for access policy `ap`, obtained by calls of the Python
interface with the policy `p` and the master key bytes `priv` and `del`.  The keys are shorter than the address space of the target. -/
inductive PyUserKey (lib : Lib K QP P Q T Key Nonce) (p : Policy) (priv del : Bytes) : AccessPolicy → Bytes → Prop
  | generate {ap : AccessPolicy} {b polB : Bytes} {str : String} (rnd : Nat → K) :
      lib.serde.policyDec polB = some p → lib.serde.accessPolicyParse str = some ap →
      pyGenerateUserPrivateKey lib priv str polB rnd = .ok b → PyUserKey lib p priv del ap b
  | randomise {ap : AccessPolicy} {b b' polB : Bytes} {str : String} (rnd : Nat → K) :
      PyUserKey lib p priv del ap b → b.length < lib.t.modulus →
      lib.serde.policyDec polB = some p → lib.serde.accessPolicyParse str = some .all →
      pyGenerateDelegatedKey lib del b str polB rnd = .ok b' → PyUserKey lib p priv del ap b'
  | delegate {ap ap' : AccessPolicy} {b b' polB : Bytes} {str : String} (rnd : Nat → K) :
      PyUserKey lib p priv del ap b → b.length < lib.t.modulus → ap.Restricts p ap' → ap' ≠ .all →
      lib.serde.policyDec polB = some p → lib.serde.accessPolicyParse str = some ap' →
      pyGenerateDelegatedKey lib del b str polB rnd = .ok b' → PyUserKey lib p priv del ap' b'

/-- Reachable policies whose attributes are spelled are read again from what is written of them; the order of the hash maps may change. -/
def Serde.KeepsPolicies (s : Serde) : Prop :=
  ∀ p b, p.Reachable → p.Spelled → s.policyEnc p = some b → ∃ q, s.policyDec b = some q ∧ p.Reorders q

end Abe
