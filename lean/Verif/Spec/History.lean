import Verif.Spec.Keys

/-!
# Histories of policies and keys

How a policy changes over time, and which keys exist in such a history.
-/

namespace Abe

/-- A change of a policy. -/
inductive Change where
  | rotate (a : Attribute)
  | addAxis (ax : PolicyAxis)

/-- The effect of a change; `none` if it is refused. -/
def Policy.change (p : Policy) : Change → Option Policy
  | .rotate a => p.rotate a
  | .addAxis ax => p.addAxis ax

/-- `p'` results from `p` by the listed changes, in order; the hash maps may be reordered at any moment. -/
inductive Policy.Evolves : Policy → List Change → Policy → Prop
  | nil (p : Policy) : Evolves p [] p
  | cons {p p1 p2 : Policy} {ch : Change} {l : List Change} :
      p.change ch = some p1 → Evolves p1 l p2 → Evolves p (ch :: l) p2
  | reorder {p p1 p2 : Policy} {l : List Change} : p.Reorders p1 → Evolves p1 l p2 → Evolves p l p2

/-- The attribute is rotated by one of the changes. -/
def Rotated (l : List Change) (a : Attribute) : Prop := Change.rotate a ∈ l

variable {K P Q QP T : Type} [Field K] [DecidableEq K] [AddCommGroup P] [Module K P] [AddCommGroup Q] [Module K Q]
  [AddCommGroup T] [Module K T]

/-- `Issued c mk p ap key`: in the course of a history with master key `mk`, `key` was obtained for access policy `ap` by generation, randomisation and
delegation to restrictions, each under the policy of some moment; `p` is the policy whose attribute values the key knows: the policy of generation, or
an earlier one used in a delegation. -/
inductive Issued (c : Curve K P Q QP T) (mk : MasterKey K P Q T) : Policy → AccessPolicy → DecryptionKey K QP Q → Prop
  | generate {p : Policy} {ap : AccessPolicy} {key : DecryptionKey K QP Q} (rnd : Nat → K) : p.Reachable →
      engineGenerateUserKey (bls c) p mk.privKey ap rnd = .ok key → Issued c mk p ap key
  | randomise {p q : Policy} {ap : AccessPolicy} {key key' : DecryptionKey K QP Q} (rnd : Nat → K) : Issued c mk p ap key →
      engineDelegateUserKey (bls c) q mk.delKey key .all rnd = .ok key' → Issued c mk p ap key'
  | delegateLater {p q : Policy} {l : List Change} {ap ap' : AccessPolicy} {key key' : DecryptionKey K QP Q} (rnd : Nat → K) :
      Issued c mk p ap key → p.Evolves l q → ap.Restricts p ap' → ap' ≠ .all →
      engineDelegateUserKey (bls c) q mk.delKey key ap' rnd = .ok key' → Issued c mk p ap' key'
  | delegateEarlier {p q : Policy} {l : List Change} {ap ap' : AccessPolicy} {key key' : DecryptionKey K QP Q} (rnd : Nat → K) :
      Issued c mk p ap key → q.Reachable → q.Evolves l p → ap.Restricts q ap' → ap' ≠ .all →
      engineDelegateUserKey (bls c) q mk.delKey key ap' rnd = .ok key' → Issued c mk q ap' key'

end Abe
