import Verif.Spec.Policy

/-!
# Sizes of keys
-/

namespace Abe

/-- Number of `And` in an access policy. -/
def AccessPolicy.ands : AccessPolicy → Nat
  | .attr _ => 0
  | .and l r => l.ands + r.ands + 1
  | .or l r => l.ands + r.ands
  | .all => 0

/-- Bytes of a user key with `values` attribute values for an access policy with `ands` times `And`: one element of 96 bytes and one label of 4 bytes for each value, as
many scalars of 32 bytes as values times (`ands` + 1), and three numbers of 4 bytes. -/
def userKeySize (values ands : Nat) : Nat := 12 + values * (100 + 32 * (ands + 1))

end Abe
