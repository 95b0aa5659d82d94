import Mathlib.Algebra.Field.Basic
import Mathlib.Algebra.BigOperators.Group.List.Basic

/-!
# Specification of linear combinations of rows
-/

namespace Abe

/-- Entry `c` of the combination of the rows with the given coefficients. -/
def combination {K : Type} [Field K] (coefs : List K) (rows : List (List K)) (c : Nat) : K :=
  (List.zipWith (fun a row => a * row.getD c 0) coefs rows).sum

/-- The coefficients combine the rows (of width `n`) into the all-ones vector. -/
def CombinesToOnes {K : Type} [Field K] (coefs : List K) (rows : List (List K)) (n : Nat) : Prop :=
  coefs.length = rows.length ∧ ∀ c < n, combination coefs rows c = 1

end Abe
