import Verif.Model.Msp
import Mathlib.Algebra.Field.Basic

/-!
# Specification of formulas

What a formula means (satisfaction by a set of attributes) and what a sharing of a secret according to a formula is.
Independent of matrices, queues and bases.
-/

namespace Abe

/-- The attributes occurring in the formula, from left to right. -/
def Node.leaves : Node → List UInt32
  | .and l r => l.leaves ++ r.leaves
  | .or l r => l.leaves ++ r.leaves
  | .leaf a => [a]

/-- Number of `And` operators. -/
def Node.ands : Node → Nat
  | .and l r => l.ands + r.ands + 1
  | .or l r => l.ands + r.ands
  | .leaf _ => 0

/-- The set of attributes `γ` satisfies the formula. -/
def Node.Sat (γ : UInt32 → Prop) : Node → Prop
  | .and l r => l.Sat γ ∧ r.Sat γ
  | .or l r => l.Sat γ ∨ r.Sat γ
  | .leaf a => γ a

/-- `lam` gives each attribute a share such that the shares encode the secret `y` according to the formula:
an `Or` repeats the secret, an `And` splits it additively. -/
def Node.Shares {K : Type} [Add K] (lam : UInt32 → K) : Node → K → Prop
  | .and l r, y => ∃ y1 y2, y1 + y2 = y ∧ l.Shares lam y1 ∧ r.Shares lam y2
  | .or l r, y => l.Shares lam y ∧ r.Shares lam y
  | .leaf a, y => lam a = y

instance Node.decSat (γ : UInt32 → Prop) [DecidablePred γ] : (n : Node) → Decidable (n.Sat γ)
  | .and l r => @instDecidableAnd _ _ (Node.decSat γ l) (Node.decSat γ r)
  | .or l r => @instDecidableOr _ _ (Node.decSat γ l) (Node.decSat γ r)
  | .leaf a => inferInstanceAs (Decidable (γ a))

end Abe
