import Verif.Model.Msp
import Mathlib.Data.Nat.Digits.Defs

/-!
# Specification of the text form of formulas
-/

namespace Abe.Text

/-- The ten digits. -/
def digits : List Char := ['0', '1', '2', '3', '4', '5', '6', '7', '8', '9']

/-- The number written in base ten by a list of digits, most significant first. -/
def number (ds : List Char) : Nat := Nat.ofDigits 10 (ds.reverse.map fun c => digits.idxOf c)

/-- `ds` writes the label `a` in base ten (leading zeros allowed). -/
structure Writes (ds : List Char) (a : UInt32) : Prop where
  nonempty : ds ≠ []
  digit : ∀ c ∈ ds, c ∈ digits
  value : number ds = a.toNat

/-- The operators. -/
inductive Op where
  | and
  | or
  deriving DecidableEq

/-- Text of an operator. -/
def Op.char : Op → Char
  | .and => '&'
  | .or => '|'

/-- Meaning of an operator. -/
def Op.node : Op → Node → Node → Node
  | .and => .and
  | .or => .or

/-- The grammar of formulas without spaces:
`expr ::= atom | atom op expr`, `atom ::= number | ( expr )`. -/
inductive Denotes : List Char → Node → Prop
  | leaf {ds : List Char} {a : UInt32} : Writes ds a → Denotes ds (.leaf a)
  | leafOp {ds r : List Char} {a : UInt32} {n : Node} (op : Op) :
      Writes ds a → Denotes r n → Denotes (ds ++ op.char :: r) (op.node (.leaf a) n)
  | paren {e : List Char} {n : Node} : Denotes e n → Denotes ('(' :: (e ++ [')'])) n
  | parenOp {e r : List Char} {n m : Node} (op : Op) :
      Denotes e n → Denotes r m → Denotes ('(' :: (e ++ ')' :: op.char :: r)) (op.node n m)

/-- Parentheses are balanced: as many closing as opening ones, and never more closing than opening ones in a prefix. -/
def Balanced (s : List Char) : Prop :=
  s.count '(' = s.count ')' ∧ ∀ i, (s.take i).count ')' ≤ (s.take i).count '('

/-- The usual decimal writing of a number. -/
def decimal (n : Nat) : List Char := (Nat.digits 10 n).reverse.map fun d => digits.getD d '0'

/-- The decimal writing of a label (zero is written with one digit). -/
def label (a : UInt32) : List Char := if a = 0 then ['0'] else decimal a.toNat

/-- Fully parenthesised text of a formula. -/
def print : Node → List Char
  | .leaf a => label a
  | .and l r => '(' :: (print l ++ ')' :: '&' :: '(' :: (print r ++ [')']))
  | .or l r => '(' :: (print l ++ ')' :: '|' :: '(' :: (print r ++ [')']))

/-- Text of a sequence of labels separated by operators, without parentheses. -/
def flat : List (UInt32 × Op) → UInt32 → List Char
  | [], a => label a
  | (b, op) :: l, a => label b ++ op.char :: flat l a

/-- The formula denoted by such a sequence: operators associate to the right. -/
def rightAssoc : List (UInt32 × Op) → UInt32 → Node
  | [], a => .leaf a
  | (b, op) :: l, a => op.node (.leaf b) (rightAssoc l a)

/-- The characters of a text that are not spaces. -/
def noSpaces (s : List Char) : List Char := s.filter fun c => c ≠ ' '

end Abe.Text
