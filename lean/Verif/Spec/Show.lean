import Verif.Model.Engine
import Verif.Model.Show

/-!
# Reading what is printed, and the keys that can be held
-/

namespace Abe

/-- Value of a hexadecimal digit, in lower case. -/
def hexValue (c : Char) : Option Nat :=
  if '0' ≤ c ∧ c ≤ '9' then some (c.toNat - 48)
  else if 'a' ≤ c ∧ c ≤ 'f' then some (c.toNat - 87)
  else none

/-- The bytes written in hexadecimal by a text. -/
def readHex : List Char → Option Bytes
  | [] => some []
  | [_] => none
  | a :: b :: r => do
    let x ← hexValue a
    let y ← hexValue b
    let l ← readHex r
    some ((16 * x + y).toUInt8 :: l)

/-- `key` is printed as a text of hexadecimal digits of `n` characters in lower case, from which it can be read back. -/
def Revealed {α : Type} (c : Codec α) (key : α) (n : Nat) : Prop :=
  ∃ text b, keyDisplay c key = .ok text ∧ text.length = n ∧ readHex text = some b ∧ c.dec b = .ok key

/-- How entries are printed: not empty, without `,` and `]`, different for different entries. -/
structure Printable {I : Type} (dbg : I → List Char) : Prop where
  ne : ∀ x, dbg x ≠ []
  plain : ∀ x, ∀ c ∈ dbg x, c ≠ ',' ∧ c ≠ ']'
  inj : ∀ x y, dbg x = dbg y → x = y

/-- The user keys that can be held: generated, read from any bytes, delegated and randomised, in any order, with any policies and keys. -/
inductive Held {K P Q QP T : Type} [Field K] [DecidableEq K] [AddCommGroup P] [Module K P] [AddCommGroup Q] [Module K Q] [AddCommGroup T] [Module K T]
    (c : Curve K P Q QP T) (t : Target) (cs : Codecs K P Q T) : DecryptionKey K QP Q → Prop
  | generate {key : DecryptionKey K QP Q} (p : Policy) (priv : MasterPrivateKey K) (ap : AccessPolicy) (rnd : Nat → K) :
      engineGenerateUserKey (bls c) p priv ap rnd = .ok key → Held c t cs key
  | delegate {key key' : DecryptionKey K QP Q} (p : Policy) (del : DelegationKey Q) (ap : AccessPolicy) (rnd : Nat → K) :
      Held c t cs key → engineDelegateUserKey (bls c) p del key ap rnd = .ok key' → Held c t cs key'
  | read {key : DecryptionKey K QP Q} (b : Bytes) : (userKeyCodec t cs (bls c)).dec b = .ok key → Held c t cs key

end Abe
