import Verif.Spec.Policy

/-!
# Specification of policies that were not built by the library

A policy read from a text can list attributes without values, give one value to several attributes, or values beyond the number of creations.
Here it is said, for any policy at all, which values an access policy stands for and when looking them up runs into a missing entry.
-/

namespace Abe

/-- The attributes whose values are looked up for the attribute `a`, in order: itself, then those below it if the axis is hierarchical
(the axis is cut where `a` occurs first). -/
def Policy.Lookups (p : Policy) (a : Attribute) (l : List Attribute) : Prop :=
  ∃ below above h, hget p.axes a.axis = some (below ++ a.name :: above, h) ∧ a.name ∉ below ∧
    l = a :: if h = true then below.map fun x => ⟨a.axis, x⟩ else []

/-- Every attribute of the list has an entry with at least one value; `vs` are all these values. -/
inductive Policy.ValuesOf (p : Policy) : List Attribute → List UInt32 → Prop
  | nil : ValuesOf p [] []
  | cons {a heap l vs} : hget p.attributeToInt a = some heap → heap ≠ [] → ValuesOf p l vs → ValuesOf p (a :: l) (heap ++ vs)

/-- The access policy stands for the values `vs`, in order.  `All` stands for nothing inside of a larger access policy. -/
inductive AccessPolicy.Inner (p : Policy) : AccessPolicy → List UInt32 → Prop
  | attr {a l vs} : p.Lookups a l → p.ValuesOf l vs → Inner p (.attr a) vs
  | and {l r vs ws} : Inner p l vs → Inner p r ws → Inner p (.and l r) (vs ++ ws)
  | or {l r vs ws} : Inner p l vs → Inner p r ws → Inner p (.or l r) (vs ++ ws)

/-- The same for whole access policies: `All` stands for all the values there are. -/
inductive AccessPolicy.Yields (p : Policy) : AccessPolicy → List UInt32 → Prop
  | inner {ap vs} : ap.Inner p vs → Yields p ap vs
  | all : p.allValues ≠ [] → Yields p .all p.allValues

/-- Looking up the values of the access policy from left to right meets a listed attribute without entry, all before being found. -/
inductive AccessPolicy.Crashes (p : Policy) : AccessPolicy → Prop
  | attr {a pre b post vs} : p.Lookups a (pre ++ b :: post) → p.ValuesOf pre vs → hget p.attributeToInt b = none → Crashes p (.attr a)
  | andLeft {l r} : Crashes p l → Crashes p (.and l r)
  | andRight {l r vs} : l.Inner p vs → Crashes p r → Crashes p (.and l r)
  | orLeft {l r} : Crashes p l → Crashes p (.or l r)
  | orRight {l r vs} : l.Inner p vs → Crashes p r → Crashes p (.or l r)

/-- The values `γ` satisfy the access policy. -/
def AccessPolicy.SatValues (p : Policy) (γ : UInt32 → Prop) : AccessPolicy → Prop
  | .attr a => ∃ b v, p.Covers a b ∧ p.HasValue b v ∧ γ v
  | .and l r => l.SatValues p γ ∧ r.SatValues p γ
  | .or l r => l.SatValues p γ ∨ r.SatValues p γ
  | .all => ∃ v ∈ p.allValues, γ v

/-- Every listed attribute has an entry. -/
def Policy.Complete (p : Policy) : Prop := ∀ a, p.Known a → hget p.attributeToInt a ≠ none

end Abe
