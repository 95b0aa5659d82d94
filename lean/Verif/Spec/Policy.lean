import Verif.Model.Policy

/-!
# Specification of policies

When a policy is well formed, what an access policy means at the level of attribute names, and how policies evolve.
No formula, heap order or numbering appears in the meaning of access policies.
-/

namespace Abe

/-- All attribute values in use. -/
def Policy.allValues (p : Policy) : List UInt32 := (p.attributeToInt.map Prod.snd).flatten

/-- The attribute is registered. -/
def Policy.Known (p : Policy) (a : Attribute) : Prop :=
  ∃ list h, hget p.axes a.axis = some (list, h) ∧ a.name ∈ list

/-- `v` is one of the values (current or rotated away) of attribute `a`. -/
def Policy.HasValue (p : Policy) (a : Attribute) (v : UInt32) : Prop :=
  ∃ heap, hget p.attributeToInt a = some heap ∧ v ∈ heap

/-- The value on top of the values of the attribute, with which messages for it are encrypted. -/
def Policy.Top (p : Policy) (a : Attribute) (v : UInt32) : Prop := ∃ older, hget p.attributeToInt a = some (v :: older)

/-- Well-formed policies: axes and values describe the same attributes; values are positive, distinct, within
budget; the current value is the largest of its attribute. -/
structure Policy.WF (p : Policy) : Prop where
  keysNodup : (p.attributeToInt.map Prod.fst).Nodup
  axesNodup : (p.axes.map Prod.fst).Nodup
  namesNodup : ∀ ax list h, hget p.axes ax = some (list, h) → list.Nodup
  known : ∀ a, p.Known a ↔ ∃ heap, hget p.attributeToInt a = some heap
  top : ∀ a heap, hget p.attributeToInt a = some heap → ∃ v, heap.head? = some v ∧ ∀ w ∈ heap, w ≤ v
  valuesNodup : p.allValues.Nodup
  range : ∀ v ∈ p.allValues, 1 ≤ v.toNat ∧ v.toNat ≤ p.lastAttributeValue.toNat
  budget : p.lastAttributeValue.toNat ≤ p.maxAttributeCreations.toNat

/-- `b` gives what `a` grants: the same attribute, or a lower one of the same hierarchical axis
(axes are listed from lowest to highest). -/
def Policy.Covers (p : Policy) (a b : Attribute) : Prop :=
  ∃ below above h, hget p.axes a.axis = some (below ++ a.name :: above, h) ∧ a.name ∉ below ∧ b.axis = a.axis ∧
    (b.name = a.name ∨ h = true ∧ b.name ∈ below)

/-- The attributes `S` satisfy the access policy. -/
def AccessPolicy.Sat (p : Policy) (S : Attribute → Prop) : AccessPolicy → Prop
  | .attr a => ∃ b, p.Covers a b ∧ S b
  | .and l r => l.Sat p S ∧ r.Sat p S
  | .or l r => l.Sat p S ∨ r.Sat p S
  | .all => ∃ b, p.Known b ∧ S b

/-- No `All` in the access policy. -/
def AccessPolicy.NoAll : AccessPolicy → Prop
  | .attr _ => True
  | .and l r => l.NoAll ∧ r.NoAll
  | .or l r => l.NoAll ∧ r.NoAll
  | .all => False

/-- The attributes mentioned. -/
def AccessPolicy.Mentions (a : Attribute) : AccessPolicy → Prop
  | .attr b => a = b
  | .and l r => l.Mentions a ∨ r.Mentions a
  | .or l r => l.Mentions a ∨ r.Mentions a
  | .all => False

/-- The attribute `b` is granted by some leaf of the access policy. -/
def AccessPolicy.Grants (p : Policy) (b : Attribute) : AccessPolicy → Prop
  | .attr a => p.Covers a b
  | .and l r => l.Grants p b ∨ r.Grants p b
  | .or l r => l.Grants p b ∨ r.Grants p b
  | .all => p.Known b

/-- No attribute is granted by two different leaves. -/
def AccessPolicy.Disjoint (p : Policy) : AccessPolicy → Prop
  | .attr _ => True
  | .and l r => l.Disjoint p ∧ r.Disjoint p ∧ ∀ b, ¬ (l.Grants p b ∧ r.Grants p b)
  | .or l r => l.Disjoint p ∧ r.Disjoint p ∧ ∀ b, ¬ (l.Grants p b ∧ r.Grants p b)
  | .all => True

/-- Access policies for which a key exists. -/
def AccessPolicy.Valid (p : Policy) : AccessPolicy → Prop
  | .all => ∃ b, p.Known b
  | ap => ap.NoAll ∧ (∀ a, ap.Mentions a → p.Known a) ∧ ap.Disjoint p

/-- `ap'` is a restriction of `ap`: attributes replaced by lower ones of a hierarchical axis, `Or` replaced by one of
its children or by an `Or` of restrictions, `And` restricted on both sides (possibly exchanged), `All` replaced by
any known attribute.  `And` is never introduced. -/
inductive AccessPolicy.Restricts (p : Policy) : AccessPolicy → AccessPolicy → Prop
  | refl (ap) : Restricts p ap ap
  | attr {a b} : p.Covers a b → Restricts p (.attr a) (.attr b)
  | all {a} : p.Known a → Restricts p .all (.attr a)
  | orLeft {l r ap'} : Restricts p l ap' → Restricts p (.or l r) ap'
  | orRight {l r ap'} : Restricts p r ap' → Restricts p (.or l r) ap'
  | or {ap l' r'} : Restricts p ap l' → Restricts p ap r' → Restricts p ap (.or l' r')
  | and {l r l' r'} : Restricts p l l' → Restricts p r r' → Restricts p (.and l r) (.and l' r')
  | andSwap {l r l' r'} : Restricts p l r' → Restricts p r l' → Restricts p (.and l r) (.and l' r')

/-- `p'` differs from `p` in the order of its hash maps only.  This is what happens to a policy which is written to JSON and read again (the order of the
binary heaps does not change: rebuilding a valid heap from its array leaves it as it is). -/
structure Policy.Reorders (p p' : Policy) : Prop where
  last : p'.lastAttributeValue = p.lastAttributeValue
  max : p'.maxAttributeCreations = p.maxAttributeCreations
  axes : p'.axes.Perm p.axes
  values : p'.attributeToInt.Perm p.attributeToInt

/-- Policies reachable from an empty one; at any moment the hash maps may be reordered. -/
inductive Policy.Reachable : Policy → Prop
  | new (max : UInt32) : Reachable (Policy.new max)
  | addAxis {p p' : Policy} (ax : PolicyAxis) : Reachable p → p.addAxis ax = some p' → Reachable p'
  | rotate {p p' : Policy} (a : Attribute) : Reachable p → p.rotate a = some p' → Reachable p'
  | reorder {p p' : Policy} : Reachable p → p.Reorders p' → Reachable p'

/-- `p'` results from `p` by rotating the listed attributes in order. -/
inductive Policy.Rotations : Policy → List Attribute → Policy → Prop
  | nil (p : Policy) : Rotations p [] p
  | cons {p p1 p2 : Policy} {a : Attribute} {l : List Attribute} :
      p.rotate a = some p1 → Rotations p1 l p2 → Rotations p (a :: l) p2

end Abe
