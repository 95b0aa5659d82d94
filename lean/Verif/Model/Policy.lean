import Verif.Model.Msp

/-!
# Policies

The types `Policy`, `Attribute`, `AccessPolicy`, `PolicyAxis` and the operations on them are external
(crate `abe_policy` 1.0, not in the repository); they are modelled from their uses in /repo (field accesses in
/repo/src/core/msp.rs:417-487, /repo/src/core/engine.rs:48 and 100, tests in /repo/src/core/tests/policy_tests.rs and
engine_tests.rs, JSON fixture /repo/src/core/tests/policy.txt).  The translation of access policies to formulas
(/repo/src/core/msp.rs:412-487) is part of the repository.
-/

namespace Abe

/-- `abe_policy::Attribute`: axis and name, used at /repo/src/core/msp.rs:452-480. -/
structure Attribute where
  axis : String
  name : String
  deriving DecidableEq, Repr

/-- `abe_policy::AccessPolicy`, matched at /repo/src/core/msp.rs:416 and 436-445. -/
inductive AccessPolicy where
  | attr (a : Attribute)
  | and (l r : AccessPolicy)
  | or (l r : AccessPolicy)
  | all
  deriving DecidableEq, Repr

/-- `abe_policy::PolicyAxis`: name, attributes from lowest to highest, hierarchical flag
(built at /repo/src/core/demo.rs:52-69). -/
structure PolicyAxis where
  name : String
  attributes : List String
  hierarchical : Bool
  deriving DecidableEq, Repr

/-- `abe_policy::Policy`.  `axes` and `attributeToInt` are hash maps (association lists in arbitrary order), the
values of `attributeToInt` are binary heaps (lists in internal order, the root first).  The JSON form with the
same four fields is in /repo/src/core/tests/policy.txt. -/
structure Policy where
  lastAttributeValue : UInt32
  maxAttributeCreations : UInt32
  axes : List (String × (List String × Bool))
  attributeToInt : List (Attribute × List UInt32)
  deriving DecidableEq, Repr

/-- `BinaryHeap` sift-up: move the element at `pos` up while it exceeds its parent.  Standard library; heaps of values are read at /repo/src/core/msp.rs:420. -/
def siftUp (l : List UInt32) (pos : Nat) : List UInt32 :=
  if h : pos = 0 then l
  else
    let parent := (pos - 1) / 2
    if l.getD pos 0 ≤ l.getD parent 0 then l
    else siftUp ((l.set pos (l.getD parent 0)).set parent (l.getD pos 0)) parent
termination_by pos
decreasing_by omega

/-- `BinaryHeap::push`.  Standard library; heaps of values are read at /repo/src/core/msp.rs:420. -/
def heapPush (l : List UInt32) (x : UInt32) : List UInt32 := siftUp (l ++ [x]) l.length

namespace Policy

/-- `Policy::new` (external; used at /repo/src/core/demo.rs:50). -/
def new (maxAttributeCreations : UInt32) : Policy := ⟨0, maxAttributeCreations, [], []⟩

/-- Insertion of the attributes of a new axis, each with the next value.  External (part of `add_axis`, used at /repo/src/core/demo.rs:52-69). -/
def addAttributes (axis : String) : List String → Policy → Option Policy
  | [], p => some p
  | name :: names, p =>
    let v := p.lastAttributeValue + 1
    match hget p.attributeToInt ⟨axis, name⟩ with
    | some _ => none
    | none => addAttributes axis names
        { p with lastAttributeValue := v, attributeToInt := hinsert p.attributeToInt ⟨axis, name⟩ [v] }

/-- `Policy::add_axis` (external; used at /repo/src/core/demo.rs:52-69): an error when the axis exists, when an
attribute is repeated or when the budget of attribute values is exceeded.  `none` is an error (the policy is then
not used any more). -/
def addAxis (p : Policy) (ax : PolicyAxis) : Option Policy :=
  if ax.attributes.length + p.lastAttributeValue.toNat > p.maxAttributeCreations.toNat then none
  else match hget p.axes ax.name with
    | some _ => none
    | none => addAttributes ax.name ax.attributes
        { p with axes := hinsert p.axes ax.name (ax.attributes, ax.hierarchical) }

/-- Replacement of the value of an existing key in place (`HashMap::get_mut`).  External (part of `rotate`, used at /repo/src/core/demo.rs:272). -/
def setHeap (m : List (Attribute × List UInt32)) (a : Attribute) (h : List UInt32) : List (Attribute × List UInt32) :=
  m.map fun p => if p.1 = a then (a, h) else p

/-- `Policy::rotate` (external; used at /repo/src/core/demo.rs:272): the attribute gets the next value on top of the
old ones; error when the budget is used up or the attribute is unknown. -/
def rotate (p : Policy) (a : Attribute) : Option Policy :=
  if p.lastAttributeValue = p.maxAttributeCreations then none
  else match hget p.attributeToInt a with
    | none => none
    | some heap =>
      let v := p.lastAttributeValue + 1
      some { p with
        lastAttributeValue := v
        attributeToInt := setHeap p.attributeToInt a (heapPush heap v) }

/-- Current value of an attribute: the top of its heap (`BinaryHeap::peek`).  External (part of `attributes_values`, used at /repo/src/core/engine.rs:100). -/
def currentValue (p : Policy) (a : Attribute) : Option UInt32 :=
  (hget p.attributeToInt a).bind List.head?

/-- `Policy::attributes_values` (external; used at /repo/src/core/engine.rs:100): the current value of each
attribute, an error when one is unknown. -/
def attributesValues (p : Policy) (atts : List Attribute) : Out (List UInt32) :=
  mapRes (fun a => Res.ofOption .policyError (p.currentValue a)) atts

end Policy

/-- `iter().map(Node::Leaf).reduce(BitOr::bitor)`: left-nested disjunction, `None` on the empty iterator.  /repo/src/core/msp.rs:461 and 472. -/
def orAll : List UInt32 → Option Node
  | [] => none
  | v :: vs => some (vs.foldl (fun n v => .or n (.leaf v)) (.leaf v))

/-- `policy.attribute_to_int[attr]...reduce(..).ok_or_else(AttributeNotFound)?`, /repo/src/core/msp.rs:458-462 and
469-474.  Indexing a `HashMap` panics when the key is absent.  `of` is the attribute
named in the error. -/
def heapNode (p : Policy) (of a : Attribute) : Out Node :=
  match hget p.attributeToInt a with
  | none => .panic
  | some heap => Res.ofOption (.attributeNotFound of.axis of.name) (orAll heap)

/-- `policy_to_node`, /repo/src/core/msp.rs:451-487.  `position` cannot fail after `contains`, but its error branch
is kept. -/
def policyToNode (p : Policy) (a : Attribute) : Out Node :=
  match hget p.axes a.axis with
  | none => .err (.missingAxis a.axis)
  | some (list, hierarchical) =>
    if list.contains a.name then do
      let res ← Res.ofOption (.expectedAttribute a.name list) (list.findIdx? (· == a.name))
      let val ← heapNode p a a
      if hierarchical then
        foldRes (fun val elem => do
          let n ← heapNode p a ⟨a.axis, elem⟩
          .ok (.or val n)) val (list.take res)
      else .ok val
    else .err (.missingAttribute (some a.name) (some a.axis))

/-- `policy_to_formula`, /repo/src/core/msp.rs:435-446. -/
def policyToFormula (p : Policy) : AccessPolicy → Out Node
  | .attr a => policyToNode p a
  | .and l r => do
    let l' ← policyToFormula p l
    let r' ← policyToFormula p r
    .ok (.and l' r')
  | .or l r => do
    let l' ← policyToFormula p l
    let r' ← policyToFormula p r
    .ok (.or l' r')
  | .all => .err (.invalidFormula "`All` is not authorized inside a formula")

/-- `policy_to_msp`, /repo/src/core/msp.rs:412-432. -/
def policyToMsp (p : Policy) (ap : AccessPolicy) : Out (Msp Int) :=
  match ap with
  | .all => do
    let n ← Res.ofOption (.missingAttribute none none) (orAll (p.attributeToInt.map Prod.snd).flatten)
    n.toMsp
  | ap => do
    let n ← policyToFormula p ap
    n.toMsp

end Abe
