import Verif.Spec.Policy

/-!
# The numbering of attributes described in the README

/repo/README.md:157-181: the attributes of the axes are assigned values one after the other.
-/

namespace Abe

/-- The attributes of the axes, in the order in which they are listed. -/
def listed (axes : List PolicyAxis) : List Attribute := axes.flatMap fun ax => ax.attributes.map fun n => ⟨ax.name, n⟩

/-- The axes have different names, each has different attributes, and there are not more attributes than the budget. -/
def Buildable (max : UInt32) (axes : List PolicyAxis) : Prop :=
  (axes.map PolicyAxis.name).Nodup ∧ (∀ ax ∈ axes, ax.attributes.Nodup) ∧ (listed axes).length ≤ max.toNat

/-- `first | v₁ | v₂ | …` for the values following `start`. -/
def orNext (first : Node) (start : Nat) : Nat → Node
  | 0 => first
  | n + 1 => .or (orNext first start n) (.leaf (start + n + 1).toUInt32)

end Abe
