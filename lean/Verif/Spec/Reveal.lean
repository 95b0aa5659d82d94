import Verif.Spec.Hybrid
import Verif.Spec.History

/-!
# What headers and keys show to everyone

An eavesdropper who reads attributes off the bytes of a header, or of a user key, with a policy and without any key.
-/

namespace Abe

/-- The number in the four bytes at `o`. -/
def wordAt (b : Bytes) (o : Nat) : Nat := bigEndian ((b.drop o).take 4)

/-- The numbers in an encrypted header that name its attributes: none if the encapsulation only has the 288 bytes of the masked element, else as many as
announced, four bytes each. -/
def readValues (header : Bytes) : List Nat :=
  if wordAt header 0 = 288 then [] else (List.range (wordAt header 4)).map fun i => wordAt header (8 + 4 * i)

/-- The numbers in an encoded user key that name the attributes of its rows: after the points, 96 bytes each, and the dimensions of the matrix. -/
def readKeyValues (key : Bytes) : List Nat :=
  (List.range (wordAt key 0)).map fun i => wordAt key (4 + 96 * wordAt key 0 + (8 + 4 * i))

/-- The attribute that has, or had, a value. -/
def Policy.named (p : Policy) (v : Nat) : Option Attribute := (p.attributeToInt.find? fun q => q.2.any fun w => w.toNat == v).map Prod.fst

/-- The attributes named by numbers. -/
def Policy.names (p : Policy) (l : List Nat) : List Attribute := l.filterMap p.named

end Abe
