import Verif.Model.Res

/-!
# Boolean formulas and monotone span programs

Model of /repo/src/core/msp.rs (formula type, matrix type, compilation of a formula).
-/

namespace Abe

/-- `enum Node`, /repo/src/core/msp.rs:177-182. -/
inductive Node where
  | and (l r : Node)
  | or (l r : Node)
  | leaf (a : UInt32)
  deriving DecidableEq, Repr

/-- Number of constructors of a formula (termination measure only).  For /repo/src/core/msp.rs:177-182. -/
def Node.size : Node → Nat
  | .and l r => l.size + r.size + 1
  | .or l r => l.size + r.size + 1
  | .leaf _ => 1

/-- `struct MonotoneSpanProgram<I>`, /repo/src/core/msp.rs:17-24. -/
structure Msp (I : Type) where
  nbRow : Nat
  nbCol : Nat
  matrix : List (List I)
  attrToRow : List (UInt32 × Nat)
  rowToAttr : List UInt32
  deriving DecidableEq, Repr

namespace Msp

variable {I : Type} {ε : Type}

/-- `MonotoneSpanProgram::get_row`, /repo/src/core/msp.rs:135-138. -/
def getRow (m : Msp I) (row : Nat) : Res ε (List I) := idx m.matrix row

/-- `MonotoneSpanProgram::get_attr_from_row`, /repo/src/core/msp.rs:140-143. -/
def getAttrFromRow (m : Msp I) (i : Nat) : Res ε UInt32 := idx m.rowToAttr i

/-- `MonotoneSpanProgram::get_row_from_attr`, /repo/src/core/msp.rs:145-148. -/
def getRowFromAttr (m : Msp I) (a : UInt32) : Option Nat := hget m.attrToRow a

/-- `impl From<&MonotoneSpanProgram<i32>> for MonotoneSpanProgram<I1>`, /repo/src/core/msp.rs:161-175;
`conv` is the conversion `From<i32>` of the entries. -/
def convert {J : Type} (conv : I → J) (m : Msp I) : Msp J where
  nbRow := m.nbRow
  nbCol := m.nbCol
  matrix := m.matrix.map fun v => v.map conv
  attrToRow := m.attrToRow
  rowToAttr := m.rowToAttr

end Msp

/-- Weight of the queue (termination measure of the loop of `to_msp`).  /repo/src/core/msp.rs:218-243. -/
def queueSize (q : List (Node × List Int)) : Nat := (q.map fun p => p.1.size).sum

/-- The `while` loop of `Node::to_msp`, /repo/src/core/msp.rs:218-243.  The queue is popped at the front and
pushed at the back; `acc` is the local `matrix` of (leaf, vector) pairs; the result is the final counter and `matrix`.
`i32` entries are modelled by `Int`: property C05 shows that all values stay in `-1..2`. -/
def mspLoop (queue : List (Node × List Int)) (counter : Nat) (acc : List (UInt32 × List Int)) :
    Nat × List (UInt32 × List Int) :=
  match queue with
  | [] => (counter, acc)
  | (.and n1 n2, vector) :: q =>
    let vec1 := resize vector counter 0 ++ [1]
    let vec2 := List.replicate counter 0 ++ [-1]
    mspLoop (q ++ [(n1, vec1), (n2, vec2)]) (counter + 1) acc
  | (.or n1 n2, vector) :: q => mspLoop (q ++ [(n1, vector), (n2, vector)]) counter acc
  | (.leaf a, vector) :: q => mspLoop q counter (acc ++ [(a, vector)])
termination_by queueSize queue
decreasing_by all_goals (simp [queueSize, Node.size]; try omega)

/-- `for i in 1..vec.len() { vec[i] += vec[0]; }`, /repo/src/core/msp.rs:261-263. -/
def addFirst : List Int → List Int
  | [] => []
  | x :: xs => x :: xs.map (· + x)

/-- The final `for` loop of `Node::to_msp`, /repo/src/core/msp.rs:257-276; `i` is the enumeration index,
the accumulators are `msp_matrix`, `msp_map`, `msp_vec`.  The branch "only leaf allowed"
(271-275) cannot be reached because only leaves are pushed at line 240; here it is excluded by typing. -/
def mspAssemble (counter : Nat) : List (UInt32 × List Int) → Nat →
    List (List Int) → List (UInt32 × Nat) → List UInt32 →
    Out (List (List Int) × List (UInt32 × Nat) × List UInt32)
  | [], _, mat, map, vec => .ok (mat, map, vec)
  | (attr, v) :: rows, i, mat, map, vec =>
    let row := addFirst (resize v counter 0)
    match hget map attr with
    | some _ => .err (.deserialization "error deserializing MSP, leaf already inserted")
    | none => mspAssemble counter rows (i + 1) (mat ++ [row]) (hinsert map attr i) (vec ++ [attr])

/-- `Node::to_msp`, /repo/src/core/msp.rs:217-284. -/
def Node.toMsp (n : Node) : Out (Msp Int) := do
  let (counter, rows) := mspLoop [(n, [1])] 1 []
  let (mat, map, vec) ← mspAssemble counter rows 0 [] [] []
  .ok { nbRow := mat.length, nbCol := counter, matrix := mat, attrToRow := map, rowToAttr := vec }

end Abe
